import Verif.Proofs.Verifier
import Verif.Proofs.Sign

/-!
# Verifying: helper lemmas, part 2

The total functions of part 1 agree with the specification `Judged`.
-/

namespace Dkim

open Spec

variable {E : Env}

/-! ## Lists of checks -/

/-- A computed error agrees with a list of checks. -/
structure Matches (o : Option VerificationError) (cs : List Check) : Prop where
  fails : ∀ e, o = some e → FirstFailure cs e
  passes : o = none → AllPass cs

theorem Matches.nil : Matches none [] := ⟨by simp, by simp [AllPass]⟩

theorem Matches.stop {c : Check} {cs : List Check} {e : VerificationError} (he : c.error = e) (h : ¬ c.holds) :
    Matches (some e) (c :: cs) := by
  refine ⟨?_, by simp⟩
  intro e' h'
  injection h' with h'
  exact ⟨[], c, cs, rfl, by simp, h, he.trans h'⟩

theorem Matches.pass {c : Check} {cs : List Check} {o : Option VerificationError} (h : c.holds)
    (m : Matches o cs) : Matches o (c :: cs) := by
  refine ⟨?_, ?_⟩
  · intro e he
    obtain ⟨a, d, b, rfl, h1, h2, h3⟩ := m.fails e he
    refine ⟨c :: a, d, b, rfl, ?_, h2, h3⟩
    intro q hq
    rcases List.mem_cons.1 hq with rfl | hq
    · exact h
    · exact h1 q hq
  · intro ho q hq
    rcases List.mem_cons.1 hq with rfl | hq
    · exact h
    · exact m.passes ho q hq

theorem Matches.ite {c : Check} {cs : List Check} {o : Option VerificationError} {e : VerificationError} {b : Bool}
    (he : c.error = e) (hb : b = true ↔ ¬ c.holds) (m : Matches o cs) :
    Matches (if b then some e else o) (c :: cs) := by
  cases b with
  | true => exact .stop he (hb.1 rfl)
  | false =>
    refine .pass ?_ m
    by_cases h : c.holds
    · exact h
    · exact absurd (hb.2 h) (by simp)

/-! ## The checks of a signature -/

theorem requiredSigned_iff (req sh : List Str) :
    requiredSigned req sh = true ↔ ∀ h ∈ req, ∃ n ∈ sh, lower n = lower h := by
  simp only [requiredSigned, List.all_eq_true, List.any_eq_true, fieldNameEq, eqIgnoreCase_eq, sameName_iff]

theorem filter_length_mentions (sh : List Str) (n : Str) :
    (sh.filter fun m => fieldNameEq m n).length = mentions sh n := by
  rw [← List.countP_eq_length_filter, mentions]
  congr 1
  funext m
  rw [fieldNameEq, eqIgnoreCase_eq, sameName_comm]

theorem filter_length_occurrences (headers : List Field) (n : Str) :
    (headers.filter fun f => fieldNameEq f.name n).length = occurrences headers n := by
  rw [← List.countP_eq_length_filter, occurrences]
  congr 1
  funext m
  rw [fieldNameEq, eqIgnoreCase_eq, sameName_comm]

theorem noneUnsigned_iff (headers : List Field) (forb sh : List Str) :
    noneUnsigned headers forb sh = true ↔ ∀ h ∈ forb, occurrences headers h ≤ mentions sh h := by
  simp only [noneUnsigned, List.all_eq_true]
  refine forall_congr' fun h => forall_congr' fun _ => ?_
  rw [filter_length_occurrences, List.length_take, filter_length_mentions]
  simp only [Bool.not_eq_true', decide_eq_false_iff_not, Nat.not_lt]
  omega

theorem unixTime_eq (cfg : Config) (now : Int) : cfg.currentTimestamp now = unixTime cfg now := by
  unfold Config.currentTimestamp unixTime
  cases cfg.fixedSystemTime <;> rfl

theorem isExpired_iff {cfg : Config} {t : Nat} (ht : t < u64Max) (x : Option Nat) :
    isExpired cfg t x = true ↔
      ¬ (cfg.allowExpired = true ∨ ∀ n, x = some n → t < n + cfg.timeTolerance) := by
  unfold isExpired
  cases cfg.allowExpired with
  | true => simp
  | false =>
    cases x with
    | none => simp
    | some n =>
      simp only [Bool.not_false, Bool.true_and, decide_eq_true_eq, Bool.false_eq_true, false_or,
        Option.some.injEq, forall_eq']
      unfold satAdd
      omega

theorem isFuture_iff {cfg : Config} {t : Nat} (x : Option Nat) :
    isFuture cfg t x = true ↔
      ¬ (cfg.allowTimestampInFuture = true ∨ ∀ n, x = some n → n ≤ t + cfg.timeTolerance) := by
  unfold isFuture
  cases cfg.allowTimestampInFuture with
  | true => simp
  | false =>
    cases x with
    | none => simp
    | some n =>
      simp only [Bool.not_false, Bool.true_and, decide_eq_true_eq, Bool.false_eq_true, false_or,
        Option.some.injEq, forall_eq']
      unfold satSub
      omega

theorem lengthOverflow_iff (l : Option Nat) :
    lengthOverflow E l = true ↔ ¬ ∀ n, l = some n → n ≤ E.usizeMax := by
  unfold lengthOverflow
  cases l with
  | none => simp
  | some n =>
    simp only [Env.toUsize]
    split
    · next h => simp [h]
    · next h => simp [h]

theorem typed_lt {cfg : Config} {clock : Nat → Int} (ht : TypedTimes cfg clock) (i : Nat) :
    unixTime cfg (clock i) < u64Max := by
  have h1 := ht.clock i
  have h2 := ht.fixed
  unfold unixTime
  cases h : cfg.fixedSystemTime with
  | none => simp only [u64Max]; omega
  | some t => have := h2 t h; simp only [u64Max]; omega

theorem validateSignature_matches (headers : List Field) (cfg : Config) {now : Int}
    (ht : unixTime cfg now < u64Max) (sig : DkimSignature) :
    Matches (validateSignature E sig headers cfg now)
      (signatureChecks E cfg (unixTime cfg now) headers sig) := by
  have e : validateSignature E sig headers cfg now =
      if !requiredSigned cfg.headersRequired sig.signedHeaders then some (.policy .requiredHeaderNotSigned)
      else if !noneUnsigned headers cfg.headersForbiddenUnsigned sig.signedHeaders then
        some (.policy .unsignedHeaderOccurrence)
      else if lengthOverflow E sig.bodyLength then some .overflow
      else if isExpired cfg (cfg.currentTimestamp now) sig.expiration then
        some (.policy .signatureExpired)
      else if isFuture cfg (cfg.currentTimestamp now) sig.timestamp then
        some (.policy .timestampInFuture)
      else if E.pre && (!cfg.allowSha1 && sig.algorithm.hashAlg == .sha1) then
        some (.policy .sha1HashAlgorithm)
      else none := by
    unfold validateSignature validateSignedHeaders
    cases requiredSigned cfg.headersRequired sig.signedHeaders
    · rfl
    · cases noneUnsigned headers cfg.headersForbiddenUnsigned sig.signedHeaders <;> rfl
  rw [e]
  refine .ite rfl ?_ (.ite rfl ?_ (.ite rfl ?_ (.ite rfl ?_ (.ite rfl ?_ (.ite rfl ?_ .nil)))))
  · rw [← requiredSigned_iff]; simp
  · rw [← noneUnsigned_iff]; simp
  · exact lengthOverflow_iff _
  · rw [unixTime_eq]; exact isExpired_iff ht _
  · rw [unixTime_eq]; exact isFuture_iff _
  · rw [algHash_eq]
    cases E.pre <;> cases cfg.allowSha1 <;> simp

/-! ## The checks of a key record -/

theorem fromKeyData_eq (C : Crypto) (k : KeyType) (d : Bytes) :
    VerifyingKey.fromKeyData C k d = publicKey C k d := by
  cases k
  · simp only [VerifyingKey.fromKeyData, publicKey, readRsaPublicKey]
    cases C.rsaFromSpki d <;> rfl
  · simp only [VerifyingKey.fromKeyData, publicKey, readEd25519VerifyingKey]
    cases C.edFromBytes d <;> rfl

theorem subdomainForbidden_eq {sig : DkimSignature} (hc : Convertible E sig) (r : KeyRecord) :
    ∃ b, subdomainForbidden E r sig.domain sig.identity = some b ∧
      (b = true ↔ ¬ (SelectorFlag.noSubdomains ∈ r.flags → ∀ i, sig.identity = some i →
        E.idna.toAscii i.domain = E.idna.toAscii sig.domain)) := by
  unfold subdomainForbidden
  by_cases hf : SelectorFlag.noSubdomains ∈ r.flags
  · rw [if_pos (by rw [List.contains_iff_mem]; exact hf)]
    cases hi : sig.identity with
    | none => exact ⟨false, rfl, by simp⟩
    | some i =>
      obtain ⟨d, hd⟩ := hc.domain
      obtain ⟨d', hd'⟩ := hc.identity i hi
      simp only [hd, hd']
      refine ⟨_, rfl, ?_⟩
      simp only [bne_iff_ne, ne_eq, hf, Option.some.injEq, forall_eq', hd', true_implies]
      exact ⟨fun h e => h e.symm, fun h e => h e.symm⟩
  · rw [if_neg (by rw [List.contains_iff_mem]; exact hf)]
    exact ⟨false, rfl, by simp [hf]⟩

theorem minKeySizeOk_iff {C : Crypto} (pre : Bool) (k : VerifyingKey C) :
    k.minKeySizeOk pre = true ↔ BitsAtLeast k (if pre then 512 else 1024) := by
  cases k with
  | rsa k =>
    simp only [VerifyingKey.minKeySizeOk, VerifyingKey.keySize, BitsAtLeast]
    rw [Bool.not_eq_true', decide_eq_false_iff_not, Nat.not_lt]
    rfl
  | ed25519 k => simp [VerifyingKey.minKeySizeOk, BitsAtLeast]

theorem keySizeAccepted_iff (k : VerifyingKey E.crypto) (cfg : Config) :
    keySizeAccepted E k cfg = true ↔ BitsAtLeast k cfg.minKeyBits := by
  cases k with
  | rsa k =>
    simp only [keySizeAccepted, VerifyingKey.keySize, modulusSize, BitsAtLeast]
    simp
  | ed25519 k => simp [keySizeAccepted, VerifyingKey.keySize, BitsAtLeast]

theorem performVerification_eq (headers : List Field) (key : VerifyingKey E.crypto) (sig : DkimSignature)
    (f : Field) (value : Str) :
    performVerification E headers key sig f.name value =
      verifyWith key (hashOf sig.algorithm)
        (E.hash (hashOf sig.algorithm) (signedInput headers f (makeOriginal value) sig)) sig.signatureData := by
  unfold performVerification computeDataHash signedInput
  rw [dataHashInput_eq, algHash_eq]
  cases key <;> rfl

theorem tryOne_matches (headers : List Field) (cfg : Config) {sig : DkimSignature} (hc : Convertible E sig)
    (f : Field) (value : Str) (r : KeyRecord) :
    Matches (tryOne E headers cfg sig f.name value (.ok r)).1
      (recordChecks E cfg headers f (makeOriginal value) sig r) := by
  unfold tryOne recordChecks
  simp only
  rw [algKeyType_eq, algHash_eq]
  unfold validateKeyRecord
  by_cases h1 : r.keyType ≠ keyTypeOf sig.algorithm
  · rw [if_pos h1]; exact .stop rfl h1
  rw [if_neg h1]
  rw [Decidable.not_not] at h1
  refine .pass h1 ?_
  by_cases h2 : r.keyData = []
  · rw [if_pos (by rw [h2]; rfl)]; exact .stop rfl (fun h => h h2)
  rw [if_neg (by cases hd : r.keyData <;> simp [hd] at h2 ⊢)]
  refine .pass h2 ?_
  by_cases h3 : hashOf sig.algorithm ∉ r.hashAlgorithms
  · rw [if_pos (by simpa using h3)]; exact .stop rfl h3
  rw [if_neg (by simpa using h3)]
  rw [Decidable.not_not] at h3
  refine .pass h3 ?_
  obtain ⟨b, hb, h4⟩ := subdomainForbidden_eq hc r
  rw [hb]
  cases b with
  | true => exact .stop rfl (h4.1 rfl)
  | false =>
    refine .pass ?_ ?_
    · simp only
      exact Classical.byContradiction fun h => by simpa using h4.2 h
    simp only [readVerifyingKey, fromKeyData_eq]
    cases hk : publicKey E.crypto (keyTypeOf sig.algorithm) r.keyData with
    | none => exact .stop rfl (fun h => h rfl)
    | some k =>
      refine .pass (by simp) ?_
      simp only
      by_cases h5 : ¬ k.minKeySizeOk E.pre = true
      · rw [if_neg h5]
        refine .stop rfl ?_
        simp only [Option.some.injEq, forall_eq']
        rw [← minKeySizeOk_iff]; exact h5
      rw [Decidable.not_not] at h5
      rw [if_pos h5]
      refine .pass ?_ ?_
      · simp only [Option.some.injEq, forall_eq']
        rw [← minKeySizeOk_iff]; exact h5
      simp only
      refine .ite rfl ?_ ?_
      · simp only [Option.some.injEq, forall_eq']
        rw [← keySizeAccepted_iff]; simp
      by_cases h6 : performVerification E headers k sig f.name value = true
      · rw [if_pos h6]
        refine .pass ?_ .nil
        simp only [Option.some.injEq, forall_eq']
        rw [← performVerification_eq]; exact h6
      · rw [if_neg h6]
        refine .stop rfl ?_
        simp only [Option.some.injEq, forall_eq']
        rw [← performVerification_eq]; exact h6

theorem txtRecord_iff (txt : Except IoErr Bytes) (r : KeyRecord) :
    TxtRecord E txt r ↔ parsedTxt E (parseTxt txt) = .ok r := by
  cases txt with
  | error e => simp [TxtRecord, parseTxt, parsedTxt]
  | ok bytes =>
    simp only [TxtRecord, parseTxt]
    cases hu : fromUtf8 bytes with
    | none =>
      simp only [parsedTxt]
      constructor
      · rintro ⟨s, tags, h, _⟩
        injection h with h
        rw [(fromUtf8_eq_some _ _).2 h] at hu
        simp at hu
      · intro h; simp at h
    | some s =>
      have hs := (fromUtf8_eq_some _ _).1 hu
      subst hs
      simp only [parsedTxt]
      have key : (∃ s' tags, (Except.ok (utf8 s) : Except IoErr Bytes) = .ok (utf8 s') ∧ ListText tags s' ∧
          (tags.map (·.1)).Nodup ∧ RecordOf E.lossy E.pre tags r) ↔ recordFromStr E.lossy E.pre s = .ok r := by
        rw [recordFromStr_iff]
        constructor
        · rintro ⟨s', tags, h, h'⟩
          injection h with h
          rw [utf8_injective h]
          exact ⟨tags, h'⟩
        · rintro ⟨tags, h'⟩
          exact ⟨s, tags, rfl, h'⟩
      rw [key]
      cases recordFromStr E.lossy E.pre s <;> simp

/-- What a record comes to. -/
def triedOf : Option VerificationError × Option KeyRecord → Tried
  | (some e, r) => .failed e r
  | (none, some r) => .verified r
  | (none, none) => .failed .overflow none

theorem tryOne_outcome (headers : List Field) (cfg : Config) {sig : DkimSignature} (hc : Convertible E sig)
    (f : Field) (value : Str) (txt : Except IoErr Bytes) :
    Outcome E cfg headers f (makeOriginal value) sig txt
        (triedOf (tryOne E headers cfg sig f.name value (parsedTxt E (parseTxt txt)))) ∧
      ((tryOne E headers cfg sig f.name value (parsedTxt E (parseTxt txt))).1 = none →
        ∃ r, (tryOne E headers cfg sig f.name value (parsedTxt E (parseTxt txt))).2 = some r) := by
  cases hp : parsedTxt E (parseTxt txt) with
  | error e =>
    refine ⟨⟨?_, e, rfl, ?_⟩, by simp [tryOne]⟩
    · intro r hr
      rw [txtRecord_iff, hp] at hr
      simp at hr
    · cases txt with
      | error io =>
        cases hp
        exact .inl ⟨nofun, rfl⟩
      | ok bytes =>
        simp only [parseTxt] at hp
        cases hu : fromUtf8 bytes with
        | none =>
          rw [hu] at hp
          cases hp
          refine .inl ⟨fun s hs => ?_, rfl⟩
          rw [Except.ok.injEq] at hs
          rw [(fromUtf8_eq_some _ _).2 hs] at hu
          simp at hu
        | some s =>
          rw [hu] at hp
          refine .inr ⟨s, by rw [(fromUtf8_eq_some _ _).1 hu], ?_⟩
          simp only [parsedTxt] at hp
          cases hr : recordFromStr E.lossy E.pre s with
          | panic => exact absurd hr (C33_total _ _ _)
          | ok r => rw [hr] at hp; cases hp
          | err k =>
            rw [hr] at hp
            cases hp
            exact (C55_first_defect _ _ _ _).1 hr
  | ok r =>
    have hm := tryOne_matches headers cfg hc f value r
    have h2 : (tryOne E headers cfg sig f.name value (.ok r)).2 = some r := rfl
    refine ⟨?_, fun _ => ⟨r, h2⟩⟩
    have ht : TxtRecord E txt r := (txtRecord_iff txt r).2 hp
    rw [show tryOne E headers cfg sig f.name value (.ok r)
      = ((tryOne E headers cfg sig f.name value (.ok r)).1, some r) from rfl]
    cases h1 : (tryOne E headers cfg sig f.name value (.ok r)).1 with
    | none => exact ⟨ht, hm.passes h1⟩
    | some e => exact ⟨ht, hm.fails e h1⟩

theorem tryAll_split (headers : List Field) (cfg : Config) (sig : DkimSignature) (name value : Str) :
    ∀ (r : Except IoErr Str) (rs : List (Except IoErr Str)), ∃ before x after, r :: rs = before ++ x :: after ∧
      (∀ t ∈ before, (tryOne E headers cfg sig name value (parsedTxt E t)).1 ≠ none) ∧
      tryAll E headers cfg sig name value r rs = tryOne E headers cfg sig name value (parsedTxt E x) ∧
      ((tryOne E headers cfg sig name value (parsedTxt E x)).1 ≠ none → after = []) := by
  intro r rs
  induction rs generalizing r with
  | nil => exact ⟨[], r, [], rfl, by simp, rfl, by simp⟩
  | cons r' rs ih =>
    rw [tryAll]
    by_cases h : (tryOne E headers cfg sig name value (parsedTxt E r)).1 = none
    · rw [h]
      exact ⟨[], r, r' :: rs, rfl, by simp, by simp, by simp [h]⟩
    · obtain ⟨before, x, after, h1, h2, h3, h4⟩ := ih r'
      rw [if_neg (by simpa using h)]
      refine ⟨r :: before, x, after, by rw [h1]; rfl, ?_, h3, h4⟩
      intro t ht
      rcases List.mem_cons.1 ht with rfl | ht
      · exact h
      · exact h2 t ht

theorem selectTxts_ge (rest : List (Except IoErr Bytes)) : ∀ (i : Nat) (last : Option (Except IoErr Bytes)), 2 ≤ i →
    selectTxts i last rest =
      match rest.getLast?.or last with
      | some t => [parseTxt t]
      | none => [] := by
  induction rest with
  | nil => intro i last _; cases last <;> rfl
  | cons t rest ih =>
    intro i last hi
    rw [selectTxts, if_neg (by omega), ih _ _ (by omega)]
    cases rest with
    | nil => rfl
    | cons a rest =>
      rw [List.getLast?_cons_cons]
      have : (a :: rest).getLast? = some ((a :: rest).getLast (by simp)) := List.getLast?_eq_some_getLast (by simp)
      rw [this]
      rfl

theorem selectTxts_eq (txts : List (Except IoErr Bytes)) :
    selectTxts 0 none txts = (firstTwoAndLast txts).map parseTxt := by
  match txts with
  | [] => rfl
  | [a] => rfl
  | [a, b] => rfl
  | a :: b :: c :: rest =>
    rw [selectTxts, if_pos (by omega), selectTxts, if_pos (by omega), selectTxts_ge _ _ _ (by omega)]
    have : (c :: rest).getLast? = some ((c :: rest).getLast (by simp)) := List.getLast?_eq_some_getLast (by simp)
    rw [this]
    rfl

theorem firstTwoAndLast_nil {α : Type} {l : List α} (h : firstTwoAndLast l = []) : l = [] := by
  match l with
  | [] => rfl
  | [a] => simp [firstTwoAndLast] at h
  | [a, b] => simp [firstTwoAndLast] at h
  | a :: b :: c :: rest => simp [firstTwoAndLast] at h

/-! ## The body -/

theorem bodyHasherKey_eq {sig : DkimSignature} (h : ∀ n, sig.bodyLength = some n → n ≤ E.usizeMax) :
    bodyHasherKey E sig = some (sig.bodyLength, sig.algorithm.hashAlg, sig.canonicalization.body) := by
  unfold bodyHasherKey
  cases hl : sig.bodyLength with
  | none => rfl
  | some n => simp [Env.toUsize, h n hl]

theorem verifyBodyHash_eq {sig : DkimSignature} (h : ∀ n, sig.bodyLength = some n → n ≤ E.usizeMax)
    {results : BodyHashResults} {cfg : Config} {body : Bytes}
    (hr : results.get (sig.bodyLength, sig.algorithm.hashAlg, sig.canonicalization.body) =
      some (bodyHashResult E.hash cfg.forbidUnsignedContent
        (sig.bodyLength, sig.algorithm.hashAlg, sig.canonicalization.body)
        (codeBody sig.canonicalization.body body))) :
    verifyBodyHash E sig results = some (bodyStatus E cfg sig body) := by
  unfold verifyBodyHash
  rw [bodyHasherKey_eq h]
  simp only [hr]
  unfold bodyStatus
  rw [algHash_eq]
  cases sig.bodyLength with
  | none => rfl
  | some n =>
    simp only [bodyHashResult]
    by_cases h1 : (codeBody sig.canonicalization.body body).length < n
    · simp only [if_pos h1]
    · simp only [if_neg h1]
      by_cases h2 : n < (codeBody sig.canonicalization.body body).length ∧ cfg.forbidUnsignedContent = true
      · simp only [if_pos h2]
      · simp only [if_neg h2]

/-- A task after verification of the header. -/
def Settled (E : Env) (t : VerifyTask) : Prop :=
  (∃ e, t.status = .failed e) ∨
    (t.status = .successful ∧ ∃ sig, t.signature = some sig ∧ ∀ n, sig.bodyLength = some n → n ≤ E.usizeMax)

/-- The result before the body is looked at. -/
def headerResult (t : VerifyTask) : VerificationResult :=
  ⟨match t.status with
    | .failed e => .failure e
    | _ => .success, t.index, t.signature, t.keyRecord⟩

/-- The key of the body hasher that is registered for a task. -/
def taskHasher (t : VerifyTask) : Option BodyHasherKey :=
  if t.status = .successful then
    t.signature.map fun sig => (sig.bodyLength, sig.algorithm.hashAlg, sig.canonicalization.body)
  else none

theorem collectTasks_eq (tasks : List VerifyTask) (h : ∀ t ∈ tasks, Settled E t) :
    collectTasks E tasks = some (tasks.map headerResult, tasks.filterMap taskHasher) := by
  induction tasks with
  | nil => rfl
  | cons t ts ih =>
    have ih := ih (fun t ht => h t (List.mem_cons_of_mem _ ht))
    rw [collectTasks]
    rcases h t (by simp) with ⟨e, he⟩ | ⟨hs, sig, hsig, hl⟩
    · simp only [he, ih]
      simp [headerResult, taskHasher, he]
    · simp only [hs, hsig, bodyHasherKey_eq hl, ih]
      simp [headerResult, taskHasher, hs, hsig]

/-- The result of a task. -/
def finalResult (E : Env) (cfg : Config) (body : Bytes) (t : VerifyTask) : VerificationResult :=
  ⟨match t.status, t.signature with
    | .failed e, _ => .failure e
    | _, some sig => bodyStatus E cfg sig body
    | _, none => .success, t.index, t.signature, t.keyRecord⟩

theorem finishTasks_eq (tasks : List VerifyTask) (h : ∀ t ∈ tasks, Settled E t) {results : BodyHashResults}
    {cfg : Config} {body : Bytes}
    (hr : ∀ key ∈ tasks.filterMap taskHasher, results.get key =
      some (bodyHashResult E.hash cfg.forbidUnsignedContent key (codeBody key.2.2 body))) :
    finishTasks E results (tasks.map headerResult) = some (tasks.map (finalResult E cfg body)) := by
  induction tasks with
  | nil => rfl
  | cons t ts ih =>
    have ih := ih (fun t ht => h t (List.mem_cons_of_mem _ ht)) (fun key hk => hr key (by
      rw [List.mem_filterMap] at hk ⊢
      obtain ⟨t', ht', hk⟩ := hk
      exact ⟨t', by simp [ht'], hk⟩))
    rw [List.map_cons, finishTasks, ih]
    rcases h t (by simp) with ⟨e, he⟩ | ⟨hs, sig, hsig, hl⟩
    · simp only [headerResult, he, List.map_cons, finalResult]
    · simp only [headerResult, hs, hsig]
      rw [verifyBodyHash_eq hl (cfg := cfg) (body := body)]
      · simp only [List.map_cons, finalResult, hs, hsig]
      · refine hr _ ?_
        rw [List.mem_filterMap]
        exact ⟨t, by simp, by simp [taskHasher, hs, hsig]⟩

/-! ## The result for a field -/

/-- The result for a field. -/
def resultFor (E : Env) (resolver : Resolver) (cfg : Config) (clock : Nat → Int) (headers : List Field)
    (body : Bytes) (p : Nat × Field) : VerificationResult :=
  finalResult E cfg body (done E resolver headers cfg (start E headers cfg clock p))

theorem statusOf_settled {o : Option VerificationError} {t : VerifyTask} {sig : DkimSignature}
    (ht : t.status = statusOf o) (hs : t.signature = some sig)
    (hl : ∀ n, sig.bodyLength = some n → n ≤ E.usizeMax) : Settled E t := by
  cases o with
  | none => exact .inr ⟨ht, sig, hs, hl⟩
  | some e => exact .inl ⟨e, ht⟩

theorem usize_of_pass {cfg : Config} {t : Nat} {headers : List Field} {sig : DkimSignature}
    (h : AllPass (signatureChecks E cfg t headers sig)) : ∀ n, sig.bodyLength = some n → n ≤ E.usizeMax :=
  h ⟨.overflow, ∀ n, sig.bodyLength = some n → n ≤ E.usizeMax⟩ (by simp [signatureChecks])

theorem done_started {resolver : Resolver} {headers : List Field} {cfg : Config} {i : Nat} {sig : DkimSignature}
    {name value d s : Str} (hd : E.idna.toAscii sig.domain = some d) (hs : E.idna.toAscii sig.selector = some s) :
    done E resolver headers cfg (.started i sig name value) =
      { VerifyTask.started i sig name value with
        status := statusOf (outcome E headers cfg sig name value (lookUpRecords resolver d s)).1
        keyRecord := (outcome E headers cfg sig name value (lookUpRecords resolver d s)).2 } := by
  unfold done
  have : taskKey E (.started i sig name value) = some (d, s) := by
    simp [taskKey, VerifyTask.started, hd, hs]
  rw [this]
  rfl

theorem done_failed {resolver : Resolver} {headers : List Field} {cfg : Config} {t : VerifyTask}
    (h : t.status ≠ .inProgress) : done E resolver headers cfg t = t := by
  unfold done
  have : taskKey E t = none := by simp [taskKey, h]
  rw [this]

theorem resultFor_settled (law : CaseLaw E.idna) (resolver : Resolver) {cfg : Config} {clock : Nat → Int}
    (ht : TypedTimes cfg clock) (headers : List Field) (p : Nat × Field) :
    Settled E (done E resolver headers cfg (start E headers cfg clock p)) := by
  obtain ⟨i, f⟩ := p
  rcases start_cases law headers cfg clock i f with ⟨e, h, _⟩ | ⟨v, s, e, h, _⟩ | ⟨v, sig, h, hs, hc⟩
  · rw [h, done_failed (by simp [VerifyTask.failed])]
    exact .inl ⟨_, rfl⟩
  · rw [h, done_failed (by simp [VerifyTask.failed])]
    exact .inl ⟨_, rfl⟩
  · obtain ⟨_, tags, _, _, h3⟩ := hs
    have hconv := convertible_of h3
    obtain ⟨d, hd⟩ := hconv.domain
    obtain ⟨s, hs⟩ := hconv.selector
    rw [h, done_started hd hs]
    exact statusOf_settled rfl rfl
      (usize_of_pass ((validateSignature_matches headers cfg (typed_lt ht i) sig).passes hc))

/-- In a tag list, the place of the `b=` value is unique. -/
theorem cut_of_bValue {tags : List (Str × Str)} {txt : Str} (h : ListText tags txt)
    (hn : (tags.map (·.1)).Nodup) : ∀ {pre val post : Str}, txt = pre ++ val ++ post → BValue pre val post →
    Cut pre val post := by
  have key : ∀ {pre val post : Str}, BValue pre val post → ∃ p, BPrefix p ∧ ';' ∉ p ∧ (pre = p ∨
      ∃ t, pre = t ++ ';' :: p) := by
    rintro pre val post ⟨⟨front, f1, f2, rfl, h1, h2, h3⟩, _, _⟩
    refine ⟨f1 ++ 'b' :: f2 ++ ['='], ⟨f1, f2, h2, h3, rfl⟩, ?_, ?_⟩
    · simp [optFws_noSemi h2, optFws_noSemi h3]
    · rcases h1 with rfl | ⟨t, rfl⟩
      · exact .inl (by simp)
      · exact .inr ⟨t, by simp⟩
  have first : ∀ {p val post : Str}, BPrefix p → ';' ∉ p → BValue p val post → Cut p val post :=
    fun h1 h2 h3 => .here _ _ _ h1 h2 h3.inside h3.after
  have upTo : ∀ {t p val post : Str}, BPrefix p → BValue (t ++ ';' :: p) val post → BValue p val post := by
    rintro t p val post ⟨f1, f2, h1, h2, rfl⟩ hb
    exact ⟨⟨[], f1, f2, by simp, .inl rfl, h1, h2⟩, hb.inside, hb.after⟩
  have mid : ∀ {a b p val post : Str}, BPrefix p → BValue (a ++ ';' :: (b ++ ';' :: p)) val post →
      BValue (b ++ ';' :: p) val post := by
    rintro a b p val post ⟨f1, f2, h1, h2, rfl⟩ hb
    exact ⟨⟨b ++ [';'], f1, f2, by simp, .inr ⟨b, rfl⟩, h1, h2⟩, hb.inside, hb.after⟩
  induction h with
  | last n v s hs =>
    intro pre val post e hb
    obtain ⟨_, _, _, _, _, _, _, hc⟩ := specText_parts hs
    obtain ⟨p, h1, h2, rfl | ⟨t, rfl⟩⟩ := key hb
    · exact first h1 h2 hb
    · rw [e] at hc
      simp at hc
  | lastSemicolon n v s hs =>
    intro pre val post e hb
    obtain ⟨_, _, _, _, _, _, _, hc⟩ := specText_parts hs
    obtain ⟨p, h1, h2, rfl | ⟨t, rfl⟩⟩ := key hb
    · exact first h1 h2 hb
    · exfalso
      have hp : p ≠ [] := by obtain ⟨f1, f2, _, _, rfl⟩ := h1; simp
      by_cases ht : ';' ∈ t
      · obtain ⟨a, b, rfl, ha⟩ := List.eq_append_cons_of_mem ht
        have e' : s ++ ';' :: [] = a ++ ';' :: (b ++ ';' :: p ++ val ++ post) := by simpa using e
        have := (sep_unique hc ha e').2
        simp at this
      · have e' : s ++ ';' :: [] = t ++ ';' :: (p ++ val ++ post) := by simpa using e
        have := (sep_unique hc ht e').2
        simp [hp] at this
  | more n v s tags r hs hr ih =>
    intro pre val post e hb
    simp only [List.map_cons, List.nodup_cons] at hn
    obtain ⟨_, _, _, _, _, _, _, hc⟩ := specText_parts hs
    have hother : ∀ {pre val post : Str}, r = pre ++ val ++ post → Cut pre val post → bTagPrefix s = none := by
      intro pre val post e hcut
      apply specText_other hs
      rintro rfl
      refine cut_noB hcut ?_
      rw [← e]
      exact listText_noB hr hn.1
    obtain ⟨p, h1, h2, rfl | ⟨t, rfl⟩⟩ := key hb
    · exact first h1 h2 hb
    · by_cases ht : ';' ∈ t
      · obtain ⟨a, b, rfl, ha⟩ := List.eq_append_cons_of_mem ht
        have e' : s ++ ';' :: r = a ++ ';' :: (b ++ ';' :: p ++ val ++ post) := by simpa using e
        obtain ⟨rfl, e2⟩ := sep_unique hc ha e'
        have hb' : BValue (b ++ ';' :: p) val post := mid (a := s) h1 (by simpa using hb)
        have hcut := ih hn.2 e2 hb'
        have := Cut.next s _ _ _ hc (hother e2 hcut) hcut
        simpa using this
      · have e' : s ++ ';' :: r = t ++ ';' :: (p ++ val ++ post) := by simpa using e
        obtain ⟨rfl, e2⟩ := sep_unique hc ht e'
        have hcut := ih hn.2 e2 (upTo h1 hb)
        exact Cut.next s _ _ _ hc (hother e2 hcut) hcut

/-- What remains without the `b=` value is unique. -/
theorem withoutB_unique {f : Field} {value o o' : Str} {sig : DkimSignature} (h : FieldSignature E f value sig)
    (h1 : WithoutB value o) (h2 : WithoutB value o') : o = o' := by
  obtain ⟨_, tags, h3, h4, _⟩ := h
  obtain ⟨pre, val, post, e, hb, rfl⟩ := h1
  obtain ⟨pre', val', post', e', hb', rfl⟩ := h2
  obtain ⟨rfl, rfl, rfl⟩ := (cut_of_bValue h3 h4 e hb).unique (cut_of_bValue h3 h4 e' hb') (e ▸ e')
  rfl

theorem withoutB_of {f : Field} {value : Str} {sig : DkimSignature} (h : FieldSignature E f value sig) :
    WithoutB value (makeOriginal value) := by
  obtain ⟨_, tags, h1, h2, h3⟩ := h
  obtain ⟨v, hv, _⟩ := h3.signatureData
  obtain ⟨pre, val, post, h4, h5, h6, _⟩ := C13_deletes_value tags value h1 h2
    (List.mem_map.2 ⟨_, hv, rfl⟩)
  exact ⟨pre, val, post, h4, h5, h6⟩

theorem keyName_eq (d s : Str) : queryName d s = keyName d s := rfl

/-- The result for a field is the specified one. -/
theorem resultFor_judged (law : CaseLaw E.idna) (resolver : Resolver) {cfg : Config} {clock : Nat → Int}
    (ht : TypedTimes cfg clock) (headers : List Field) (body : Bytes) (i : Nat) (f : Field) :
    Judged E resolver cfg (clock i) headers body i f
      (resultFor E resolver cfg clock headers body (i, f)) := by
  unfold resultFor
  rcases start_cases law headers cfg clock i f with ⟨e, h, h1, h2⟩ | ⟨v, sig, e, h, h1, h2⟩ | ⟨v, sig, h, hs, hc⟩
  · rw [h, done_failed (by simp [VerifyTask.failed])]
    exact .unparsed e h1 h2
  · rw [h, done_failed (by simp [VerifyTask.failed])]
    exact .rejected v sig e h1 ((validateSignature_matches headers cfg (typed_lt ht i) sig).fails e h2)
  · have hpass := (validateSignature_matches headers cfg (typed_lt ht i) sig).passes hc
    have hconv : Convertible E sig := by
      obtain ⟨_, tags, _, _, h3⟩ := hs
      exact convertible_of h3
    obtain ⟨d, hd⟩ := hconv.domain
    obtain ⟨s, hse⟩ := hconv.selector
    have hq : QueryFor E sig (keyName d s) := ⟨d, s, hd, hse, rfl⟩
    rw [h, done_started hd hse]
    unfold lookUpRecords
    rw [keyName_eq]
    cases hres : (resolver (keyName d s)).result with
    | error io =>
      have := Judged.noAnswer (E := E) (resolver := resolver) (body := body) (i := i) v sig _ io hs hpass hq hres
      cases io <;> exact this
    | ok txts =>
      simp only
      rw [selectTxts_eq]
      cases hft : firstTwoAndLast txts with
      | nil =>
        rw [firstTwoAndLast_nil hft] at hres
        exact .noRecords v sig _ hs hpass hq hres
      | cons r rs =>
        simp only [List.map_cons, outcome]
        obtain ⟨before, x, after, h1, h2, h3, h4⟩ :=
          tryAll_split (E := E) headers cfg sig f.name v (parseTxt r) (rs.map parseTxt)
        rw [← List.map_cons, List.map_eq_append_iff] at h1
        obtain ⟨l1, l2, h5, rfl, h6⟩ := h1
        rw [List.map_eq_cons_iff] at h6
        obtain ⟨y, l3, rfl, rfl, rfl⟩ := h6
        rw [h3]
        rw [h5] at hft
        have hbefore : ∀ t ∈ l1, ∃ e r, Outcome E cfg headers f (makeOriginal v) sig t (.failed e r) := by
          intro t ht
          have hne := h2 (parseTxt t) (List.mem_map_of_mem ht)
          have := (tryOne_outcome headers cfg hconv f v t).1
          revert this hne
          generalize tryOne E headers cfg sig f.name v (parsedTxt E (parseTxt t)) = o
          obtain ⟨o1, o2⟩ := o
          intro hne ho
          cases o1 with
          | none => exact absurd rfl hne
          | some e => exact ⟨e, o2, ho⟩
        have hy := tryOne_outcome headers cfg hconv f v y
        revert hy h4
        generalize tryOne E headers cfg sig f.name v (parsedTxt E (parseTxt y)) = o
        obtain ⟨o1, o2⟩ := o
        intro h4 hy
        cases o1 with
        | none =>
          obtain ⟨r', hr'⟩ := hy.2 rfl
          simp only at hr'
          subst hr'
          exact .verified v (makeOriginal v) sig _ txts l1 l3 y r' hs (withoutB_of hs) hpass hq hres hft hbefore hy.1
        | some e =>
          have := h4 (by simp)
          simp only [List.map_eq_nil_iff] at this
          subst this
          exact .unverified v (makeOriginal v) sig _ txts l1 y e o2 hs (withoutB_of hs) hpass hq hres hft hbefore hy.1

/-! ## The whole run -/

/-- The result for a field, where each lookup has a reply. -/
def resultBy (E : Env) (replies : Str × Str → Reply) (cfg : Config) (clock : Nat → Int) (headers : List Field)
    (body : Bytes) (p : Nat × Field) : VerificationResult :=
  finalResult E cfg body (doneBy E replies headers cfg (start E headers cfg clock p))

theorem doneBy_done (replies : Str × Str → Reply) (headers : List Field) (cfg : Config) (t : VerifyTask) :
    ∃ reply, (∀ k, taskKey E t = some k → reply = replies k) ∧
      doneBy E replies headers cfg t = done E (fun _ => reply) headers cfg t := by
  unfold doneBy done
  cases taskKey E t with
  | none => exact ⟨⟨0, .ok []⟩, by simp, rfl⟩
  | some k => exact ⟨replies k, by simp, rfl⟩

/-- A whole run with at least one signature, where each lookup has a reply. -/
theorem run_replied (law : CaseLaw E.idna) (order : OrderLaw E.lookupOrder) (set : SetLaw E.keySet)
    {cfg : Config} {clock : Nat → Int} (ht : TypedTimes cfg clock) (headers : List Field)
    (hne : dkimFields cfg.maxSignatures headers ≠ []) :
    ∃ tasks m, findSignatures E headers cfg clock = some tasks ∧ tasks.isEmpty = false ∧
      addLookups E [] tasks = some m ∧ ((E.lookupOrder m).map (·.1)).Nodup ∧
      (∀ k, k ∈ (E.lookupOrder m).map (·.1) ↔ ∃ p ∈ dkimFields cfg.maxSignatures headers,
        taskKey E (start E headers cfg clock p) = some k) ∧
      ∀ replies, ∃ ts rs keys, verifyResults E headers cfg tasks (replied replies (E.lookupOrder m)) = some ts ∧
        collectTasks E ts = some (rs, keys) ∧
        ∀ chunks : List Bytes, ∃ v' stances,
          Verifier.processBody ⟨rs, BodyHasher.build cfg.forbidUnsignedContent (E.keySet keys)⟩ chunks
            = some (v', stances) ∧
          v'.finish E = some ((dkimFields cfg.maxSignatures headers).map
            (resultBy E replies cfg clock headers chunks.flatten)) := by
  have hr : ∀ t ∈ (dkimFields cfg.maxSignatures headers).map (start E headers cfg clock),
      t.status = .inProgress → Ready E t := by
    intro t htm h
    rw [List.mem_map] at htm
    obtain ⟨p, _, rfl⟩ := htm
    exact start_ready law headers cfg clock p h
  have hn : (((dkimFields cfg.maxSignatures headers).map (start E headers cfg clock)).map (·.index)).Nodup := by
    rw [List.map_map]
    have : ((fun t : VerifyTask => t.index) ∘ start E headers cfg clock) = (fun p : Nat × Field => p.1) := by
      funext p; exact start_index law headers cfg clock p
    rw [this]
    exact dkimFields_nodup _ _
  obtain ⟨m, h1, h2, h3, h4⟩ := verifyReplied_eq order headers cfg _ hr hn
  have hemp : ((dkimFields cfg.maxSignatures headers).map (start E headers cfg clock)).isEmpty = false := by
    cases h : dkimFields cfg.maxSignatures headers with
    | nil => exact absurd h hne
    | cons a l => rfl
  refine ⟨_, m, findSignatures_eq headers cfg clock, hemp, h1, h2, ?_, ?_⟩
  · intro k
    rw [h3]
    simp only [List.mem_map]
    constructor
    · rintro ⟨t, ⟨p, hp, rfl⟩, hk⟩; exact ⟨p, hp, hk⟩
    · rintro ⟨p, hp, hk⟩; exact ⟨_, ⟨p, hp, rfl⟩, hk⟩
  intro replies
  have hset : ∀ t ∈ ((dkimFields cfg.maxSignatures headers).map (start E headers cfg clock)).map
      (doneBy E replies headers cfg), Settled E t := by
    intro t htm
    rw [List.map_map, List.mem_map] at htm
    obtain ⟨p, _, rfl⟩ := htm
    obtain ⟨reply, _, e⟩ := doneBy_done (E := E) replies headers cfg (start E headers cfg clock p)
    simp only [Function.comp_apply]
    rw [e]
    exact resultFor_settled law (fun _ => reply) ht headers p
  refine ⟨_, _, _, h4 replies, collectTasks_eq _ hset, ?_⟩
  intro chunks
  obtain ⟨bh, stances, results, h4, h5, h6⟩ :=
    C05_body_hash_results E.hash cfg.forbidUnsignedContent
      (E.keySet ((((dkimFields cfg.maxSignatures headers).map (start E headers cfg clock)).map
        (doneBy E replies headers cfg)).filterMap taskHasher)) chunks
  refine ⟨⟨(((dkimFields cfg.maxSignatures headers).map (start E headers cfg clock)).map
    (doneBy E replies headers cfg)).map headerResult, bh⟩, stances, ?_, ?_⟩
  · rw [Verifier.processBody, h4]
  · rw [Verifier.finish, h5]
    simp only
    rw [finishTasks_eq _ hset (cfg := cfg) (body := chunks.flatten)]
    · rw [List.map_map, List.map_map]; rfl
    · intro key hk
      rw [h6, if_pos (((set _).2 key).2 hk)]

/-- A whole run with at least one signature. -/
theorem run_eq (law : CaseLaw E.idna) (order : OrderLaw E.lookupOrder) (set : SetLaw E.keySet)
    (resolver : Resolver) {cfg : Config} {clock : Nat → Int} (ht : TypedTimes cfg clock) (headers : List Field)
    (hne : dkimFields cfg.maxSignatures headers ≠ []) :
    ∃ (v : Verifier) (keys : List (Str × Str)), verifyHeader E resolver headers cfg clock
        = some (some v, keys.map fun k => keyName k.1 k.2) ∧
      keys.Nodup ∧
      (∀ k, k ∈ keys ↔ ∃ p ∈ dkimFields cfg.maxSignatures headers,
        taskKey E (start E headers cfg clock p) = some k) ∧
      ∀ chunks : List Bytes, ∃ v' stances, v.processBody chunks = some (v', stances) ∧
        v'.finish E = some ((dkimFields cfg.maxSignatures headers).map
          (resultFor E resolver cfg clock headers chunks.flatten)) := by
  obtain ⟨tasks, m, h1, h2, h3, h4, h5, h6⟩ := run_replied law order set ht headers hne
  obtain ⟨ts, rs, keys, h7, h8, h9⟩ := h6 (replyOf resolver)
  refine ⟨_, _, ?_, h4, h5, h9⟩
  simp only [verifyHeader, h1, h2, verifyAll, spawn, h3, Option.map_some, replied_of, h7, h8]
  simp only [replied, List.map_map]
  rfl

theorem run_none (resolver : Resolver) {cfg : Config} {clock : Nat → Int} (headers : List Field)
    (h : dkimFields cfg.maxSignatures headers = []) :
    verifyHeader E resolver headers cfg clock = some (none, []) := by
  rw [verifyHeader, findSignatures_eq, h]
  rfl

end Dkim
