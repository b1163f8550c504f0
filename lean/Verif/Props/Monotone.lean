import Verif.Props.Success

/-!
# Properties C57 to C59, C70, C72 and C75: what a result depends on, and how
-/

namespace Dkim

open Spec

variable {E : Env}

/-! ## C57 and C75 -/

/-- The canonical forms of the last fields with name `n`, from the bottom, as many as
the signature mentions. -/
def Spec.canonicalInstances (sig : DkimSignature) (headers : List Field) (n : Str) : List Bytes :=
  ((fromBottom headers n).take (mentions sig.signedHeaders n)).map fun f =>
    canonField sig.canonicalization.header f.name f.body

/-- Two messages have the same canonical content with regard to a signature, and the
fields that the configuration protects occur equally often. -/
structure Spec.SameContent (cfg : Config) (sig : DkimSignature) (headers headers' : List Field)
    (body body' : Bytes) : Prop where
  counts : ∀ n ∈ cfg.headersForbiddenUnsigned, occurrences headers n = occurrences headers' n
  fields : ∀ n ∈ sig.signedHeaders, canonicalInstances sig headers n = canonicalInstances sig headers' n
  body : codeBody sig.canonicalization.body body = codeBody sig.canonicalization.body body'

theorem mentions_lt (n : Str) : ∀ (earlier rest : List Str),
    earlier.countP (sameName n) < mentions (earlier.reverse ++ n :: rest) n := by
  intro earlier rest
  unfold mentions
  rw [List.countP_append, List.countP_reverse, List.countP_cons]
  have : sameName n n = true := (sameName_iff _ _).2 rfl
  simp only [this, if_true]
  omega

theorem selectAux_canonical {sig : DkimSignature} {headers headers' : List Field}
    (h : ∀ n ∈ sig.signedHeaders, canonicalInstances sig headers n = canonicalInstances sig headers' n)
    (rest : List Str) : ∀ earlier, sig.signedHeaders = earlier.reverse ++ rest →
    (selectAux headers earlier rest).map (fun f => canonField sig.canonicalization.header f.name f.body) =
      (selectAux headers' earlier rest).map (fun f => canonField sig.canonicalization.header f.name f.body) := by
  induction rest with
  | nil => intro _ _; rfl
  | cons n ns ih =>
    intro earlier he
    rw [selectAux, selectAux, List.map_append, List.map_append,
      ih (n :: earlier) (by rw [he]; simp)]
    congr 1
    have hn := h n (by rw [he]; simp)
    have hlt := mentions_lt n earlier ns
    rw [← he] at hlt
    have key : ∀ hs : List Field,
        ((fromBottom hs n)[earlier.countP (sameName n)]?).toList.map
            (fun f => canonField sig.canonicalization.header f.name f.body) =
          ((canonicalInstances sig hs n)[earlier.countP (sameName n)]?).toList := by
      intro hs
      rw [canonicalInstances, List.getElem?_map, List.getElem?_take, if_pos hlt]
      cases (fromBottom hs n)[earlier.countP (sameName n)]? <;> rfl
    rw [key, key, hn]

theorem signedInput_canonical {cfg : Config} {sig : DkimSignature} {headers headers' : List Field}
    {body body' : Bytes} (h : SameContent cfg sig headers headers' body body') (f : Field) (original : Str) :
    signedInput headers f original sig = signedInput headers' f original sig := by
  unfold signedInput headerHashInput selectedFields
  congr 1
  have : ∀ l : List Field, (l.flatMap fun f => canonField sig.canonicalization.header f.name f.body ++ b!"\r\n") =
      (l.map fun f => canonField sig.canonicalization.header f.name f.body).flatMap (· ++ b!"\r\n") := by
    intro l
    rw [List.flatMap_map]
  rw [this, this, selectAux_canonical h.fields _ [] rfl]

theorem signatureChecks_canonical {cfg : Config} {sig : DkimSignature} {headers headers' : List Field}
    {body body' : Bytes} (h : SameContent cfg sig headers headers' body body') (t : Nat) :
    signatureChecks E cfg t headers sig = signatureChecks E cfg t headers' sig := by
  unfold signatureChecks
  have : (∀ n ∈ cfg.headersForbiddenUnsigned, occurrences headers n ≤ mentions sig.signedHeaders n) =
      (∀ n ∈ cfg.headersForbiddenUnsigned, occurrences headers' n ≤ mentions sig.signedHeaders n) := by
    refine forall_congr fun n => forall_congr fun hn => ?_
    rw [h.counts n hn]
  rw [this]

theorem recordChecks_canonical {cfg : Config} {sig : DkimSignature} {headers headers' : List Field}
    {body body' : Bytes} (h : SameContent cfg sig headers headers' body body') (f : Field) (original : Str)
    (r : KeyRecord) :
    recordChecks E cfg headers f original sig r = recordChecks E cfg headers' f original sig r := by
  unfold recordChecks
  rw [signedInput_canonical h]

theorem outcome_canonical {cfg : Config} {sig : DkimSignature} {headers headers' : List Field}
    {body body' : Bytes} (h : SameContent cfg sig headers headers' body body') (f : Field) (original : Str)
    (txt : Except IoErr Bytes) (t : Tried) :
    Outcome E cfg headers f original sig txt t = Outcome E cfg headers' f original sig txt t := by
  unfold Outcome
  split
  · rw [recordChecks_canonical h]
  · rw [recordChecks_canonical h]
  · rfl

theorem bodyStatus_canonical {cfg : Config} {sig : DkimSignature} {headers headers' : List Field}
    {body body' : Bytes} (h : SameContent cfg sig headers headers' body body') :
    bodyStatus E cfg sig body = bodyStatus E cfg sig body' := by
  unfold bodyStatus
  rw [h.body]

theorem Spec.Judged.canonical {resolver : Resolver} {cfg : Config} {now : Int} {headers headers' : List Field}
    {body body' : Bytes} {i i' : Nat} {f : Field} {r : VerificationResult}
    (h : ∀ value sig, FieldSignature E f value sig → SameContent cfg sig headers headers' body body')
    (hj : Judged E resolver cfg now headers body i f r) :
    Judged E resolver cfg now headers' body' i' f { r with index := i' } := by
  cases hj with
  | unparsed e h1 h2 => exact .unparsed e h1 h2
  | rejected v s e h1 h2 =>
    exact .rejected v s e h1 (by rwa [signatureChecks_canonical (h v s h1)] at h2)
  | noAnswer v s n e h1 h2 h3 h4 =>
    exact .noAnswer v s n e h1 (by rwa [signatureChecks_canonical (h v s h1)] at h2) h3 h4
  | noRecords v s n h1 h2 h3 h4 =>
    exact .noRecords v s n h1 (by rwa [signatureChecks_canonical (h v s h1)] at h2) h3 h4
  | verified v o s n ts before after txt rec h1 h2 h3 h4 h5 h6 h7 h8 =>
    have hc := h v s h1
    simp only [bodyStatus_canonical hc]
    refine .verified v o s n ts before after txt rec h1 h2 (by rwa [signatureChecks_canonical hc] at h3) h4 h5 h6 ?_
      (by rwa [outcome_canonical hc] at h8)
    intro t ht
    obtain ⟨e, r, g⟩ := h7 t ht
    exact ⟨e, r, by rwa [outcome_canonical hc] at g⟩
  | unverified v o s n ts before txt e rec h1 h2 h3 h4 h5 h6 h7 h8 =>
    have hc := h v s h1
    refine .unverified v o s n ts before txt e rec h1 h2 (by rwa [signatureChecks_canonical hc] at h3) h4 h5 h6 ?_
      (by rwa [outcome_canonical hc] at h8)
    intro t ht
    obtain ⟨e, r, g⟩ := h7 t ht
    exact ⟨e, r, by rwa [outcome_canonical hc] at g⟩

/-- C57: two messages with the same DKIM-Signature field (at whatever position) have the
same result for it, if the fields that the signature covers have the same canonical
forms, the bodies have the same canonical form, and the fields that the configuration
protects occur equally often. -/
theorem C57_canonical (L : Lawful E) {resolver : Resolver} {cfg : Config} {clock clock' : Nat → Int}
    (T : TypedTimes cfg clock) (T' : TypedTimes cfg clock') {headers headers' : List Field}
    {chunks chunks' : List Bytes} {results results' : List VerificationResult} {asked asked' : List Str}
    (h : Run E resolver cfg clock headers chunks results asked)
    (h' : Run E resolver cfg clock' headers' chunks' results' asked')
    (r r' : VerificationResult) (hr : r ∈ results) (hr' : r' ∈ results') (f : Field)
    (hf : headers[r.index]? = some f) (hf' : headers'[r'.index]? = some f)
    (htime : clock r.index = clock' r'.index)
    (hsame : ∀ value sig, FieldSignature E f value sig →
      SameContent cfg sig headers headers' chunks.flatten chunks'.flatten) :
    r' = { r with index := r'.index } := by
  have hj := h.judged L T hr hf
  have hj' := h'.judged L T' hr' hf'
  rw [htime] at hj
  exact hj'.unique L.idna (hj.canonical hsame)

/-- C75: in particular, fields that a signature does not mention and that the configuration
does not protect can be added, removed and changed at will, and fields with different
names can change places: only the order of fields with the same name matters. -/
theorem C75_unsigned_fields (L : Lawful E) {resolver : Resolver} {cfg : Config} {clock clock' : Nat → Int}
    (T : TypedTimes cfg clock) (T' : TypedTimes cfg clock') {headers headers' : List Field}
    {chunks chunks' : List Bytes} {results results' : List VerificationResult} {asked asked' : List Str}
    (h : Run E resolver cfg clock headers chunks results asked)
    (h' : Run E resolver cfg clock' headers' chunks' results' asked')
    (r r' : VerificationResult) (hr : r ∈ results) (hr' : r' ∈ results') (f : Field)
    (hf : headers[r.index]? = some f) (hf' : headers'[r'.index]? = some f)
    (htime : clock r.index = clock' r'.index) (hbody : chunks.flatten = chunks'.flatten)
    (hsame : ∀ value sig, FieldSignature E f value sig →
      ∀ n ∈ sig.signedHeaders ++ cfg.headersForbiddenUnsigned,
        headers.filter (fun g => lower g.name = lower n) = headers'.filter (fun g => lower g.name = lower n)) :
    r' = { r with index := r'.index } := by
  refine C57_canonical L T T' h h' r r' hr hr' f hf hf' htime ?_
  intro value sig hs
  have key : ∀ n ∈ sig.signedHeaders ++ cfg.headersForbiddenUnsigned, fromBottom headers n = fromBottom headers' n := by
    intro n hn
    have := hsame value sig hs n hn
    have e : (fun g : Field => decide (lower g.name = lower n)) = fun g => sameName g.name n := by
      funext g
      rw [Bool.eq_iff_iff, decide_eq_true_eq, sameName_iff]
    rw [e] at this
    unfold fromBottom
    rw [List.filter_reverse, List.filter_reverse, this]
  constructor
  · intro n hn
    rw [← fromBottom_length, ← fromBottom_length, key n (List.mem_append_right _ hn)]
  · intro n hn
    unfold canonicalInstances
    rw [key n (List.mem_append_left _ hn)]
  · rw [hbody]

/-! ## C58 -/

/-- Configuration `cfg'` is nowhere stricter than `cfg`. -/
structure Spec.NowhereStricter (cfg cfg' : Config) : Prop where
  limit : cfg.maxSignatures ≤ cfg'.maxSignatures
  required : ∀ n ∈ cfg'.headersRequired, ∃ m ∈ cfg.headersRequired, lower m = lower n
  unsigned : ∀ n ∈ cfg'.headersForbiddenUnsigned, ∃ m ∈ cfg.headersForbiddenUnsigned, lower m = lower n
  keyBits : cfg'.minKeyBits ≤ cfg.minKeyBits
  sha1 : cfg.allowSha1 = true → cfg'.allowSha1 = true
  content : cfg'.forbidUnsignedContent = true → cfg.forbidUnsignedContent = true
  expired : cfg.allowExpired = true → cfg'.allowExpired = true
  future : cfg.allowTimestampInFuture = true → cfg'.allowTimestampInFuture = true
  tolerance : cfg.timeTolerance ≤ cfg'.timeTolerance
  clock : cfg'.fixedSystemTime = cfg.fixedSystemTime

theorem succeeded_mono {resolver : Resolver} {cfg cfg' : Config} (hc : NowhereStricter cfg cfg') {now : Int}
    {headers : List Field} {body : Bytes} {f : Field} {sig : DkimSignature} {record : KeyRecord}
    {key : VerifyingKey E.crypto} {value original : Str}
    (h : Succeeded E resolver cfg now headers body f sig record key value original) :
    Succeeded E resolver cfg' now headers body f sig record key value original := by
  have ht : unixTime cfg' now = unixTime cfg now := by simp only [unixTime, hc.clock]
  have hocc : ∀ {m n : Str}, lower m = lower n → occurrences headers n = occurrences headers m ∧
      mentions sig.signedHeaders n = mentions sig.signedHeaders m := by
    intro m n e
    have : sameName n = sameName m := by
      funext k
      rw [Bool.eq_iff_iff, sameName_iff, sameName_iff, e]
    simp only [occurrences, mentions, this]
    exact ⟨trivial, trivial⟩
  exact {
    named := h.named
    signature := h.signature
    stripped := h.stripped
    required := by
      intro n hn
      obtain ⟨m, hm, e⟩ := hc.required n hn
      obtain ⟨k, hk, e'⟩ := h.required m hm
      exact ⟨k, hk, e'.trans e⟩
    unsigned := by
      intro n hn
      obtain ⟨m, hm, e⟩ := hc.unsigned n hn
      obtain ⟨e1, e2⟩ := hocc e
      rw [e1, e2]
      exact h.unsigned m hm
    expired := by
      rcases h.expired with g | g
      · exact .inl (hc.expired g)
      · refine .inr fun x hx => ?_
        have := g x hx
        have := hc.tolerance
        rw [ht]
        omega
    future := by
      rcases h.future with g | g
      · exact .inl (hc.future g)
      · refine .inr fun x hx => ?_
        have := g x hx
        have := hc.tolerance
        rw [ht]
        omega
    sha1 := fun hp => (h.sha1 hp).imp_left hc.sha1
    answer := h.answer
    keyType := h.keyType
    keyData := h.keyData
    hashAlgorithm := h.hashAlgorithm
    identity := h.identity
    keyRead := h.keyRead
    size := by
      refine ⟨h.size.1, ?_⟩
      have := h.size.2
      have := hc.keyBits
      cases key with
      | rsa k => simp only [BitsAtLeast] at *; omega
      | ed25519 k => trivial
    verified := h.verified
    bodyHash := h.bodyHash
    limitedHash := fun n hn => by
      obtain ⟨g1, g2, g3⟩ := h.limitedHash n hn
      exact ⟨g1, fun hf => g2 (hc.content hf), g3⟩ }

/-- From success in one run to success in another, at whatever position. -/
theorem success_transfer (L : Lawful E) {resolver resolver' : Resolver} {cfg cfg' : Config} {clock clock' : Nat → Int}
    (T : TypedTimes cfg clock) (T' : TypedTimes cfg' clock') {headers headers' : List Field}
    {chunks chunks' : List Bytes} {results results' : List VerificationResult} {asked asked' : List Str}
    (h : Run E resolver cfg clock headers chunks results asked)
    (h' : Run E resolver' cfg' clock' headers' chunks' results' asked') {r r' : VerificationResult}
    (hr : r ∈ results) (hr' : r' ∈ results') {f : Field} (hf : headers[r.index]? = some f)
    (hf' : headers'[r'.index]? = some f) (hs : r.status = .success)
    (ht : ∀ sig record key value original, r.signature = some sig → r.keyRecord = some record →
      Succeeded E resolver cfg (clock r.index) headers chunks.flatten f sig record key value original →
      ∃ record' key', Succeeded E resolver' cfg' (clock' r'.index) headers' chunks'.flatten f sig record' key'
        value original) :
    r'.status = .success ∧ r'.signature = r.signature := by
  have hj := h.judged L T hr hf
  obtain ⟨f', sig, record, key, value, original, hf1, h1, h2, h3⟩ := C40_success_sound L T h r hr hs
  rw [hf, Option.some.injEq] at hf1
  subst hf1
  obtain ⟨record', key', g⟩ := ht sig record key value original h1 h2 h3
  have hu := hj.success_fits hs h1
  rw [h1]
  exact (h'.judged L T' hr' hf').success_of L.idna g hu

/-- C58: what succeeds under a configuration succeeds under every configuration that is
nowhere stricter. -/
theorem C58_monotone (L : Lawful E) {resolver : Resolver} {cfg cfg' : Config} {clock : Nat → Int}
    (T : TypedTimes cfg clock) (T' : TypedTimes cfg' clock) {headers : List Field} {chunks chunks' : List Bytes}
    {results results' : List VerificationResult} {asked asked' : List Str}
    (h : Run E resolver cfg clock headers chunks results asked)
    (h' : Run E resolver cfg' clock headers chunks' results' asked') (hbody : chunks.flatten = chunks'.flatten)
    (hc : NowhereStricter cfg cfg') (r : VerificationResult) (hr : r ∈ results) (hs : r.status = .success) :
    ∃ r' ∈ results', r'.index = r.index ∧ r'.status = .success ∧ r'.signature = r.signature := by
  obtain ⟨f, hf, -⟩ := (verify_judged L T h).1 r hr
  have hf' : (r.index, f) ∈ dkimFields cfg'.maxSignatures headers := by
    unfold dkimFields at hf ⊢
    exact (List.take_prefix_take_left hc.limit).subset hf
  obtain ⟨r', hr', hi⟩ := (verify_judged L T' h').2.1 _ _ hf'
  refine ⟨r', hr', hi, ?_⟩
  have hg := (mem_dkimFields hf).1
  refine success_transfer L T T' h h' hr hr' hg (by rw [hi]; exact hg) hs ?_
  intro sig record key value original _ _ g
  rw [hi, ← hbody]
  exact ⟨record, key, succeeded_mono hc g⟩

/-! ## C59 -/

/-- The configuration with another system time. -/
def Config.at (cfg : Config) (time : Option Int) : Config := { cfg with fixedSystemTime := time }

/-- C59: if a signature succeeds at two times, then also at every time between. -/
theorem C59_interval (L : Lawful E) {resolver : Resolver} {cfg : Config} {t₁ t₂ t₃ : Option Int}
    {clock₁ clock₂ clock₃ : Nat → Int} (T₁ : TypedTimes (cfg.at t₁) clock₁) (T₂ : TypedTimes (cfg.at t₂) clock₂)
    (T₃ : TypedTimes (cfg.at t₃) clock₃) {headers : List Field} {chunks₁ chunks₂ chunks₃ : List Bytes}
    {results₁ results₂ results₃ : List VerificationResult} {asked₁ asked₂ asked₃ : List Str}
    (h₁ : Run E resolver (cfg.at t₁) clock₁ headers chunks₁ results₁ asked₁)
    (h₂ : Run E resolver (cfg.at t₂) clock₂ headers chunks₂ results₂ asked₂)
    (h₃ : Run E resolver (cfg.at t₃) clock₃ headers chunks₃ results₃ asked₃)
    (hb₁ : chunks₁.flatten = chunks₂.flatten)
    (r₁ r₂ r₃ : VerificationResult) (hr₁ : r₁ ∈ results₁) (hr₂ : r₂ ∈ results₂) (hr₃ : r₃ ∈ results₃)
    (hi₁ : r₁.index = r₂.index) (hi₃ : r₃.index = r₂.index)
    (hle₁ : unixTime (cfg.at t₁) (clock₁ r₂.index) ≤ unixTime (cfg.at t₂) (clock₂ r₂.index))
    (hle₃ : unixTime (cfg.at t₂) (clock₂ r₂.index) ≤ unixTime (cfg.at t₃) (clock₃ r₂.index))
    (hs₁ : r₁.status = .success) (hs₃ : r₃.status = .success) : r₂.status = .success := by
  obtain ⟨f, hf, -⟩ := (verify_judged L T₁ h₁).1 r₁ hr₁
  have hf := (mem_dkimFields hf).1
  refine (success_transfer L T₁ T₂ h₁ h₂ hr₁ hr₂ hf (by rw [← hi₁]; exact hf) hs₁ ?_).1
  intro sig record key value original _ _ g
  obtain ⟨f', sig', record', key', value', original', hf3, _, _, g3⟩ := C40_success_sound L T₃ h₃ r₃ hr₃ hs₃
  rw [hi₃, ← hi₁, hf, Option.some.injEq] at hf3
  subst hf3
  obtain ⟨rfl, rfl⟩ := fieldSignature_unique L.idna g.signature g3.signature
  refine ⟨record, key, ?_⟩
  rw [hi₁, hb₁] at g
  rw [hi₃] at g3
  exact { g with
    expired := by
      rcases g3.expired with a | a
      · exact .inl a
      · refine .inr fun x hx => ?_
        have := a x hx
        exact Nat.lt_of_le_of_lt hle₃ this
    future := by
      rcases g.future with a | a
      · exact .inl a
      · refine .inr fun x hx => ?_
        have := a x hx
        exact Nat.le_trans this (Nat.add_le_add_right hle₁ _) }

/-- C59: a signature that was rejected as expired does not succeed later. -/
theorem C59_expired_for_good (L : Lawful E) {resolver resolver' : Resolver} {cfg : Config} {t₁ t₂ : Option Int}
    {clock₁ clock₂ : Nat → Int} (T₁ : TypedTimes (cfg.at t₁) clock₁) (T₂ : TypedTimes (cfg.at t₂) clock₂)
    {headers headers' : List Field} {chunks₁ chunks₂ : List Bytes} {results₁ results₂ : List VerificationResult}
    {asked₁ asked₂ : List Str} (h₁ : Run E resolver (cfg.at t₁) clock₁ headers chunks₁ results₁ asked₁)
    (h₂ : Run E resolver' (cfg.at t₂) clock₂ headers' chunks₂ results₂ asked₂)
    (r₁ r₂ : VerificationResult) (hr₁ : r₁ ∈ results₁) (hr₂ : r₂ ∈ results₂) (f : Field)
    (hf₁ : headers[r₁.index]? = some f) (hf₂ : headers'[r₂.index]? = some f)
    (hle : unixTime (cfg.at t₁) (clock₁ r₁.index) ≤ unixTime (cfg.at t₂) (clock₂ r₂.index))
    (hs₁ : r₁.status = .failure (.policy .signatureExpired)) : r₂.status ≠ .success := by
  intro hs₂
  obtain ⟨f', sig, record, key, value, original, hf, _, _, g⟩ := C40_success_sound L T₂ h₂ r₂ hr₂ hs₂
  rw [hf₂, Option.some.injEq] at hf
  subst hf
  have hj := h₁.judged L T₁ hr₁ hf₁
  have := (hj.initial L.idna g.signature (e := .policy .signatureExpired) (by simp [initialErrors])).1 hs₁
  obtain ⟨c, hc, e, hn⟩ := this.mem
  simp only [signatureChecks, List.mem_cons, List.not_mem_nil, or_false] at hc
  rcases hc with rfl | rfl | rfl | rfl | rfl | rfl <;> cases e
  apply hn
  rcases g.expired with a | a
  · exact .inl a
  · exact .inr fun x hx => Nat.lt_of_le_of_lt hle (a x hx)

/-! ## C70 -/

/-- C70: a signature that succeeds also succeeds if the DNS answer is any other in which
the key record that was used stands first, second or last. -/
theorem C70_one_record_enough (L : Lawful E) {resolver resolver' : Resolver} {cfg : Config} {clock : Nat → Int}
    (T : TypedTimes cfg clock) {headers : List Field} {chunks chunks' : List Bytes}
    {results results' : List VerificationResult} {asked asked' : List Str}
    (h : Run E resolver cfg clock headers chunks results asked)
    (h' : Run E resolver' cfg clock headers chunks' results' asked') (hbody : chunks.flatten = chunks'.flatten)
    (r r' : VerificationResult) (hr : r ∈ results) (hr' : r' ∈ results') (hi : r'.index = r.index)
    (hs : r.status = .success) (sig : DkimSignature) (record : KeyRecord) (hsig : r.signature = some sig)
    (hrec : r.keyRecord = some record) (name : Str) (hq : QueryFor E sig name) (txts : List (Except IoErr Bytes))
    (hres : (resolver' name).result = .ok txts) (txt : Except IoErr Bytes) (htxt : TxtRecord E txt record)
    (hpos : txts[0]? = some txt ∨ txts[1]? = some txt ∨ txts.getLast? = some txt) :
    r'.status = .success ∧ r'.signature = some sig := by
  obtain ⟨f, hf, -⟩ := (verify_judged L T h).1 r hr
  have hf := (mem_dkimFields hf).1
  rw [← hsig]
  refine success_transfer L T T h h' hr hr' hf (by rw [hi]; exact hf) hs ?_
  intro sig' record' key value original h1 h2 g
  rw [hsig, Option.some.injEq] at h1
  rw [hrec, Option.some.injEq] at h2
  subst h1 h2
  refine ⟨record, key, ?_⟩
  rw [hi, ← hbody]
  refine { g with answer := ⟨name, txts, hq, hres, txt, ?_, htxt⟩ }
  match txts, hpos with
  | [], hpos => simp at hpos
  | [a], hpos => simpa [firstTwoAndLast, eq_comm] using hpos
  | [a, b], hpos =>
    simp only [List.getElem?_cons_zero, List.getElem?_cons_succ, Option.some.injEq, List.getLast?_cons_cons,
      List.getLast?_singleton] at hpos
    simp only [firstTwoAndLast, List.mem_cons, List.not_mem_nil, or_false]
    rcases hpos with rfl | rfl | rfl
    · exact .inl rfl
    · exact .inr rfl
    · exact .inr rfl
  | a :: b :: c :: l, hpos =>
    simp only [firstTwoAndLast, List.mem_cons, List.not_mem_nil, or_false]
    rcases hpos with e | e | e
    · cases e; exact .inl rfl
    · cases e; exact .inr (.inl rfl)
    · rw [List.getLast?_cons_cons, List.getLast?_cons_cons, List.getLast?_eq_some_getLast (by simp),
        Option.some.injEq] at e
      exact .inr (.inr e.symm)

/-! ## C72 -/

/-- Two key records say the same, as far as it matters. -/
structure Spec.SameKey (r r' : KeyRecord) : Prop where
  keyType : r.keyType = r'.keyType
  keyData : r.keyData = r'.keyData
  hashAlgorithms : ∀ a, a ∈ r.hashAlgorithms ↔ a ∈ r'.hashAlgorithms
  noSubdomains : .noSubdomains ∈ r.flags ↔ .noSubdomains ∈ r'.flags

/-- Two TXT records are the same, or key records that say the same. -/
def Spec.SimilarTxt (E : Env) (txt txt' : Except IoErr Bytes) : Prop :=
  txt = txt' ∨ ∃ r r', TxtRecord E txt r ∧ TxtRecord E txt' r' ∧ SameKey r r'

/-- Two answers are similar, record by record. -/
inductive Spec.SimilarAnswer (E : Env) : List (Except IoErr Bytes) → List (Except IoErr Bytes) → Prop
  | nil : SimilarAnswer E [] []
  | cons (t t' : Except IoErr Bytes) (l l' : List (Except IoErr Bytes)) : SimilarTxt E t t' → SimilarAnswer E l l' →
      SimilarAnswer E (t :: l) (t' :: l')

theorem recordChecks_similar {r r' : KeyRecord} (h : SameKey r r') (cfg : Config) (headers : List Field) (f : Field)
    (original : Str) (sig : DkimSignature) :
    recordChecks E cfg headers f original sig r = recordChecks E cfg headers f original sig r' := by
  unfold recordChecks
  have h3 := h.hashAlgorithms (hashOf sig.algorithm)
  rw [h.keyType, h.keyData, propext h3, propext h.noSubdomains]

theorem outcome_verified_similar {txt txt' : Except IoErr Bytes} (h : SimilarTxt E txt txt') {cfg : Config}
    {headers : List Field} {f : Field} {original : Str} {sig : DkimSignature} {r : KeyRecord}
    (ho : Outcome E cfg headers f original sig txt (.verified r)) :
    ∃ r', Outcome E cfg headers f original sig txt' (.verified r') := by
  rcases h with rfl | ⟨s, s', h1, h2, h3⟩
  · exact ⟨r, ho⟩
  · obtain ⟨g1, g2⟩ := ho
    have := txtRecord_unique g1 h1
    subst this
    exact ⟨s', h2, by rwa [recordChecks_similar h3] at g2⟩

theorem outcome_failed_similar {txt txt' : Except IoErr Bytes} (h : SimilarTxt E txt txt') {cfg : Config}
    {headers : List Field} {f : Field} {original : Str} {sig : DkimSignature} {e : VerificationError}
    {r : Option KeyRecord} (ho : Outcome E cfg headers f original sig txt (.failed e r)) :
    ∃ r', Outcome E cfg headers f original sig txt' (.failed e r') := by
  rcases h with rfl | ⟨s, s', h1, h2, h3⟩
  · exact ⟨r, ho⟩
  · cases r with
    | none => exact absurd h1 (ho.1 _)
    | some r =>
      obtain ⟨g1, g2⟩ := ho
      have := txtRecord_unique g1 h1
      subst this
      exact ⟨some s', h2, by rwa [recordChecks_similar h3] at g2⟩

theorem similar_getLast {l l' : List (Except IoErr Bytes)} (h : SimilarAnswer E l l') (hl : l ≠ []) (hl' : l' ≠ []) :
    SimilarTxt E (l.getLast hl) (l'.getLast hl') := by
  induction h with
  | nil => exact absurd rfl hl
  | cons t t' l l' h1 h2 ih =>
    cases h2 with
    | nil => exact h1
    | cons a a' m m' h3 h4 =>
      rw [List.getLast_cons (by simp : a :: m ≠ []), List.getLast_cons (by simp : a' :: m' ≠ [])]
      exact ih _ _

theorem similar_firstTwoAndLast {l l' : List (Except IoErr Bytes)} (h : SimilarAnswer E l l') :
    SimilarAnswer E (firstTwoAndLast l) (firstTwoAndLast l') := by
  cases h with
  | nil => exact .nil
  | cons a a' l l' h1 h2 =>
    cases h2 with
    | nil => exact .cons _ _ _ _ h1 .nil
    | cons b b' l l' h3 h4 =>
      cases h4 with
      | nil => exact .cons _ _ _ _ h1 (.cons _ _ _ _ h3 .nil)
      | cons c c' l l' h5 h6 =>
        exact .cons _ _ _ _ h1 (.cons _ _ _ _ h3 (.cons _ _ _ _
          (similar_getLast (.cons _ _ _ _ h5 h6) (by simp) (by simp)) .nil))

theorem similar_split {l l' : List (Except IoErr Bytes)} (h : SimilarAnswer E l l') :
    ∀ {before after : List (Except IoErr Bytes)} {t : Except IoErr Bytes}, l = before ++ t :: after →
    ∃ before' t' after', l' = before' ++ t' :: after' ∧ SimilarAnswer E before before' ∧ SimilarTxt E t t' ∧
      (after = [] → after' = []) := by
  induction h with
  | nil => intro before after t e; simp at e
  | cons a a' l l' h1 h2 ih =>
    intro before after t e
    cases before with
    | nil =>
      simp only [List.nil_append, List.cons.injEq] at e
      obtain ⟨rfl, rfl⟩ := e
      refine ⟨[], a', l', rfl, .nil, h1, ?_⟩
      rintro rfl
      cases h2
      rfl
    | cons b before =>
      simp only [List.cons_append, List.cons.injEq] at e
      obtain ⟨rfl, e⟩ := e
      obtain ⟨b', t', c', rfl, g1, g2, g3⟩ := ih e
      exact ⟨a' :: b', t', c', rfl, .cons _ _ _ _ h1 g1, g2, g3⟩

theorem similar_mem {l l' : List (Except IoErr Bytes)} (h : SimilarAnswer E l l') :
    ∀ t' ∈ l', ∃ t ∈ l, SimilarTxt E t t' := by
  induction h with
  | nil => nofun
  | cons a a' l l' h1 h2 ih =>
    intro t' ht
    rcases List.mem_cons.1 ht with rfl | ht
    · exact ⟨a, .head _, h1⟩
    · obtain ⟨t, h3, h4⟩ := ih t' ht
      exact ⟨t, .tail _ h3, h4⟩

/-- Two resolvers give similar answers to a query. -/
def Spec.SimilarResults (E : Env) : Except IoErr (List (Except IoErr Bytes)) → Except IoErr (List (Except IoErr Bytes)) →
    Prop
  | .ok l, .ok l' => SimilarAnswer E l l'
  | .error e, .error e' => e = e'
  | _, _ => False

theorem Spec.Judged.similar {resolver resolver' : Resolver} {cfg : Config} {now : Int} {headers : List Field}
    {body : Bytes} {i : Nat} {f : Field} {r : VerificationResult}
    (h : ∀ value sig name, FieldSignature E f value sig → QueryFor E sig name →
      SimilarResults E (resolver name).result (resolver' name).result)
    (hj : Judged E resolver cfg now headers body i f r) :
    ∃ r', Judged E resolver' cfg now headers body i f r' ∧ r'.status = r.status ∧ r'.signature = r.signature := by
  cases hj with
  | unparsed e h1 h2 => exact ⟨_, .unparsed e h1 h2, rfl, rfl⟩
  | rejected v s e h1 h2 => exact ⟨_, .rejected v s e h1 h2, rfl, rfl⟩
  | noAnswer v s n e h1 h2 h3 h4 =>
    have := h v s n h1 h3
    rw [h4] at this
    cases hr : (resolver' n).result with
    | ok l => rw [hr] at this; exact this.elim
    | error e' =>
      rw [hr] at this
      cases this
      exact ⟨_, .noAnswer v s n e h1 h2 h3 hr, rfl, rfl⟩
  | noRecords v s n h1 h2 h3 h4 =>
    have := h v s n h1 h3
    rw [h4] at this
    cases hr : (resolver' n).result with
    | error e' => rw [hr] at this; exact this.elim
    | ok l =>
      rw [hr] at this
      cases this
      exact ⟨_, .noRecords v s n h1 h2 h3 hr, rfl, rfl⟩
  | verified v o s n ts before after txt rec h1 h2 h3 h4 h5 h6 h7 h8 =>
    have := h v s n h1 h4
    rw [h5] at this
    cases hr : (resolver' n).result with
    | error e' => rw [hr] at this; exact this.elim
    | ok l =>
      rw [hr] at this
      obtain ⟨b', t', a', g1, g2, g3, _⟩ := similar_split (similar_firstTwoAndLast this) h6
      obtain ⟨rec', g4⟩ := outcome_verified_similar g3 h8
      refine ⟨_, .verified v o s n l b' a' t' rec' h1 h2 h3 h4 hr g1 ?_ g4, rfl, rfl⟩
      intro t ht
      obtain ⟨u, hu, hsim⟩ := similar_mem g2 t ht
      obtain ⟨e, r, ho⟩ := h7 u hu
      obtain ⟨r', ho'⟩ := outcome_failed_similar hsim ho
      exact ⟨e, r', ho'⟩
  | unverified v o s n ts before txt e rec h1 h2 h3 h4 h5 h6 h7 h8 =>
    have := h v s n h1 h4
    rw [h5] at this
    cases hr : (resolver' n).result with
    | error e' => rw [hr] at this; exact this.elim
    | ok l =>
      rw [hr] at this
      obtain ⟨b', t', a', g1, g2, g3, g5⟩ := similar_split (similar_firstTwoAndLast this) h6
      cases g5 rfl
      obtain ⟨rec', g4⟩ := outcome_failed_similar g3 h8
      refine ⟨_, .unverified v o s n l b' t' e rec' h1 h2 h3 h4 hr g1 ?_ g4, rfl, rfl⟩
      intro t ht
      obtain ⟨u, hu, hsim⟩ := similar_mem g2 t ht
      obtain ⟨e, r, ho⟩ := h7 u hu
      obtain ⟨r', ho'⟩ := outcome_failed_similar hsim ho
      exact ⟨e, r', ho'⟩

/-- C72: of the key records only the key type, the key data, the hash algorithms and the
restriction to the exact domain influence the status: it is the same if key records
are exchanged for others that agree in these. -/
theorem C72_relevant_parts (L : Lawful E) {resolver resolver' : Resolver} {cfg : Config} {clock : Nat → Int}
    (T : TypedTimes cfg clock) {headers : List Field} {chunks chunks' : List Bytes}
    {results results' : List VerificationResult} {asked asked' : List Str}
    (h : Run E resolver cfg clock headers chunks results asked)
    (h' : Run E resolver' cfg clock headers chunks' results' asked') (hbody : chunks.flatten = chunks'.flatten)
    (hsim : ∀ name, SimilarResults E (resolver name).result (resolver' name).result)
    (r r' : VerificationResult) (hr : r ∈ results) (hr' : r' ∈ results') (hi : r'.index = r.index) :
    r'.status = r.status ∧ r'.signature = r.signature := by
  obtain ⟨f, hf, -⟩ := (verify_judged L T h).1 r hr
  have hf := (mem_dkimFields hf).1
  have hj := h.judged L T hr hf
  have hj' := h'.judged L T hr' (by rw [hi]; exact hf)
  obtain ⟨r'', h1, h2, h3⟩ := hj.similar (resolver' := resolver') fun _ _ name _ _ => hsim name
  rw [hbody, ← hi] at h1
  rw [hj'.unique L.idna h1]
  exact ⟨h2, h3⟩

end Dkim
