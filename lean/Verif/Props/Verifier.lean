import Verif.Proofs.VerifierRun

/-!
# Properties C38 to C48, C50 and C52: verifying

`Judged` (in `Verif/Spec/Verifier.lean`) specifies the result for one
DKIM-Signature field, without caches, queues and panics. `verify_judged` is the
refinement theorem: a run of the modelled code yields exactly such results.
-/

namespace Dkim

open Spec

variable {E : Env}

/-- Assumptions about what the verifier uses from elsewhere. -/
structure Lawful (E : Env) : Prop where
  idna : CaseLaw E.idna
  order : OrderLaw E.lookupOrder
  set : SetLaw E.keySet

/-- A whole run of the verifier, with the body given in chunks: the results, and the
names that were asked of the resolver. -/
def Run (E : Env) (resolver : Resolver) (cfg : Config) (clock : Nat → Int) (headers : List Field)
    (chunks : List Bytes) (results : List VerificationResult) (asked : List Str) : Prop :=
  ∃ v v' stances, verifyHeader E resolver headers cfg clock = some (some v, asked) ∧
    v.processBody chunks = some (v', stances) ∧ v'.finish E = some results

theorem Run.eq (L : Lawful E) {resolver : Resolver} {cfg : Config} {clock : Nat → Int} (T : TypedTimes cfg clock)
    {headers : List Field} {chunks : List Bytes} {results : List VerificationResult} {asked : List Str}
    (h : Run E resolver cfg clock headers chunks results asked) :
    dkimFields cfg.maxSignatures headers ≠ [] ∧
    results = (dkimFields cfg.maxSignatures headers).map
      (resultFor E resolver cfg clock headers chunks.flatten) ∧
    ∃ keys : List (Str × Str), asked = keys.map (fun k => keyName k.1 k.2) ∧ keys.Nodup ∧
      ∀ k, k ∈ keys ↔ ∃ p ∈ dkimFields cfg.maxSignatures headers,
        taskKey E (start E headers cfg clock p) = some k := by
  obtain ⟨v, v', ss, h1, h2, h3⟩ := h
  have hne : dkimFields cfg.maxSignatures headers ≠ [] := by
    intro he
    rw [run_none resolver headers he] at h1
    simp at h1
  obtain ⟨w, keys, g1, g2, g3, g4⟩ := run_eq L.idna L.order L.set resolver T headers hne
  rw [h1] at g1
  simp only [Option.some.injEq, Prod.mk.injEq] at g1
  obtain ⟨rfl, rfl⟩ := g1
  obtain ⟨w', ss', g5, g6⟩ := g4 chunks
  rw [h2] at g5
  simp only [Option.some.injEq, Prod.mk.injEq] at g5
  obtain ⟨rfl, _⟩ := g5
  rw [h3] at g6
  injection g6 with g6
  exact ⟨hne, g6, keys, rfl, g2, g3⟩

theorem Spec.Judged.index_eq {resolver : Resolver} {cfg : Config} {now : Int} {headers : List Field} {body : Bytes}
    {i : Nat} {f : Field} {r : VerificationResult} (h : Judged E resolver cfg now headers body i f r) :
    r.index = i := by
  cases h <;> rfl

theorem resultFor_index (L : Lawful E) (resolver : Resolver) {cfg : Config} {clock : Nat → Int}
    (T : TypedTimes cfg clock) (headers : List Field) (body : Bytes) (p : Nat × Field) :
    (resultFor E resolver cfg clock headers body p).index = p.1 :=
  (resultFor_judged L.idna resolver T headers body p.1 p.2).index_eq

/-! ## C50 -/

/-- C50: verifying never panics, whatever the message, the configuration, the DNS and
the body. -/
theorem C50_no_panic (L : Lawful E) (resolver : Resolver) (cfg : Config) (clock : Nat → Int)
    (T : TypedTimes cfg clock) (headers : List Field) :
    ∃ o asked, verifyHeader E resolver headers cfg clock = some (o, asked) ∧
      ∀ v, o = some v → ∀ chunks : List Bytes, ∃ v' stances results,
        v.processBody chunks = some (v', stances) ∧ v'.finish E = some results := by
  by_cases hne : dkimFields cfg.maxSignatures headers = []
  · exact ⟨none, [], run_none resolver headers hne, by simp⟩
  · obtain ⟨w, keys, g1, g2, g3, g4⟩ := run_eq L.idna L.order L.set resolver T headers hne
    refine ⟨some w, _, g1, ?_⟩
    intro v hv chunks
    injection hv with hv
    subst hv
    obtain ⟨w', ss', g5, g6⟩ := g4 chunks
    exact ⟨w', ss', _, g5, g6⟩

/-! ## C38 -/

theorem dkimFields_ne_nil (max : Nat) (headers : List Field) :
    dkimFields max headers ≠ [] ↔ max ≠ 0 ∧ ∃ f ∈ headers, IsDkimField f := by
  unfold dkimFields
  rw [Ne, List.take_eq_nil_iff, not_or, List.filter_eq_nil_iff]
  refine and_congr_right fun _ => ?_
  simp only [decide_eq_true_eq, Classical.not_forall, not_imp, Classical.not_not, exists_prop]
  constructor
  · rintro ⟨p, hp, h⟩
    refine ⟨p.2, ?_, h⟩
    simp only [positions, List.mem_map] at hp
    obtain ⟨q, hq, rfl⟩ := hp
    exact List.fst_mem_of_mem_zipIdx hq
  · rintro ⟨f, hf, h⟩
    obtain ⟨i, hi, rfl⟩ := List.mem_iff_getElem.1 hf
    refine ⟨(i, headers[i]), ?_, h⟩
    simp only [positions, List.mem_map]
    exact ⟨(headers[i], i), by simp [List.mem_zipIdx_iff_getElem?], rfl⟩

/-- C38: there is a verifier exactly if the limit is not zero and there is a
DKIM-Signature field; without a verifier nothing is asked. -/
theorem C38_verifier_exists (L : Lawful E) (resolver : Resolver) (cfg : Config) (clock : Nat → Int)
    (T : TypedTimes cfg clock) (headers : List Field) (o : Option Verifier) (asked : List Str)
    (h : verifyHeader E resolver headers cfg clock = some (o, asked)) :
    (o ≠ none ↔ cfg.maxSignatures ≠ 0 ∧ ∃ f ∈ headers, IsDkimField f) ∧ (o = none → asked = []) := by
  rw [← dkimFields_ne_nil]
  by_cases hne : dkimFields cfg.maxSignatures headers = []
  · rw [run_none resolver headers hne] at h
    simp only [Option.some.injEq, Prod.mk.injEq] at h
    rw [← h.1, ← h.2]
    simp [hne]
  · obtain ⟨w, keys, g1, _⟩ := run_eq L.idna L.order L.set resolver T headers hne
    rw [h] at g1
    simp only [Option.some.injEq, Prod.mk.injEq] at g1
    rw [g1.1]
    simp [hne]

/-- C38: one result for each of the first `maxSignatures` DKIM-Signature fields from
the top, in order, with the positions of the fields. -/
theorem C38_one_result_each (L : Lawful E) {resolver : Resolver} {cfg : Config} {clock : Nat → Int}
    (T : TypedTimes cfg clock) {headers : List Field} {chunks : List Bytes} {results : List VerificationResult}
    {asked : List Str} (h : Run E resolver cfg clock headers chunks results asked) :
    results.map (·.index) = (dkimFields cfg.maxSignatures headers).map (·.1) ∧
      (results.map (·.index)).Nodup ∧ results ≠ [] := by
  obtain ⟨h1, h2, _⟩ := h.eq L T
  have e : results.map (·.index) = (dkimFields cfg.maxSignatures headers).map (·.1) := by
    rw [h2, List.map_map]
    apply List.map_congr_left
    intro p _
    exact resultFor_index L resolver T headers _ p
  refine ⟨e, ?_, ?_⟩
  · rw [e]; exact dkimFields_nodup _ _
  · rw [h2]; simpa using h1

theorem nodup_map_inj {α β : Type} {g : α → β} {l : List α} (h : (l.map g).Nodup) {a b : α} (ha : a ∈ l)
    (hb : b ∈ l) (e : g a = g b) : a = b := by
  induction l with
  | nil => simp at ha
  | cons x l ih =>
    simp only [List.map_cons, List.nodup_cons, List.mem_map, not_exists, not_and] at h
    rcases List.mem_cons.1 ha with e1 | h1
    · rcases List.mem_cons.1 hb with e2 | h2
      · rw [e1, e2]
      · exact absurd (by rw [← e, e1]) (h.1 b h2)
    · rcases List.mem_cons.1 hb with e2 | h2
      · exact absurd (by rw [e, e2]) (h.1 a h1)
      · exact ih h.2 h1 h2

/-- The refinement theorem: every result is the specified one for the field at its
index. -/
theorem verify_judged (L : Lawful E) {resolver : Resolver} {cfg : Config} {clock : Nat → Int}
    (T : TypedTimes cfg clock) {headers : List Field} {chunks : List Bytes} {results : List VerificationResult}
    {asked : List Str} (h : Run E resolver cfg clock headers chunks results asked) :
    (∀ r ∈ results, ∃ f, (r.index, f) ∈ dkimFields cfg.maxSignatures headers ∧
      Judged E resolver cfg (clock r.index) headers chunks.flatten r.index f r) ∧
    (∀ i f, (i, f) ∈ dkimFields cfg.maxSignatures headers → ∃ r ∈ results, r.index = i) ∧
    ∀ r ∈ results, ∀ f, (r.index, f) ∈ dkimFields cfg.maxSignatures headers →
      Judged E resolver cfg (clock r.index) headers chunks.flatten r.index f r := by
  obtain ⟨_, h2, _⟩ := h.eq L T
  have h1 : ∀ r ∈ results, ∃ f, (r.index, f) ∈ dkimFields cfg.maxSignatures headers ∧
      Judged E resolver cfg (clock r.index) headers chunks.flatten r.index f r := by
    intro r hr
    rw [h2, List.mem_map] at hr
    obtain ⟨⟨i, f⟩, hp, rfl⟩ := hr
    have hj := resultFor_judged L.idna resolver T headers chunks.flatten i f
    rw [hj.index_eq]
    exact ⟨f, hp, hj⟩
  refine ⟨h1, ?_, ?_⟩
  · intro i f hp
    exact ⟨_, by rw [h2]; exact List.mem_map_of_mem hp, resultFor_index L resolver T headers _ _⟩
  · intro r hr f hf
    obtain ⟨f', hf', hj⟩ := h1 r hr
    have : f = f' := by
      have := nodup_map_inj (dkimFields_nodup cfg.maxSignatures headers) hf hf' rfl
      injection this
    rw [this]
    exact hj

/-- The field that a result is about has been evaluated at its position. -/
theorem mem_dkimFields {max : Nat} {headers : List Field} {i : Nat} {f : Field}
    (h : (i, f) ∈ dkimFields max headers) : headers[i]? = some f ∧ IsDkimField f := by
  have h1 := List.mem_of_mem_take h
  rw [List.mem_filter] at h1
  refine ⟨?_, of_decide_eq_true h1.2⟩
  have := h1.1
  simp only [positions, List.mem_map, Prod.mk.injEq] at this
  obtain ⟨q, hq, rfl, rfl⟩ := this
  exact List.mem_zipIdx_iff_getElem?.1 hq

/-! ## C40 -/

theorem bodyStatus_success {cfg : Config} {sig : DkimSignature} {body : Bytes}
    (h : bodyStatus E cfg sig body = .success) :
    (sig.bodyLength = none →
      E.hash (hashOf sig.algorithm) (codeBody sig.canonicalization.body body) = sig.bodyHash) ∧
    ∀ n, sig.bodyLength = some n → n ≤ (codeBody sig.canonicalization.body body).length ∧
      (cfg.forbidUnsignedContent = true → n = (codeBody sig.canonicalization.body body).length) ∧
      E.hash (hashOf sig.algorithm) ((codeBody sig.canonicalization.body body).take n) = sig.bodyHash := by
  unfold bodyStatus at h
  cases hl : sig.bodyLength with
  | none =>
    rw [hl] at h
    simp only at h
    refine ⟨fun _ => ?_, by simp⟩
    split at h
    · assumption
    · simp at h
  | some n =>
    rw [hl] at h
    simp only at h
    refine ⟨by simp, ?_⟩
    intro n' hn
    injection hn with hn
    subst hn
    split at h
    · simp at h
    · next h1 =>
      split at h
      · simp at h
      · next h2 =>
        split at h
        · next h3 =>
          refine ⟨by omega, fun hf => ?_, h3⟩
          have : ¬ n < (codeBody sig.canonicalization.body body).length := fun hlt => h2 ⟨hlt, hf⟩
          omega
        · simp at h

/-- Everything that success of a signature says. -/
structure Succeeded (E : Env) (resolver : Resolver) (cfg : Config) (now : Int) (headers : List Field) (body : Bytes)
    (f : Field) (sig : DkimSignature) (record : KeyRecord) (key : VerifyingKey E.crypto) (value original : Str) :
    Prop where
  /-- The field is named DKIM-Signature. -/
  named : IsDkimField f
  /-- The field is a signature. -/
  signature : FieldSignature E f value sig
  /-- What was verified of the field: all but the value of `b=`. -/
  stripped : WithoutB value original
  /-- Policy: the required header fields are signed. -/
  required : ∀ h ∈ cfg.headersRequired, ∃ n ∈ sig.signedHeaders, lower n = lower h
  /-- Policy: all occurrences are signed. -/
  unsigned : ∀ h ∈ cfg.headersForbiddenUnsigned, occurrences headers h ≤ mentions sig.signedHeaders h
  /-- Policy: not expired. -/
  expired : cfg.allowExpired = true ∨ ∀ x, sig.expiration = some x → unixTime cfg now < x + cfg.timeTolerance
  /-- Policy: not from the future. -/
  future : cfg.allowTimestampInFuture = true ∨
    ∀ s, sig.timestamp = some s → s ≤ unixTime cfg now + cfg.timeTolerance
  /-- Policy: SHA-1 is allowed. -/
  sha1 : E.pre = true → cfg.allowSha1 = true ∨ hashOf sig.algorithm ≠ .sha1
  /-- The key record is among those that the DNS returned for the selector and domain. -/
  answer : ∃ name txts, QueryFor E sig name ∧ (resolver name).result = .ok txts ∧
    ∃ txt ∈ firstTwoAndLast txts, TxtRecord E txt record
  /-- It has the right key type, -/
  keyType : record.keyType = keyTypeOf sig.algorithm
  /-- is not revoked, -/
  keyData : record.keyData ≠ []
  /-- allows the hash algorithm, -/
  hashAlgorithm : hashOf sig.algorithm ∈ record.hashAlgorithms
  /-- permits the identity. -/
  identity : .noSubdomains ∈ record.flags → ∀ i, sig.identity = some i →
    E.idna.toAscii i.domain = E.idna.toAscii sig.domain
  /-- The key is the one in the record, -/
  keyRead : publicKey E.crypto (keyTypeOf sig.algorithm) record.keyData = some key
  /-- is large enough, -/
  size : BitsAtLeast key (if E.pre then 512 else 1024) ∧ BitsAtLeast key cfg.minKeyBits
  /-- and accepts the signature of the header hash. -/
  verified : verifyWith key (hashOf sig.algorithm)
    (E.hash (hashOf sig.algorithm) (signedInput headers f original sig)) sig.signatureData = true
  /-- The body hash is that of the canonicalized body, -/
  bodyHash : sig.bodyLength = none →
    E.hash (hashOf sig.algorithm) (codeBody sig.canonicalization.body body) = sig.bodyHash
  /-- or of its beginning with the given length. -/
  limitedHash : ∀ n, sig.bodyLength = some n → n ≤ (codeBody sig.canonicalization.body body).length ∧
    (cfg.forbidUnsignedContent = true → n = (codeBody sig.canonicalization.body body).length) ∧
    E.hash (hashOf sig.algorithm) ((codeBody sig.canonicalization.body body).take n) = sig.bodyHash

theorem Spec.FirstFailure.mem {cs : List Check} {e : VerificationError} (h : FirstFailure cs e) :
    ∃ c ∈ cs, c.error = e ∧ ¬ c.holds := by
  obtain ⟨a, c, b, rfl, _, h2, h3⟩ := h
  exact ⟨c, by simp, h3, h2⟩

theorem Spec.AllPass.not_firstFailure {cs : List Check} {e : VerificationError} (h : AllPass cs) :
    ¬ FirstFailure cs e := by
  intro hf
  obtain ⟨c, hc, _, hn⟩ := hf.mem
  exact hn (h c hc)

theorem allPass_cons {c : Check} {cs : List Check} : AllPass (c :: cs) ↔ c.holds ∧ AllPass cs := by
  simp [AllPass]

theorem allPass_nil : AllPass [] := by simp [AllPass]

theorem Spec.Judged.success {resolver : Resolver} {cfg : Config} {now : Int} {headers : List Field} {body : Bytes}
    {i : Nat} {f : Field} {r : VerificationResult} (h : Judged E resolver cfg now headers body i f r)
    (hn : IsDkimField f) (hs : r.status = .success) :
    ∃ sig record key value original, r.signature = some sig ∧ r.keyRecord = some record ∧
      Succeeded E resolver cfg now headers body f sig record key value original := by
  cases h with
  | unparsed | rejected | noAnswer | noRecords | unverified => simp at hs
  | verified value original sig name txts before after txt record h1 h2 h3 h4 h5 h6 h7 h8 =>
    obtain ⟨h9, h10⟩ := h8
    unfold signatureChecks at h3
    simp only [allPass_cons] at h3
    obtain ⟨c1, c2, c3, c4, c5, c6, _⟩ := h3
    unfold recordChecks at h10
    simp only [allPass_cons] at h10
    obtain ⟨k1, k2, k3, k4, k5, k6, k7, k8, _⟩ := h10
    cases hk : publicKey E.crypto (keyTypeOf sig.algorithm) record.keyData with
    | none => exact absurd hk k5
    | some key =>
      obtain ⟨b1, b2⟩ := bodyStatus_success hs
      refine ⟨sig, record, key, value, original, rfl, rfl, ?_⟩
      exact ⟨hn, h1, h2, c1, c2, c4, c5, c6, ⟨name, txts, h4, h5, txt, by rw [h6]; simp, h9⟩, k1, k2, k3, k4, hk,
        ⟨k6 key hk, k7 key hk⟩, k8 key hk, b1, b2⟩

/-- C40: if a result has status Success, everything was checked. -/
theorem C40_success_sound (L : Lawful E) {resolver : Resolver} {cfg : Config} {clock : Nat → Int}
    (T : TypedTimes cfg clock) {headers : List Field} {chunks : List Bytes} {results : List VerificationResult}
    {asked : List Str} (h : Run E resolver cfg clock headers chunks results asked) (r : VerificationResult)
    (hr : r ∈ results) (hs : r.status = .success) :
    ∃ f sig record key value original, headers[r.index]? = some f ∧ r.signature = some sig ∧
      r.keyRecord = some record ∧
      Succeeded E resolver cfg (clock r.index) headers chunks.flatten f sig record key value original := by
  obtain ⟨f, hf, hj⟩ := (verify_judged L T h).1 r hr
  obtain ⟨hf1, hf2⟩ := mem_dkimFields hf
  obtain ⟨sig, record, key, value, original, h1, h2, h3⟩ := hj.success hf2 hs
  exact ⟨f, sig, record, key, value, original, hf1, h1, h2, h3⟩

/-! ## C41 -/

theorem fieldSignature_unique (law : CaseLaw E.idna) {f : Field} {v v' : Str} {s s' : DkimSignature}
    (h : FieldSignature E f v s) (h' : FieldSignature E f v' s') : v = v' ∧ s = s' := by
  have e : v = v' := utf8_injective (h.1.symm.trans h'.1)
  subst e
  have h1 := (sigFromStr_iff law E.pre v s).2 h.2
  have h2 := (sigFromStr_iff law E.pre v s').2 h'.2
  rw [h1] at h2
  injection h2 with h2
  exact ⟨rfl, h2⟩

theorem queryFor_unique {sig : DkimSignature} {n n' : Str} (h : QueryFor E sig n) (h' : QueryFor E sig n') :
    n = n' := by
  obtain ⟨d, s, h1, h2, rfl⟩ := h
  obtain ⟨d', s', h1', h2', rfl⟩ := h'
  rw [h1] at h1'
  rw [h2] at h2'
  injection h1' with h1'
  injection h2' with h2'
  rw [h1', h2']

theorem txtRecord_unique {txt : Except IoErr Bytes} {r r' : KeyRecord} (h : TxtRecord E txt r)
    (h' : TxtRecord E txt r') : r = r' := by
  rw [txtRecord_iff] at h h'
  rw [h] at h'
  injection h'

theorem outcome_exclusive {cfg : Config} {headers : List Field} {f : Field} {original : Str} {sig : DkimSignature}
    {txt : Except IoErr Bytes} {e : VerificationError} {r : Option KeyRecord} {r' : KeyRecord}
    (h : Outcome E cfg headers f original sig txt (.failed e r)) :
    ¬ Outcome E cfg headers f original sig txt (.verified r') := by
  rintro ⟨h1, h2⟩
  cases r with
  | none => exact h.1 r' h1
  | some r =>
    have := txtRecord_unique h.1 h1
    subst this
    exact h2.not_firstFailure h.2

/-- C41: for a signature that passes the initial checks and for which the DNS returns
records, the first two and the last are tried. If one of them verifies the signature,
the first such is reported, and the body decides; if none does, the failure of the
last is reported. -/
theorem C41_records_tried (L : Lawful E) {resolver : Resolver} {cfg : Config} {clock : Nat → Int}
    (T : TypedTimes cfg clock) {headers : List Field} {chunks : List Bytes} {results : List VerificationResult}
    {asked : List Str} (h : Run E resolver cfg clock headers chunks results asked) (r : VerificationResult)
    (hr : r ∈ results) (f : Field) (hf : headers[r.index]? = some f) (value : Str) (sig : DkimSignature)
    (hsig : FieldSignature E f value sig)
    (hpass : AllPass (signatureChecks E cfg (unixTime cfg (clock r.index)) headers sig)) (name : Str)
    (hq : QueryFor E sig name) (txts : List (Except IoErr Bytes)) (hres : (resolver name).result = .ok txts)
    (hne : txts ≠ []) :
    ∃ original, WithoutB value original ∧
      ((∃ before txt after record, firstTwoAndLast txts = before ++ txt :: after ∧
          (∀ t ∈ before, ∀ record, ¬ Outcome E cfg headers f original sig t (.verified record)) ∧
          Outcome E cfg headers f original sig txt (.verified record) ∧
          r = ⟨bodyStatus E cfg sig chunks.flatten, r.index, some sig, some record⟩) ∨
       ((∀ t ∈ txts.take 2 ++ txts.getLast?.toList, ∀ record,
            ¬ Outcome E cfg headers f original sig t (.verified record)) ∧
          ∃ txt e record, txts.getLast? = some txt ∧
            Outcome E cfg headers f original sig txt (.failed e record) ∧
            r = ⟨.failure e, r.index, some sig, record⟩)) := by
  obtain ⟨f', hf', hj⟩ := (verify_judged L T h).1 r hr
  have e : f' = f := by
    have := (mem_dkimFields hf').1
    rw [hf] at this
    injection this with this
    exact this.symm
  subst e
  revert hj hpass
  generalize hidx : r.index = i
  intro hpass hj
  cases hj with
  | unparsed e h1 h2 => exact absurd hsig (h1 _ _)
  | rejected v s e h1 h2 =>
    obtain ⟨rfl, rfl⟩ := fieldSignature_unique L.idna hsig h1
    exact absurd h2 hpass.not_firstFailure
  | noAnswer v s n e h1 h2 h3 h4 =>
    obtain ⟨rfl, rfl⟩ := fieldSignature_unique L.idna hsig h1
    rw [queryFor_unique hq h3] at hres
    rw [hres] at h4
    simp at h4
  | noRecords v s n h1 h2 h3 h4 =>
    obtain ⟨rfl, rfl⟩ := fieldSignature_unique L.idna hsig h1
    rw [queryFor_unique hq h3] at hres
    rw [hres] at h4
    injection h4 with h4
    exact absurd h4 hne
  | verified v o s n ts before after txt rec h1 h2 h3 h4 h5 h6 h7 h8 =>
    obtain ⟨rfl, rfl⟩ := fieldSignature_unique L.idna hsig h1
    rw [queryFor_unique hq h4] at hres
    rw [hres] at h5
    injection h5 with h5
    subst h5
    refine ⟨o, h2, .inl ⟨before, txt, after, rec, h6, ?_, h8, rfl⟩⟩
    intro t ht rec'
    obtain ⟨e, r, ho⟩ := h7 t ht
    exact outcome_exclusive ho
  | unverified v o s n ts before txt e rec h1 h2 h3 h4 h5 h6 h7 h8 =>
    obtain ⟨rfl, rfl⟩ := fieldSignature_unique L.idna hsig h1
    rw [queryFor_unique hq h4] at hres
    rw [hres] at h5
    injection h5 with h5
    subst h5
    have hlast : txts.getLast? = (firstTwoAndLast txts).getLast? := by
      match txts with
      | [] => rfl
      | [a] => rfl
      | [a, b] => rfl
      | a :: b :: c :: rest =>
        simp only [firstTwoAndLast, List.getLast?_cons_cons, List.getLast?_singleton]
        exact List.getLast?_eq_some_getLast (by simp)
    have hmem : ∀ t ∈ txts.take 2 ++ txts.getLast?.toList, t ∈ firstTwoAndLast txts := by
      intro t ht
      rw [List.mem_append] at ht
      rcases ht with ht | ht
      · match txts with
        | [] => simp at ht
        | [a] => simpa [firstTwoAndLast] using ht
        | [a, b] => simpa [firstTwoAndLast] using ht
        | a :: b :: c :: rest =>
          simp only [List.take_succ_cons, List.take_zero, List.mem_cons, List.not_mem_nil, or_false] at ht
          simp only [firstTwoAndLast, List.mem_cons]
          rcases ht with rfl | rfl
          · exact .inl rfl
          · exact .inr (.inl rfl)
      · rw [hlast, Option.mem_toList] at ht
        exact List.mem_of_getLast? ht
    refine ⟨o, h2, .inr ⟨?_, txt, e, rec, ?_, h8, rfl⟩⟩
    · intro t ht rec'
      have := hmem t ht
      rw [h6, List.mem_append, List.mem_singleton] at this
      rcases this with this | rfl
      · obtain ⟨e, r, ho⟩ := h7 t this
        exact outcome_exclusive ho
      · exact outcome_exclusive h8
    · rw [hlast, h6]
      simp

end Dkim
