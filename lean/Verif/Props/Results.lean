import Verif.Props.Success
import Verif.Props.VerifierCases

/-!
# Properties C80 to C82: what a result tells

C80: which results show a signature and a key record. C81: temporary errors are exactly the
failed lookups. C82: the results are exactly the specified ones.
-/

namespace Dkim

open Spec

variable {E : Env}

/-! ## C82 -/

/-- C82: the result for a DKIM-Signature field that is evaluated is the specified one and no
other. (`Judged` in `Verif/Spec/Verifier.lean` specifies the result case by case.) -/
theorem C82_exactly (L : Lawful E) {resolver : Resolver} {cfg : Config} {clock : Nat → Int}
    (T : TypedTimes cfg clock) {headers : List Field} {chunks : List Bytes} {results : List VerificationResult}
    {asked : List Str} (h : Run E resolver cfg clock headers chunks results asked) (i : Nat) (f : Field)
    (hf : (i, f) ∈ dkimFields cfg.maxSignatures headers) (r : VerificationResult) :
    (r ∈ results ∧ r.index = i) ↔ Judged E resolver cfg (clock i) headers chunks.flatten i f r := by
  obtain ⟨_, h2, h3⟩ := verify_judged L T h
  constructor
  · rintro ⟨hr, rfl⟩
    exact h3 r hr f hf
  · intro hj
    obtain ⟨r', hr', rfl⟩ := h2 i f hf
    have := (h3 r' hr' f hf).unique L.idna hj
    exact ⟨this ▸ hr', by rw [← this]⟩

/-- C82: for every message with a DKIM-Signature field to be evaluated there is a run, so that
there is exactly one specified result for each such field. -/
theorem C82_run (L : Lawful E) (resolver : Resolver) {cfg : Config} {clock : Nat → Int}
    (T : TypedTimes cfg clock) (headers : List Field) (chunks : List Bytes)
    (hne : dkimFields cfg.maxSignatures headers ≠ []) :
    ∃ results asked, Run E resolver cfg clock headers chunks results asked ∧
      ∀ i f, (i, f) ∈ dkimFields cfg.maxSignatures headers →
        ∃ r ∈ results, ∀ r', Judged E resolver cfg (clock i) headers chunks.flatten i f r' ↔ r' = r := by
  obtain ⟨o, asked, h1, h2⟩ := C50_no_panic L resolver cfg clock T headers
  have ho := (C38_verifier_exists L resolver cfg clock T headers o asked h1).1.2
    ((dkimFields_ne_nil _ _).1 hne)
  obtain ⟨v, rfl⟩ := Option.ne_none_iff_exists'.1 ho
  obtain ⟨v', ss, results, h3, h4⟩ := h2 v rfl chunks
  have hrun : Run E resolver cfg clock headers chunks results asked := ⟨v, v', ss, h1, h3, h4⟩
  refine ⟨results, asked, hrun, fun i f hf => ?_⟩
  obtain ⟨r, hr, hi⟩ := (verify_judged L T hrun).2.1 i f hf
  have hj := (C82_exactly L T hrun i f hf r).1 ⟨hr, hi⟩
  exact ⟨r, hr, fun r' => ⟨fun h' => h'.unique L.idna hj, fun e => e ▸ hj⟩⟩

/-! ## C80 -/

/-- Errors of the checks that are made before a key record is looked up, and of the lookup. -/
def Spec.errorsWithoutRecord : List VerificationError :=
  [.policy .requiredHeaderNotSigned, .policy .unsignedHeaderOccurrence, .overflow, .policy .signatureExpired,
   .policy .timestampInFuture, .policy .sha1HashAlgorithm,
   .noKeyFound, .invalidKeyDomain, .timeout, .keyLookup]

/-- Errors that concern a key record that could be read, or the body. -/
def Spec.errorsWithRecord : List VerificationError :=
  [.wrongKeyType, .keyRevoked, .disallowedHashAlgorithm, .domainMismatch, .verificationFailure .invalidKey,
   .verificationFailure .insufficientKeySize, .policy .keyTooSmall, .verificationFailure .verificationFailure,
   .insufficientContent, .policy .unsignedContent, .bodyHashMismatch]

theorem Spec.FirstFailure.mem_errors {cs : List Check} {e : VerificationError} (h : FirstFailure cs e) :
    e ∈ cs.map (·.error) := by
  obtain ⟨before, c, after, rfl, _, _, rfl⟩ := h
  simp

theorem bodyStatus_cases (cfg : Config) (sig : DkimSignature) (body : Bytes) :
    bodyStatus E cfg sig body = .success ∨
      ∃ e ∈ errorsWithRecord, bodyStatus E cfg sig body = .failure e := by
  unfold bodyStatus
  cases sig.bodyLength with
  | none =>
    dsimp only
    split
    · exact .inl rfl
    · exact .inr ⟨_, by simp [errorsWithRecord], rfl⟩
  | some n =>
    dsimp only
    split
    · exact .inr ⟨_, by simp [errorsWithRecord], rfl⟩
    · split
      · exact .inr ⟨_, by simp [errorsWithRecord], rfl⟩
      · split
        · exact .inl rfl
        · exact .inr ⟨_, by simp [errorsWithRecord], rfl⟩

theorem Spec.Judged.shown {resolver : Resolver} {cfg : Config} {now : Int} {headers : List Field} {body : Bytes}
    {i : Nat} {f : Field} {r : VerificationResult} (h : Judged E resolver cfg now headers body i f r) :
    (r.signature = none ∧ r.keyRecord = none ∧ ∃ e, r.status = .failure (.dkimSignatureFormat e)) ∨
    (r.signature ≠ none ∧ r.keyRecord = none ∧
      ((∃ e ∈ errorsWithoutRecord, r.status = .failure e) ∨ ∃ k, r.status = .failure (.keyRecordFormat k))) ∨
    (r.signature ≠ none ∧ r.keyRecord ≠ none ∧
      (r.status = .success ∨ ∃ e ∈ errorsWithRecord, r.status = .failure e)) := by
  cases h with
  | unparsed e h1 h2 => exact .inl ⟨rfl, rfl, e, rfl⟩
  | rejected v s e h1 h2 =>
    refine .inr (.inl ⟨by simp, rfl, .inl ⟨e, ?_, rfl⟩⟩)
    have := h2.mem_errors
    simp only [signatureChecks, List.map_cons, List.map_nil] at this
    simp only [errorsWithoutRecord, List.mem_cons, List.not_mem_nil, or_false] at this ⊢
    rcases this with h | h | h | h | h | h <;> simp [h]
  | noAnswer v s n e h1 h2 h3 h4 =>
    refine .inr (.inl ⟨by simp, rfl, .inl ⟨lookupError e, ?_, rfl⟩⟩)
    cases e <;> simp [lookupError, errorsWithoutRecord]
  | noRecords v s n h1 h2 h3 h4 =>
    exact .inr (.inl ⟨by simp, rfl, .inl ⟨_, by simp [errorsWithoutRecord], rfl⟩⟩)
  | verified v o s n ts before after txt rec h1 h2 h3 h4 h5 h6 h7 h8 =>
    exact .inr (.inr ⟨by simp, by simp, bodyStatus_cases cfg s body⟩)
  | unverified v o s n ts before txt e rec h1 h2 h3 h4 h5 h6 h7 h8 =>
    cases rec with
    | none =>
      obtain ⟨_, k, rfl, _⟩ := h8
      exact .inr (.inl ⟨by simp, rfl, .inr ⟨k, rfl⟩⟩)
    | some rec =>
      refine .inr (.inr ⟨by simp, by simp, .inr ⟨e, ?_, rfl⟩⟩)
      have := h8.2.mem_errors
      simp only [recordChecks, List.map_cons, List.map_nil] at this
      simp only [errorsWithRecord, List.mem_cons, List.not_mem_nil, or_false] at this ⊢
      rcases this with h | h | h | h | h | h | h | h <;> simp [h]

/-- C80: a result shows a signature exactly if its field is a signature, and it is that one;
this is the case exactly if the status is not that the format is wrong. -/
theorem C80_signature (L : Lawful E) {resolver : Resolver} {cfg : Config} {clock : Nat → Int}
    (T : TypedTimes cfg clock) {headers : List Field} {chunks : List Bytes} {results : List VerificationResult}
    {asked : List Str} (h : Run E resolver cfg clock headers chunks results asked) (r : VerificationResult)
    (hr : r ∈ results) (f : Field) (hf : headers[r.index]? = some f) :
    (∀ sig, r.signature = some sig ↔ ∃ value, FieldSignature E f value sig) ∧
    (r.signature = none ↔ ∃ e, r.status = .failure (.dkimSignatureFormat e)) := by
  have hj := h.judged L T hr hf
  refine ⟨fun sig => ?_, ?_⟩
  · clear hr hf
    generalize r.index = i at hj
    cases hj with
    | unparsed e h1 h2 => exact ⟨nofun, fun ⟨v, hv⟩ => absurd hv (h1 v sig)⟩
    | rejected v s e h1 h2 =>
      exact ⟨fun e => ⟨v, by cases e; exact h1⟩, fun ⟨v', hv⟩ => by rw [(fieldSignature_unique L.idna hv h1).2]⟩
    | noAnswer v s n e h1 h2 h3 h4 =>
      exact ⟨fun e => ⟨v, by cases e; exact h1⟩, fun ⟨v', hv⟩ => by rw [(fieldSignature_unique L.idna hv h1).2]⟩
    | noRecords v s n h1 h2 h3 h4 =>
      exact ⟨fun e => ⟨v, by cases e; exact h1⟩, fun ⟨v', hv⟩ => by rw [(fieldSignature_unique L.idna hv h1).2]⟩
    | verified v o s n ts before after txt rec h1 h2 h3 h4 h5 h6 h7 h8 =>
      exact ⟨fun e => ⟨v, by cases e; exact h1⟩, fun ⟨v', hv⟩ => by rw [(fieldSignature_unique L.idna hv h1).2]⟩
    | unverified v o s n ts before txt e rec h1 h2 h3 h4 h5 h6 h7 h8 =>
      exact ⟨fun e => ⟨v, by cases e; exact h1⟩, fun ⟨v', hv⟩ => by rw [(fieldSignature_unique L.idna hv h1).2]⟩
  · rcases hj.shown with ⟨h1, _, h3⟩ | ⟨h1, _, h3⟩ | ⟨h1, _, h3⟩
    · exact ⟨fun _ => h3, fun _ => h1⟩
    · refine ⟨fun h => absurd h h1, ?_⟩
      rintro ⟨e, he⟩
      rw [he] at h3
      simp [errorsWithoutRecord] at h3
    · refine ⟨fun h => absurd h h1, ?_⟩
      rintro ⟨e, he⟩
      rw [he] at h3
      simp [errorsWithRecord] at h3

/-- C80: a result shows a key record exactly if the status is success or a failure that concerns
the use of a key record or the body. -/
theorem C80_record (L : Lawful E) {resolver : Resolver} {cfg : Config} {clock : Nat → Int}
    (T : TypedTimes cfg clock) {headers : List Field} {chunks : List Bytes} {results : List VerificationResult}
    {asked : List Str} (h : Run E resolver cfg clock headers chunks results asked) (r : VerificationResult)
    (hr : r ∈ results) :
    r.keyRecord ≠ none ↔ r.status = .success ∨ ∃ e ∈ errorsWithRecord, r.status = .failure e := by
  obtain ⟨f, _, hj⟩ := (verify_judged L T h).1 r hr
  rcases hj.shown with ⟨_, h1, e, h3⟩ | ⟨_, h1, ⟨e, he, h3⟩ | ⟨k, h3⟩⟩ | ⟨_, h1, h3⟩
  · simp [h1, h3, errorsWithRecord]
  · simp only [h1, h3]
    simp only [errorsWithoutRecord, List.mem_cons, List.not_mem_nil, or_false] at he
    rcases he with h | h | h | h | h | h | h | h | h | h <;> simp [h, errorsWithRecord]
  · simp [h1, h3, errorsWithRecord]
  · exact ⟨fun _ => h3, fun _ => h1⟩

/-- C80: a key record that is shown is one of the first two or the last that the DNS returned
for the domain and selector of the signature that is shown. -/
theorem C80_record_from_dns (L : Lawful E) {resolver : Resolver} {cfg : Config} {clock : Nat → Int}
    (T : TypedTimes cfg clock) {headers : List Field} {chunks : List Bytes} {results : List VerificationResult}
    {asked : List Str} (h : Run E resolver cfg clock headers chunks results asked) (r : VerificationResult)
    (hr : r ∈ results) (record : KeyRecord) (hrec : r.keyRecord = some record) :
    ∃ sig name txts txt, r.signature = some sig ∧ QueryFor E sig name ∧ name ∈ asked ∧
      (resolver name).result = .ok txts ∧ txt ∈ firstTwoAndLast txts ∧ TxtRecord E txt record := by
  obtain ⟨f, hf, hj⟩ := (verify_judged L T h).1 r hr
  have hasked : ∀ {sig name}, (∃ value, FieldSignature E f value sig) →
      AllPass (signatureChecks E cfg (unixTime cfg (clock r.index)) headers sig) → QueryFor E sig name →
      name ∈ asked := by
    rintro sig name ⟨value, h1⟩ h2 ⟨d, s, hd, hs, rfl⟩
    obtain ⟨pairs, _, rfl, hp⟩ := C48_queries L T h
    exact List.mem_map.2 ⟨(d, s), (hp d s).2 ⟨r.index, f, value, sig, hf, h1, h2, hd, hs⟩, rfl⟩
  generalize r.index = i at hj hasked
  cases hj with
  | unparsed | rejected | noAnswer | noRecords => simp at hrec
  | verified v o s n ts before after txt rec h1 h2 h3 h4 h5 h6 h7 h8 =>
    cases hrec
    exact ⟨s, n, ts, txt, rfl, h4, hasked ⟨v, h1⟩ h3 h4, h5, by simp [h6], h8.1⟩
  | unverified v o s n ts before txt e rec h1 h2 h3 h4 h5 h6 h7 h8 =>
    cases hrec
    exact ⟨s, n, ts, txt, rfl, h4, hasked ⟨v, h1⟩ h3 h4, h5, by simp [h6], h8.1⟩

/-! ## C81 -/

/-- C81: a result is a temporary error exactly if the field is a signature that passes the
initial checks, and the lookup of its key records failed for another reason than that there
are none or that the name is invalid. -/
theorem C81_temperror (L : Lawful E) {resolver : Resolver} {cfg : Config} {clock : Nat → Int}
    (T : TypedTimes cfg clock) {headers : List Field} {chunks : List Bytes} {results : List VerificationResult}
    {asked : List Str} (h : Run E resolver cfg clock headers chunks results asked) (r : VerificationResult)
    (hr : r ∈ results) (f : Field) (hf : headers[r.index]? = some f) :
    r.status.toDkimResult = .temperror ↔
      ∃ value sig name e, FieldSignature E f value sig ∧
        AllPass (signatureChecks E cfg (unixTime cfg (clock r.index)) headers sig) ∧ QueryFor E sig name ∧
        (resolver name).result = .error e ∧ e ≠ .notFound ∧ e ≠ .invalidInput := by
  have hj := h.judged L T hr hf
  rw [C46_temperror]
  constructor
  · intro hs
    generalize r.index = i at hj
    cases hj with
    | unparsed e h1 h2 => simp at hs
    | rejected v s e h1 h2 =>
      have := h2.mem_errors
      simp only [signatureChecks, List.map_cons, List.map_nil, List.mem_cons, List.not_mem_nil, or_false] at this
      rcases this with h | h | h | h | h | h <;> simp [h] at hs
    | noAnswer v s n e h1 h2 h3 h4 =>
      refine ⟨v, s, n, e, h1, h2, h3, h4, ?_⟩
      cases e <;> simp [lookupError] at hs ⊢
    | noRecords v s n h1 h2 h3 h4 => simp at hs
    | verified v o s n ts before after txt rec h1 h2 h3 h4 h5 h6 h7 h8 =>
      rcases bodyStatus_cases (E := E) cfg s chunks.flatten with h | ⟨e, he, h⟩
      · simp [h] at hs
      · simp only [errorsWithRecord, List.mem_cons, List.not_mem_nil, or_false] at he
        rcases he with g | g | g | g | g | g | g | g | g | g | g <;> simp [h, g] at hs
    | unverified v o s n ts before txt e rec h1 h2 h3 h4 h5 h6 h7 h8 =>
      cases rec with
      | none =>
        obtain ⟨_, k, rfl, _⟩ := h8
        simp at hs
      | some rec =>
        have := h8.2.mem_errors
        simp only [recordChecks, List.map_cons, List.map_nil, List.mem_cons, List.not_mem_nil, or_false] at this
        rcases this with h | h | h | h | h | h | h | h <;> simp [h] at hs
  · rintro ⟨value, sig, name, e, h1, h2, h3, h4, h5, h6⟩
    have := hj.unique L.idna (.noAnswer value sig name e h1 h2 h3 h4)
    rw [this]
    cases e <;> simp [lookupError] at h5 h6 ⊢

/-! ## Concrete cases -/

/-- Non-vacuity of C80 and C82: a run with a success, which shows signature and key record. -/
example : ∃ results asked, Run testEnv testResolver .default (fun _ => 1500) testMessage testBody results asked ∧
    ∃ r ∈ results, r.index = 0 ∧ r.keyRecord ≠ none ∧ r.signature ≠ none := by
  obtain ⟨results, asked, h, r, hr, hi, hs⟩ := result_of_statuses test_success (List.mem_cons_self ..)
  have T := typed_default (t := 1500) (by decide) .default rfl
  refine ⟨results, asked, h, r, hr, hi, (C80_record testEnv_lawful T h r hr).2 (.inl hs), fun e => ?_⟩
  have hf : testMessage[r.index]? = some ⟨c!"DKIM-Signature", utf8 testSig1⟩ := by rw [hi]; rfl
  obtain ⟨d, hd⟩ := (C80_signature testEnv_lawful T h r hr _ hf).2.1 e
  rw [hs] at hd
  cases hd

/-- Non-vacuity of C81: a run with a temporary error. -/
example : ∃ results asked, Run testEnv (fun _ => ⟨0, .error .timedOut⟩) .default (fun _ => 1500) testMessage testBody
    results asked ∧ ∃ r ∈ results, r.index = 0 ∧ r.status.toDkimResult = .temperror := by
  obtain ⟨results, asked, h, r, hr, hi, hs⟩ := result_of_statuses test_timeout (List.mem_cons_self ..)
  exact ⟨results, asked, h, r, hr, hi, by rw [hs]; rfl⟩

/-! ## C69 for runs -/

theorem fieldDefect_noSignature (law : CaseLaw E.idna) {f : Field} {e : SigError} (h : FieldDefect E f e) :
    ∀ value sig, ¬ FieldSignature E f value sig := by
  rintro v sig ⟨hv, hs⟩
  rcases h with ⟨h, _⟩ | ⟨s, h1, h2⟩
  · exact h v hv
  · have : s = v := utf8_injective (h1.symm.trans hv)
    subst this
    have h3 := (C54_error_exact E.idna law E.pre s e).2 h2
    have h4 := (C30_parse_exact E.idna law E.pre s sig).2 hs
    rw [h3] at h4
    cases h4

/-- A failure about the format of a signature is reported exactly if the field has the
defect. -/
theorem format_reported (L : Lawful E) {resolver : Resolver} {cfg : Config} {clock : Nat → Int}
    (T : TypedTimes cfg clock) {headers : List Field} {chunks : List Bytes} {results : List VerificationResult}
    {asked : List Str} (h : Run E resolver cfg clock headers chunks results asked) (r : VerificationResult)
    (hr : r ∈ results) (f : Field) (hf : headers[r.index]? = some f) (e : SigError) :
    r.status = .failure (.dkimSignatureFormat e) ↔ FieldDefect E f e := by
  refine ⟨C54_reported L T h r hr f hf e, fun hd => ?_⟩
  have hj := h.judged L T hr hf
  have := hj.unique L.idna (.unparsed e (fieldDefect_noSignature L.idna hd) hd)
  rw [this]

/-- C69, for a run: the result is `neutral` exactly if the field has a defect that makes it
impossible to interpret it, or its body length does not fit the machine, or the last key
record of the answer decides and has such a defect. -/
theorem C69_neutral_run (L : Lawful E) {resolver : Resolver} {cfg : Config} {clock : Nat → Int}
    (T : TypedTimes cfg clock) {headers : List Field} {chunks : List Bytes} {results : List VerificationResult}
    {asked : List Str} (h : Run E resolver cfg clock headers chunks results asked) (r : VerificationResult)
    (hr : r ∈ results) (f : Field) (hf : headers[r.index]? = some f) :
    r.status.toDkimResult = .neutral ↔
      (∃ e, FieldDefect E f e ∧ e.kind ∈ uninterpretable) ∨ r.status = .failure .overflow ∨
      ∃ k sig name txts txt, r.status = .failure (.keyRecordFormat k) ∧ r.signature = some sig ∧
        QueryFor E sig name ∧ (resolver name).result = .ok txts ∧ txts.getLast? = some txt ∧
        TxtDefect E txt k ∧ k ∈ uninterpretableRecord := by
  rw [C69_neutral]
  refine or_congr ?_ (or_congr Iff.rfl ?_)
  · simp only [format_reported L T h r hr f hf]
  · constructor
    · rintro ⟨k, hk, hm⟩
      obtain ⟨sig, name, txts, txt, h1, h2, h3, h4, h5⟩ := C55_reported L T h r hr k hk
      exact ⟨k, sig, name, txts, txt, hk, h1, h2, h3, h4, h5, hm⟩
    · rintro ⟨k, _, _, _, _, hk, _, _, _, _, _, hm⟩
      exact ⟨k, hk, hm⟩

/-- C69, for a run: the result is `permerror` exactly if the field has a defect that rules out
a valid signature, or a permanent error with the key or the body is reported. -/
theorem C69_permerror_run (L : Lawful E) {resolver : Resolver} {cfg : Config} {clock : Nat → Int}
    (T : TypedTimes cfg clock) {headers : List Field} {chunks : List Bytes} {results : List VerificationResult}
    {asked : List Str} (h : Run E resolver cfg clock headers chunks results asked) (r : VerificationResult)
    (hr : r ∈ results) (f : Field) (hf : headers[r.index]? = some f) :
    r.status.toDkimResult = .permerror ↔
      (∃ e, FieldDefect E f e ∧ e.kind ∈ ruledOut) ∨ ∃ e ∈ permanent, r.status = .failure e := by
  rw [C69_permerror]
  exact or_congr (by simp only [format_reported L T h r hr f hf]) Iff.rfl

end Dkim
