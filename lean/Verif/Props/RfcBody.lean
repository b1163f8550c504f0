import Verif.Props.Appended

/-!
# Property C90: verdicts about bodies compared with those of RFC 6376
-/

namespace Dkim

open Spec

/-- The verdict about the body according to RFC 6376, with the extension that unsigned content
may be forbidden: the hash of the canonical form, or of its first `l=` bytes, is the one in
the signature. -/
def Spec.rfcBodyStatus (E : Env) (cfg : Config) (sig : DkimSignature) (body : Bytes) : VerificationStatus :=
  let cb := rfcBody sig.canonicalization.body body
  let part := match sig.bodyLength with
    | none => cb
    | some n => cb.take n
  if cb.length < sig.bodyLength.getD 0 then .failure .insufficientContent
  else if cfg.forbidUnsignedContent = true ∧ part ≠ cb then .failure (.policy .unsignedContent)
  else if E.hash (hashOf sig.algorithm) part = sig.bodyHash then .success
  else .failure .bodyHashMismatch

/-- A body that is treated as RFC 6376 says: not only CRLFs, when canonicalized with simple; no
whitespace alone after the last CRLF, when canonicalized with relaxed. -/
def Spec.Regular : CanonAlg → Bytes → Prop
  | .simple, body => body = [] ∨ ¬ BlankLines .simple body
  | .relaxed, body => ∀ front space, body = front ++ space → (front = [] ∨ b!"\r\n" <:+ front) →
      (∀ b ∈ space, isWsp b = true) → space = []

variable {E : Env}

theorem blankLines_simple_iff (body : Bytes) : BlankLines .simple body ↔ ∀ l ∈ bodyLines body, l = [] := by
  rw [blankLines_iff]
  have hb : ∀ l : Bytes, blankLine .simple l ↔ l = [] := by
    intro l
    cases l with
    | nil => simp [blankLine]
    | cons b l =>
      simp only [reduceCtorEq, iff_false]
      intro hall
      exact absurd (hall b (by simp)).1 (by simp)
  simp only [hb, bodyLines]
  by_cases hx : (splitLines body).2 = []
  · simp [hx]
  · simp only [hx, if_false, false_and, false_iff]
    intro hall
    exact hx (hall _ (by simp))

theorem splitLines_noCrlf_only {l : Bytes} (h : ∀ b ∈ l, isWsp b = true) : splitLines l = ([], l) :=
  blankLine_noCrlf (k := .relaxed) (fun b hb => ⟨rfl, h b hb⟩)

theorem regular_relaxed_iff (body : Bytes) : Regular .relaxed body ↔
    ((splitLines body).2 = [] ∨ ∃ b ∈ (splitLines body).2, ¬ isWsp b) := by
  constructor
  · intro h
    apply Classical.byContradiction
    intro hc
    rw [not_or] at hc
    apply hc.1
    apply h (joinLines (splitLines body).1) _ (splitLines_complete body).symm
    · rcases hls : (splitLines body).1 with _ | ⟨l, ls⟩
      · exact .inl rfl
      · right
        have hne : l :: ls ≠ [] := by simp
        rw [← List.dropLast_concat_getLast hne, joinLines_append]
        exact ⟨joinLines (l :: ls).dropLast ++ (l :: ls).getLast hne, by simp [joinLines]⟩
    · intro b hb
      exact Classical.byContradiction fun hn => hc.2 ⟨b, hb, hn⟩
  · rintro h front space rfl hfront hspace
    have hs := splitLines_noCrlf_only hspace
    have e : (splitLines (front ++ space)).2 = space := by
      rcases hfront with rfl | hf
      · rw [List.nil_append, hs]
      · rw [(splitLines_append_of_ends hf space).2.2, hs]
    rw [e] at h
    rcases h with h | ⟨b, hb, hn⟩
    · exact h
    · exact absurd (hspace b hb) hn

theorem regular_iff (k : CanonAlg) (body : Bytes) : Regular k body ↔ codeBody k body = rfcBody k body := by
  cases k with
  | simple =>
    have h := C02_rfc_iff [body]
    rw [C02_simple_body_exact, Option.some.injEq] at h
    simp only [List.flatten_cons, List.flatten_nil, List.append_nil] at h
    simp only [codeBody, rfcBody, Regular, h, blankLines_simple_iff]
    simp
  | relaxed =>
    have h := C03_rfc_iff [body]
    rw [C03_relaxed_body_exact, Option.some.injEq] at h
    simp only [List.flatten_cons, List.flatten_nil, List.append_nil] at h
    simp only [codeBody, rfcBody, h, regular_relaxed_iff]

/-- C90: canonicalization does what RFC 6376 says exactly for regular bodies. -/
theorem C90_canonical_iff (k : CanonAlg) (chunks : List Bytes) :
    canonBody k chunks = some (rfcBody k chunks.flatten) ↔ Regular k chunks.flatten := by
  rw [canonBody_codeBody, Option.some.injEq, regular_iff]

/-- C90: every body that ends with CRLF, and is not made of CRLFs only, is regular. -/
theorem C90_regular (k : CanonAlg) (body : Bytes) (hend : b!"\r\n" <:+ body)
    (h : ¬ BlankLines .simple body) : Regular k body := by
  cases k with
  | simple => exact .inr h
  | relaxed =>
    rw [regular_relaxed_iff]
    exact .inl (splitLines_append_of_ends hend []).2.1

theorem rfcBodyStatus_eq {cfg : Config} {sig : DkimSignature} {body : Bytes}
    (h : Regular sig.canonicalization.body body) : rfcBodyStatus E cfg sig body = bodyStatus E cfg sig body := by
  rw [regular_iff] at h
  unfold rfcBodyStatus bodyStatus
  rw [← h]
  generalize codeBody sig.canonicalization.body body = cb
  cases hb : sig.bodyLength with
  | none => simp
  | some n =>
    simp only [Option.getD_some]
    by_cases h1 : cb.length < n
    · simp [h1]
    · simp only [h1, if_false]
      have e : cb.take n ≠ cb ↔ n < cb.length := by
        constructor
        · intro hne
          apply Classical.byContradiction
          intro hlt
          exact hne (List.take_of_length_le (Nat.not_lt.1 hlt))
        · intro hlt heq
          have := congrArg List.length heq
          rw [List.length_take] at this
          omega
      by_cases h2 : n < cb.length
      · simp only [e, h2, true_and, and_true]
      · simp only [e, h2, false_and, and_false, if_false]

/-- C90: for a regular body, if all that does not concern the body is in order, the result is
the verdict about the body according to RFC 6376. -/
theorem C90_verdict (L : Lawful E) {resolver : Resolver} {cfg : Config} {clock : Nat → Int}
    (T : TypedTimes cfg clock) {headers : List Field} {chunks : List Bytes} {results : List VerificationResult}
    {asked : List Str} (h : Run E resolver cfg clock headers chunks results asked) (r : VerificationResult)
    (hr : r ∈ results) (f : Field) (hf : headers[r.index]? = some f) (sig : DkimSignature) (record : KeyRecord)
    (hv : HeaderVerified E resolver cfg (clock r.index) headers f sig record)
    (hb : Regular sig.canonicalization.body chunks.flatten) :
    r.status = rfcBodyStatus E cfg sig chunks.flatten := by
  rw [((h.judged L T hr hf).of_headerVerified L.idna hv).1, rfcBodyStatus_eq hb]

/-- C90: for regular bodies, a signature succeeds exactly if all that does not concern the body
is in order, and the verdict about the body according to RFC 6376 is success. -/
theorem C90_success_iff (L : Lawful E) {resolver : Resolver} {cfg : Config} {clock : Nat → Int}
    (T : TypedTimes cfg clock) {headers : List Field} {chunks : List Bytes} {results : List VerificationResult}
    {asked : List Str} (h : Run E resolver cfg clock headers chunks results asked) (r : VerificationResult)
    (hr : r ∈ results) (f : Field) (hf : headers[r.index]? = some f)
    (hb : ∀ k, Regular k chunks.flatten) :
    r.status = .success ↔ ∃ sig record, HeaderVerified E resolver cfg (clock r.index) headers f sig record ∧
      rfcBodyStatus E cfg sig chunks.flatten = .success := by
  constructor
  · intro hs
    obtain ⟨f', sig, record, h1, h2, h3⟩ := headerVerified_of_success L T h r hr hs
    rw [hf, Option.some.injEq] at h1
    subst h1
    exact ⟨sig, record, h3, by rw [← C90_verdict L T h r hr f hf sig record h3 (hb _), hs]⟩
  · rintro ⟨sig, record, h3, h4⟩
    rw [C90_verdict L T h r hr f hf sig record h3 (hb _), h4]

/-! Concrete cases, and the bodies that are not regular. -/

/-- A signature of the empty body. -/
def testSig4 : Str :=
  c!" v=1; a=ed25519-sha256; d=example.com; s=e; c=simple/simple; b=" ++ encodeBase64 (List.replicate 64 6) ++
    c!";\r\n h=from; bh=" ++ encodeBase64 [112, 2]

/-- A signature of a body with relaxed canonicalization. -/
def testSig5 : Str :=
  c!" v=1; a=ed25519-sha256; d=example.com; s=e; c=simple/relaxed; b=" ++ encodeBase64 (List.replicate 64 230) ++
    c!";\r\n h=from; bh=" ++ encodeBase64 [88, 5]

def testSimple : List Field := [⟨c!"DKIM-Signature", utf8 testSig4⟩, ⟨c!"From", b!" me"⟩]
def testRelaxed : List Field := [⟨c!"DKIM-Signature", utf8 testSig5⟩, ⟨c!"From", b!" me"⟩]

/-- Non-vacuity: a regular body, for both algorithms. -/
example : ∀ k, Regular k testBody.flatten := by
  intro k
  apply C90_regular k _ ⟨b!"abc", rfl⟩
  rw [blankLines_simple_iff]
  intro h
  exact absurd (h b!"abc" (by decide)) (by decide)

set_option maxRecDepth 100000 in
theorem testSig4_parsed (value : Str) (sig : DkimSignature)
    (h : FieldSignature testEnv ⟨c!"DKIM-Signature", utf8 testSig4⟩ value sig) :
    sig.bodyLength = none ∧ sig.canonicalization = ⟨.simple, .simple⟩ ∧ sig.bodyHash = [112, 2] := by
  have hv : value = testSig4 := utf8_injective h.1.symm
  subst hv
  have h5 := (sigFromStr_iff testEnv_lawful.idna testEnv.pre testSig4 sig).2 h.2
  have : (match sigFromStr testEnv.idna testEnv.pre testSig4 with
    | .ok s => some (s.bodyLength, s.canonicalization, s.bodyHash)
    | _ => none) = some (none, ⟨.simple, .simple⟩, [112, 2]) := by rfl
  rw [h5] at this
  simp only [Option.some.injEq, Prod.mk.injEq] at this
  exact this

set_option maxRecDepth 100000 in
theorem testSig5_parsed (value : Str) (sig : DkimSignature)
    (h : FieldSignature testEnv ⟨c!"DKIM-Signature", utf8 testSig5⟩ value sig) :
    sig.bodyLength = none ∧ sig.canonicalization = ⟨.simple, .relaxed⟩ ∧ sig.bodyHash = [88, 5] := by
  have hv : value = testSig5 := utf8_injective h.1.symm
  subst hv
  have h5 := (sigFromStr_iff testEnv_lawful.idna testEnv.pre testSig5 sig).2 h.2
  have : (match sigFromStr testEnv.idna testEnv.pre testSig5 with
    | .ok s => some (s.bodyLength, s.canonicalization, s.bodyHash)
    | _ => none) = some (none, ⟨.simple, .relaxed⟩, [88, 5]) := by rfl
  rw [h5] at this
  simp only [Option.some.injEq, Prod.mk.injEq] at this
  exact this

set_option maxRecDepth 100000 in
/-- C90: for bodies that are not regular the verdicts differ: a message with the body CRLF, signed
according to RFC 6376 with simple canonicalization, fails; and so does a message with a space
behind the last CRLF, signed according to RFC 6376 with relaxed canonicalization. -/
theorem C90_irregular :
    (∃ results asked r sig record,
      Run testEnv testResolver .default (fun _ => 1500) testSimple [b!"\r\n"] results asked ∧ r ∈ results ∧
      HeaderVerified testEnv testResolver .default 1500 testSimple ⟨c!"DKIM-Signature", utf8 testSig4⟩ sig record ∧
      rfcBodyStatus testEnv .default sig b!"\r\n" = .success ∧ r.status = .failure .bodyHashMismatch) ∧
    (∃ results asked r sig record,
      Run testEnv testResolver .default (fun _ => 1500) testRelaxed [b!"abc\r\n "] results asked ∧ r ∈ results ∧
      HeaderVerified testEnv testResolver .default 1500 testRelaxed ⟨c!"DKIM-Signature", utf8 testSig5⟩ sig record ∧
      rfcBodyStatus testEnv .default sig b!"abc\r\n " = .success ∧ r.status = .failure .bodyHashMismatch) := by
  constructor
  · have e : statuses testEnv testResolver .default 1500 testSimple [] = some [(0, .success)] := by rfl
    have e' : statuses testEnv testResolver .default 1500 testSimple [b!"\r\n"]
        = some [(0, .failure .bodyHashMismatch)] := by rfl
    obtain ⟨results, asked, h, r, hr, hi, hs⟩ := result_of_statuses e (i := 0) (s := .success) (by simp)
    obtain ⟨results', asked', h', r', hr', hi', hs'⟩ := result_of_statuses e' (i := 0)
      (s := .failure .bodyHashMismatch) (by simp)
    obtain ⟨f, sig, record, h1, h2, h3⟩ := headerVerified_of_success testEnv_lawful
      (typed_default (by decide) _ rfl) h r hr hs
    have hf : f = ⟨c!"DKIM-Signature", utf8 testSig4⟩ := by
      rw [hi] at h1
      exact (Option.some.inj h1).symm
    subst hf
    refine ⟨results', asked', r', sig, record, h', hr', h3, ?_, hs'⟩
    obtain ⟨value, _, _, _, _, _, _, h4, _⟩ := h3
    obtain ⟨p1, p2, p3⟩ := testSig4_parsed value sig h4
    unfold rfcBodyStatus
    rw [p1, p2, p3]
    rfl
  · have e : statuses testEnv testResolver .default 1500 testRelaxed testBody = some [(0, .success)] := by rfl
    have e' : statuses testEnv testResolver .default 1500 testRelaxed [b!"abc\r\n "]
        = some [(0, .failure .bodyHashMismatch)] := by rfl
    obtain ⟨results, asked, h, r, hr, hi, hs⟩ := result_of_statuses e (i := 0) (s := .success) (by simp)
    obtain ⟨results', asked', h', r', hr', hi', hs'⟩ := result_of_statuses e' (i := 0)
      (s := .failure .bodyHashMismatch) (by simp)
    obtain ⟨f, sig, record, h1, h2, h3⟩ := headerVerified_of_success testEnv_lawful
      (typed_default (by decide) _ rfl) h r hr hs
    have hf : f = ⟨c!"DKIM-Signature", utf8 testSig5⟩ := by
      rw [hi] at h1
      exact (Option.some.inj h1).symm
    subst hf
    refine ⟨results', asked', r', sig, record, h', hr', h3, ?_, hs'⟩
    obtain ⟨value, _, _, _, _, _, _, h4, _⟩ := h3
    obtain ⟨p1, p2, p3⟩ := testSig5_parsed value sig h4
    unfold rfcBodyStatus
    rw [p1, p2, p3]
    rfl

end Dkim
