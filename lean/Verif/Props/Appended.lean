import Verif.Proofs.Appended
import Verif.Props.MonotoneCases

/-!
# Property C89: content appended to a message
-/

namespace Dkim

open Spec

variable {E : Env}

/-- C89: the canonical form of a body that ends with CRLF is continued when something is
appended to the body, and it stays the same exactly if only blank lines are appended. -/
theorem C89_continued (k : CanonAlg) (chunks chunks' : List Bytes) (extra out : Bytes)
    (hend : b!"\r\n" <:+ chunks.flatten) (happ : chunks'.flatten = chunks.flatten ++ extra)
    (h : canonBody k chunks = some out) :
    ∃ more, canonBody k chunks' = some (out ++ more) ∧ (more = [] ↔ BlankLines k extra) := by
  rw [canonBody_codeBody] at h ⊢
  injection h with h
  obtain ⟨more, e, hm⟩ := codeBody_append k hend extra
  exact ⟨more, by rw [happ, e, h], hm⟩

example : b!"\r\n" <:+ ([b!"a\r\n\r\n"] : List Bytes).flatten ∧
    canonBody .relaxed [b!"a\r\n\r\n"] = some b!"a\r\n" ∧
    canonBody .relaxed [b!"a\r\n\r\n", b!"b"] = some b!"a\r\n\r\nb\r\n" ∧
    canonBody .relaxed [b!"a\r\n\r\n", b!" \r\n"] = some b!"a\r\n" := by
  refine ⟨⟨b!"a\r\n", rfl⟩, by decide, by decide, by decide⟩

/-- The result for a field of which the signature succeeds, with another body. -/
theorem other_body (L : Lawful E) {resolver : Resolver} {cfg : Config} {clock : Nat → Int}
    (T : TypedTimes cfg clock) {headers : List Field} {chunks chunks' : List Bytes}
    {results results' : List VerificationResult} {asked asked' : List Str}
    (h : Run E resolver cfg clock headers chunks results asked)
    (h' : Run E resolver cfg clock headers chunks' results' asked') (r r' : VerificationResult)
    (hr : r ∈ results) (hr' : r' ∈ results') (hi : r.index = r'.index) (hs : r.status = .success)
    (sig : DkimSignature) (hsig : r.signature = some sig) :
    bodyStatus E cfg sig chunks.flatten = .success ∧
    r' = { r with status := bodyStatus E cfg sig chunks'.flatten } := by
  obtain ⟨_, e, _⟩ := h.eq L T
  obtain ⟨_, e', _⟩ := h'.eq L T
  rw [e, List.mem_map] at hr
  rw [e', List.mem_map] at hr'
  obtain ⟨p, hp, rfl⟩ := hr
  obtain ⟨p', hp', rfl⟩ := hr'
  rw [resultFor_index L resolver T, resultFor_index L resolver T] at hi
  have := nodup_map_inj (dkimFields_nodup _ _) hp hp' hi
  subst this
  unfold resultFor finalResult at hsig hs ⊢
  simp only at hsig hs
  simp only [hsig] at hs ⊢
  generalize (done E resolver headers cfg (start E headers cfg clock p)).status = st at hs ⊢
  cases st with
  | failed e => cases hs
  | _ => exact ⟨hs, rfl⟩

/-- C89: a signature with `l=` that succeeds goes on to succeed, whatever is appended to the
body, if content that is not signed is not forbidden. -/
theorem C89_accepted (L : Lawful E) {resolver : Resolver} {cfg : Config} {clock : Nat → Int}
    (T : TypedTimes cfg clock) {headers : List Field} {chunks chunks' : List Bytes}
    {results results' : List VerificationResult} {asked asked' : List Str}
    (h : Run E resolver cfg clock headers chunks results asked)
    (h' : Run E resolver cfg clock headers chunks' results' asked') (r r' : VerificationResult)
    (hr : r ∈ results) (hr' : r' ∈ results') (hi : r.index = r'.index) (hs : r.status = .success)
    (extra : Bytes) (hend : b!"\r\n" <:+ chunks.flatten) (happ : chunks'.flatten = chunks.flatten ++ extra)
    (hflag : cfg.forbidUnsignedContent = false) (sig : DkimSignature) (hsig : r.signature = some sig)
    (hlen : sig.bodyLength ≠ none) : r' = r := by
  obtain ⟨h1, rfl⟩ := other_body L T h h' r r' hr hr' hi hs sig hsig
  obtain ⟨more, e, _⟩ := codeBody_append sig.canonicalization.body hend extra
  rw [happ]
  have : bodyStatus E cfg sig (chunks.flatten ++ extra) = .success := by
    rw [← h1]
    unfold bodyStatus at h1 ⊢
    rw [e]
    cases hb : sig.bodyLength with
    | none => exact absurd hb hlen
    | some n =>
      simp only [hb, hflag, Bool.false_eq_true, and_false, if_false] at h1 ⊢
      by_cases hn : (codeBody sig.canonicalization.body chunks.flatten).length < n
      · rw [if_pos hn] at h1; cases h1
      · rw [if_neg hn, if_neg (by rw [List.length_append]; omega),
          List.take_append_of_le_length (Nat.not_lt.1 hn)]
  rw [this, ← hs]

/-- C89: if content that is not signed is forbidden, the signature goes on to succeed only if
nothing but blank lines is appended; otherwise the failure is that of unsigned content. -/
theorem C89_refused (L : Lawful E) {resolver : Resolver} {cfg : Config} {clock : Nat → Int}
    (T : TypedTimes cfg clock) {headers : List Field} {chunks chunks' : List Bytes}
    {results results' : List VerificationResult} {asked asked' : List Str}
    (h : Run E resolver cfg clock headers chunks results asked)
    (h' : Run E resolver cfg clock headers chunks' results' asked') (r r' : VerificationResult)
    (hr : r ∈ results) (hr' : r' ∈ results') (hi : r.index = r'.index) (hs : r.status = .success)
    (extra : Bytes) (hend : b!"\r\n" <:+ chunks.flatten) (happ : chunks'.flatten = chunks.flatten ++ extra)
    (hflag : cfg.forbidUnsignedContent = true) (sig : DkimSignature) (hsig : r.signature = some sig)
    (hlen : sig.bodyLength ≠ none) :
    (BlankLines sig.canonicalization.body extra → r' = r) ∧
    (¬ BlankLines sig.canonicalization.body extra →
      r' = { r with status := .failure (.policy .unsignedContent) }) := by
  obtain ⟨h1, rfl⟩ := other_body L T h h' r r' hr hr' hi hs sig hsig
  obtain ⟨more, e, hm⟩ := codeBody_append sig.canonicalization.body hend extra
  rw [happ]
  have key : bodyStatus E cfg sig (chunks.flatten ++ extra) =
      if more = [] then .success else .failure (.policy .unsignedContent) := by
    rw [← h1]
    unfold bodyStatus at h1 ⊢
    rw [e]
    cases hb : sig.bodyLength with
    | none => exact absurd hb hlen
    | some n =>
      simp only [hb, hflag, and_true] at h1 ⊢
      by_cases hn : (codeBody sig.canonicalization.body chunks.flatten).length < n
      · rw [if_pos hn] at h1; cases h1
      · rw [if_neg hn] at h1 ⊢
        by_cases hn' : n < (codeBody sig.canonicalization.body chunks.flatten).length
        · rw [if_pos hn'] at h1; cases h1
        · rw [if_neg hn'] at h1 ⊢
          by_cases hx : more = []
          · subst hx
            rw [List.append_nil, if_neg hn, if_neg hn', if_pos rfl]
          · have : 0 < more.length := List.length_pos_iff.2 hx
            rw [if_neg (by rw [List.length_append]; omega), if_pos (by rw [List.length_append]; omega), if_neg hx]
  constructor
  · intro hb
    rw [key, if_pos (hm.2 hb), ← hs]
  · intro hb
    rw [key, if_neg (fun hx => hb (hm.1 hx))]

/-- C89: a signature without `l=` goes on to succeed if nothing but blank lines is appended;
otherwise it fails, unless the hash of the canonical form of the longer body is that of the
canonical form of the body. -/
theorem C89_detected (L : Lawful E) {resolver : Resolver} {cfg : Config} {clock : Nat → Int}
    (T : TypedTimes cfg clock) {headers : List Field} {chunks chunks' : List Bytes}
    {results results' : List VerificationResult} {asked asked' : List Str}
    (h : Run E resolver cfg clock headers chunks results asked)
    (h' : Run E resolver cfg clock headers chunks' results' asked') (r r' : VerificationResult)
    (hr : r ∈ results) (hr' : r' ∈ results') (hi : r.index = r'.index) (hs : r.status = .success)
    (extra : Bytes) (hend : b!"\r\n" <:+ chunks.flatten) (happ : chunks'.flatten = chunks.flatten ++ extra)
    (sig : DkimSignature) (hsig : r.signature = some sig) (hlen : sig.bodyLength = none) :
    (BlankLines sig.canonicalization.body extra → r' = r) ∧
    (¬ BlankLines sig.canonicalization.body extra →
      r' = { r with status := .failure .bodyHashMismatch } ∨
      ∃ out out', canonBody sig.canonicalization.body chunks = some out ∧
        canonBody sig.canonicalization.body chunks' = some out' ∧ out ≠ out' ∧
        E.hash (hashOf sig.algorithm) out = E.hash (hashOf sig.algorithm) out') := by
  obtain ⟨h1, rfl⟩ := other_body L T h h' r r' hr hr' hi hs sig hsig
  obtain ⟨more, e, hm⟩ := codeBody_append sig.canonicalization.body hend extra
  rw [← happ] at e
  have h0 : E.hash (hashOf sig.algorithm) (codeBody sig.canonicalization.body chunks.flatten) = sig.bodyHash := by
    unfold bodyStatus at h1
    simp only [hlen] at h1
    split at h1
    · assumption
    · cases h1
  have key : bodyStatus E cfg sig chunks'.flatten =
      if E.hash (hashOf sig.algorithm) (codeBody sig.canonicalization.body chunks'.flatten) = sig.bodyHash
      then .success else .failure .bodyHashMismatch := by
    unfold bodyStatus
    simp only [hlen]
  constructor
  · intro hb
    rw [key, e, hm.2 hb, List.append_nil, if_pos h0, ← hs]
  · intro hb
    by_cases hc : E.hash (hashOf sig.algorithm) (codeBody sig.canonicalization.body chunks'.flatten) = sig.bodyHash
    · refine .inr ⟨_, _, canonBody_codeBody _ _, canonBody_codeBody _ _, ?_, h0.trans hc.symm⟩
      intro heq
      rw [e] at heq
      exact hb (hm.1 (by simpa using heq))
    · left
      rw [key, if_neg hc]

/-! Concrete cases. -/

/-- A signature of a body of five bytes, with `l=5`. -/
def testSig3 : Str :=
  c!" v=1; a=ed25519-sha256; d=example.com; s=e; c=simple/relaxed; b=" ++ encodeBase64 (List.replicate 64 148) ++
    c!";\r\n h=from; l=5; bh=" ++ encodeBase64 [88, 5]

def testLimited : List Field := [⟨c!"DKIM-Signature", utf8 testSig3⟩, ⟨c!"From", b!" me"⟩]

def testForbidding : Config := { Config.default with forbidUnsignedContent := true }

set_option maxRecDepth 100000 in
theorem testSig3_parsed (value : Str) (sig : DkimSignature)
    (h : FieldSignature testEnv ⟨c!"DKIM-Signature", utf8 testSig3⟩ value sig) :
    sig.bodyLength = some 5 ∧ sig.canonicalization = ⟨.simple, .relaxed⟩ := by
  have hv : value = testSig3 := utf8_injective h.1.symm
  subst hv
  have h5 := (sigFromStr_iff testEnv_lawful.idna testEnv.pre testSig3 sig).2 h.2
  have : (match sigFromStr testEnv.idna testEnv.pre testSig3 with
    | .ok s => some (s.bodyLength, s.canonicalization)
    | _ => none) = some (some 5, ⟨.simple, .relaxed⟩) := by rfl
  rw [h5] at this
  simp only [Option.some.injEq, Prod.mk.injEq] at this
  exact this

/-- A successful result of a run with `testLimited` has a signature with `l=5`. -/
theorem testLimited_signature {cfg : Config} (hc : cfg.fixedSystemTime = none) {chunks : List Bytes}
    {results : List VerificationResult} {asked : List Str}
    (h : Run testEnv testResolver cfg (fun _ => 1500) testLimited chunks results asked) {r : VerificationResult}
    (hr : r ∈ results) (hi : r.index = 0) (hs : r.status = .success) :
    ∃ sig, r.signature = some sig ∧ sig.bodyLength = some 5 ∧ sig.canonicalization = ⟨.simple, .relaxed⟩ := by
  obtain ⟨f, sig, record, h1, h2, h3⟩ := headerVerified_of_success testEnv_lawful
    (typed_default (by decide) _ hc) h r hr hs
  have hf : f = ⟨c!"DKIM-Signature", utf8 testSig3⟩ := by
    rw [hi] at h1
    exact (Option.some.inj h1).symm
  subst hf
  obtain ⟨value, _, _, _, _, _, _, h4, _⟩ := h3
  exact ⟨sig, h2, testSig3_parsed value sig h4⟩

set_option maxRecDepth 100000 in
/-- C89_accepted: the hypotheses are met, and the result for the longer body is success. -/
example : ∃ results results' asked asked' r r' sig,
    Run testEnv testResolver .default (fun _ => 1500) testLimited testBody results asked ∧
    Run testEnv testResolver .default (fun _ => 1500) testLimited [b!"abc\r", b!"\nAnd more."] results' asked' ∧
    r ∈ results ∧ r' ∈ results' ∧ r.index = r'.index ∧ r.status = .success ∧ r'.status = .success ∧
    r.signature = some sig ∧ sig.bodyLength = some 5 ∧ b!"\r\n" <:+ testBody.flatten ∧
    ([b!"abc\r", b!"\nAnd more."] : List Bytes).flatten = testBody.flatten ++ b!"And more." := by
  have e : statuses testEnv testResolver .default 1500 testLimited testBody = some [(0, .success)] := by rfl
  have e' : statuses testEnv testResolver .default 1500 testLimited [b!"abc\r", b!"\nAnd more."]
      = some [(0, .success)] := by rfl
  obtain ⟨results, asked, h, r, hr, hi, hs⟩ := result_of_statuses e (i := 0) (s := .success) (by simp)
  obtain ⟨results', asked', h', r', hr', hi', hs'⟩ := result_of_statuses e' (i := 0) (s := .success) (by simp)
  obtain ⟨sig, h1, h2, -⟩ := testLimited_signature rfl h hr hi hs
  exact ⟨results, results', asked, asked', r, r', sig, h, h', hr, hr', hi.trans hi'.symm, hs, hs', h1, h2,
    ⟨b!"abc", rfl⟩, rfl⟩

set_option maxRecDepth 100000 in
/-- C89_refused: the hypotheses are met, and the result for the longer body is the policy
error. -/
example : ∃ results results' asked asked' r r' sig,
    Run testEnv testResolver testForbidding (fun _ => 1500) testLimited testBody results asked ∧
    Run testEnv testResolver testForbidding (fun _ => 1500) testLimited [b!"abc\r", b!"\nAnd more."] results' asked' ∧
    r ∈ results ∧ r' ∈ results' ∧ r.index = r'.index ∧ r.status = .success ∧
    r'.status = .failure (.policy .unsignedContent) ∧ r.signature = some sig ∧ sig.bodyLength = some 5 ∧
    testForbidding.forbidUnsignedContent = true ∧ ¬ BlankLines sig.canonicalization.body b!"And more." := by
  have e : statuses testEnv testResolver testForbidding 1500 testLimited testBody = some [(0, .success)] := by rfl
  have e' : statuses testEnv testResolver testForbidding 1500 testLimited [b!"abc\r", b!"\nAnd more."]
      = some [(0, .failure (.policy .unsignedContent))] := by rfl
  obtain ⟨results, asked, h, r, hr, hi, hs⟩ := result_of_statuses e (i := 0) (s := .success) (by simp)
  obtain ⟨results', asked', h', r', hr', hi', hs'⟩ := result_of_statuses e' (i := 0)
    (s := .failure (.policy .unsignedContent)) (by simp)
  obtain ⟨sig, h1, h2, h3⟩ := testLimited_signature rfl h hr hi hs
  refine ⟨results, results', asked, asked', r, r', sig, h, h', hr, hr', hi.trans hi'.symm, hs, hs', h1, h2, rfl, ?_⟩
  rw [blankLines_iff]
  intro hb
  exact absurd hb.1 (by decide)

set_option maxRecDepth 100000 in
/-- C89_detected: the first signature of `testMessage` has no `l=`; with more content it
fails, and with another empty line it succeeds. -/
example : statuses testEnv testResolver .default 1500 testMessage [b!"abc\r\n", b!"And more."]
      = some [(0, .failure .bodyHashMismatch), (2, .success)] ∧
    statuses testEnv testResolver .default 1500 testMessage [b!"abc\r\n", b!"\r\n"]
      = some [(0, .success), (2, .success)] ∧
    BlankLines .simple b!"\r\n" :=
  ⟨by rfl, by rfl, ⟨[[]], by simp [blankLine], rfl⟩⟩

end Dkim
