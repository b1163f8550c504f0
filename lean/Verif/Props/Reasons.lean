import Verif.Spec.Reasons
import Verif.Props.Reported
import Verif.Props.EndToEnd

/-!
# Property C86: a failure is only reported for a reason
-/

namespace Dkim

open Spec

variable {E : Env}

theorem dueToSignature_of {cfg : Config} {t : Nat} {headers : List Field} {sig : DkimSignature}
    {e : VerificationError} (h : FirstFailure (signatureChecks E cfg t headers sig) e) :
    DueToSignature E cfg t headers sig e := by
  obtain ⟨c, hc, rfl, hn⟩ := h.mem
  simp only [signatureChecks, List.mem_cons, List.not_mem_nil, or_false] at hc
  rcases hc with rfl | rfl | rfl | rfl | rfl | rfl
  · simpa [DueToSignature] using hn
  · simpa [DueToSignature] using hn
  · simpa [DueToSignature] using hn
  · simpa [DueToSignature] using hn
  · simpa [DueToSignature] using hn
  · have hn : ¬ (E.pre = true → cfg.allowSha1 = true ∨ hashOf sig.algorithm ≠ .sha1) := hn
    simp only [Classical.not_imp, not_or, Classical.not_not] at hn
    exact ⟨by simpa using hn.2.1, hn.2.2⟩

theorem dueToRecord_of {cfg : Config} {headers : List Field} {f : Field} {value original : Str} {sig : DkimSignature}
    {record : KeyRecord} {e : VerificationError} (hsig : FieldSignature E f value sig) (ho : WithoutB value original)
    (h : FirstFailure (recordChecks E cfg headers f original sig record) e) :
    DueToRecord E cfg headers f sig record e := by
  obtain ⟨c, hc, rfl, hn⟩ := h.mem
  have size : ∀ n, (¬ ∀ k, publicKey E.crypto (keyTypeOf sig.algorithm) record.keyData = some k → BitsAtLeast k n) →
      ∃ k, publicKey E.crypto (keyTypeOf sig.algorithm) record.keyData = some (.rsa k) ∧ E.crypto.rsaPkBits k < n := by
    intro n hn
    simp only [Classical.not_forall] at hn
    obtain ⟨k, hk, hb⟩ := hn
    cases k with
    | rsa k =>
      simp only [BitsAtLeast] at hb
      exact ⟨k, hk, by omega⟩
    | ed25519 k => exact absurd trivial hb
  simp only [recordChecks, List.mem_cons, List.not_mem_nil, or_false] at hc
  rcases hc with rfl | rfl | rfl | rfl | rfl | rfl | rfl | rfl
  · exact hn
  · simpa [DueToRecord] using hn
  · exact hn
  · simpa [DueToRecord] using hn
  · simpa [DueToRecord] using hn
  · exact size _ hn
  · exact size _ hn
  · simp only [Classical.not_forall] at hn
    obtain ⟨k, hk, hb⟩ := hn
    exact ⟨value, original, k, hsig, ho, hk, by simpa using hb⟩

theorem dueToBody_of {cfg : Config} {sig : DkimSignature} {body : Bytes} {e : VerificationError}
    (h : bodyStatus E cfg sig body = .failure e) : DueToBody E cfg sig body e := by
  unfold bodyStatus at h
  cases hl : sig.bodyLength with
  | none =>
    simp only [hl] at h
    split at h
    · cases h
    · next hh =>
      cases h
      simpa [DueToBody, signedBody, hl] using hh
  | some n =>
    simp only [hl] at h
    split at h
    · next hh =>
      cases h
      exact ⟨n, hl, hh⟩
    · split at h
      · next hh =>
        cases h
        exact ⟨hh.2, n, hl, hh.1⟩
      · split at h
        · cases h
        · next hh =>
          cases h
          simpa [DueToBody, signedBody, hl] using hh

/-- C86: a failure is only reported for a reason: whatever a result says of the signature,
the DNS answer, the key record or the body is true of them. -/
theorem C86_reason (L : Lawful E) {resolver : Resolver} {cfg : Config} {clock : Nat → Int}
    (T : TypedTimes cfg clock) {headers : List Field} {chunks : List Bytes} {results : List VerificationResult}
    {asked : List Str} (h : Run E resolver cfg clock headers chunks results asked) (r : VerificationResult)
    (hr : r ∈ results) (e : VerificationError) (hs : r.status = .failure e) :
    ∃ f, headers[r.index]? = some f ∧
      Reason E resolver cfg (unixTime cfg (clock r.index)) headers chunks.flatten f r e := by
  have hfmt := fun k => C55_reported L T h r hr k
  obtain ⟨f, hf, hj⟩ := (verify_judged L T h).1 r hr
  refine ⟨f, ?_, ?_⟩
  · exact (mem_dkimFields hf).1
  clear hr hf
  generalize r.index = i at hj ⊢
  cases hj with
  | unparsed e' h1 h2 =>
    cases hs
    exact ⟨e', rfl, h2⟩
  | rejected v s e' h1 h2 =>
    cases hs
    exact .inl (dueToSignature_of h2)
  | noAnswer v s n e' h1 h2 h3 h4 =>
    cases hs
    refine .inr ?_
    cases e' with
    | notFound => exact .inl ⟨n, h3, h4⟩
    | invalidInput => exact ⟨n, h3, h4⟩
    | timedOut => exact ⟨n, h3, h4⟩
    | invalidData => exact .inl ⟨n, h3, h4⟩
    | other => exact .inr ⟨n, h3, h4⟩
  | noRecords v s n h1 h2 h3 h4 =>
    cases hs
    exact .inr (.inr ⟨n, h3, h4⟩)
  | verified v o s n txts before after txt rec g1 g2 g3 g4 g5 g6 g7 g8 =>
    refine ⟨⟨txts, txt, ⟨n, g4, g5⟩, ?_, g8.1⟩, .inr (dueToBody_of hs)⟩
    have := mem_firstTwoAndLast (l := txts) (a := txt) (by rw [g6]; simp)
    rcases List.mem_append.1 this with hm | hm
    · exact List.mem_of_mem_take hm
    · exact List.mem_of_getLast? (Option.mem_toList.1 hm)
  | unverified v o s n txts before txt e' rec g1 g2 g3 g4 g5 g6 g7 g8 =>
    cases hs
    cases rec with
    | none =>
      obtain ⟨_, k, rfl, _⟩ := g8
      obtain ⟨sig, name, txts, txt, k1, k2, k3, k4, k5⟩ := hfmt k rfl
      cases k1
      exact .inr ⟨txts, txt, ⟨name, k2, k3⟩, k4, k5⟩
    | some rec =>
      refine ⟨⟨txts, txt, ⟨n, g4, g5⟩, ?_, g8.1⟩, .inl (dueToRecord_of g1 g2 g8.2)⟩
      have := mem_firstTwoAndLast (l := txts) (a := txt) (by rw [g6]; simp)
      rcases List.mem_append.1 this with hm | hm
      · exact List.mem_of_mem_take hm
      · exact List.mem_of_getLast? (Option.mem_toList.1 hm)

/-- Non-vacuity: results with failures, at three stages. -/
example : ∃ results asked, Run testEnv testResolver .default (fun _ => 2300) testMessage testBody results asked ∧
    ∃ r ∈ results, r.index = 2 ∧ r.status = .failure (.policy .signatureExpired) :=
  result_of_statuses test_expired.2 (by simp)

example : ∃ results asked, Run testEnv testResolver .default (fun _ => 1500) testMessage [b!"abd\r\n"] results asked ∧
    ∃ r ∈ results, r.index = 0 ∧ r.status = .failure .bodyHashMismatch :=
  result_of_statuses test_bodies.1 (by simp)

example : ∃ results asked, Run testEnv testResolver .default (fun _ => 1500)
      [⟨c!"From", b!" me"⟩, ⟨c!"DKIM-Signature", b!" v=1; a=rsa-sha256; d=example.com; s=r; h=from; l=3;bh=WAU=;b=Cg=="⟩]
      [] results asked ∧
    ∃ r ∈ results, r.index = 1 ∧ r.status = .failure (.verificationFailure .verificationFailure) :=
  result_of_statuses test_bodies.2 (by simp)

/-- C44, the converse of what holds of it: a key is only reported as too small if its
modulus has fewer bits than the limit. -/
theorem C44_reported_small (L : Lawful E) {resolver : Resolver} {cfg : Config} {clock : Nat → Int}
    (T : TypedTimes cfg clock) {headers : List Field} {chunks : List Bytes} {results : List VerificationResult}
    {asked : List Str} (h : Run E resolver cfg clock headers chunks results asked) (r : VerificationResult)
    (hr : r ∈ results) :
    (r.status = .failure (.verificationFailure .insufficientKeySize) →
      ∃ sig record k, r.signature = some sig ∧ r.keyRecord = some record ∧
        publicKey E.crypto (keyTypeOf sig.algorithm) record.keyData = some (.rsa k) ∧
        E.crypto.rsaPkBits k < if E.pre then 512 else 1024) ∧
    (r.status = .failure (.policy .keyTooSmall) →
      ∃ sig record k, r.signature = some sig ∧ r.keyRecord = some record ∧
        publicKey E.crypto (keyTypeOf sig.algorithm) record.keyData = some (.rsa k) ∧
        E.crypto.rsaPkBits k < cfg.minKeyBits) := by
  constructor
  all_goals
    intro hs
    obtain ⟨f, _, hreason⟩ := C86_reason L T h r hr _ hs
    unfold Reason at hreason
    split at hreason
    · obtain ⟨_, h, _⟩ := hreason; cases h
    · exact hreason.elim
    · rcases hreason with h | h
      · exact h.elim
      · exact h.elim
    · next sig record h1 h2 =>
      rcases hreason.2 with ⟨k, h3, h4⟩ | h
      · exact ⟨sig, record, k, h1, h2, h3, h4⟩
      · exact h.elim

set_option maxRecDepth 100000 in
/-- Non-vacuity: the key of 1017 bits is too small for a limit of 1025. -/
theorem test_small : statuses testEnv testResolver { Config.default with minKeyBits := 1025 } 1500 testMessage testBody
    = some [(0, .failure (.policy .keyTooSmall)), (2, .success)] := by
  rfl

end Dkim
