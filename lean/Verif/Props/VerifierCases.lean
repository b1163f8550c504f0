import Verif.Props.VerifierPolicy
import Verif.Props.VerifierIndependence
import Verif.Proofs.TestEnv

/-!
# Concrete runs of the verifier

They show that the hypotheses of the theorems about the verifier are met by
non-trivial cases, and that C44 and C47 are violated.
-/

namespace Dkim

open Spec

variable {E : Env}

/-- A signature by an RSA key. -/
def testSig1 : Str :=
  c!" v=1; a=rsa-sha256; d=example.com; s=r; c=relaxed/simple;\r\n\th=From:Subject; bh=" ++
    encodeBase64 [88, 5] ++ c!";\r\n\tb=" ++ encodeBase64 (List.replicate 128 14)

/-- A signature by an Ed25519 key, of the first two bytes of the body. -/
def testSig2 : Str :=
  c!" v=1; a=ed25519-sha256; d=example.com; s=e; b=" ++ encodeBase64 (List.replicate 64 66) ++
    c!";\r\n h=from; l=2; t=1000; x=2000; bh=" ++ encodeBase64 [196, 2]

/-- A header with two signatures. -/
def testMessage : List Field :=
  [⟨c!"DKIM-Signature", utf8 testSig1⟩, ⟨c!"From", b!" me"⟩,
   ⟨c!"dkim-signature", utf8 testSig2⟩, ⟨c!"Subject", b!" a"⟩]

/-- The key of `r` is an RSA key with 1017 bits. Every lookup takes a minute. -/
def testResolver : Resolver := fun name =>
  ⟨60000, if name = c!"r._domainkey.example.com." then .ok [.ok b!"nonsense", .ok b!"p=Ag=="]
    else if name = c!"e._domainkey.example.com." then .ok [.ok b!"v=DKIM1; k=ed25519; p=BA=="]
    else .error .notFound⟩

def testBody : List Bytes := [b!"ab", b!"c\r\n"]

theorem testEnv_lawful : Lawful testEnv := ⟨testEnv_idna.toCaseLaw, testEnv_order, testEnv_set⟩

theorem typed_default {t : Int} (h : t < 2 ^ 63) (cfg : Config) (hc : cfg.fixedSystemTime = none) :
    TypedTimes cfg (fun _ => t) := ⟨fun _ => h, by simp [hc]⟩

/-- The positions and statuses of the results of a run. -/
def statuses (E : Env) (resolver : Resolver) (cfg : Config) (now : Int) (headers : List Field) (chunks : List Bytes) :
    Option (List (Nat × VerificationStatus)) :=
  match verifyHeader E resolver headers cfg (fun _ => now) with
  | some (some v, _) =>
    match v.processBody chunks with
    | some (v', _) => (v'.finish E).map fun rs => rs.map fun r => (r.index, r.status)
    | none => none
  | _ => none

theorem run_of_statuses {resolver : Resolver} {cfg : Config} {now : Int} {headers : List Field}
    {chunks : List Bytes} {l : List (Nat × VerificationStatus)}
    (h : statuses E resolver cfg now headers chunks = some l) :
    ∃ results asked, Run E resolver cfg (fun _ => now) headers chunks results asked ∧
      results.map (fun r => (r.index, r.status)) = l := by
  unfold statuses at h
  split at h
  · next v asked h1 =>
    split at h
    · next v' ss h2 =>
      rw [Option.map_eq_some_iff] at h
      obtain ⟨rs, h3, rfl⟩ := h
      exact ⟨rs, asked, ⟨v, v', ss, h1, h2, h3⟩, rfl⟩
    · simp at h
  · simp at h

/-- From a computed status to a result of a run. -/
theorem result_of_statuses {resolver : Resolver} {cfg : Config} {now : Int} {headers : List Field}
    {chunks : List Bytes} {l : List (Nat × VerificationStatus)}
    (h : statuses E resolver cfg now headers chunks = some l) {i : Nat} {s : VerificationStatus}
    (hm : (i, s) ∈ l) :
    ∃ results asked, Run E resolver cfg (fun _ => now) headers chunks results asked ∧
      ∃ r ∈ results, r.index = i ∧ r.status = s := by
  obtain ⟨results, asked, h1, rfl⟩ := run_of_statuses h
  rw [List.mem_map] at hm
  obtain ⟨r, hr, e⟩ := hm
  simp only [Prod.mk.injEq] at e
  exact ⟨results, asked, h1, r, hr, e.1, e.2⟩

set_option maxRecDepth 100000 in
/-- Both signatures succeed: the first with the second of its key records, the second with
a limited body. (C38 to C42, C45) -/
theorem test_success : statuses testEnv testResolver .default 1500 testMessage testBody
    = some [(0, .success), (2, .success)] := by
  rfl

set_option maxRecDepth 100000 in
/-- With another From field on top, both fail. (C42) -/
theorem test_added_from : statuses testEnv testResolver .default 1500 (⟨c!"FROM", b!" x"⟩ :: testMessage) testBody
    = some [(1, .failure (.policy .unsignedHeaderOccurrence)),
      (3, .failure (.policy .unsignedHeaderOccurrence))] := by
  rfl

set_option maxRecDepth 100000 in
/-- The second signature is expired from 2300 on. (C43) -/
theorem test_expired : statuses testEnv testResolver .default 2299 testMessage testBody
      = some [(0, .success), (2, .success)] ∧
    statuses testEnv testResolver .default 2300 testMessage testBody
      = some [(0, .success), (2, .failure (.policy .signatureExpired))] :=
  ⟨by rfl, by rfl⟩

set_option maxRecDepth 100000 in
/-- The second signature is from the future before 700. (C43) -/
theorem test_future : statuses testEnv testResolver .default 700 testMessage testBody
      = some [(0, .success), (2, .success)] ∧
    statuses testEnv testResolver .default 699 testMessage testBody
      = some [(0, .success), (2, .failure (.policy .timestampInFuture))] :=
  ⟨by rfl, by rfl⟩

set_option maxRecDepth 100000 in
/-- Unsigned content can be forbidden. (C45) -/
theorem test_unsigned : statuses testEnv testResolver { Config.default with forbidUnsignedContent := true } 1500 testMessage
      testBody = some [(0, .success), (2, .failure (.policy .unsignedContent))] := by
  rfl

set_option maxRecDepth 100000 in
/-- A changed body: only the second signature, which covers two bytes, succeeds; with less
than two bytes it has insufficient content. (C45) -/
theorem test_bodies : statuses testEnv testResolver .default 1500 testMessage [b!"abd\r\n"]
      = some [(0, .failure .bodyHashMismatch), (2, .success)] ∧
    (let message := [⟨c!"From", b!" me"⟩, ⟨c!"DKIM-Signature", b!" v=1; a=rsa-sha256; d=example.com; s=r; h=from; l=3;bh=WAU=;b=Cg=="⟩]
     statuses testEnv testResolver .default 1500 message [] = some [(1, .failure (.verificationFailure .verificationFailure))]) :=
  ⟨by rfl, by rfl⟩

/-- The hypotheses of C45 about the header are met whenever a signature succeeds with some
body. -/
theorem headerVerified_of_success (L : Lawful E) {resolver : Resolver} {cfg : Config} {clock : Nat → Int}
    (T : TypedTimes cfg clock) {headers : List Field} {chunks : List Bytes} {results : List VerificationResult}
    {asked : List Str} (h : Run E resolver cfg clock headers chunks results asked) (r : VerificationResult)
    (hr : r ∈ results) (hs : r.status = .success) :
    ∃ f sig record, headers[r.index]? = some f ∧ r.signature = some sig ∧
      HeaderVerified E resolver cfg (clock r.index) headers f sig record := by
  obtain ⟨f, hf, hj⟩ := (verify_judged L T h).1 r hr
  obtain ⟨hf1, _⟩ := mem_dkimFields hf
  revert hj
  generalize hidx : r.index = i at hf1
  intro hj
  cases hj with
  | unparsed | rejected | noAnswer | noRecords | unverified => simp at hs
  | verified v o s n ts before after txt rec h1 h2 h3 h4 h5 h6 h7 h8 =>
    refine ⟨f, s, rec, hf1, rfl, v, o, n, ts, before, txt, after, h1, h2, h3, h4, h5, h6, ?_, h8⟩
    intro t ht r
    obtain ⟨e, r', ho⟩ := h7 t ht
    exact outcome_exclusive ho

set_option maxRecDepth 100000 in
/-- C45: such a case, with unsigned content forbidden. -/
theorem test_headerVerified : ∃ sig record, sig.bodyLength = some 2 ∧
    HeaderVerified testEnv testResolver { Config.default with forbidUnsignedContent := true } 1500 testMessage
      ⟨c!"dkim-signature", utf8 testSig2⟩ sig record := by
  obtain ⟨results, asked, h, r, hr, hi, hs⟩ := result_of_statuses test_success (i := 2) (s := .success) (by simp)
  obtain ⟨f, sig, record, h1, h2, h3⟩ := headerVerified_of_success testEnv_lawful
    (typed_default (by decide) _ rfl) h r hr hs
  have hf : f = ⟨c!"dkim-signature", utf8 testSig2⟩ := by
    rw [hi] at h1
    exact (Option.some.inj h1).symm
  subst hf
  refine ⟨sig, record, ?_, h3⟩
  obtain ⟨value, _, _, _, _, _, _, h4, _⟩ := h3
  have hv : value = testSig2 := utf8_injective h4.1.symm
  subst hv
  have h5 := (sigFromStr_iff testEnv_lawful.idna testEnv.pre testSig2 sig).2 h4.2
  have h6 : ∀ s, sigFromStr testEnv.idna testEnv.pre testSig2 = .ok s → s.bodyLength = some 2 := by
    intro s hs
    have : (match sigFromStr testEnv.idna testEnv.pre testSig2 with
      | .ok s => s.bodyLength
      | _ => none) = some 2 := by rfl
    rw [hs] at this
    exact this
  exact h6 sig h5

set_option maxRecDepth 100000 in
/-- C39: such a case: another field on top, other chunks, another order of lookups, other
limits, other answers. -/
theorem test_independent : ∃ results results' asked asked' r r',
    Run testEnv testResolver .default (fun _ => 1500) testMessage testBody results asked ∧
    Run (reorder testEnv List.reverse testEnv.keySet)
      (fun n => ⟨7, if n = c!"e._domainkey.example.com." then .error .other else (testResolver n).result⟩)
      (otherLimits .default 2 3) (fun _ => 1500) (⟨c!"X", b!""⟩ :: testMessage) [b!"abc\r\n"] results' asked' ∧
    r ∈ results ∧ r' ∈ results' ∧ r.index = 0 ∧ r'.index = 1 ∧ r'.status = r.status ∧ r.status = .success := by
  have L : Lawful (reorder testEnv List.reverse testEnv.keySet) :=
    ⟨testEnv_idna.toCaseLaw, List.reverse_perm, testEnv_set⟩
  have T := typed_default (t := 1500) (by decide) Config.default rfl
  have e : statuses (reorder testEnv List.reverse testEnv.keySet)
      (fun n => ⟨7, if n = c!"e._domainkey.example.com." then .error .other else (testResolver n).result⟩)
      (otherLimits .default 2 3) 1500 (⟨c!"X", b!""⟩ :: testMessage) [b!"abc\r\n"]
      = some [(1, .success), (3, .failure .keyLookup)] := by rfl
  obtain ⟨results, asked, h, r, hr, hi, hs⟩ := result_of_statuses test_success (i := 0) (s := .success) (by simp)
  obtain ⟨results', asked', h', r', hr', hi', hs'⟩ := result_of_statuses e (i := 1) (s := .success) (by simp)
  refine ⟨results, results', asked, asked', r, r', h, h', hr, hr', hi, hi', ?_, hs⟩
  have hsig : ∀ value sig, FieldSignature testEnv ⟨c!"DKIM-Signature", utf8 testSig1⟩ value sig →
      sig.signedHeaders = [c!"From", c!"Subject"] ∧
      testEnv.idna.toAscii sig.selector = some ['r'] := by
    intro value sig h4
    have hv : value = testSig1 := utf8_injective h4.1.symm
    subst hv
    have h5 := (sigFromStr_iff testEnv_lawful.idna testEnv.pre testSig1 sig).2 h4.2
    have : (match sigFromStr testEnv.idna testEnv.pre testSig1 with
      | .ok s => some (s.signedHeaders, testEnv.idna.toAscii s.selector)
      | _ => none) = some ([c!"From", c!"Subject"], some ['r']) := by rfl
    rw [h5] at this
    simp only [Option.some.injEq, Prod.mk.injEq] at this
    exact this
  refine (C39_independent (E := testEnv) id List.reverse testEnv.keySet testEnv.keySet testEnv_lawful L .default 2 3
    T T h h' r r' hr hr' ⟨c!"DKIM-Signature", utf8 testSig1⟩ ?_ ?_ ?_ rfl rfl ?_).1
  · rw [hi]; rfl
  · rw [hi']; rfl
  · intro value sig h4
    unfold SameRelevant
    rw [(hsig value sig h4).1]
    rfl
  · rintro value sig h4 name ⟨d, s, h5, h6, rfl⟩
    rw [(hsig value sig h4).2] at h6
    injection h6 with h6
    subst h6
    simp only
    rw [if_neg]
    unfold keyName
    simp

/-- The test environment with feature `pre-rfc8301`. -/
def testEnvPre : Env := { testEnv with pre := true }

theorem testEnvPre_lawful : Lawful testEnvPre := ⟨testEnv_idna.toCaseLaw, testEnv_order, testEnv_set⟩

/-- A message signed with SHA-1. -/
def testSha1 : List Field :=
  [⟨c!"DKIM-Signature", b!" v=1; a=rsa-sha1; d=example.com; s=r; h=from; bh=WAU=; b=Cg=="⟩, ⟨c!"From", b!" me"⟩]

set_option maxRecDepth 100000 in
/-- SHA-1 is rejected by policy, or not. (C52) -/
theorem test_sha1 : statuses testEnvPre testResolver .default 1500 testSha1 testBody
      = some [(0, .failure (.policy .sha1HashAlgorithm))] ∧
    statuses testEnvPre testResolver { Config.default with allowSha1 := true } 1500 testSha1 testBody
      = some [(0, .failure (.verificationFailure .verificationFailure))] :=
  ⟨by rfl, by rfl⟩

set_option maxRecDepth 100000 in
/-- The DNS gives up. (C47) -/
theorem test_timeout : statuses testEnv (fun _ => ⟨0, .error .timedOut⟩) .default 1500 testMessage testBody
    = some [(0, .failure .timeout), (2, .failure .timeout)] := by
  rfl

set_option maxRecDepth 100000 in
/-- C44 is violated: with a minimum of 1024 bits, a signature with an RSA key of 1017 bits
succeeds, as the size is rounded up to whole bytes. -/
theorem C44_violation : ∃ (resolver : Resolver) (cfg : Config) (clock : Nat → Int) (headers : List Field)
    (chunks : List Bytes) (results : List VerificationResult) (asked : List Str),
    Lawful testEnv ∧ TypedTimes cfg clock ∧ testEnv.pre = false ∧ cfg.minKeyBits = 1024 ∧
    Run testEnv resolver cfg clock headers chunks results asked ∧
    ∃ r ∈ results, r.status = .success ∧ ∃ sig record k, r.signature = some sig ∧ r.keyRecord = some record ∧
      publicKey testEnv.crypto (keyTypeOf sig.algorithm) record.keyData = some (.rsa k) ∧
      testEnv.crypto.rsaPkBits k = 1017 :=
  ⟨testResolver, .default, fun _ => 1500, testMessage, testBody, _, _, testEnv_lawful,
    typed_default (by decide) _ rfl, rfl, rfl, ⟨_, _, _, rfl, rfl, rfl⟩, _, List.mem_cons_self, rfl, _, _,
    (1017 : Nat), rfl, rfl, rfl, rfl⟩

/-- C47 is violated: a lookup takes longer than the configured timeout, and the signature
succeeds. -/
theorem C47_violation : ∃ (resolver : Resolver) (cfg : Config) (clock : Nat → Int) (headers : List Field)
    (chunks : List Bytes) (results : List VerificationResult) (asked : List Str),
    Lawful testEnv ∧ TypedTimes cfg clock ∧ (∀ name, cfg.lookupTimeout < (resolver name).delay) ∧
    Run testEnv resolver cfg clock headers chunks results asked ∧ ∃ r ∈ results, r.status = .success := by
  obtain ⟨results, asked, h, r, hr, _, hs⟩ := result_of_statuses test_success (i := 0) (s := .success) (by simp)
  exact ⟨testResolver, .default, _, testMessage, testBody, results, asked, testEnv_lawful,
    typed_default (by decide) _ rfl, fun _ => (by decide : 10000 < 60000), h, r, hr, hs⟩

end Dkim
