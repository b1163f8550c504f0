import Verif.Proofs.AssertsRun
import Verif.Props.SignerTogether

/-!
# Property C108: no debug assertion fails

The functions with the suffix `D` (Model/Asserts.lean) describe a debug build: a `debug_assert!`
that fails is a panic. The theorems state that they compute the same as the functions used
everywhere else, in which there are no assertions. So in a debug build nothing else happens
than in a release build. Since there is no panic in a release build, no assertion fails.
-/

namespace Dkim

open Spec

/-- C108: reading a signature, for all texts. -/
theorem C108_signature (ix : Idna) (pre : Bool) (s : Str) : sigFromStrD ix pre s = sigFromStr ix pre s :=
  sigFromStrD_eq ix pre s

/-- C108: reading a key record, for all texts. -/
theorem C108_record (lossy : Bytes → Str) (pre : Bool) (s : Str) :
    recordFromStrD lossy pre s = recordFromStr lossy pre s :=
  recordFromStrD_eq lossy pre s

/-- C108: making domain names, selectors and identities, for all texts. -/
theorem C108_names (ix : Idna) (s : Str) :
    isValidDomainStringD ix s true = some (isValidDomainName ix s) ∧
      isValidDomainStringD ix s false = some (isValidSelector ix s) ∧
      Identity.newD ix s = some (Identity.new ix s) :=
  ⟨isValidDomainStringD_eq ix s true, isValidDomainStringD_eq ix s false, Identity.newD_eq ix s⟩

/-- C108: canonicalizing selected fields of a header. -/
theorem C108_canonicalize_headers (alg : CanonAlg) (headers : List Field) (selected : List Str)
    (hh : TypedHeaders headers) :
    canonHeadersLoopD alg (enumFrom 0 headers.reverse) [] selected = some (canonHeaders alg headers selected) :=
  canonHeadersLoopD_eq alg (fun p hp => (hh p.2 (List.mem_reverse.1 (mem_enumFrom hp))).2) [] selected

/-- C108: the public function for one field demands that the value is the body of a header field.
It panics in a debug build exactly if it is not, and canonicalization is `relaxed`. -/
theorem C108_canonicalize_header (alg : CanonAlg) (name : Str) (value : Bytes) :
    (canonHeaderD alg name value = none ↔ alg = .relaxed ∧ ¬ ValidBody value) ∧
      ∀ out, canonHeaderD alg name value = some out → out = canonHeader alg name value := by
  rw [← fieldBodyOk_iff]
  unfold canonHeaderD canonHeader
  cases alg with
  | simple => simp
  | relaxed => cases fieldBodyOk value <;> simp

/-- C108: verifying a header, for all headers, all answers of the resolver, all configurations. -/
theorem C108_verify (E : Env) (resolver : Resolver) (headers : List Field) (cfg : Config) (clock : Nat → Int)
    (hh : TypedHeaders headers) :
    verifyHeaderD E resolver headers cfg clock = verifyHeader E resolver headers cfg clock :=
  verifyHeaderD_eq hh resolver cfg clock

/-- C108: signing, for all headers, bodies and requests that are accepted. -/
theorem C108_sign (E : Env) (law : IdnaLaw E.idna) (hs : SortLaw E.sortBy) (headers : List Field)
    (rs : List (SignRequest E)) (s s' : Signer E) (ss : List Stance) (chunks : List Bytes) (clock : Nat → Nat)
    (hh : TypedHeaders headers) (ht : ∀ r ∈ rs, TypedRequest r) (h : prepareSigning E headers rs = .ok s)
    (hp : s.processBody chunks = some (s', ss)) : s'.signD clock = s'.sign clock :=
  signD_eq law hs ht hh h hp clock

/-- C108: in a debug build, verifying never panics. -/
theorem C108_verify_no_panic (E : Env) (L : Lawful E) (resolver : Resolver) (cfg : Config) (clock : Nat → Int)
    (T : TypedTimes cfg clock) (headers : List Field) (hh : TypedHeaders headers) :
    verifyHeaderD E resolver headers cfg clock ≠ none := by
  obtain ⟨o, asked, h, _⟩ := C50_no_panic L resolver cfg clock T headers
  rw [C108_verify E resolver headers cfg clock hh, h]
  simp

/-- C108: in a debug build, signing never panics. -/
theorem C108_sign_no_panic (E : Env) (law : IdnaLaw E.idna) (hs : SortLaw E.sortBy) (hset : SetLaw E.keySet)
    (headers : List Field) (rs : List (SignRequest E)) (s : Signer E) (chunks : List Bytes) (clock : Nat → Nat)
    (hh : TypedHeaders headers) (ht : ∀ r ∈ rs, TypedRequest r) (h : prepareSigning E headers rs = .ok s)
    (hlen : ∀ k, (codeBody k chunks.flatten).length < 2 ^ 64) :
    ∃ s' ss out, s.processBody chunks = some (s', ss) ∧ s'.signD clock = some out ∧ out.length = rs.length := by
  obtain ⟨s', ss, out, h1, h2, h3, _⟩ := C35_results law hs hset headers rs s hh ht h chunks clock hlen
  exact ⟨s', ss, out, h1, by rw [C108_sign E law hs headers rs s s' ss chunks clock hh ht h h1]; exact h2, h3⟩

set_option maxRecDepth 100000 in
/-- Non-vacuity: a run of the signer with two requests, and one of the verifier with two signatures, in
a debug build. -/
example : TypedHeaders testHeaders ∧ TypedRequest testRequest ∧ TypedRequest simpleRequest ∧
    (∃ s s' ss out, prepareSigning testEnv testHeaders [testRequest, simpleRequest] = .ok s ∧
      s.processBody testBody = some (s', ss) ∧ s'.signD (fun _ => 1000) = some out ∧ out.length = 2) ∧
    (∃ v asked, verifyHeaderD testEnv testResolver testMessage .default (fun _ => 1500) = some (some v, asked) ∧
      v.tasks.map (·.status) = [.success, .success]) ∧
    TypedHeaders testMessage := by
  refine ⟨testHeaders_typed, testRequest_typed, typed_of_check (by decide), ⟨_, _, _, _, rfl, rfl, rfl, rfl⟩,
    ⟨_, _, rfl, rfl⟩, ?_⟩
  intro f hf
  rw [← fieldNameOk_iff, ← fieldBodyOk_iff]
  revert f
  decide

/-! ## Assertions are checked -/

example : isLabelD c!"a.b" = none := by decide
example : isLabelD c!"ab" = some true := by decide
example : parseColonSeparatedD c!"a;b" = none := by decide
example : parseColonSeparatedD c!" a" = none := by decide
example : parseColonSeparatedD c!"a :\r\n b" = some [c!"a", c!"b"] := by decide
example : parseBase64ValueD c!"TQ==\r\n" = none := by decide
example : parseQpSectionD c!"a\r\nb" = .panic := by decide
example : parseQpD c!" =40x" = .panic := by decide
example : parseQpHeaderFieldD c!" Subject:=20x\r\n\t" = some (some (c!"Subject", b!" x")) := by decide
example : parseQpHeaderFieldD c!"Subject:;" = none := by decide
example : canonHeaderD .relaxed c!"A" b!" b\r\nc" = none := by decide
example : canonHeaderD .relaxed c!"A" b!" b\r\n c " = some b!"a:b c" := by decide
example : formatTagHD ⟨78, c!"\t", true, false⟩ 0 [] = none := by decide
example : formatTagZD ⟨78, c!"\t", true, false⟩ 0 [] = none := by decide
example : formatTagD ⟨78, c!"\t", true, false⟩ 0 c!"ü" c!"1" = none := by decide
example : insertSignatureDataD c!" b=" 4 c!"DKIM-Signature" [1] 78 c!"\t" = none := by decide
example : stripSuffixAt c!"abc" c!"b" = none := by decide

end Dkim
