import Verif.Props.VerifierCases

/-!
# Properties C54, C55 and C69: what is reported when verification fails
-/

namespace Dkim

open Spec

variable {E : Env}

/-! ## C54 and C55 for runs of the verifier -/

/-- C54: a failure that concerns the format of a signature names the first defect of the
field, and shows its tags. -/
theorem C54_reported (L : Lawful E) {resolver : Resolver} {cfg : Config} {clock : Nat → Int}
    (T : TypedTimes cfg clock) {headers : List Field} {chunks : List Bytes} {results : List VerificationResult}
    {asked : List Str} (h : Run E resolver cfg clock headers chunks results asked) (r : VerificationResult)
    (hr : r ∈ results) (f : Field) (hf : headers[r.index]? = some f) (e : SigError)
    (hs : r.status = .failure (.dkimSignatureFormat e)) : FieldDefect E f e := by
  obtain ⟨f', hf', hj⟩ := (verify_judged L T h).1 r hr
  have e1 : f' = f := by
    have := (mem_dkimFields hf').1
    rw [hf] at this
    injection this with this
    exact this.symm
  subst e1
  revert hj hs
  generalize r.index = i
  intro hs hj
  cases hj with
  | unparsed e' h1 h2 => cases hs; exact h2
  | rejected v s e' h1 h2 =>
    cases hs
    obtain ⟨c, hc, e1, _⟩ := h2.mem
    simp only [signatureChecks, List.mem_cons, List.not_mem_nil, or_false] at hc
    rcases hc with rfl | rfl | rfl | rfl | rfl | rfl <;> cases e1
  | noAnswer v s n e' => cases e' <;> cases hs
  | noRecords => cases hs
  | verified v o s n txts before after txt rec =>
    exfalso
    revert hs
    simp only [bodyStatus]
    repeat' split
    all_goals exact fun h => by cases h
  | unverified v o s n txts before txt e' rec g1 g2 g3 g4 g5 g6 g7 g8 =>
    cases hs
    cases rec with
    | none => obtain ⟨_, k, h, _⟩ := g8; cases h
    | some rec =>
      obtain ⟨c, hc, e1, _⟩ := g8.2.mem
      simp only [recordChecks, List.mem_cons, List.not_mem_nil, or_false] at hc
      rcases hc with rfl | rfl | rfl | rfl | rfl | rfl | rfl | rfl <;> cases e1

/-- C55: a failure that concerns the format of a key record names the first defect of the
last record found. -/
theorem C55_reported (L : Lawful E) {resolver : Resolver} {cfg : Config} {clock : Nat → Int}
    (T : TypedTimes cfg clock) {headers : List Field} {chunks : List Bytes} {results : List VerificationResult}
    {asked : List Str} (h : Run E resolver cfg clock headers chunks results asked) (r : VerificationResult)
    (hr : r ∈ results) (k : RecordError) (hs : r.status = .failure (.keyRecordFormat k)) :
    ∃ sig name txts txt, r.signature = some sig ∧ QueryFor E sig name ∧ (resolver name).result = .ok txts ∧
      txts.getLast? = some txt ∧ TxtDefect E txt k := by
  obtain ⟨f, hf, hj⟩ := (verify_judged L T h).1 r hr
  revert hj hs
  generalize r.index = i
  intro hs hj
  cases hj with
  | unparsed e' h1 h2 => cases hs
  | rejected v s e' h1 h2 =>
    cases hs
    obtain ⟨c, hc, e1, _⟩ := h2.mem
    simp only [signatureChecks, List.mem_cons, List.not_mem_nil, or_false] at hc
    rcases hc with rfl | rfl | rfl | rfl | rfl | rfl <;> cases e1
  | noAnswer v s n e' => cases e' <;> cases hs
  | noRecords => cases hs
  | verified v o s n txts before after txt rec =>
    exfalso
    revert hs
    simp only [bodyStatus]
    repeat' split
    all_goals exact fun h => by cases h
  | unverified v o s n txts before txt e' rec g1 g2 g3 g4 g5 g6 g7 g8 =>
    cases hs
    cases rec with
    | none =>
      obtain ⟨_, k', h, h'⟩ := g8
      cases h
      refine ⟨s, n, txts, txt, rfl, g4, g5, ?_, h'⟩
      have : (firstTwoAndLast txts).getLast? = txts.getLast? := by
        match txts with
        | [] | [_] | [_, _] => rfl
        | a :: b :: c :: rest =>
          simp only [firstTwoAndLast]
          rw [List.getLast?_eq_some_getLast (l := a :: b :: c :: rest) (by simp)]
          simp
      rw [← this, g6]
      simp
    | some rec =>
      obtain ⟨c, hc, e1, _⟩ := g8.2.mem
      simp only [recordChecks, List.mem_cons, List.not_mem_nil, or_false] at hc
      rcases hc with rfl | rfl | rfl | rfl | rfl | rfl | rfl | rfl <;> cases e1

/-! ## C69 -/

namespace Spec

/-- The defects of a signature that make it impossible to interpret it. -/
def uninterpretable : List SigErrorKind :=
  [.utf8Encoding, .tagListFormat, .incompatibleVersion, .unsupportedAlgorithm, .invalidBase64,
   .unsupportedCanonicalization, .invalidDomain, .invalidSignedHeaderName, .invalidIdentity, .invalidBodyLength,
   .invalidQueryMethod, .noSupportedQueryMethods, .invalidSelector, .invalidTimestamp, .invalidExpiration,
   .invalidCopiedHeaderField]

/-- The defects that rule out a valid signature. -/
def ruledOut : List SigErrorKind :=
  [.historicAlgorithm, .emptySignatureTag, .emptyBodyHashTag, .emptySignedHeadersTag, .fromHeaderNotSigned,
   .missingVersionTag, .missingAlgorithmTag, .missingSignatureTag, .missingBodyHashTag, .missingDomainTag,
   .missingSignedHeadersTag, .missingSelectorTag, .domainMismatch, .expirationNotAfterTimestamp]

/-- The defects of a key record that make it impossible to interpret it. -/
def uninterpretableRecord : List RecordError :=
  [.recordFormat, .tagListFormat, .incompatibleVersion, .invalidHashAlgorithm, .noSupportedHashAlgorithms,
   .unsupportedKeyType, .invalidQuotedPrintable, .invalidBase64, .invalidServiceType, .noSupportedServiceTypes,
   .invalidFlag]

/-- The other permanent errors in finding and using the key, and for the body. -/
def permanent : List VerificationError :=
  [.noKeyFound, .invalidKeyDomain, .wrongKeyType, .keyRevoked, .disallowedHashAlgorithm, .domainMismatch,
   .insufficientContent, .keyRecordFormat .misplacedVersionTag, .keyRecordFormat .missingKeyTag,
   .verificationFailure .invalidKey, .verificationFailure .insufficientKeySize]

end Spec

/-- C69: the result is `neutral` exactly if the signature or the key record cannot be
interpreted. -/
theorem C69_neutral (s : VerificationStatus) : s.toDkimResult = .neutral ↔
    (∃ e, s = .failure (.dkimSignatureFormat e) ∧ e.kind ∈ uninterpretable) ∨ s = .failure .overflow ∨
      ∃ e, s = .failure (.keyRecordFormat e) ∧ e ∈ uninterpretableRecord := by
  rcases s with _ | e
  · simp [VerificationStatus.toDkimResult]
  · rcases e with e | _ | _ | _ | _ | _ | e | _ | _ | _ | _ | e | _ | _ | _ <;>
      simp [VerificationStatus.toDkimResult]
    · rcases e with ⟨k⟩; cases k <;> simp [SigErrorKind.toDkimResult, uninterpretable]
    · cases e <;> simp [RecordError.toDkimResult, uninterpretableRecord]
    · cases e <;> simp [CryptoError.toDkimResult]

/-- C69: the result is `permerror` exactly if the signature is ruled out, or there is a
permanent error with the key or the body. -/
theorem C69_permerror (s : VerificationStatus) : s.toDkimResult = .permerror ↔
    (∃ e, s = .failure (.dkimSignatureFormat e) ∧ e.kind ∈ ruledOut) ∨
      ∃ e ∈ permanent, s = .failure e := by
  rcases s with _ | e
  · simp [VerificationStatus.toDkimResult]
  · rcases e with e | _ | _ | _ | _ | _ | e | _ | _ | _ | _ | e | _ | _ | _ <;>
      simp [VerificationStatus.toDkimResult, permanent]
    · rcases e with ⟨k⟩; cases k <;> simp [SigErrorKind.toDkimResult, ruledOut]
    · cases e <;> simp [RecordError.toDkimResult]
    · cases e <;> simp [CryptoError.toDkimResult]

/-! ## Concrete cases -/

/-- A missing `bh=` is reported when all values are in order; a bad `l=` comes first. -/
example : (∃ e, sigFromStr testEnv.idna false
      c!"v=1; a=rsa-sha256; d=example.com; s=r; h=From; b=AAAA" = .err e ∧ e.kind = .missingBodyHashTag) ∧
    (∃ e, sigFromStr testEnv.idna false
      c!"v=1; a=rsa-sha256; d=example.com; l=-1; s=r; h=From; b=AAAA; t=x" = .err e ∧
      e.kind = .invalidBodyLength) := by
  constructor <;> exact ⟨_, rfl, rfl⟩

example : recordFromStr testEnv.lossy false c!"k=rsa; v=DKIM1; p=!" = .err .misplacedVersionTag := by rfl

/-- A run in which the first field is not a signature, and the key record for the second
is not a record. -/
def brokenMessage : List Field :=
  [⟨c!"DKIM-Signature", b!" v=1; a=none; b="⟩, ⟨c!"From", b!" me"⟩, ⟨c!"dkim-signature", utf8 testSig2⟩]

def brokenResolver : Resolver := fun _ => ⟨0, .ok [.ok b!"nonsense", .ok b!"k=ed25519"]⟩

set_option maxRecDepth 100000 in
example : ∃ results asked, Run testEnv brokenResolver .default (fun _ => 1500) brokenMessage testBody results asked ∧
    results.map (·.status.toDkimResult) = [.neutral, .permerror] ∧
    (∃ r ∈ results, ∃ e, r.status = .failure (.dkimSignatureFormat e) ∧ e.kind = .unsupportedAlgorithm) ∧
    ∃ r ∈ results, r.status = .failure (.keyRecordFormat .missingKeyTag) :=
  ⟨_, _, ⟨_, _, _, rfl, rfl, rfl⟩, rfl, ⟨_, .head _, _, rfl, rfl⟩, ⟨_, .tail _ (.head _), rfl⟩⟩

end Dkim
