import Verif.Spec.Verifier

/-!
# Specification for C86: what must be the case for a failure to be reported
-/

namespace Dkim.Spec

variable (E : Env)

/-- The part of the body that a signature is about, if it is there. -/
def signedBody (sig : DkimSignature) (body : Bytes) : Bytes :=
  match sig.bodyLength with
  | none => codeBody sig.canonicalization.body body
  | some n => (codeBody sig.canonicalization.body body).take n

/-- The DNS answer to the query for the signature. -/
def Answer (resolver : Resolver) (sig : DkimSignature) (a : Except IoErr (List (Except IoErr Bytes))) : Prop :=
  ∃ name, QueryFor E sig name ∧ (resolver name).result = a

/-- A failure that is due to a signature. -/
def DueToSignature (cfg : Config) (t : Nat) (headers : List Field) (sig : DkimSignature) :
    VerificationError → Prop
  | .overflow => ∃ n, sig.bodyLength = some n ∧ E.usizeMax < n
  | .policy .requiredHeaderNotSigned => ∃ h ∈ cfg.headersRequired, ∀ n ∈ sig.signedHeaders, lower n ≠ lower h
  | .policy .unsignedHeaderOccurrence => ∃ h ∈ cfg.headersForbiddenUnsigned,
      mentions sig.signedHeaders h < occurrences headers h
  | .policy .signatureExpired => cfg.allowExpired = false ∧
      ∃ x, sig.expiration = some x ∧ x + cfg.timeTolerance ≤ t
  | .policy .timestampInFuture => cfg.allowTimestampInFuture = false ∧
      ∃ s, sig.timestamp = some s ∧ t + cfg.timeTolerance < s
  | .policy .sha1HashAlgorithm => cfg.allowSha1 = false ∧ hashOf sig.algorithm = .sha1
  | _ => False

/-- A failure that is due to the DNS answer. -/
def DueToAnswer (resolver : Resolver) (sig : DkimSignature) : VerificationError → Prop
  | .noKeyFound => Answer E resolver sig (.error .notFound) ∨ Answer E resolver sig (.ok [])
  | .invalidKeyDomain => Answer E resolver sig (.error .invalidInput)
  | .timeout => Answer E resolver sig (.error .timedOut)
  | .keyLookup => Answer E resolver sig (.error .invalidData) ∨ Answer E resolver sig (.error .other)
  | .keyRecordFormat k => ∃ txts txt, Answer E resolver sig (.ok txts) ∧ txts.getLast? = some txt ∧ TxtDefect E txt k
  | _ => False

/-- A failure that is due to a key record. -/
def DueToRecord (cfg : Config) (headers : List Field) (f : Field) (sig : DkimSignature) (record : KeyRecord) :
    VerificationError → Prop
  | .wrongKeyType => record.keyType ≠ keyTypeOf sig.algorithm
  | .keyRevoked => record.keyData = []
  | .disallowedHashAlgorithm => hashOf sig.algorithm ∉ record.hashAlgorithms
  | .domainMismatch => .noSubdomains ∈ record.flags ∧ ∃ i, sig.identity = some i ∧
      E.idna.toAscii i.domain ≠ E.idna.toAscii sig.domain
  | .verificationFailure .invalidKey => publicKey E.crypto (keyTypeOf sig.algorithm) record.keyData = none
  | .verificationFailure .insufficientKeySize => ∃ k,
      publicKey E.crypto (keyTypeOf sig.algorithm) record.keyData = some (.rsa k) ∧
      E.crypto.rsaPkBits k < if E.pre then 512 else 1024
  | .policy .keyTooSmall => ∃ k,
      publicKey E.crypto (keyTypeOf sig.algorithm) record.keyData = some (.rsa k) ∧
      E.crypto.rsaPkBits k < cfg.minKeyBits
  | .verificationFailure .verificationFailure => ∃ value original key, FieldSignature E f value sig ∧
      WithoutB value original ∧ publicKey E.crypto (keyTypeOf sig.algorithm) record.keyData = some key ∧
      verifyWith key (hashOf sig.algorithm)
        (E.hash (hashOf sig.algorithm) (signedInput headers f original sig)) sig.signatureData = false
  | _ => False

/-- A failure that is due to the body. -/
def DueToBody (cfg : Config) (sig : DkimSignature) (body : Bytes) : VerificationError → Prop
  | .insufficientContent => ∃ n, sig.bodyLength = some n ∧ (codeBody sig.canonicalization.body body).length < n
  | .policy .unsignedContent => cfg.forbidUnsignedContent = true ∧ ∃ n, sig.bodyLength = some n ∧
      n < (codeBody sig.canonicalization.body body).length
  | .bodyHashMismatch => E.hash (hashOf sig.algorithm) (signedBody sig body) ≠ sig.bodyHash
  | _ => False

/-- What must be the case if `e` is reported in result `r` for field `f`. The failures come
in stages, and which parts of the result are there shows the stage. -/
def Reason (resolver : Resolver) (cfg : Config) (t : Nat) (headers : List Field) (body : Bytes) (f : Field)
    (r : VerificationResult) (e : VerificationError) : Prop :=
  match r.signature, r.keyRecord with
  | none, none => ∃ k, e = .dkimSignatureFormat k ∧ FieldDefect E f k
  | none, some _ => False
  | some sig, none => DueToSignature E cfg t headers sig e ∨ DueToAnswer E resolver sig e
  | some sig, some record => (∃ txts txt, Answer E resolver sig (.ok txts) ∧ txt ∈ txts ∧ TxtRecord E txt record) ∧
      (DueToRecord E cfg headers f sig record e ∨ DueToBody E cfg sig body e)

end Dkim.Spec
