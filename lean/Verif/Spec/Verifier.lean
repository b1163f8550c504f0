import Verif.Spec.Laws
import Verif.Spec.BodyHash
import Verif.Spec.Record
import Verif.Spec.Errors
import Verif.Spec.Signer
import Verif.Spec.Strip
import Verif.Model.Verifier

/-!
# Specification: verifying

From the model only data types are used (`Config`, `VerificationError`,
`VerificationResult`, `DkimSignature`, `KeyRecord`, keys, `Field`).
-/

namespace Dkim.Spec

variable (E : Env)

/-! ## Which fields are evaluated -/

/-- The header fields with their positions. -/
def positions (headers : List Field) : List (Nat × Field) := headers.zipIdx.map fun p => (p.2, p.1)

/-- A field named DKIM-Signature. -/
def IsDkimField (f : Field) : Prop := lower f.name = c!"dkim-signature"

instance (f : Field) : Decidable (IsDkimField f) := inferInstanceAs (Decidable (_ = _))

/-- The first `max` DKIM-Signature fields from the top. -/
def dkimFields (max : Nat) (headers : List Field) : List (Nat × Field) :=
  ((positions headers).filter fun p => IsDkimField p.2).take max

/-- The text of a header field body is a signature. -/
def FieldSignature (f : Field) (value : Str) (sig : DkimSignature) : Prop :=
  f.body = utf8 value ∧ ∃ tags, ListText tags value ∧ (tags.map (·.1)).Nodup ∧
    SignatureOf E.idna E.pre tags sig

/-- Why a header field body is not a signature. -/
def FieldDefect (f : Field) (e : SigError) : Prop :=
  ((∀ s, f.body ≠ utf8 s) ∧ e = ⟨.utf8Encoding, none, none, none, none, none⟩) ∨
  ∃ s, f.body = utf8 s ∧ SignatureError E.idna E.pre s e

/-! ## Checks -/

/-- A check, and the error that reports its failure. -/
structure Check where
  error : VerificationError
  holds : Prop

/-- All checks pass. -/
def AllPass (cs : List Check) : Prop := ∀ c ∈ cs, c.holds

/-- The first check that fails has error `e`. -/
def FirstFailure (cs : List Check) (e : VerificationError) : Prop :=
  ∃ before c after, cs = before ++ c :: after ∧ (∀ q ∈ before, q.holds) ∧ ¬ c.holds ∧ c.error = e

/-- Unix time; a time before the epoch counts as zero. -/
def unixTime (cfg : Config) (now : Int) : Nat :=
  match cfg.fixedSystemTime with
  | some t => t.toNat
  | none => now.toNat

/-- The checks of a parsed signature, in their order. -/
def signatureChecks (cfg : Config) (t : Nat) (headers : List Field) (sig : DkimSignature) : List Check :=
  [⟨.policy .requiredHeaderNotSigned, ∀ h ∈ cfg.headersRequired, ∃ n ∈ sig.signedHeaders, lower n = lower h⟩,
   ⟨.policy .unsignedHeaderOccurrence, ∀ h ∈ cfg.headersForbiddenUnsigned,
     occurrences headers h ≤ mentions sig.signedHeaders h⟩,
   ⟨.overflow, ∀ n, sig.bodyLength = some n → n ≤ E.usizeMax⟩,
   ⟨.policy .signatureExpired, cfg.allowExpired = true ∨
     ∀ x, sig.expiration = some x → t < x + cfg.timeTolerance⟩,
   ⟨.policy .timestampInFuture, cfg.allowTimestampInFuture = true ∨
     ∀ s, sig.timestamp = some s → s ≤ t + cfg.timeTolerance⟩,
   ⟨.policy .sha1HashAlgorithm, E.pre = true → cfg.allowSha1 = true ∨ hashOf sig.algorithm ≠ .sha1⟩]

/-- What the type `SystemTime` guarantees of a configuration and a clock: the seconds
since the epoch are a signed 64-bit number. -/
structure TypedTimes (cfg : Config) (clock : Nat → Int) : Prop where
  clock : ∀ i, clock i < 2 ^ 63
  fixed : ∀ t, cfg.fixedSystemTime = some t → t < 2 ^ 63

/-! ## Key records -/

/-- The text of a TXT record is a key record. -/
def TxtRecord (txt : Except IoErr Bytes) (r : KeyRecord) : Prop :=
  ∃ s tags, txt = .ok (utf8 s) ∧ ListText tags s ∧ (tags.map (·.1)).Nodup ∧ RecordOf E.lossy E.pre tags r

/-- Why a TXT record is not a key record. -/
def TxtDefect (txt : Except IoErr Bytes) (k : RecordError) : Prop :=
  ((∀ s, txt ≠ .ok (utf8 s)) ∧ k = .recordFormat) ∨ ∃ s, txt = .ok (utf8 s) ∧ RecordDefect E.pre s k

/-- The public key in key data: for RSA in SubjectPublicKeyInfo form or else in PKCS #1
form, for Ed25519 as the plain bytes or else in SubjectPublicKeyInfo form. -/
def publicKey (C : Crypto) (type : KeyType) (data : Bytes) : Option (VerifyingKey C) :=
  match type with
  | .rsa => ((C.rsaFromSpki data).or (C.rsaFromPkcs1 data)).map .rsa
  | .ed25519 => ((C.edFromBytes data).or (C.edFromSpki data)).map .ed25519

/-- The number of bits of the modulus, rounded up to whole bytes, is at least `n`; there
is no such limit for Ed25519. -/
def BitsAtLeast {C : Crypto} (key : VerifyingKey C) (n : Nat) : Prop :=
  match key with
  | .rsa k => n ≤ (C.rsaPkBits k + 7) / 8 * 8
  | .ed25519 _ => True

/-- A public key accepts a signature of hashed data. -/
def verifyWith {C : Crypto} (key : VerifyingKey C) (h : HashAlg) (data sig : Bytes) : Bool :=
  match key with
  | .rsa k => C.rsaVerify k h data sig
  | .ed25519 k => C.edVerify k data sig

/-- The data that are signed: the selected header fields, and the signature field itself
without the value of `b=`. -/
def signedInput (headers : List Field) (f : Field) (original : Str) (sig : DkimSignature) : Bytes :=
  headerHashInput sig.canonicalization.header headers sig.signedHeaders f.name original

/-- The checks of a key record, in their order; `original` is the value of the signature
field `f` without the value of `b=`. -/
def recordChecks (cfg : Config) (headers : List Field) (f : Field) (original : Str) (sig : DkimSignature)
    (r : KeyRecord) : List Check :=
  let key := publicKey E.crypto (keyTypeOf sig.algorithm) r.keyData
  [⟨.wrongKeyType, r.keyType = keyTypeOf sig.algorithm⟩,
   ⟨.keyRevoked, r.keyData ≠ []⟩,
   ⟨.disallowedHashAlgorithm, hashOf sig.algorithm ∈ r.hashAlgorithms⟩,
   ⟨.domainMismatch, .noSubdomains ∈ r.flags → ∀ i, sig.identity = some i →
     E.idna.toAscii i.domain = E.idna.toAscii sig.domain⟩,
   ⟨.verificationFailure .invalidKey, key ≠ none⟩,
   ⟨.verificationFailure .insufficientKeySize, ∀ k, key = some k →
     BitsAtLeast k (if E.pre then 512 else 1024)⟩,
   ⟨.policy .keyTooSmall, ∀ k, key = some k → BitsAtLeast k cfg.minKeyBits⟩,
   ⟨.verificationFailure .verificationFailure, ∀ k, key = some k →
     verifyWith k (hashOf sig.algorithm)
       (E.hash (hashOf sig.algorithm) (signedInput headers f original sig)) sig.signatureData = true⟩]

/-- What comes of a key record. -/
inductive Tried
  | verified (r : KeyRecord)
  | failed (e : VerificationError) (r : Option KeyRecord)

/-- What comes of a TXT record: it verifies the signature, or fails at the first failing
check, or cannot be used. -/
def Outcome (cfg : Config) (headers : List Field) (f : Field) (original : Str) (sig : DkimSignature)
    (txt : Except IoErr Bytes) : Tried → Prop
  | .verified r => TxtRecord E txt r ∧ AllPass (recordChecks E cfg headers f original sig r)
  | .failed e (some r) => TxtRecord E txt r ∧ FirstFailure (recordChecks E cfg headers f original sig r) e
  | .failed e none => (∀ r, ¬ TxtRecord E txt r) ∧ ∃ k, e = .keyRecordFormat k ∧ TxtDefect E txt k

/-- The records that are tried: the first two and the last. -/
def firstTwoAndLast {α : Type} : List α → List α
  | a :: b :: c :: rest => [a, b, (c :: rest).getLast (by simp)]
  | l => l

/-- The name that is queried. -/
def keyName (domain selector : Str) : Str := selector ++ c!"._domainkey." ++ domain ++ ['.']

/-- The name that is queried for a signature. -/
def QueryFor (sig : DkimSignature) (name : Str) : Prop :=
  ∃ d s, E.idna.toAscii sig.domain = some d ∧ E.idna.toAscii sig.selector = some s ∧ name = keyName d s

/-- The error for a failed lookup. -/
def lookupError : IoErr → VerificationError
  | .notFound => .noKeyFound
  | .invalidInput => .invalidKeyDomain
  | .timedOut => .timeout
  | .invalidData => .keyLookup
  | .other => .keyLookup

/-! ## The body -/

/-- The status of a signature with regard to the body. -/
def bodyStatus (cfg : Config) (sig : DkimSignature) (body : Bytes) : VerificationStatus :=
  let cb := codeBody sig.canonicalization.body body
  let compare := fun part : Bytes =>
    if E.hash (hashOf sig.algorithm) part = sig.bodyHash then VerificationStatus.success
    else .failure .bodyHashMismatch
  match sig.bodyLength with
  | none => compare cb
  | some n =>
    if cb.length < n then .failure .insufficientContent
    else if n < cb.length ∧ cfg.forbidUnsignedContent = true then .failure (.policy .unsignedContent)
    else compare (cb.take n)

/-! ## The result for a signature -/

/-- All that does not concern the body is in order: field `f` has signature `sig`, which
passes the checks, and of the records that are tried, `record` is the first to verify
it. -/
def HeaderVerified (resolver : Resolver) (cfg : Config) (now : Int) (headers : List Field) (f : Field)
    (sig : DkimSignature) (record : KeyRecord) : Prop :=
  ∃ value original name txts before txt after, FieldSignature E f value sig ∧ WithoutB value original ∧
    AllPass (signatureChecks E cfg (unixTime cfg now) headers sig) ∧ QueryFor E sig name ∧
    (resolver name).result = .ok txts ∧ firstTwoAndLast txts = before ++ txt :: after ∧
    (∀ t ∈ before, ∀ r, ¬ Outcome E cfg headers f original sig t (.verified r)) ∧
    Outcome E cfg headers f original sig txt (.verified record)

/-- The result for the DKIM-Signature field `f` at position `i`, given the time, the
header, the DNS and the body. -/
inductive Judged (resolver : Resolver) (cfg : Config) (now : Int) (headers : List Field) (body : Bytes)
    (i : Nat) (f : Field) : VerificationResult → Prop
  /-- Not a signature. -/
  | unparsed (e : SigError) : (∀ value sig, ¬ FieldSignature E f value sig) → FieldDefect E f e →
      Judged resolver cfg now headers body i f ⟨.failure (.dkimSignatureFormat e), i, none, none⟩
  /-- A check of the signature fails. -/
  | rejected (value : Str) (sig : DkimSignature) (e : VerificationError) : FieldSignature E f value sig →
      FirstFailure (signatureChecks E cfg (unixTime cfg now) headers sig) e →
      Judged resolver cfg now headers body i f ⟨.failure e, i, some sig, none⟩
  /-- The lookup fails. -/
  | noAnswer (value : Str) (sig : DkimSignature) (name : Str) (e : IoErr) : FieldSignature E f value sig →
      AllPass (signatureChecks E cfg (unixTime cfg now) headers sig) → QueryFor E sig name →
      (resolver name).result = .error e →
      Judged resolver cfg now headers body i f ⟨.failure (lookupError e), i, some sig, none⟩
  /-- There are no records. -/
  | noRecords (value : Str) (sig : DkimSignature) (name : Str) : FieldSignature E f value sig →
      AllPass (signatureChecks E cfg (unixTime cfg now) headers sig) → QueryFor E sig name →
      (resolver name).result = .ok [] →
      Judged resolver cfg now headers body i f ⟨.failure .noKeyFound, i, some sig, none⟩
  /-- A record verifies the signature, and no earlier one does. -/
  | verified (value original : Str) (sig : DkimSignature) (name : Str) (txts before after : List (Except IoErr Bytes))
      (txt : Except IoErr Bytes) (r : KeyRecord) :
      FieldSignature E f value sig → WithoutB value original →
      AllPass (signatureChecks E cfg (unixTime cfg now) headers sig) → QueryFor E sig name →
      (resolver name).result = .ok txts → firstTwoAndLast txts = before ++ txt :: after →
      (∀ t ∈ before, ∃ e r, Outcome E cfg headers f original sig t (.failed e r)) →
      Outcome E cfg headers f original sig txt (.verified r) →
      Judged resolver cfg now headers body i f ⟨bodyStatus E cfg sig body, i, some sig, some r⟩
  /-- No record verifies the signature; the failure of the last one is reported. -/
  | unverified (value original : Str) (sig : DkimSignature) (name : Str) (txts before : List (Except IoErr Bytes))
      (txt : Except IoErr Bytes) (e : VerificationError) (r : Option KeyRecord) :
      FieldSignature E f value sig → WithoutB value original →
      AllPass (signatureChecks E cfg (unixTime cfg now) headers sig) → QueryFor E sig name →
      (resolver name).result = .ok txts → firstTwoAndLast txts = before ++ [txt] →
      (∀ t ∈ before, ∃ e r, Outcome E cfg headers f original sig t (.failed e r)) →
      Outcome E cfg headers f original sig txt (.failed e r) →
      Judged resolver cfg now headers body i f ⟨.failure e, i, some sig, r⟩

end Dkim.Spec
