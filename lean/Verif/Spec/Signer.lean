import Verif.Spec.Laws
import Verif.Spec.BodyHash
import Verif.Spec.Signature
import Verif.Model.Signer

/-!
# Specification: signing requests and what is signed

From the model only data types are used (`SignRequest`, `RequestError`,
`OutputFormat`, keys, `DkimSignature`, `UnsignedSig`, `Field`).
-/

namespace Dkim.Spec

variable {E : Env}

/-- What the Rust types guarantee of a request: domain names, selectors and field
names are valid, integers have 64 bits, the line width is not zero, and SHA-1
exists only with feature `pre-rfc8301`. -/
structure TypedRequest (r : SignRequest E) : Prop where
  domain : ValidDomain true E.idna r.domain
  selector : ValidDomain false E.idna r.selector
  identity : ∀ i, r.identity = some i → ValidDomain true E.idna i.domain
  names : ∀ ns, r.headerSelection = .manual ns → ∀ n ∈ ns, ValidName n
  length : ∀ n, r.bodyLength = .exact n → n < 2 ^ 64
  timestamp : ∀ n, r.timestamp = .exact n → n < 2 ^ 64
  duration : ∀ n, r.validDuration = some n → n < 2 ^ 64
  width : 1 ≤ r.format.lineWidth
  sha1 : r.algorithm = .rsaSha1 → E.pre = true

/-- What the Rust types guarantee of header fields. -/
def TypedHeaders (headers : List Field) : Prop := ∀ f ∈ headers, ValidName f.name ∧ ValidBody f.body

/-- A rule that has to be respected, and the error that reports its violation. -/
structure Rule where
  error : RequestError
  holds : Prop

/-- The rule that is violated first has error `e`. -/
def FirstViolated (rules : List Rule) (e : RequestError) : Prop :=
  ∃ before rule after, rules = before ++ rule :: after ∧ (∀ q ∈ before, q.holds) ∧ ¬ rule.holds ∧
    rule.error = e

/-- Text allowed as a tag value: empty, or words separated by FWS. -/
def TagValue (v : Str) : Prop := v = [] ∨ SomeValue v

/-- The type of the key of an algorithm. -/
def keyTypeOf : SigAlg → KeyType
  | .rsaSha1 => .rsa
  | .rsaSha256 => .rsa
  | .ed25519Sha256 => .ed25519

/-- The type of a signing key. -/
def typeOfKey {C : Crypto} : SigningKey C → KeyType
  | .rsa _ => .rsa
  | .ed25519 _ => .ed25519

/-- The tags that the signer writes itself. -/
def writtenTags : List Str :=
  [c!"v", c!"a", c!"b", c!"bh", c!"c", c!"d", c!"h", c!"i", c!"l", c!"s", c!"t", c!"x", c!"z"]

/-- The rules for a request, in the order in which they are checked. -/
def requestRules (r : SignRequest E) : List Rule :=
  [⟨.incompatibleKeyType, typeOfKey r.signingKey = keyTypeOf r.algorithm⟩,
   ⟨.fromHeaderNotSigned, ∀ ns, r.headerSelection = .manual ns → ∃ n ∈ ns, lower n = c!"from"⟩,
   ⟨.invalidSignedFieldName, ∀ ns, r.headerSelection = .manual ns → ∀ n ∈ ns, ';' ∉ n⟩,
   ⟨.domainMismatch, ∀ i, r.identity = some i → UnderDomain E.idna i.domain r.domain⟩,
   ⟨.zeroExpirationDuration, r.validDuration ≠ some 0⟩,
   ⟨.invalidExtTags, (r.extTags.map (·.1)).Nodup ∧
     ∀ t ∈ r.extTags, TagName t.1 ∧ TagValue t.2 ∧ t.1 ∉ writtenTags⟩,
   ⟨.invalidDkimSignatureHeaderName, lower r.format.headerName = c!"dkim-signature"⟩,
   ⟨.invalidIndentationWhitespace, r.format.indentation ≠ [] ∧ ∀ c ∈ r.format.indentation, wsp c⟩,
   ⟨.overflow, ∀ n, r.bodyLength = .exact n → n ≤ E.usizeMax⟩]

/-- A request that respects all rules. -/
def ValidRequest (r : SignRequest E) : Prop := ∀ q ∈ requestRules r, q.holds

/-- The header has a From field. -/
def HasFrom (headers : List Field) : Prop := ∃ f ∈ headers, lower f.name = c!"from"

/-- The rules for the requests, of which the first has index `i`. -/
def requestsRules : Nat → List (SignRequest E) → List Rule
  | _, [] => []
  | i, r :: rs => ⟨.tooManyRequests, i < 10⟩ :: requestRules r ++ requestsRules (i + 1) rs

/-- All rules for signing, in the order in which they are checked. -/
def signingRules (headers : List Field) (requests : List (SignRequest E)) : List Rule :=
  ⟨.missingFromHeader, HasFrom headers⟩ :: requestsRules 0 requests ++ [⟨.emptyRequests, requests ≠ []⟩]

/-! ## The data of a signature -/

/-- The header field names signed by default. -/
def signedByDefault : List Str :=
  [c!"from", c!"reply-to", c!"subject", c!"date", c!"to", c!"cc", c!"resent-date", c!"resent-from",
    c!"resent-to", c!"resent-cc", c!"in-reply-to", c!"references", c!"list-id", c!"list-help",
    c!"list-unsubscribe", c!"list-subscribe", c!"list-post", c!"list-owner", c!"list-archive"]

/-- The hash algorithm of a signature algorithm. -/
def hashOf : SigAlg → HashAlg
  | .rsaSha1 => .sha1
  | .rsaSha256 => .sha256
  | .ed25519Sha256 => .sha256

/-- The names to be signed. -/
def namesToSign (r : SignRequest E) (headers : List Field) : List Str :=
  match r.headerSelection with
  | .manual ns => ns
  | .auto => ((headers.map (·.name)).filter fun n => signedByDefault.contains (lower n)).reverse

/-- The part of the canonical body that is signed; `none` if there is too little. -/
def bodyToSign (r : SignRequest E) (body : Bytes) : Option Bytes :=
  let cb := codeBody r.canonicalization.body body
  match r.bodyLength with
  | .exact n => if cb.length < n then none else some (cb.take n)
  | _ => some cb

/-- The data of a signature requested by `r`, made at time `now` for the header
`headers` and the body part `part`. -/
def sigData (r : SignRequest E) (headers : List Field) (part : Bytes) (now : Nat) : UnsignedSig where
  algorithm := r.algorithm
  bodyHash := E.hash (hashOf r.algorithm) part
  canonicalization := r.canonicalization
  domain := r.domain
  signedHeaders := namesToSign r headers
  identity := r.identity
  bodyLength := if r.bodyLength = .noLimit then none else some part.length
  selector := r.selector
  timestamp :=
    match r.timestamp with
    | .none => none
    | .now => some now
    | .exact t => some t
  expiration := r.validDuration.map fun d =>
    min (2 ^ 64 - 1) ((match r.timestamp with | .exact t => t | _ => now) + d)
  copiedHeaders :=
    if r.copyHeaders then
      (headers.filter fun f => (namesToSign r headers).any fun n => sameName n f.name).map
        fun f => (f.name, f.body)
    else []
  extTags := r.extTags

/-- The complete signature data: `sigData` and the signature itself. -/
def withSignature (u : UnsignedSig) (sig : Bytes) : DkimSignature where
  algorithm := u.algorithm
  signatureData := sig
  bodyHash := u.bodyHash
  canonicalization := u.canonicalization
  domain := u.domain
  signedHeaders := u.signedHeaders
  identity := u.identity
  bodyLength := u.bodyLength
  selector := u.selector
  timestamp := u.timestamp
  expiration := u.expiration
  copiedHeaders := u.copiedHeaders
  extTags := u.extTags

/-- The same signature, up to the spelling of domain names and the order of the
extension tags. -/
structure SameSignature (ix : Idna) (s t : DkimSignature) : Prop where
  algorithm : s.algorithm = t.algorithm
  signatureData : s.signatureData = t.signatureData
  bodyHash : s.bodyHash = t.bodyHash
  canonicalization : s.canonicalization = t.canonicalization
  domain : ix.toAscii s.domain = ix.toAscii t.domain
  signedHeaders : s.signedHeaders = t.signedHeaders
  identity : s.identity.map (fun i => (i.localPart, ix.toAscii i.domain)) =
    t.identity.map fun i => (i.localPart, ix.toAscii i.domain)
  bodyLength : s.bodyLength = t.bodyLength
  selector : ix.toAscii s.selector = ix.toAscii t.selector
  timestamp : s.timestamp = t.timestamp
  expiration : s.expiration = t.expiration
  copiedHeaders : s.copiedHeaders = t.copiedHeaders
  extTags : s.extTags.Perm t.extTags

/-- The names of copied header fields contain no equals sign and no bar. -/
def CopyableNames (r : SignRequest E) (headers : List Field) : Prop :=
  r.copyHeaders = true → ∀ f ∈ headers, (∃ n ∈ namesToSign r headers, lower n = lower f.name) →
    '=' ∉ f.name ∧ '|' ∉ f.name

/-- The name of a header field, followed by a colon, is itself the text of copied header
fields (a name `A=42` would be read as `AB`, a name `A=3Ab|C` as the two fields `A` with
value `b`, and `C`). -/
def ReadableName (n : Str) : Prop := ∃ hs, CopiedText (n ++ [':']) hs

/-- The names of copied header fields can be read when written without encoding. -/
def ReadableNames (r : SignRequest E) (headers : List Field) : Prop :=
  r.copyHeaders = true → ∀ f ∈ headers, (∃ n ∈ namesToSign r headers, lower n = lower f.name) →
    ReadableName f.name

/-- The names in a request are valid in the form in which they are written, and then the
identity is still in the domain. -/
structure ReadableDomains (r : SignRequest E) : Prop where
  domain : ValidDomain true E.idna (writtenName E.idna r.format.asciiOnly r.domain)
  selector : ValidDomain false E.idna (writtenName E.idna r.format.asciiOnly r.selector)
  identity : ∀ j, r.identity = some j →
    ValidDomain true E.idna (writtenName E.idna r.format.asciiOnly j.domain) ∧
    UnderDomain E.idna (writtenName E.idna r.format.asciiOnly j.domain)
      (writtenName E.idna r.format.asciiOnly r.domain)

/-- The names in a request are written in a form that stands for the same name. -/
structure KeptNames (r : SignRequest E) : Prop where
  domain : KeptName E.idna r.format.asciiOnly r.domain
  selector : KeptName E.idna r.format.asciiOnly r.selector
  identity : ∀ j, r.identity = some j → KeptName E.idna r.format.asciiOnly j.domain

/-- What is read when the copied header fields are written with names that are not
encoded, and with encoded values. -/
inductive ReadCopies : List (Str × Bytes) → List (Str × Bytes) → Prop
  | nil : ReadCopies [] []
  | cons (n m : Str) (v b : Bytes) (first hs rs : List (Str × Bytes)) :
      CopiedText (n ++ [':']) (first ++ [(m, b)]) → ReadCopies hs rs →
      ReadCopies ((n, v) :: hs) (first ++ (m, b ++ v) :: rs)

/-- A timestamp that is written into the signature is not the greatest integer if there
is also an expiration time. -/
def TimeLeft (r : SignRequest E) (now : Nat) : Prop :=
  r.validDuration ≠ none → (∀ t, r.timestamp = .exact t → t < 2 ^ 64 - 1) ∧
    (r.timestamp = .now → now < 2 ^ 64 - 1)

/-- Signing with a key; only RSA can fail. -/
def signWith {C : Crypto} (key : SigningKey C) (h : HashAlg) (data : Bytes) : Option Bytes :=
  match key with
  | .rsa k => C.rsaSign h k data
  | .ed25519 k => some (C.edSign k data)

end Dkim.Spec
