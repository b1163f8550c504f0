import Verif.Model.Domain
import Verif.Model.BodyHash

/-!
# DKIM signatures

Model of algorithm names and `DkimSignature` in `/repo/src/signature.rs`.

Argument `pre` is the Cargo feature `pre-rfc8301`. The enums always have the SHA-1
variant; it is constructed only if the feature is enabled.
-/

namespace Dkim

/-- crypto/mod.rs:95-101 `KeyType`. -/
inductive KeyType
  | rsa
  | ed25519
deriving DecidableEq, Repr

/-- crypto/mod.rs:103-110 `canonical_str`. -/
def KeyType.canonicalStr : KeyType → Str
  | .rsa => c!"rsa"
  | .ed25519 => c!"ed25519"

/-- crypto/mod.rs:139-147 `HashAlgorithm::all`. -/
def HashAlg.all (pre : Bool) : List HashAlg := if pre then [.sha256, .sha1] else [.sha256]

/-- crypto/mod.rs:149-157 `canonical_str`. -/
def HashAlg.canonicalStr : HashAlg → Str
  | .sha256 => c!"sha256"
  | .sha1 => c!"sha1"

/-- signature.rs:454-462 `SigningAlgorithm`. -/
inductive SigAlg
  | rsaSha256
  | ed25519Sha256
  | rsaSha1
deriving DecidableEq, Repr

/-- signature.rs:467-476 `from_parts`. -/
def SigAlg.fromParts (pre : Bool) (k : KeyType) (h : HashAlg) : Option SigAlg :=
  match k, h with
  | .rsa, .sha256 => some .rsaSha256
  | .ed25519, .sha256 => some .ed25519Sha256
  | .rsa, .sha1 => if pre then some .rsaSha1 else none
  | _, _ => none

/-- signature.rs:479-486 `key_type`. -/
def SigAlg.keyType : SigAlg → KeyType
  | .rsaSha256 => .rsa
  | .ed25519Sha256 => .ed25519
  | .rsaSha1 => .rsa

/-- signature.rs:489-495 `hash_algorithm`. -/
def SigAlg.hashAlg : SigAlg → HashAlg
  | .rsaSha256 => .sha256
  | .ed25519Sha256 => .sha256
  | .rsaSha1 => .sha1

/-- signature.rs:498-507 `canonical_str`. -/
def SigAlg.canonicalStr : SigAlg → Str
  | .rsaSha256 => c!"rsa-sha256"
  | .ed25519Sha256 => c!"ed25519-sha256"
  | .rsaSha1 => c!"rsa-sha1"

/-- signature.rs:521-537 `from_str`. -/
def SigAlg.parse (pre : Bool) (s : Str) : Option SigAlg :=
  if eqIgnoreCase s c!"rsa-sha256" then some .rsaSha256
  else if eqIgnoreCase s c!"ed25519-sha256" then some .ed25519Sha256
  else if pre && eqIgnoreCase s c!"rsa-sha1" then some .rsaSha1
  else none

/-- signature.rs:555-562 `canonical_str`. -/
def CanonAlg.canonicalStr : CanonAlg → Str
  | .simple => c!"simple"
  | .relaxed => c!"relaxed"

/-- signature.rs:576-588 `from_str`. -/
def CanonAlg.parse (s : Str) : Option CanonAlg :=
  if eqIgnoreCase s c!"simple" then some .simple
  else if eqIgnoreCase s c!"relaxed" then some .relaxed
  else none

/-- signature.rs:601-607 `Canonicalization`. -/
structure Canonicalization where
  header : CanonAlg
  body : CanonAlg
deriving DecidableEq, Repr

/-- The derived `Default` (signature.rs:546-549, 601). -/
def Canonicalization.default : Canonicalization := ⟨.simple, .simple⟩

/-- signature.rs:609-620 `canonical_str`. -/
def Canonicalization.canonicalStr (c : Canonicalization) : Str :=
  match c.header, c.body with
  | .simple, .simple => c!"simple/simple"
  | .simple, .relaxed => c!"simple/relaxed"
  | .relaxed, .simple => c!"relaxed/simple"
  | .relaxed, .relaxed => c!"relaxed/relaxed"

/-- signature.rs:640-656 `from_str`. -/
def Canonicalization.parse (s : Str) : Option Canonicalization :=
  match splitOnce '/' s with
  | some (header, body) =>
    match CanonAlg.parse header, CanonAlg.parse body with
    | some h, some b => some ⟨h, b⟩
    | _, _ => none
  | none =>
    match CanonAlg.parse s with
    | some h => some ⟨h, .simple⟩
    | none => none

/-- signature.rs:659. -/
def dkimSignatureName : Str := c!"DKIM-Signature"

/-- signature.rs:708-739 `DkimSignatureErrorKind`. -/
inductive SigErrorKind
  | utf8Encoding
  | tagListFormat
  | incompatibleVersion
  | historicAlgorithm
  | unsupportedAlgorithm
  | invalidBase64
  | emptySignatureTag
  | emptyBodyHashTag
  | unsupportedCanonicalization
  | invalidDomain
  | invalidSignedHeaderName
  | emptySignedHeadersTag
  | fromHeaderNotSigned
  | invalidIdentity
  | invalidBodyLength
  | invalidQueryMethod
  | noSupportedQueryMethods
  | invalidSelector
  | invalidTimestamp
  | invalidExpiration
  | invalidCopiedHeaderField
  | missingVersionTag
  | missingAlgorithmTag
  | missingSignatureTag
  | missingBodyHashTag
  | missingDomainTag
  | missingSignedHeadersTag
  | missingSelectorTag
  | domainMismatch
  | expirationNotAfterTimestamp
deriving DecidableEq, Repr

/-- signature.rs:667-681 `DkimSignatureError`. -/
structure SigError where
  kind : SigErrorKind
  algorithmStr : Option Str
  signatureDataStr : Option Str
  domainStr : Option Str
  identityStr : Option Str
  selectorStr : Option Str
deriving DecidableEq, Repr

/-- signature.rs:686-695 `DkimSignatureError::new`. -/
def SigError.new (kind : SigErrorKind) : SigError := ⟨kind, none, none, none, none, none⟩

/-- signature.rs:783-822 `DkimSignature`. -/
structure DkimSignature where
  algorithm : SigAlg
  signatureData : Bytes
  bodyHash : Bytes
  canonicalization : Canonicalization
  domain : Str
  signedHeaders : List Str
  identity : Option Identity
  bodyLength : Option Nat
  selector : Str
  timestamp : Option Nat
  expiration : Option Nat
  copiedHeaders : List (Str × Bytes)
  extTags : List (Str × Str)
deriving DecidableEq, Repr

/-- The local variables signature.rs:858-871. -/
structure SigAcc where
  versionSeen : Bool := false
  algorithm : Option SigAlg := none
  signatureData : Option Bytes := none
  bodyHash : Option Bytes := none
  canonicalization : Option Canonicalization := none
  domain : Option Str := none
  signedHeaders : Option (List Str) := none
  identity : Option Identity := none
  bodyLength : Option Nat := none
  selector : Option Str := none
  timestamp : Option Nat := none
  expiration : Option Nat := none
  copiedHeaders : Option (List (Str × Bytes)) := none
  extTags : List (Str × Str) := []

/-- signature.rs:883-891: the value of `a=`. -/
def parseTagA (pre : Bool) (value : Str) : Res SigErrorKind SigAlg :=
  match SigAlg.parse pre value with
  | some a => .ok a
  | none =>
    if !pre && eqIgnoreCase value c!"rsa-sha1" then .err .historicAlgorithm
    else .err .unsupportedAlgorithm

/-- signature.rs:896-901 and 906-911: the value of `b=` or `bh=`. -/
def parseTagB (onEmpty : SigErrorKind) (value : Str) : Res SigErrorKind Bytes :=
  match parseBase64Value value with
  | none => .err .invalidBase64
  | some v => if v.isEmpty then .err onEmpty else .ok v

/-- signature.rs:916-917: the value of `c=`. -/
def parseTagC (value : Str) : Res SigErrorKind Canonicalization :=
  match Canonicalization.parse value with
  | none => .err .unsupportedCanonicalization
  | some c => .ok c

/-- signature.rs:922-923: the value of `d=`. -/
def parseTagD (ix : Idna) (value : Str) : Res SigErrorKind Str :=
  if isValidDomainName ix value then .ok value else .err .invalidDomain

/-- signature.rs:928-944: the value of `h=`. -/
def parseTagH (value : Str) : Res SigErrorKind (List Str) :=
  if value.isEmpty then .err .emptySignedHeadersTag
  else
    let sh := parseColonSeparated value
    if !sh.all fieldNameOk then .err .invalidSignedHeaderName
    else if !sh.any fun h => fieldNameEq h c!"From" then .err .fromHeaderNotSigned
    else .ok sh

/-- signature.rs:947-955: the value of `i=`. -/
def parseTagI (ix : Idna) (value : Str) : Res SigErrorKind Identity :=
  match qpDecode value with
  | .panic => .panic
  | .err => .err .invalidIdentity
  | .ok bytes =>
    match fromUtf8 bytes with
    | none => .err .invalidIdentity
    | some s =>
      match Identity.new ix s with
      | none => .err .invalidIdentity
      | some i => .ok i

/-- signature.rs:960-961, 994-995, 1000-1001: the values of `l=`, `t=`, `x=`. -/
def parseTagNum (e : SigErrorKind) (value : Str) : Res SigErrorKind Nat :=
  match parseU64 value with
  | none => .err e
  | some n => .ok n

/-- The loop signature.rs:974-981 and the check of lines 983-985; the first
argument is `dns_txt_seen`. -/
def parseTagQLoop : Bool → List Str → Res SigErrorKind Unit
  | seen, [] => if !seen then .err .noSupportedQueryMethods else .ok ()
  | seen, s :: rest =>
    if s.isEmpty then .err .invalidQueryMethod
    else parseTagQLoop (seen || eqIgnoreCase s c!"dns/txt") rest

/-- signature.rs:965-986: the value of `q=`. -/
def parseTagQ (value : Str) : Res SigErrorKind Unit := parseTagQLoop false (parseColonSeparated value)

/-- signature.rs:988-989: the value of `s=`. -/
def parseTagS (ix : Idna) (value : Str) : Res SigErrorKind Str :=
  if isValidSelector ix value then .ok value else .err .invalidSelector

/-- The loop signature.rs:1008-1012. -/
def parseTagZLoop : List Str → Res SigErrorKind (List (Str × Bytes))
  | [] => .ok []
  | piece :: rest =>
    match parseQpHeaderField piece with
    | none => .panic
    | some none => .err .invalidCopiedHeaderField
    | some (some h) =>
      match parseTagZLoop rest with
      | .ok hs => .ok (h :: hs)
      | .err e => .err e
      | .panic => .panic

/-- signature.rs:1005-1015: the value of `z=`. -/
def parseTagZ (value : Str) : Res SigErrorKind (List (Str × Bytes)) := parseTagZLoop (splitOn '|' value)

/-- Applies an update to the result of a value parser. -/
def Res.set {ε α β : Type} (r : Res ε α) (f : α → β) : Res ε β :=
  match r with
  | .ok a => .ok (f a)
  | .err e => .err e
  | .panic => .panic

/-- signature.rs:874-1019: one iteration of the loop over the tags. -/
def sigTag (ix : Idna) (pre : Bool) (acc : SigAcc) (t : TagSpec) : Res SigErrorKind SigAcc :=
  if t.name = c!"v" then
    if t.value ≠ c!"1" then .err .incompatibleVersion else .ok { acc with versionSeen := true }
  else if t.name = c!"a" then
    (parseTagA pre t.value).set fun x => { acc with algorithm := some x }
  else if t.name = c!"b" then
    (parseTagB .emptySignatureTag t.value).set fun x => { acc with signatureData := some x }
  else if t.name = c!"bh" then
    (parseTagB .emptyBodyHashTag t.value).set fun x => { acc with bodyHash := some x }
  else if t.name = c!"c" then
    (parseTagC t.value).set fun x => { acc with canonicalization := some x }
  else if t.name = c!"d" then
    (parseTagD ix t.value).set fun x => { acc with domain := some x }
  else if t.name = c!"h" then
    (parseTagH t.value).set fun x => { acc with signedHeaders := some x }
  else if t.name = c!"i" then
    (parseTagI ix t.value).set fun x => { acc with identity := some x }
  else if t.name = c!"l" then
    (parseTagNum .invalidBodyLength t.value).set fun x => { acc with bodyLength := some x }
  else if t.name = c!"q" then
    (parseTagQ t.value).set fun _ => acc
  else if t.name = c!"s" then
    (parseTagS ix t.value).set fun x => { acc with selector := some x }
  else if t.name = c!"t" then
    (parseTagNum .invalidTimestamp t.value).set fun x => { acc with timestamp := some x }
  else if t.name = c!"x" then
    (parseTagNum .invalidExpiration t.value).set fun x => { acc with expiration := some x }
  else if t.name = c!"z" then
    (parseTagZ t.value).set fun x => { acc with copiedHeaders := some x }
  else .ok { acc with extTags := acc.extTags ++ [(t.name, t.value)] }

/-- signature.rs:873-1020: the loop over the tags. -/
def sigLoop (ix : Idna) (pre : Bool) : SigAcc → List TagSpec → Res SigErrorKind SigAcc
  | acc, [] => .ok acc
  | acc, t :: ts =>
    match sigTag ix pre acc t with
    | .ok acc => sigLoop ix pre acc ts
    | .err e => .err e
    | .panic => .panic

/-- signature.rs:1033-1037: the `i=` domain is not covered by the `d=` domain;
`none` is a panic. -/
def domainMismatch (ix : Idna) (identity : Option Identity) (domain : Str) : Option Bool :=
  match identity with
  | none => some false
  | some id =>
    match eqOrSubdomainOf ix id.domain domain with
    | none => none
    | some b => some !b

/-- signature.rs:1039-1043. -/
def expirationBad (timestamp expiration : Option Nat) : Bool :=
  match timestamp, expiration with
  | some t, some x => x ≤ t
  | _, _ => false

/-- signature.rs:1022-1063: the checks after the loop. -/
def sigFinish (ix : Idna) (acc : SigAcc) : Res SigErrorKind DkimSignature :=
  if !acc.versionSeen then .err .missingVersionTag
  else
    match acc.algorithm with
    | none => .err .missingAlgorithmTag
    | some algorithm =>
    match acc.signatureData with
    | none => .err .missingSignatureTag
    | some signatureData =>
    match acc.bodyHash with
    | none => .err .missingBodyHashTag
    | some bodyHash =>
    match acc.domain with
    | none => .err .missingDomainTag
    | some domain =>
    match acc.signedHeaders with
    | none => .err .missingSignedHeadersTag
    | some signedHeaders =>
    match acc.selector with
    | none => .err .missingSelectorTag
    | some selector =>
    match domainMismatch ix acc.identity domain with
    | none => .panic
    | some true => .err .domainMismatch
    | some false =>
      if expirationBad acc.timestamp acc.expiration then .err .expirationNotAfterTimestamp
      else .ok {
        algorithm, signatureData, bodyHash
        canonicalization := acc.canonicalization.getD .default
        domain, signedHeaders
        identity := acc.identity
        bodyLength := acc.bodyLength
        selector
        timestamp := acc.timestamp
        expiration := acc.expiration
        copiedHeaders := acc.copiedHeaders.getD []
        extTags := acc.extTags }

/-- signature.rs:857-1064 `from_tag_list_internal`. -/
def sigFromTagListInternal (ix : Idna) (pre : Bool) (tags : List TagSpec) :
    Res SigErrorKind DkimSignature :=
  match sigLoop ix pre {} tags with
  | .ok acc => sigFinish ix acc
  | .err e => .err e
  | .panic => .panic

/-- The loop signature.rs:835-844. -/
def salvage : SigError → List TagSpec → SigError
  | e, [] => e
  | e, t :: ts =>
    salvage
      (if t.name = c!"a" then { e with algorithmStr := some t.value }
      else if t.name = c!"b" then { e with signatureDataStr := some t.value }
      else if t.name = c!"d" then { e with domainStr := some t.value }
      else if t.name = c!"i" then { e with identityStr := some t.value }
      else if t.name = c!"s" then { e with selectorStr := some t.value }
      else e) ts

/-- signature.rs:825-855 `from_tag_list`. -/
def sigFromTagList (ix : Idna) (pre : Bool) (tags : List TagSpec) : Res SigError DkimSignature :=
  match sigFromTagListInternal ix pre tags with
  | .ok s => .ok s
  | .err kind => .err (salvage (SigError.new kind) tags)
  | .panic => .panic

/-- signature.rs:1067-1076 `from_str`. -/
def sigFromStr (ix : Idna) (pre : Bool) (s : Str) : Res SigError DkimSignature :=
  match parseTagList s with
  | .error _ => .err (SigError.new .tagListFormat)
  | .ok tags => sigFromTagList ix pre tags

end Dkim
