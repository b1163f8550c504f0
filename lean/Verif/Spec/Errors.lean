import Verif.Spec.Record

/-!
# Specification: why a text is not a signature or key record

Only data types (error kinds, algorithms, `Identity`, `Idna`) are taken from the model.
-/

namespace Dkim.Spec

/-- The items of a list separated by colons, without the surrounding whitespace. -/
def Items (v : Str) (items : List Str) : Prop := ColonList items v ∧ ∀ i ∈ items, Trimmed i ∧ ':' ∉ i

/-- Value `v` of tag `n` in a signature has a defect, reported as `k`. -/
inductive TagDefect (ix : Idna) (pre : Bool) : Str → Str → SigErrorKind → Prop
  | version (v : Str) : v ≠ c!"1" → TagDefect ix pre c!"v" v .incompatibleVersion
  | algorithm (v : Str) : lower v ∉ [c!"rsa-sha256", c!"ed25519-sha256", c!"rsa-sha1"] →
      TagDefect ix pre c!"a" v .unsupportedAlgorithm
  | historic (v : Str) : pre = false → lower v = c!"rsa-sha1" → TagDefect ix pre c!"a" v .historicAlgorithm
  | signature (v : Str) : (∀ bs, unfws v ≠ base64 bs) → TagDefect ix pre c!"b" v .invalidBase64
  | noSignature (v : Str) : unfws v = [] → TagDefect ix pre c!"b" v .emptySignatureTag
  | bodyHash (v : Str) : (∀ bs, unfws v ≠ base64 bs) → TagDefect ix pre c!"bh" v .invalidBase64
  | noBodyHash (v : Str) : unfws v = [] → TagDefect ix pre c!"bh" v .emptyBodyHashTag
  | canonicalization (v : Str) : (∀ c, ¬ CanonText v c) → TagDefect ix pre c!"c" v .unsupportedCanonicalization
  | domain (v : Str) : ¬ ValidDomain true ix v → TagDefect ix pre c!"d" v .invalidDomain
  | noHeaders : TagDefect ix pre c!"h" [] .emptySignedHeadersTag
  | headerName (v : Str) (items : List Str) : v ≠ [] → Items v items → (∃ n ∈ items, ¬ ValidName n) →
      TagDefect ix pre c!"h" v .invalidSignedHeaderName
  | noFrom (v : Str) (items : List Str) : Items v items → (∀ n ∈ items, ValidName n) →
      (∀ n ∈ items, lower n ≠ c!"from") → TagDefect ix pre c!"h" v .fromHeaderNotSigned
  | identity (v : Str) : (∀ i, ¬ IdentityText ix v i) → TagDefect ix pre c!"i" v .invalidIdentity
  | bodyLength (v : Str) : (∀ n, ¬ PlusDecimal v n) → TagDefect ix pre c!"l" v .invalidBodyLength
  | queryMethod (v : Str) (items : List Str) : Items v items → [] ∈ items →
      TagDefect ix pre c!"q" v .invalidQueryMethod
  | noQueryMethod (v : Str) (items : List Str) : Items v items → [] ∉ items →
      (∀ i ∈ items, lower i ≠ c!"dns/txt") → TagDefect ix pre c!"q" v .noSupportedQueryMethods
  | selector (v : Str) : ¬ ValidDomain false ix v → TagDefect ix pre c!"s" v .invalidSelector
  | timestamp (v : Str) : (∀ n, ¬ PlusDecimal v n) → TagDefect ix pre c!"t" v .invalidTimestamp
  | expiration (v : Str) : (∀ n, ¬ PlusDecimal v n) → TagDefect ix pre c!"x" v .invalidExpiration
  | copied (v : Str) : (∀ hs, ¬ CopiedText v hs) → TagDefect ix pre c!"z" v .invalidCopiedHeaderField

/-- The tags that must be present, in the order in which they are missed. -/
def requiredTags : List (Str × SigErrorKind) :=
  [(c!"v", .missingVersionTag), (c!"a", .missingAlgorithmTag), (c!"b", .missingSignatureTag),
   (c!"bh", .missingBodyHashTag), (c!"d", .missingDomainTag), (c!"h", .missingSignedHeadersTag),
   (c!"s", .missingSelectorTag)]

/-- No value of a tag has a defect. -/
def NoTagDefect (ix : Idna) (pre : Bool) (tags : List (Str × Str)) : Prop :=
  ∀ t ∈ tags, ∀ k, ¬ TagDefect ix pre t.1 t.2 k

/-- All required tags are present. -/
def AllPresent (required : List (Str × SigErrorKind)) (tags : List (Str × Str)) : Prop :=
  ∀ p ∈ required, ∃ v, (p.1, v) ∈ tags

/-- The domain in `i=` is not under the domain in `d=`. -/
def IdentityElsewhere (ix : Idna) (tags : List (Str × Str)) : Prop :=
  ∃ d v i, (c!"d", d) ∈ tags ∧ (c!"i", v) ∈ tags ∧ IdentityText ix v i ∧ ¬ UnderDomain ix i.domain d

/-- The time in `x=` is not after the time in `t=`. -/
def ExpiredAtOnce (tags : List (Str × Str)) : Prop :=
  ∃ v w t x, (c!"t", v) ∈ tags ∧ PlusDecimal v t ∧ (c!"x", w) ∈ tags ∧ PlusDecimal w x ∧ x ≤ t

/-- The first defect of a list of tags that is not a signature. -/
inductive FirstDefect (ix : Idna) (pre : Bool) (tags : List (Str × Str)) : SigErrorKind → Prop
  /-- The values of the tags are examined in the order in which they appear. -/
  | value (before after : List (Str × Str)) (n v : Str) (k : SigErrorKind) : tags = before ++ (n, v) :: after →
      NoTagDefect ix pre before → TagDefect ix pre n v k → FirstDefect ix pre tags k
  /-- Then missing tags are noticed. -/
  | missing (before after : List (Str × SigErrorKind)) (n : Str) (k : SigErrorKind) :
      NoTagDefect ix pre tags → requiredTags = before ++ (n, k) :: after → AllPresent before tags →
      (∀ v, (n, v) ∉ tags) → FirstDefect ix pre tags k
  /-- Then the domains are compared. -/
  | domains : NoTagDefect ix pre tags → AllPresent requiredTags tags → IdentityElsewhere ix tags →
      FirstDefect ix pre tags .domainMismatch
  /-- Then the times are compared. -/
  | times : NoTagDefect ix pre tags → AllPresent requiredTags tags → ¬ IdentityElsewhere ix tags →
      ExpiredAtOnce tags → FirstDefect ix pre tags .expirationNotAfterTimestamp

/-- Why a text is not a signature: it is not a list of tags with different names, or the
list has a defect. -/
def SignatureDefect (ix : Idna) (pre : Bool) (txt : Str) (k : SigErrorKind) : Prop :=
  ((¬ ∃ tags, ListText tags txt ∧ (tags.map (·.1)).Nodup) ∧ k = .tagListFormat) ∨
  ∃ tags, ListText tags txt ∧ (tags.map (·.1)).Nodup ∧ FirstDefect ix pre tags k

/-- A text is a list of tags, and tag `n` has value `v`. -/
def HasTag (txt n v : Str) : Prop :=
  ∃ tags, ListText tags txt ∧ (tags.map (·.1)).Nodup ∧ (n, v) ∈ tags

/-- The error for a text that is not a signature: besides the defect it shows the values
of some tags. -/
structure SignatureError (ix : Idna) (pre : Bool) (txt : Str) (e : SigError) : Prop where
  kind : SignatureDefect ix pre txt e.kind
  algorithmStr : ∀ v, e.algorithmStr = some v ↔ HasTag txt c!"a" v
  signatureDataStr : ∀ v, e.signatureDataStr = some v ↔ HasTag txt c!"b" v
  domainStr : ∀ v, e.domainStr = some v ↔ HasTag txt c!"d" v
  identityStr : ∀ v, e.identityStr = some v ↔ HasTag txt c!"i" v
  selectorStr : ∀ v, e.selectorStr = some v ↔ HasTag txt c!"s" v

/-- Value `v` of tag `n` in a key record has a defect, reported as `k`; `first` says that the
tag is the first one. -/
inductive RecordTagDefect (pre : Bool) (first : Prop) : Str → Str → RecordError → Prop
  | misplaced (v : Str) : ¬ first → RecordTagDefect pre first c!"v" v .misplacedVersionTag
  | version (v : Str) : first → v ≠ c!"DKIM1" → RecordTagDefect pre first c!"v" v .incompatibleVersion
  | hash (v : Str) (items : List Str) : Items v items → [] ∈ items →
      RecordTagDefect pre first c!"h" v .invalidHashAlgorithm
  | noHash (v : Str) (items : List Str) : Items v items → [] ∉ items → (∀ i ∈ items, hashNamed pre i = none) →
      RecordTagDefect pre first c!"h" v .noSupportedHashAlgorithms
  | keyType (v : Str) : (∀ k, ¬ KeyTypeText v k) → RecordTagDefect pre first c!"k" v .unsupportedKeyType
  | notes (v : Str) : (∀ bs, ¬ QpSection v bs) → RecordTagDefect pre first c!"n" v .invalidQuotedPrintable
  | key (v : Str) : (∀ bs, unfws v ≠ base64 bs) → RecordTagDefect pre first c!"p" v .invalidBase64
  | service (v : Str) (items : List Str) : Items v items → [] ∈ items →
      RecordTagDefect pre first c!"s" v .invalidServiceType
  | noService (v : Str) (items : List Str) : Items v items → [] ∉ items → (∀ i ∈ items, serviceNamed i = none) →
      RecordTagDefect pre first c!"s" v .noSupportedServiceTypes
  | flag (v : Str) (items : List Str) : Items v items → [] ∈ items → RecordTagDefect pre first c!"t" v .invalidFlag

/-- The tags before a tag have no defect: `before` is the beginning of the list. -/
def NoRecordDefect (pre : Bool) (before : List (Str × Str)) : Prop :=
  ∀ a n v b, before = a ++ (n, v) :: b → ∀ k, ¬ RecordTagDefect pre (a = []) n v k

/-- The first defect of a list of tags that is not a key record. -/
inductive FirstRecordDefect (pre : Bool) (tags : List (Str × Str)) : RecordError → Prop
  | value (before after : List (Str × Str)) (n v : Str) (k : RecordError) : tags = before ++ (n, v) :: after →
      NoRecordDefect pre before → RecordTagDefect pre (before = []) n v k → FirstRecordDefect pre tags k
  | missing : NoRecordDefect pre tags → (∀ v, (c!"p", v) ∉ tags) → FirstRecordDefect pre tags .missingKeyTag

/-- Why a text is not a key record: it is not a list of tags with different names, or the
list has a defect. -/
def RecordDefect (pre : Bool) (txt : Str) (k : RecordError) : Prop :=
  ((¬ ∃ tags, ListText tags txt ∧ (tags.map (·.1)).Nodup) ∧ k = .tagListFormat) ∨
  ∃ tags, ListText tags txt ∧ (tags.map (·.1)).Nodup ∧ FirstRecordDefect pre tags k

end Dkim.Spec
