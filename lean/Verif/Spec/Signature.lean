import Verif.Spec.Encode
import Verif.Spec.Domain
import Verif.Model.Signature

/-!
# Specification: what a DKIM-Signature value means

Only data types (`DkimSignature`, algorithms, `Identity`, `Idna`) are taken from
the model.
-/

namespace Dkim.Spec

/-- Text without spaces, tabs, CR and LF. -/
def unfws (s : Str) : Str := s.filter fun c => !(c == ' ' || c == '\t' || c == '\r' || c == '\n')

/-- No folding whitespace character at the start or end. -/
def Trimmed (s : Str) : Prop := (∀ c r, s = c :: r → ¬ fwsChar c) ∧ (∀ c r, s = r ++ [c] → ¬ fwsChar c)

/-- Items separated by colons, each of which may be surrounded by FWS. -/
inductive ColonList : List Str → Str → Prop
  | one (f n g : Str) : OptFws f → OptFws g → ColonList [n] (f ++ n ++ g)
  | more (f n g : Str) (ns : List Str) (s : Str) : OptFws f → OptFws g → ColonList ns s →
      ColonList (n :: ns) (f ++ n ++ g ++ ':' :: s)

/-- The value of a hexadecimal digit of either case. -/
def HexVal (c : Char) (n : Nat) : Prop :=
  (48 ≤ c.toNat ∧ c.toNat ≤ 57 ∧ n = c.toNat - 48) ∨ (65 ≤ c.toNat ∧ c.toNat ≤ 70 ∧ n = c.toNat - 55) ∨
    (97 ≤ c.toNat ∧ c.toNat ≤ 102 ∧ n = c.toNat - 87)

/-- Quoted-Printable text (without whitespace) and the bytes it stands for. -/
inductive QpBytes : Str → Bytes → Prop
  | nil : QpBytes [] []
  | char (c : Char) (s : Str) (bs : Bytes) : dkimSafe c → QpBytes s bs →
      QpBytes (c :: s) (utf8 [c] ++ bs)
  | hex (a b : Char) (x y : Nat) (s : Str) (bs : Bytes) : HexVal a x → HexVal b y → QpBytes s bs →
      QpBytes ('=' :: a :: b :: s) (UInt8.ofNat (x * 16 + y) :: bs)

/-- The number denoted by decimal digits. -/
def decimalVal : Str → Nat
  | [] => 0
  | c :: r => (c.toNat - 48) * 10 ^ r.length + decimalVal r

/-- A non-empty string of digits denoting a number below 2^64. -/
def Decimal (v : Str) (n : Nat) : Prop :=
  v ≠ [] ∧ (∀ c ∈ v, digit c) ∧ n = decimalVal v ∧ n < 2 ^ 64

/-- What the code accepts as a number: also with a plus sign in front. -/
def PlusDecimal (v : Str) (n : Nat) : Prop := Decimal v n ∨ ∃ ds, v = '+' :: ds ∧ Decimal ds n

/-- `a=`. -/
def AlgText (pre : Bool) (v : Str) (a : SigAlg) : Prop :=
  (a = .rsaSha256 ∧ lower v = c!"rsa-sha256") ∨ (a = .ed25519Sha256 ∧ lower v = c!"ed25519-sha256") ∨
    (pre = true ∧ a = .rsaSha1 ∧ lower v = c!"rsa-sha1")

/-- `b=`, `bh=`: Base64 with whitespace anywhere, of at least one byte. -/
def Base64Text (v : Str) (bs : Bytes) : Prop := bs ≠ [] ∧ unfws v = base64 bs

/-- The name of a canonicalization algorithm. -/
def canonName : CanonAlg → Str
  | .simple => c!"simple"
  | .relaxed => c!"relaxed"

/-- `c=`: two names, or one with simple body. -/
def CanonText (v : Str) (c : Canonicalization) : Prop :=
  lower v = canonName c.header ++ '/' :: canonName c.body ∨ (lower v = canonName c.header ∧ c.body = .simple)

/-- `h=`: header field names, among them From. -/
def HeadersText (v : Str) (hs : List Str) : Prop :=
  ColonList hs v ∧ (∀ h ∈ hs, ValidName h) ∧ ∃ h ∈ hs, lower h = c!"from"

/-- `i=`: Quoted-Printable of the text of an identity. -/
def IdentityText (ix : Idna) (v : Str) (i : Identity) : Prop :=
  ValidIdentity ix i ∧ QpBytes (unfws v) (utf8 (identityText i))

/-- `q=`: non-empty items, one of which is dns/txt. -/
def QueryText (v : Str) : Prop :=
  ∃ items, ColonList items v ∧ (∀ i ∈ items, i ≠ [] ∧ Trimmed i ∧ ':' ∉ i) ∧
    ∃ i ∈ items, lower i = c!"dns/txt"

/-- `z=`: fields separated by bars, each Quoted-Printable of a name, a colon, and a
value. -/
inductive CopiedText : Str → List (Str × Bytes) → Prop
  | one (p n : Str) (b : Bytes) : '|' ∉ p → ValidName n → QpBytes (unfws p) (utf8 n ++ 58 :: b) →
      CopiedText p [(n, b)]
  | more (p n : Str) (b : Bytes) (s : Str) (hs : List (Str × Bytes)) : '|' ∉ p → ValidName n →
      QpBytes (unfws p) (utf8 n ++ 58 :: b) → CopiedText s hs → CopiedText (p ++ '|' :: s) ((n, b) :: hs)

/-- The names of the tags of RFC 6376, section 3.5. -/
def knownTags : List Str :=
  [c!"v", c!"a", c!"b", c!"bh", c!"c", c!"d", c!"h", c!"i", c!"l", c!"q", c!"s", c!"t", c!"x", c!"z"]

/-- A tag that must be present, with the meaning of its value. -/
def Required {α : Type} (tags : List (Str × Str)) (n : Str) (means : Str → α → Prop) (x : α) : Prop :=
  ∃ v, (n, v) ∈ tags ∧ means v x

/-- A tag that may be absent. -/
def Optional {α : Type} (tags : List (Str × Str)) (n : Str) (means : Str → α → Prop) (x : Option α) : Prop :=
  match x with
  | some a => Required tags n means a
  | none => ∀ v, (n, v) ∉ tags

/-- A tag that has a default value. -/
def Defaulting {α : Type} (tags : List (Str × Str)) (n : Str) (means : Str → α → Prop) (d x : α) : Prop :=
  Required tags n means x ∨ ((∀ v, (n, v) ∉ tags) ∧ x = d)

/-- The signature that a list of tags stands for. -/
structure SignatureOf (ix : Idna) (pre : Bool) (tags : List (Str × Str)) (s : DkimSignature) : Prop where
  version : (c!"v", c!"1") ∈ tags
  algorithm : Required tags c!"a" (AlgText pre) s.algorithm
  signatureData : Required tags c!"b" Base64Text s.signatureData
  bodyHash : Required tags c!"bh" Base64Text s.bodyHash
  canonicalization : Defaulting tags c!"c" CanonText ⟨.simple, .simple⟩ s.canonicalization
  domain : Required tags c!"d" (fun v d => d = v ∧ ValidDomain true ix v) s.domain
  signedHeaders : Required tags c!"h" HeadersText s.signedHeaders
  identity : Optional tags c!"i" (IdentityText ix) s.identity
  bodyLength : Optional tags c!"l" PlusDecimal s.bodyLength
  queryMethods : ∀ v, (c!"q", v) ∈ tags → QueryText v
  selector : Required tags c!"s" (fun v d => d = v ∧ ValidDomain false ix v) s.selector
  timestamp : Optional tags c!"t" PlusDecimal s.timestamp
  expiration : Optional tags c!"x" PlusDecimal s.expiration
  copiedHeaders : Defaulting tags c!"z" CopiedText [] s.copiedHeaders
  extTags : s.extTags = tags.filter fun t => !knownTags.contains t.1
  identityUnderDomain : ∀ i, s.identity = some i → UnderDomain ix i.domain s.domain
  expirationAfter : ∀ t x, s.timestamp = some t → s.expiration = some x → t < x

end Dkim.Spec
