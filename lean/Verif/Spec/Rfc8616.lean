import Verif.Spec.Rfc

/-!
# Specification: signatures in internationalized messages, RFC 8616

RFC 8616, section 5, changes the grammar of RFC 6376, section 3.5, for messages with
internationalized header fields: in dkim-quoted-printable, characters outside of ASCII need not be
encoded; domain names may have U-labels; and local-parts may have characters outside of ASCII (RFC
6532). The rest is as in `Verif.Spec.Rfc`.
-/

namespace Dkim.Spec.Rfc8616

/-- `dkim-quoted-printable = *(FWS / hex-octet / dkim-safe-char)`,
`dkim-safe-char = %x21-3A / %x3C / %x3E-7E / UTF8-2 / UTF8-3 / UTF8-4`, with the bytes it stands
for -/
inductive QuotedPrintable : Str → Bytes → Prop
  | nil : QuotedPrintable [] []
  | fws (f s : Str) (bytes : Bytes) : Fws f → QuotedPrintable s bytes → QuotedPrintable (f ++ s) bytes
  | octet (a b : Char) (x y : Nat) (s : Str) (bytes : Bytes) : HexVal a x → HexVal b y →
      QuotedPrintable s bytes → QuotedPrintable ('=' :: a :: b :: s) (UInt8.ofNat (x * 16 + y) :: bytes)
  | safe (c : Char) (s : Str) (bytes : Bytes) : 33 ≤ c.toNat → c.toNat ≤ 126 → c ≠ ';' → c ≠ '=' →
      QuotedPrintable s bytes → QuotedPrintable (c :: s) (UInt8.ofNat c.toNat :: bytes)
  | other (c : Char) (s : Str) (bytes : Bytes) : 128 ≤ c.toNat → QuotedPrintable s bytes →
      QuotedPrintable (c :: s) (utf8 [c] ++ bytes)

/-- The characters of names with U-labels. -/
def NameChar (c : Char) : Prop := Rfc.LetDig c ∨ c = '-' ∨ c = '.' ∨ 128 ≤ c.toNat

/-- A name of labels according to RFC 5321, among them valid A-labels, and U-labels; with the form in
which the U-labels are A-labels (RFC 5891). -/
def NameForm (ix : Idna) (s a : Str) : Prop :=
  (∀ c ∈ s, NameChar c) ∧ ix.toAscii s = some a ∧ (ix.toUnicode s).2 = true

/-- `domain-name` -/
def DomainName (ix : Idna) (s : Str) : Prop := ∃ a, NameForm ix s a ∧ Rfc.DomainName a

/-- `selector` -/
def Selector (ix : Idna) (s : Str) : Prop := ∃ a, NameForm ix s a ∧ Rfc.Selector a

/-- `sig-i-tag`: `[ Local-part ] "@" domain-name`, in dkim-quoted-printable -/
def AgentIdentity (ix : Idna) (v : Str) (i : Identity) : Prop :=
  (∀ l, i.localPart = some l → LocalPart l) ∧ DomainName ix i.domain ∧
    QuotedPrintable v (utf8 (i.localPart.getD [] ++ '@' :: i.domain))

/-- `sig-q-tag-method` -/
inductive QueryMethod : Str → Prop
  | plain (t : Str) : Rfc.HyphenatedWord t → QueryMethod t
  | args (t a : Str) (bytes : Bytes) : Rfc.HyphenatedWord t → QuotedPrintable a bytes → ':' ∉ a →
      QueryMethod (t ++ '/' :: a)

/-- `sig-q-tag` -/
inductive QueryMethods : List Str → Str → Prop
  | one (m : Str) : QueryMethod m → QueryMethods [m] m
  | more (m f g : Str) (ms : List Str) (s : Str) : QueryMethod m → OptFws f → OptFws g → QueryMethods ms s →
      QueryMethods (m :: ms) (m ++ f ++ ':' :: (g ++ s))

/-- `sig-z-tag-copy` -/
inductive CopiedField : Str → Bytes → Str → Prop
  | mk (n f v : Str) (bytes : Bytes) : Rfc.HdrName n → OptFws f → QuotedPrintable v bytes → '|' ∉ v →
      CopiedField n bytes (n ++ f ++ ':' :: v)

/-- `sig-z-tag` -/
inductive CopiedFields : Str → List (Str × Bytes) → Prop
  | one (n : Str) (bytes : Bytes) (s : Str) : CopiedField n bytes s → CopiedFields s [(n, bytes)]
  | more (n : Str) (bytes : Bytes) (s f r : Str) (rest : List (Str × Bytes)) : CopiedField n bytes s →
      OptFws f → CopiedFields r rest → CopiedFields (s ++ '|' :: (f ++ r)) ((n, bytes) :: rest)

/-- The labels of one domain name, as A-labels, end with those of another, up to letter case. -/
def SameOrSubdomain (ix : Idna) (d e : Str) : Prop :=
  ∃ a b, ix.toAscii d = some a ∧ ix.toAscii e = some b ∧ Rfc.SameOrSubdomain a b

/-- The tags make up a signature according to RFC 6376, section 3.5, as changed by RFC 8616, with the
given content. -/
structure Signature (ix : Idna) (pre : Bool) (tags : List (Str × Str)) (s : DkimSignature) : Prop where
  version : (c!"v", c!"1") ∈ tags
  algorithm : Required tags c!"a" (Rfc.Algorithm pre) s.algorithm
  signatureData : Required tags c!"b" Rfc.Base64String s.signatureData
  bodyHash : Required tags c!"bh" Rfc.Base64String s.bodyHash
  canonicalization : Defaulting tags c!"c" Rfc.Canon ⟨.simple, .simple⟩ s.canonicalization
  domain : Required tags c!"d" (fun v d => d = v ∧ DomainName ix v) s.domain
  signedHeaders : Required tags c!"h" (fun v names => Rfc.SignedHeaders names v) s.signedHeaders
  fromSigned : ∃ n ∈ s.signedHeaders, lower n = c!"from"
  identity : Optional tags c!"i" (AgentIdentity ix) s.identity
  identityUnderDomain : ∀ i, s.identity = some i → SameOrSubdomain ix i.domain s.domain
  bodyLength : Optional tags c!"l" (Rfc.Digits 76) s.bodyLength
  queryMethods : ∀ v, (c!"q", v) ∈ tags → ∃ ms, QueryMethods ms v ∧ ∃ m ∈ ms, lower m = c!"dns/txt"
  selector : Required tags c!"s" (fun v d => d = v ∧ Selector ix v) s.selector
  timestamp : Optional tags c!"t" (Rfc.Digits 12) s.timestamp
  expiration : Optional tags c!"x" (Rfc.Digits 12) s.expiration
  expirationAfter : ∀ t x, s.timestamp = some t → s.expiration = some x → t < x
  copiedHeaders : Defaulting tags c!"z" CopiedFields [] s.copiedHeaders
  others : s.extTags = tags.filter fun t => !knownTags.contains t.1

/-- What this library asks beyond the RFCs. -/
structure Limits (ix : Idna) (s : DkimSignature) : Prop where
  domain : ∀ a, ix.toAscii s.domain = some a → Rfc.FitsDns a ∧ Rfc.NotNumeric a
  selector : ∀ a, ix.toAscii s.selector = some a → Rfc.FitsDns a
  identity : ∀ i a, s.identity = some i → ix.toAscii i.domain = some a → Rfc.FitsDns a ∧ Rfc.NotNumeric a
  bodyLength : ∀ n, s.bodyLength = some n → n < 2 ^ 64
  /-- Names of copied header fields are read as dkim-quoted-printable, and are ended by a bar. -/
  copiedNames : ∀ f ∈ s.copiedHeaders, '=' ∉ f.1 ∧ '|' ∉ f.1

/-- What has to hold of the tags of a signature that this library reads so that they are in the
grammar of the RFCs. -/
structure Strict (ix : Idna) (tags : List (Str × Str)) (s : DkimSignature) : Prop where
  /-- letters, digits and hyphens only in the ASCII form, and at least two labels -/
  domain : DomainName ix s.domain
  selector : Selector ix s.selector
  /-- and no encoded character is split -/
  identity : ∀ i, s.identity = some i → DomainName ix i.domain ∧ ∀ v, (c!"i", v) ∈ tags → ∃ bytes, QuotedPrintable v bytes
  /-- no plus sign, and not too many digits -/
  bodyLength : ∀ v, (c!"l", v) ∈ tags → v.length ≤ 76 ∧ ∀ c ∈ v, digit c
  timestamp : ∀ v, (c!"t", v) ∈ tags → v.length ≤ 12 ∧ ∀ c ∈ v, digit c
  expiration : ∀ v, (c!"x", v) ∈ tags → v.length ≤ 12 ∧ ∀ c ∈ v, digit c
  queryMethods : ∀ v, (c!"q", v) ∈ tags → ∃ ms, QueryMethods ms v ∧ ∃ m ∈ ms, lower m = c!"dns/txt"
  copiedHeaders : ∀ v, (c!"z", v) ∈ tags → CopiedFields v s.copiedHeaders

end Dkim.Spec.Rfc8616
