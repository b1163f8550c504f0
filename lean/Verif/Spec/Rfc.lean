import Verif.Spec.Signature
import Verif.Spec.Record
import Verif.Spec.Written

/-!
# Specification: the grammar of RFC 6376 for the tags of a signature

Section 3.5 with the productions that it uses (sections 2.10 and 2.11, RFC 5321, RFC 5322), for
texts in ASCII. Where a tag has a meaning, the relation is between text and meaning. Compare
`Verif.Spec.Signature`, which says what this library reads.
-/

namespace Dkim.Spec.Rfc

/-- `Let-dig = ALPHA / DIGIT` -/
def LetDig (c : Char) : Prop := letter c ∨ digit c

/-- `sub-domain = Let-dig [Ldh-str]`, `Ldh-str = *( ALPHA / DIGIT / "-" ) Let-dig` -/
inductive SubDomain : Str → Prop
  | one (c : Char) : LetDig c → SubDomain [c]
  | more (c : Char) (m : Str) (d : Char) : LetDig c → (∀ x ∈ m, LetDig x ∨ x = '-') → LetDig d →
      SubDomain (c :: (m ++ [d]))

/-- `domain-name = sub-domain 1*("." sub-domain)` -/
def DomainName (s : Str) : Prop :=
  ∃ labels : List Str, 2 ≤ labels.length ∧ (∀ l ∈ labels, SubDomain l) ∧ s = joinDots labels

/-- `selector = sub-domain *( "." sub-domain )` -/
def Selector (s : Str) : Prop :=
  ∃ labels : List Str, 1 ≤ labels.length ∧ (∀ l ∈ labels, SubDomain l) ∧ s = joinDots labels

/-- `ALPHADIGITPS = (ALPHA / DIGIT / "+" / "/")` -/
def AlphaDigitPs (c : Char) : Prop := letter c ∨ digit c ∨ c = '+' ∨ c = '/'

/-- `*([FWS] ALPHADIGITPS) [ [FWS] "=" [ [FWS] "=" ] ]` -/
inductive Base64Rest : Str → Prop
  | nil : Base64Rest []
  | char (f : Str) (c : Char) (s : Str) : OptFws f → AlphaDigitPs c → Base64Rest s → Base64Rest (f ++ c :: s)
  | pad (f : Str) : OptFws f → Base64Rest (f ++ ['='])
  | pads (f g : Str) : OptFws f → OptFws g → Base64Rest (f ++ '=' :: (g ++ ['=']))

/-- `base64string = ALPHADIGITPS *([FWS] ALPHADIGITPS) [ [FWS] "=" [ [FWS] "=" ] ]`, with the bytes
of which it is the Base64 encoding. -/
def Base64String (s : Str) (bytes : Bytes) : Prop :=
  (∃ c r, AlphaDigitPs c ∧ Base64Rest r ∧ s = c :: r) ∧ unfws s = base64 bytes

/-- `dkim-quoted-printable = *(FWS / hex-octet / dkim-safe-char)`, `hex-octet = "=" 2HEXDIG`,
`dkim-safe-char = %x21-3A / %x3C / %x3E-7E`, with the bytes it stands for. -/
inductive QuotedPrintable : Str → Bytes → Prop
  | nil : QuotedPrintable [] []
  | fws (f s : Str) (bytes : Bytes) : Fws f → QuotedPrintable s bytes → QuotedPrintable (f ++ s) bytes
  | octet (a b : Char) (x y : Nat) (s : Str) (bytes : Bytes) : HexVal a x → HexVal b y →
      QuotedPrintable s bytes → QuotedPrintable ('=' :: a :: b :: s) (UInt8.ofNat (x * 16 + y) :: bytes)
  | safe (c : Char) (s : Str) (bytes : Bytes) : 33 ≤ c.toNat → c.toNat ≤ 126 → c ≠ ';' → c ≠ '=' →
      QuotedPrintable s bytes → QuotedPrintable (c :: s) (UInt8.ofNat c.toNat :: bytes)

/-- `hdr-name = field-name = 1*ftext`, `ftext = %d33-57 / %d59-126` -/
def HdrName (s : Str) : Prop :=
  s ≠ [] ∧ ∀ c ∈ s, (33 ≤ c.toNat ∧ c.toNat ≤ 57) ∨ (59 ≤ c.toNat ∧ c.toNat ≤ 126)

/-- `sig-a-tag-alg`: the algorithms of RFC 6376 and RFC 8463. SHA-1 was withdrawn by RFC 8301; `pre`
says whether it is still supported. -/
inductive Algorithm (pre : Bool) : Str → SigAlg → Prop
  | rsaSha256 (v : Str) : lower v = c!"rsa-sha256" → Algorithm pre v .rsaSha256
  | ed25519Sha256 (v : Str) : lower v = c!"ed25519-sha256" → Algorithm pre v .ed25519Sha256
  | rsaSha1 (v : Str) : pre = true → lower v = c!"rsa-sha1" → Algorithm pre v .rsaSha1

/-- `"simple" / "relaxed"` -/
inductive CanonWord : Str → CanonAlg → Prop
  | simple (v : Str) : lower v = c!"simple" → CanonWord v .simple
  | relaxed (v : Str) : lower v = c!"relaxed" → CanonWord v .relaxed

/-- `sig-c-tag-alg *1("/" sig-c-tag-alg)`; if only one algorithm is named, that of the body is
"simple". -/
inductive Canon : Str → Canonicalization → Prop
  | one (v : Str) (h : CanonAlg) : CanonWord v h → Canon v ⟨h, .simple⟩
  | two (v w : Str) (h b : CanonAlg) : CanonWord v h → CanonWord w b → Canon (v ++ '/' :: w) ⟨h, b⟩

/-- `sig-h-tag`: `hdr-name *( [FWS] ":" [FWS] hdr-name )` -/
inductive SignedHeaders : List Str → Str → Prop
  | one (n : Str) : HdrName n → SignedHeaders [n] n
  | more (n f g : Str) (ns : List Str) (s : Str) : HdrName n → OptFws f → OptFws g → SignedHeaders ns s →
      SignedHeaders (n :: ns) (n ++ f ++ ':' :: (g ++ s))

/-- `sig-i-tag`: `[ Local-part ] "@" domain-name`, in dkim-quoted-printable -/
def AgentIdentity (v : Str) (i : Identity) : Prop :=
  (∀ l, i.localPart = some l → LocalPart l) ∧ DomainName i.domain ∧
    QuotedPrintable v (utf8 (i.localPart.getD [] ++ '@' :: i.domain))

/-- `1*nDIGIT` -/
def Digits (n : Nat) (v : Str) (x : Nat) : Prop :=
  1 ≤ v.length ∧ v.length ≤ n ∧ (∀ c ∈ v, digit c) ∧ x = decimalVal v

/-- `hyphenated-word = ALPHA [ *(ALPHA / DIGIT / "-") (ALPHA / DIGIT) ]` -/
inductive HyphenatedWord : Str → Prop
  | one (c : Char) : letter c → HyphenatedWord [c]
  | more (c : Char) (m : Str) (d : Char) : letter c → (∀ x ∈ m, LetDig x ∨ x = '-') → LetDig d →
      HyphenatedWord (c :: (m ++ [d]))

/-- `sig-q-tag-method = "dns/txt" / x-sig-q-tag-type ["/" x-sig-q-tag-args]`, with arguments in
dkim-quoted-printable. A colon in the arguments must be encoded, as colons separate the methods. -/
inductive QueryMethod : Str → Prop
  | plain (t : Str) : HyphenatedWord t → QueryMethod t
  | args (t a : Str) (bytes : Bytes) : HyphenatedWord t → QuotedPrintable a bytes → ':' ∉ a →
      QueryMethod (t ++ '/' :: a)

/-- `sig-q-tag`: `sig-q-tag-method *([FWS] ":" [FWS] sig-q-tag-method)` -/
inductive QueryMethods : List Str → Str → Prop
  | one (m : Str) : QueryMethod m → QueryMethods [m] m
  | more (m f g : Str) (ms : List Str) (s : Str) : QueryMethod m → OptFws f → OptFws g → QueryMethods ms s →
      QueryMethods (m :: ms) (m ++ f ++ ':' :: (g ++ s))

/-- `sig-z-tag-copy = hdr-name [FWS] ":" qp-hdr-value`, where `qp-hdr-value` is
dkim-quoted-printable with "|" encoded -/
inductive CopiedField : Str → Bytes → Str → Prop
  | mk (n f v : Str) (bytes : Bytes) : HdrName n → OptFws f → QuotedPrintable v bytes → '|' ∉ v →
      CopiedField n bytes (n ++ f ++ ':' :: v)

/-- `sig-z-tag`: `sig-z-tag-copy *( "|" [FWS] sig-z-tag-copy )` -/
inductive CopiedFields : Str → List (Str × Bytes) → Prop
  | one (n : Str) (bytes : Bytes) (s : Str) : CopiedField n bytes s → CopiedFields s [(n, bytes)]
  | more (n : Str) (bytes : Bytes) (s f r : Str) (rest : List (Str × Bytes)) : CopiedField n bytes s →
      OptFws f → CopiedFields r rest → CopiedFields (s ++ '|' :: (f ++ r)) ((n, bytes) :: rest)

/-- The labels of one domain name end with those of another, up to letter case. -/
def SameOrSubdomain (d e : Str) : Prop :=
  ∃ more labels : List Str, labels ≠ [] ∧ (∀ l ∈ more ++ labels, '.' ∉ l) ∧
    lower d = joinDots (more ++ labels) ∧ lower e = joinDots labels

/-- The tags make up a signature according to RFC 6376, section 3.5, with the given content. -/
structure Signature (pre : Bool) (tags : List (Str × Str)) (s : DkimSignature) : Prop where
  version : (c!"v", c!"1") ∈ tags
  algorithm : Required tags c!"a" (Algorithm pre) s.algorithm
  signatureData : Required tags c!"b" Base64String s.signatureData
  bodyHash : Required tags c!"bh" Base64String s.bodyHash
  canonicalization : Defaulting tags c!"c" Canon ⟨.simple, .simple⟩ s.canonicalization
  domain : Required tags c!"d" (fun v d => d = v ∧ DomainName v) s.domain
  signedHeaders : Required tags c!"h" (fun v names => SignedHeaders names v) s.signedHeaders
  fromSigned : ∃ n ∈ s.signedHeaders, lower n = c!"from"
  identity : Optional tags c!"i" AgentIdentity s.identity
  identityUnderDomain : ∀ i, s.identity = some i → SameOrSubdomain i.domain s.domain
  bodyLength : Optional tags c!"l" (Digits 76) s.bodyLength
  queryMethods : ∀ v, (c!"q", v) ∈ tags → ∃ ms, QueryMethods ms v ∧ ∃ m ∈ ms, lower m = c!"dns/txt"
  selector : Required tags c!"s" (fun v d => d = v ∧ Selector v) s.selector
  timestamp : Optional tags c!"t" (Digits 12) s.timestamp
  expiration : Optional tags c!"x" (Digits 12) s.expiration
  expirationAfter : ∀ t x, s.timestamp = some t → s.expiration = some x → t < x
  copiedHeaders : Defaulting tags c!"z" CopiedFields [] s.copiedHeaders
  others : s.extTags = tags.filter fun t => !knownTags.contains t.1

/-- The limits of DNS: at most 63 characters per label, and 253 in all. -/
def FitsDns (s : Str) : Prop :=
  s.length ≤ 253 ∧ ∀ labels : List Str, s = joinDots labels → (∀ l ∈ labels, '.' ∉ l) → ∀ l ∈ labels, l.length ≤ 63

/-- The last label is not a number. -/
def NotNumeric (s : Str) : Prop := ∀ before last, s = before ++ '.' :: last → '.' ∉ last → ∃ c ∈ last, ¬ digit c

/-- The name is in ASCII form (with valid A-labels, if any). -/
def AsciiForm (ix : Idna) (s : Str) : Prop := ix.toAscii s = some (lower s) ∧ (ix.toUnicode s).2 = true

/-- What this library asks beyond the RFC. -/
structure Limits (ix : Idna) (s : DkimSignature) : Prop where
  domain : FitsDns s.domain ∧ NotNumeric s.domain ∧ AsciiForm ix s.domain
  selector : FitsDns s.selector ∧ AsciiForm ix s.selector
  identity : ∀ i, s.identity = some i → FitsDns i.domain ∧ NotNumeric i.domain ∧ AsciiForm ix i.domain
  bodyLength : ∀ n, s.bodyLength = some n → n < 2 ^ 64
  /-- Names of copied header fields are read as dkim-quoted-printable, and are ended by a bar. -/
  copiedNames : ∀ f ∈ s.copiedHeaders, '=' ∉ f.1 ∧ '|' ∉ f.1

/-- What has to hold of the tags of a signature that this library reads so that they are in the
grammar of the RFC. -/
structure Strict (tags : List (Str × Str)) (s : DkimSignature) : Prop where
  /-- letters, digits and hyphens only, and at least two labels -/
  domain : DomainName s.domain
  selector : Selector s.selector
  /-- and no encoded character is split, and all others are in ASCII -/
  identity : ∀ i, s.identity = some i → DomainName i.domain ∧ ∀ v, (c!"i", v) ∈ tags → ∃ bytes, QuotedPrintable v bytes
  /-- no plus sign, and not too many digits -/
  bodyLength : ∀ v, (c!"l", v) ∈ tags → v.length ≤ 76 ∧ ∀ c ∈ v, digit c
  timestamp : ∀ v, (c!"t", v) ∈ tags → v.length ≤ 12 ∧ ∀ c ∈ v, digit c
  expiration : ∀ v, (c!"x", v) ∈ tags → v.length ≤ 12 ∧ ∀ c ∈ v, digit c
  queryMethods : ∀ v, (c!"q", v) ∈ tags → ∃ ms, QueryMethods ms v ∧ ∃ m ∈ ms, lower m = c!"dns/txt"
  copiedHeaders : ∀ v, (c!"z", v) ∈ tags → CopiedFields v s.copiedHeaders

/-- The tags without the whitespace in `z=`. -/
def unfolded (tags : List (Str × Str)) : List (Str × Str) :=
  tags.map fun t => if t.1 = c!"z" then (t.1, withoutFws t.2) else t

/-! ### Key records, section 3.6.1 -/

/-- `word *( [FWS] ":" [FWS] word )`, for `h=`, `s=` and `t=` -/
inductive Words (word : Str → Prop) : List Str → Str → Prop
  | one (w : Str) : word w → Words word [w] w
  | more (w f g : Str) (ws : List Str) (s : Str) : word w → OptFws f → OptFws g → Words word ws s →
      Words word (w :: ws) (w ++ f ++ ':' :: (g ++ s))

/-- `*(ptext / SPACE / TAB)` of RFC 2045, `ptext = hex-octet / safe-char`,
`safe-char = %d33-60 / %d62-126`, with the bytes it stands for -/
inductive QpText : Str → Bytes → Prop
  | nil : QpText [] []
  | octet (a b : Char) (x y : Nat) (s : Str) (bytes : Bytes) : HexVal a x → HexVal b y → QpText s bytes →
      QpText ('=' :: a :: b :: s) (UInt8.ofNat (x * 16 + y) :: bytes)
  | safe (c : Char) (s : Str) (bytes : Bytes) : 33 ≤ c.toNat → c.toNat ≤ 126 → c ≠ '=' → QpText s bytes →
      QpText (c :: s) (UInt8.ofNat c.toNat :: bytes)
  | blank (c : Char) (s : Str) (bytes : Bytes) : c = ' ' ∨ c = '\t' → QpText s bytes →
      QpText (c :: s) (UInt8.ofNat c.toNat :: bytes)

/-- `qp-section = [*(ptext / SPACE / TAB) ptext]` -/
def Notes (s : Str) (bytes : Bytes) : Prop := QpText s bytes ∧ ∀ r c, s = r ++ [c] → c ≠ ' ' ∧ c ≠ '\t'

/-- `key-p-tag`: `[ base64string ]` -/
def KeyData (s : Str) (bytes : Bytes) : Prop := (s = [] ∧ bytes = []) ∨ Base64String s bytes

/-- `key-k-tag-type`: the key types of RFC 6376 and RFC 8463 -/
inductive KeyKind : Str → KeyType → Prop
  | rsa (v : Str) : lower v = c!"rsa" → KeyKind v .rsa
  | ed25519 (v : Str) : lower v = c!"ed25519" → KeyKind v .ed25519

/-- The tags make up a key record according to RFC 6376, section 3.6.1, with the given content.
Hash algorithms, service types and flags that are not known are ignored; `lossy` makes text of the
notes. -/
structure Record (lossy : Bytes → Str) (pre : Bool) (tags : List (Str × Str)) (r : KeyRecord) : Prop where
  version : ∀ v, (c!"v", v) ∈ tags → v = c!"DKIM1" ∧ tags.head? = some (c!"v", v)
  hashAlgorithms : Defaulting tags c!"h"
    (fun v x => ∃ ws, Words HyphenatedWord ws v ∧ x = ws.filterMap (hashNamed pre))
    (if pre then [.sha256, .sha1] else [.sha256]) r.hashAlgorithms
  keyType : Defaulting tags c!"k" KeyKind .rsa r.keyType
  notes : Optional tags c!"n" (fun v x => ∃ bytes, Notes v bytes ∧ x = lossy bytes) r.notes
  keyData : Required tags c!"p" KeyData r.keyData
  serviceTypes : Defaulting tags c!"s"
    (fun v x => ∃ ws, Words (fun w => HyphenatedWord w ∨ w = c!"*") ws v ∧ x = ws.filterMap serviceNamed)
    [.any] r.serviceTypes
  flags : Defaulting tags c!"t" (fun v x => ∃ ws, Words HyphenatedWord ws v ∧ x = ws.filterMap flagNamed) []
    r.flags
  others : r.extTags = tags.filter fun t => !knownRecordTags.contains t.1

/-- What makes a key record that is read by this library one in the grammar of the RFC. -/
structure StrictRecord (tags : List (Str × Str)) : Prop where
  hashAlgorithms : ∀ v, (c!"h", v) ∈ tags → ∃ ws, Words HyphenatedWord ws v
  /-- all characters are in ASCII -/
  notes : ∀ v, (c!"n", v) ∈ tags → ∀ c ∈ v, c.toNat < 128
  serviceTypes : ∀ v, (c!"s", v) ∈ tags → ∃ ws, Words (fun w => HyphenatedWord w ∨ w = c!"*") ws v
  flags : ∀ v, (c!"t", v) ∈ tags → ∃ ws, Words HyphenatedWord ws v

/-- What this library asks of a key record beyond the RFC: that it can be of use. -/
structure RecordLimits (r : KeyRecord) : Prop where
  hashAlgorithms : r.hashAlgorithms ≠ []
  serviceTypes : r.serviceTypes ≠ []

end Dkim.Spec.Rfc
