import Verif.Spec.Header
import Verif.Model.Domain

/-!
# Specification: domain names and identities

Only the data types `Idna` (conversion functions as parameters) and `Identity`
are taken from the model.
-/

namespace Dkim.Spec

/-- Labels joined with dots. -/
def joinDots : List Str → Str
  | [] => []
  | [l] => l
  | l :: ls => l ++ '.' :: joinDots ls

def digit (c : Char) : Prop := 48 ≤ c.toNat ∧ c.toNat ≤ 57
def letter (c : Char) : Prop := (65 ≤ c.toNat ∧ c.toNat ≤ 90) ∨ (97 ≤ c.toNat ∧ c.toNat ≤ 122)

/-- 1 to 63 letters, digits, hyphens and underscores, not starting or ending with a
hyphen. -/
def Label (l : Str) : Prop :=
  1 ≤ l.length ∧ l.length ≤ 63 ∧ (∀ c ∈ l, letter c ∨ digit c ∨ c = '-' ∨ c = '_') ∧
    (∀ r, l ≠ '-' :: r) ∧ (∀ r, l ≠ r ++ ['-'])

/-- 1 to 253 characters consisting of labels separated by dots; `noDigits` asks
that the last label is not all digits. -/
def DnsName (noDigits : Bool) (s : Str) : Prop :=
  1 ≤ s.length ∧ s.length ≤ 253 ∧
    ∃ (ls : List Str) (last : Str), s = joinDots (ls ++ [last]) ∧ (∀ l ∈ ls, Label l) ∧ Label last ∧
      (noDigits = true → ∃ c ∈ last, ¬ digit c)

/-- Convertible both ways, with a valid ASCII form. -/
def ValidDomain (noDigits : Bool) (ix : Idna) (s : Str) : Prop :=
  ∃ a, ix.toAscii s = some a ∧ (ix.toUnicode s).2 = true ∧ DnsName noDigits a

/-- The labels of the ASCII form of `d` end with the labels of the ASCII form of
`e`, up to letter case. -/
def UnderDomain (ix : Idna) (d e : Str) : Prop :=
  ∃ (more ls : List Str) (a b : Str), ix.toAscii d = some a ∧ ix.toAscii e = some b ∧ ls ≠ [] ∧
    (∀ l ∈ more ++ ls, '.' ∉ l) ∧ lower a = joinDots (more ++ ls) ∧ lower b = joinDots ls

/-- RFC 5322 `atext`, with RFC 6531. -/
def Atext (c : Char) : Prop :=
  letter c ∨ digit c ∨ c ∈ c!"!#$%&'*+-/=?^_`{|}~" ∨ 128 ≤ c.toNat

/-- RFC 5321 `Dot-string`: one or more non-empty atoms separated by dots. -/
def DotString (s : Str) : Prop :=
  ∃ atoms : List Str, atoms ≠ [] ∧ s = joinDots atoms ∧ ∀ a ∈ atoms, a ≠ [] ∧ ∀ c ∈ a, Atext c

/-- RFC 5321 `*QcontentSMTP`, with RFC 6531. -/
inductive Qcontent : Str → Prop
  | nil : Qcontent []
  | text (c : Char) (s : Str) : (32 ≤ c.toNat ∧ c.toNat ≤ 126 ∧ c ≠ '"' ∧ c ≠ '\\') ∨ 128 ≤ c.toNat →
      Qcontent s → Qcontent (c :: s)
  | pair (c : Char) (s : Str) : 32 ≤ c.toNat → c.toNat ≤ 126 → Qcontent s → Qcontent ('\\' :: c :: s)

/-- RFC 5321 `Local-part` of at most 64 octets. -/
def LocalPart (s : Str) : Prop :=
  (utf8 s).length ≤ 64 ∧ (DotString s ∨ ∃ q, Qcontent q ∧ s = '"' :: q ++ ['"'])

/-- The text of an identity. -/
def identityText (i : Identity) : Str := i.localPart.getD [] ++ '@' :: i.domain

/-- What the text of an identity may be. -/
def ValidIdentity (ix : Idna) (i : Identity) : Prop :=
  (∀ l, i.localPart = some l → LocalPart l) ∧ ValidDomain true ix i.domain ∧ '@' ∉ i.domain

/-- Laws of the IDNA conversion functions. -/
structure CaseLaw (ix : Idna) : Prop where
  /-- Letter case in the input does not matter. -/
  case_ignored : ∀ s t, lower s = lower t → ix.toAscii s = ix.toAscii t

/-- A character of a domain name: ASCII characters are letters, digits, hyphen,
underscore and dot. -/
def domainChar (c : Char) : Prop := letter c ∨ digit c ∨ c = '-' ∨ c = '_' ∨ c = '.' ∨ 128 ≤ c.toNat

/-- Further laws of the IDNA conversion functions, for valid names. -/
structure IdnaLaw (ix : Idna) : Prop extends CaseLaw ix where
  /-- The empty name is not changed. -/
  empty : ix.toAscii [] = some []
  /-- The Unicode form is not empty; its ASCII characters also appear in the ASCII form,
  which is valid. -/
  unicode_chars : ∀ b d, ValidDomain b ix d → (ix.toUnicode d).1 ≠ [] ∧ ∀ c ∈ (ix.toUnicode d).1, domainChar c

/-- A domain name or selector as it is written: in ASCII form (A-labels) if only ASCII is to
be written, else in Unicode form (U-labels); if the given name is the same as this form up
to letter case, the name as given. -/
def writtenName (ix : Idna) (ascii : Bool) (d : Str) : Str :=
  let form := if ascii then (ix.toAscii d).getD [] else (ix.toUnicode d).1
  if lower d = lower form then d else form

/-- The form in which a name is written can be converted, and stands for the same name. -/
def KeptName (ix : Idna) (ascii : Bool) (d : Str) : Prop :=
  ix.toAscii (writtenName ix ascii d) = ix.toAscii d ∧ (ix.toUnicode (writtenName ix ascii d)).2 = true

/-- A name of which the ASCII form is its own ASCII form, and the Unicode form has the same
ASCII form, and both can be converted back. -/
structure Consistent (ix : Idna) (d : Str) : Prop where
  ascii_form : ∀ a, ix.toAscii d = some a → ix.toAscii a = some a ∧ (ix.toUnicode a).2 = true
  unicode_form : ix.toAscii (ix.toUnicode d).1 = ix.toAscii d ∧ (ix.toUnicode (ix.toUnicode d).1).2 = true

end Dkim.Spec
