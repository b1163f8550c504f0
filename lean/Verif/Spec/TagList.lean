import Verif.Model.Basic

/-!
# Specification: folding whitespace, tag lists, quoted-printable

The grammar of RFC 6376, section 3.2, with RFC 8616 (UTF-8 in values) and
erratum 5070 (single FWS between parts of a value). `TagSpec` lists are given as
pairs of name and value.
-/

namespace Dkim.Spec

/-- WSP = SP / HTAB. -/
def wsp (c : Char) : Prop := c = ' ' ∨ c = '\t'

/-- `FWS = [*WSP CRLF] 1*WSP`. -/
inductive Fws : Str → Prop
  | plain (w : Str) : w ≠ [] → (∀ c ∈ w, wsp c) → Fws w
  | folded (v w : Str) : (∀ c ∈ v, wsp c) → w ≠ [] → (∀ c ∈ w, wsp c) → Fws (v ++ '\r' :: '\n' :: w)

/-- `[FWS]`. -/
def OptFws (s : Str) : Prop := s = [] ∨ Fws s

/-- A character that can be part of folding whitespace. -/
def fwsChar (c : Char) : Prop := c = ' ' ∨ c = '\t' ∨ c = '\r' ∨ c = '\n'

/-- `tag-name = ALPHA *ALNUMPUNC`. -/
def TagName (s : Str) : Prop :=
  ∃ c r, s = c :: r ∧ (65 ≤ c.toNat ∧ c.toNat ≤ 90 ∨ 97 ≤ c.toNat ∧ c.toNat ≤ 122) ∧
    ∀ d ∈ r, (65 ≤ d.toNat ∧ d.toNat ≤ 90 ∨ 97 ≤ d.toNat ∧ d.toNat ≤ 122) ∨
      (48 ≤ d.toNat ∧ d.toNat ≤ 57) ∨ d = '_'

/-- `VALCHAR = %x21-3A / %x3C-7E`, or a character outside ASCII. -/
def valChar (c : Char) : Prop := (33 ≤ c.toNat ∧ c.toNat ≤ 126 ∧ c ≠ ';') ∨ 128 ≤ c.toNat

/-- `tval = 1*VALCHAR`. -/
def Tval (s : Str) : Prop := s ≠ [] ∧ ∀ c ∈ s, valChar c

/-- A non-empty tag value: `tval *( FWS tval )`. -/
inductive SomeValue : Str → Prop
  | one (v : Str) : Tval v → SomeValue v
  | more (v f r : Str) : Tval v → Fws f → SomeValue r → SomeValue (v ++ f ++ r)

/-- `tag-spec = [FWS] tag-name [FWS] "=" [FWS] tag-value [FWS]`, where the last
`[FWS]` is used with a non-empty value only. The text generated for a name and
value. -/
inductive SpecText : Str → Str → Str → Prop
  | value (f1 n f2 f3 v f4 : Str) : OptFws f1 → TagName n → OptFws f2 → OptFws f3 → SomeValue v →
      OptFws f4 → SpecText n v (f1 ++ n ++ f2 ++ ['='] ++ f3 ++ v ++ f4)
  | empty (f1 n f2 f3 : Str) : OptFws f1 → TagName n → OptFws f2 → OptFws f3 →
      SpecText n [] (f1 ++ n ++ f2 ++ ['='] ++ f3)

/-- `tag-list = tag-spec *( ";" tag-spec ) [ ";" ]`: the text for a list of names
and values. -/
inductive ListText : List (Str × Str) → Str → Prop
  | last (n v s : Str) : SpecText n v s → ListText [(n, v)] s
  | lastSemicolon (n v s : Str) : SpecText n v s → ListText [(n, v)] (s ++ [';'])
  | more (n v s : Str) (tags : List (Str × Str)) (r : Str) : SpecText n v s → ListText tags r →
      ListText ((n, v) :: tags) (s ++ ';' :: r)

/-- The literal grammar of the RFC for one tag: also an empty value may be followed
by the last `[FWS]`, so that there may be two FWS after the equals sign. -/
inductive RfcSpecText : Str → Str → Str → Prop
  | value (f1 n f2 f3 v f4 : Str) : OptFws f1 → TagName n → OptFws f2 → OptFws f3 → SomeValue v →
      OptFws f4 → RfcSpecText n v (f1 ++ n ++ f2 ++ ['='] ++ f3 ++ v ++ f4)
  | empty (f1 n f2 f3 f4 : Str) : OptFws f1 → TagName n → OptFws f2 → OptFws f3 → OptFws f4 →
      RfcSpecText n [] (f1 ++ n ++ f2 ++ ['='] ++ f3 ++ f4)

/-- `tag-list` of the RFC, literally. -/
inductive RfcListText : List (Str × Str) → Str → Prop
  | last (n v s : Str) : RfcSpecText n v s → RfcListText [(n, v)] s
  | lastSemicolon (n v s : Str) : RfcSpecText n v s → RfcListText [(n, v)] (s ++ [';'])
  | more (n v s : Str) (tags : List (Str × Str)) (r : Str) : RfcSpecText n v s → RfcListText tags r →
      RfcListText ((n, v) :: tags) (s ++ ';' :: r)

/-- `t` is `s` with at most one FWS inserted before every character and at the
end. -/
inductive Inserted : Str → Str → Prop
  | nil : Inserted [] []
  | final (f : Str) : Fws f → Inserted [] f
  | keep (c : Char) (s t : Str) : Inserted s t → Inserted (c :: s) (c :: t)
  | insert (f : Str) (c : Char) (s t : Str) : Fws f → Inserted s t → Inserted (c :: s) (f ++ c :: t)

/-- `t` is `s` with any characters of folding whitespace inserted anywhere. -/
inductive Spread : Str → Str → Prop
  | nil : Spread [] []
  | keep (c : Char) (s t : Str) : Spread s t → Spread (c :: s) (c :: t)
  | insert (c : Char) (s t : Str) : fwsChar c → Spread s t → Spread s (c :: t)

end Dkim.Spec
