import Verif.Spec.TagList

/-!
# Specification: the header section of a message, RFC 5322

Sections 2.2, 3.2.2, 3.2.5 and 3.6.8, without obsolete syntax, with characters outside of ASCII as in
RFC 6532, section 3.2. Header fields with a grammar of their own are not told apart from optional
fields; section 3.2.2 says of their folding that no line must be of WSP alone.
-/

namespace Dkim.Spec.Rfc5322

/-- `VCHAR =/ UTF8-non-ascii` -/
def VChar (c : Char) : Prop := (33 ≤ c.toNat ∧ c.toNat ≤ 126) ∨ 128 ≤ c.toNat

/-- `unstructured = *([FWS] VCHAR) *WSP` -/
inductive Unstructured : Str → Prop
  | blank (w : Str) : (∀ c ∈ w, wsp c) → Unstructured w
  | more (f : Str) (c : Char) (s : Str) : OptFws f → VChar c → Unstructured s → Unstructured (f ++ c :: s)

/-- `field-name = 1*ftext`, `ftext = %d33-57 / %d59-126` -/
def FieldName (n : Str) : Prop :=
  n ≠ [] ∧ ∀ c ∈ n, (33 ≤ c.toNat ∧ c.toNat ≤ 57) ∨ (59 ≤ c.toNat ∧ c.toNat ≤ 126)

/-- One or more fields `field-name ":" unstructured CRLF`, with their names and values. -/
inductive Header : Str → List (Str × Str) → Prop
  | one (n v : Str) : FieldName n → Unstructured v → Header (n ++ ':' :: v ++ c!"\r\n") [(n, v)]
  | more (n v s : Str) (fs : List (Str × Str)) : FieldName n → Unstructured v → Header s fs →
      Header (n ++ ':' :: v ++ c!"\r\n" ++ s) ((n, v) :: fs)

/-- A text of lines that end with CRLF; there is no other LF. -/
def CrlfLines (s : Str) : Prop := ∃ ls : List Str, s = ls.flatMap (· ++ c!"\r\n") ∧ ∀ l ∈ ls, '\n' ∉ l

end Dkim.Spec.Rfc5322
