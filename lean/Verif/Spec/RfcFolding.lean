import Verif.Spec.TagList

/-!
# Specification: encoded characters that are not split
-/

namespace Dkim.Spec.Rfc

/-- No encoded octet, an equals sign and two digits, is split by a line break. -/
def OctetsWhole (v : Str) : Prop :=
  ∀ a b, v ≠ a ++ '=' :: '\r' :: b ∧ ∀ digit, v ≠ a ++ '=' :: digit :: '\r' :: b

end Dkim.Spec.Rfc
