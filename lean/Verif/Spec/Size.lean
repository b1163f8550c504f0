import Verif.Model.Canon

/-!
# Sizes
-/

namespace Dkim

/-- The size of a field in a message: name, colon, value, CRLF. -/
def Spec.fieldSize (f : Field) : Nat := (utf8 f.name).length + 1 + f.body.length + 2

end Dkim
