import Verif.Model.Canon

/-!
# How much of a body is in memory (specification for C110)
-/

namespace Dkim

/-- Space, tab, carriage return and line feed. -/
def Spec.white (b : UInt8) : Bool := b = 32 || b = 9 || b = 13 || b = 10

/-- The number of line feeds in the white space at the end of what was read: at least the
number of empty lines there. -/
def Spec.blankAtEnd (read : Bytes) : Nat := (read.reverse.takeWhile Spec.white).count 10

end Dkim
