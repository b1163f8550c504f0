import Verif.Model.BodyHash

/-!
# When canonicalized content is still needed (specification for C114)
-/

namespace Dkim.Spec

/-- A request for the hash of a body needs more canonicalized content, when `got` bytes of it are there:
all of the content, if no length is given; up to the length, otherwise; and one byte more, if content after
the length has to be reported. -/
def NeedsMore (report : Bool) (length : Option Nat) (got : Nat) : Prop :=
  match length with
  | none => True
  | some n => got < n ∨ (report = true ∧ got ≤ n)

end Dkim.Spec
