import Verif.Spec.Domain
import Verif.Model.Env

/-!
# Assumed laws of the environment

Each law is a hypothesis of the theorems that need it.
-/

namespace Dkim.Spec

/-- Sorting returns a permutation. -/
def SortLaw (sortBy : Comparator → List Str → List Str) : Prop := ∀ cmp l, (sortBy cmp l).Perm l

/-- A set has no duplicates and exactly the inserted members. -/
def SetLaw {α : Type} (set : List α → List α) : Prop := ∀ l, (set l).Nodup ∧ ∀ x, x ∈ set l ↔ x ∈ l

/-- Iteration over a map yields its entries in some order. -/
def OrderLaw {α : Type} (order : List α → List α) : Prop := ∀ l, (order l).Perm l

/-- Signatures have the advertised length, which is not zero. -/
structure SignLaw (C : Crypto) : Prop where
  rsa_length : ∀ h k m s, C.rsaSign h k m = some s → s.length = modulusSize (C.rsaSkBits k)
  rsa_nonempty : ∀ h k m s, C.rsaSign h k m = some s → s ≠ []
  ed_length : ∀ k m, (C.edSign k m).length = 64

end Dkim.Spec
