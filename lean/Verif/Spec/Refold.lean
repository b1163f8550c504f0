import Verif.Spec.TagList
import Verif.Spec.Domain

/-!
# Specification: refolding
-/

namespace Dkim.Spec

/-- The text does not begin with a character of folding whitespace. -/
def Solid (s : Str) : Prop := ∀ c r, s = c :: r → ¬ fwsChar c

/-- The same words, separated by possibly different folding whitespace. -/
inductive Refold : Str → Str → Prop
  | nil : Refold [] []
  | char (c : Char) (s t : Str) : ¬ fwsChar c → Refold s t → Refold (c :: s) (c :: t)
  | fws (f g s t : Str) : Fws f → Fws g → Solid s → Refold s t → Refold (f ++ s) (g ++ t)

/-- The same tags, the values of which have the same words. -/
inductive SameTags : List (Str × Str) → List (Str × Str) → Prop
  | nil : SameTags [] []
  | cons (n v w : Str) (tags tags' : List (Str × Str)) : Refold v w → SameTags tags tags' →
      SameTags ((n, v) :: tags) ((n, w) :: tags')

/-- A law of the conversion of domain names: whitespace is kept (so that a name with
whitespace is not valid). -/
def BlankLaw (ix : Idna) : Prop := ∀ s a, ix.toAscii s = some a → ∀ c ∈ s, fwsChar c → c ∈ a

end Dkim.Spec
