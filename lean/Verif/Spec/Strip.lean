import Verif.Spec.TagList

/-!
# Specification: the value of the b= tag in a tag list text
-/

namespace Dkim.Spec

/-- `pre` is the part of a text up to and including the equals sign of a `b=` tag:
any number of parts that end with a semicolon, then `[FWS] "b" [FWS] "="`. -/
def UpToB (pre : Str) : Prop :=
  ∃ front f1 f2, pre = front ++ f1 ++ 'b' :: f2 ++ ['='] ∧ (front = [] ∨ ∃ t, front = t ++ [';']) ∧
    OptFws f1 ∧ OptFws f2

/-- The text `pre ++ val ++ post` has a `b=` tag, where `val` is all between its
equals sign and the following semicolon or the end. -/
structure BValue (pre val post : Str) : Prop where
  before : UpToB pre
  inside : ';' ∉ val
  after : post = [] ∨ ∃ r, post = ';' :: r

/-- `original` is `value` without the value of its `b=` tag. -/
def WithoutB (value original : Str) : Prop :=
  ∃ pre val post, value = pre ++ val ++ post ∧ BValue pre val post ∧ original = pre ++ post

end Dkim.Spec
