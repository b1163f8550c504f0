import Verif.Proofs.Reading
import Verif.Props.TagListExact

/-!
# Property C115: reading a signature or key record takes work linear in its length

The work is the number of characters that are tested (see `Verif.Model.Reading`). Parts of the text are
looked at more than once: whitespace that turns out not to be followed by more of a value, and segments
between semicolons.
-/

namespace Dkim

open Spec

/-- C115: what is counted is the work of the functions that the other properties are about. -/
theorem C115_same (s : Str) : (parseTagListR s).1 = parseTagList s ∧ (qpDecodeR s).1 = qpDecode s ∧
    (makeOriginalR s).1 = makeOriginal s := by
  refine ⟨?_, qpDecodeLoopR_fst .., originalLoopR_fst ..⟩
  rw [parseTagListR, parseTagList, ← stripTagListR_fst]
  rcases stripTagListR s with ⟨_ | ⟨_ | _, _⟩, _⟩ <;> rfl

/-- C115: reading a text as a tag list, whether it is one or not. -/
theorem C115_tag_list (s : Str) : (parseTagListR s).2 ≤ 9 * s.length + 28 := by
  rw [parseTagListR_snd]
  exact stripTagListR_le s

/-- C115: no character of a tag list is left untested. -/
theorem C115_tag_list_all (s : Str) (tags : List TagSpec) (h : parseTagList s = .ok tags) :
    s.length ≤ (parseTagListR s).2 := by
  rw [← (C115_same s).1, parseTagListR] at h
  rw [parseTagListR_snd]
  rcases hs : stripTagListR s with ⟨_ | ⟨_ | ⟨c, r⟩, t⟩, n⟩ <;> rw [hs] at h
  · cases h
  · exact stripTagListR_ge hs
  · cases h

/-- C115: the values read from a tag list are disjoint parts of it, so what is done with each of them in
time linear in its length is linear in the length of the text. -/
theorem C115_tags_fit (s : Str) (tags : List TagSpec) (h : parseTagList s = .ok tags) :
    (tags.map fun t => t.name.length + 1 + t.value.length).sum ≤ s.length := by
  have := listText_fits ((C22_tag_list_exact s tags).1 h).1
  rw [List.map_map] at this
  exact this

/-- C115: decoding Quoted-Printable text, whether it is such or not. -/
theorem C115_quoted_printable (s : Str) : (qpDecodeR s).2 ≤ 7 * s.length + 6 := by
  rcases h : qpDecodeR s with ⟨d, n⟩
  exact qpDecodeLoopR_le h

/-- C115: no character of Quoted-Printable text is left untested. -/
theorem C115_quoted_printable_all (s : Str) (bytes : Bytes) (h : qpDecode s = .ok bytes) :
    s.length ≤ (qpDecodeR s).2 := by
  rw [← (C115_same s).2.1] at h
  rcases hr : qpDecodeR s with ⟨d, n⟩
  rw [hr] at h
  dsimp only at h
  subst h
  exact qpDecodeLoopR_ge hr

/-- C115: removing the value of the tag `b`. -/
theorem C115_original (s : Str) : (makeOriginalR s).2 ≤ 11 * s.length + 10 := originalLoopR_le ..

/-- A tag list with whitespace, which is in part read twice: -/
example : parseTagListR c!"v = 1 ;\r\n\ta=b c " =
    (.ok [⟨c!"v", c!"1"⟩, ⟨c!"a", c!"b c"⟩], 56) := by
  rfl

/-- encoded bytes, and text that is not properly encoded: -/
example : qpDecodeR c!"a= 4\r\n 1 b" = (.ok b!"aAb", 26) ∧ (qpDecodeR c!"a=4").1 = .err := ⟨rfl, rfl⟩

/-- and a signature that is removed. -/
example : makeOriginalR c!"v=1; b=abc; d=x" = (c!"v=1; b=; d=x", 32) := by
  rfl

end Dkim
