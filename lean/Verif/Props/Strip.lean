import Verif.Spec.Strip
import Verif.Proofs.Strip
import Verif.Props.TagList

/-!
# Property C13: removal of the signature value before verification
-/

namespace Dkim

open Spec

theorem Cut.bValue {pre val post : Str} (h : Cut pre val post) : BValue pre val post := by
  refine ⟨?_, h.val_clean, h.post_start⟩
  induction h with
  | here p val post h1 h2 h3 h4 =>
    obtain ⟨f1, f2, g1, g2, rfl⟩ := h1
    exact ⟨[], f1, f2, by simp, .inl rfl, g1, g2⟩
  | next seg pre val post h1 h2 h3 ih =>
    obtain ⟨front, f1, f2, rfl, h5, h6, h7⟩ := ih
    refine ⟨seg ++ ';' :: front, f1, f2, by simp, .inr ?_, h6, h7⟩
    rcases h5 with rfl | ⟨t, rfl⟩
    · exact ⟨seg, rfl⟩
    · exact ⟨seg ++ ';' :: t, by simp⟩

/-- C13: from a well-formed tag list with a `b=` tag, exactly the text between the
equals sign of that tag and the following semicolon or the end is deleted. What
remains is a tag list with the same names and values, except that `b=` is empty. -/
theorem C13_deletes_value (tags : List (Str × Str)) (txt : Str) (h : ListText tags txt)
    (hn : (tags.map (·.1)).Nodup) (hb : c!"b" ∈ tags.map (·.1)) :
    ∃ pre val post, txt = pre ++ val ++ post ∧ BValue pre val post ∧ makeOriginal txt = pre ++ post ∧
      ListText (tags.map fun t => if t.1 = c!"b" then (t.1, []) else t) (makeOriginal txt) := by
  obtain ⟨pre, val, post, rfl, h2, h3⟩ := listText_cut h hn hb
  exact ⟨pre, val, post, rfl, h2.bValue, makeOriginal_cut h2, by rw [makeOriginal_cut h2]; exact h3⟩

/-- C13: a tag list without a `b=` tag is not changed. -/
theorem C13_without_b (tags : List (Str × Str)) (txt : Str) (h : ListText tags txt)
    (hb : c!"b" ∉ tags.map (·.1)) : makeOriginal txt = txt := by
  rcases makeOriginal_spec txt with ⟨pre, val, post, rfl, h2, h3⟩ | ⟨_, h⟩
  · exact absurd (listText_noB h hb) (cut_noB h2)
  · exact h

/-- C13: whatever the text, either it is not changed, or one piece without
semicolons, following the equals sign of a `b=` tag, is deleted. -/
theorem C13_any_text (txt : Str) : makeOriginal txt = txt ∨
    ∃ pre val post, txt = pre ++ val ++ post ∧ BValue pre val post ∧ makeOriginal txt = pre ++ post := by
  rcases makeOriginal_spec txt with ⟨pre, val, post, h1, h2, h3⟩ | ⟨_, h⟩
  · exact .inr ⟨pre, val, post, h1, h2.bValue, h3⟩
  · exact .inl h

/-- C13: two tag lists with `b=` tags that agree after the deletion have the same
text except for the `b=` values, and the same tags except for these. -/
theorem C13_injective (tags tags' : List (Str × Str)) (txt txt' : Str) (h : ListText tags txt)
    (h' : ListText tags' txt') (hn : (tags.map (·.1)).Nodup) (hn' : (tags'.map (·.1)).Nodup)
    (hb : c!"b" ∈ tags.map (·.1)) (hb' : c!"b" ∈ tags'.map (·.1))
    (e : makeOriginal txt = makeOriginal txt') :
    (∃ pre val val' post, txt = pre ++ val ++ post ∧ txt' = pre ++ val' ++ post ∧
      BValue pre val post ∧ BValue pre val' post) ∧
    tags.map (·.1) = tags'.map (·.1) ∧
    ∀ n v, n ≠ c!"b" → ((n, v) ∈ tags ↔ (n, v) ∈ tags') := by
  obtain ⟨pre, val, post, rfl, h2, h3⟩ := listText_cut h hn hb
  obtain ⟨pre', val', post', rfl, g2, g3⟩ := listText_cut h' hn' hb'
  rw [makeOriginal_cut h2, makeOriginal_cut g2] at e
  have c1 := h2.change (val' := []) (by simp)
  have c2 := g2.change (val' := []) (by simp)
  obtain ⟨rfl, _, rfl⟩ := c1.unique c2 (by simpa using e)
  refine ⟨⟨pre, val, val', post, rfl, rfl, h2.bValue, g2.bValue⟩, ?_⟩
  have et := listText_unique h3 g3
  have hfst : ∀ l : List (Str × Str), (emptyB l).map (·.1) = l.map (·.1) := by
    intro l
    simp only [emptyB, List.map_map]
    apply List.map_congr_left
    intro t _
    simp only [Function.comp_apply]
    split <;> rfl
  have hmem : ∀ (l : List (Str × Str)) n v, n ≠ c!"b" → ((n, v) ∈ l ↔ (n, v) ∈ emptyB l) := by
    intro l n v hne
    simp only [emptyB, List.mem_map]
    constructor
    · intro hm
      exact ⟨_, hm, if_neg hne⟩
    · rintro ⟨t, ht, e⟩
      split at e
      · next e1 => injection e with e2 _; exact absurd (e2.symm.trans e1) hne
      · exact e ▸ ht
  refine ⟨by rw [← hfst tags, et, hfst], ?_⟩
  intro n v hne
  rw [hmem tags n v hne, et, ← hmem tags' n v hne]

/-- C13: the tag may be in the middle or at the end, with whitespace anywhere; other
tags that begin with the letter b are kept. -/
example : makeOriginal c!"v=1; b =\r\n ab=cd ; bh=x" = c!"v=1; b =; bh=x" ∧
    makeOriginal c!"bh=x; b=abc" = c!"bh=x; b=" ∧ makeOriginal c!"v=1; bh=x;" = c!"v=1; bh=x;" := by
  refine ⟨by decide, by decide, by decide⟩

/-- The hypotheses are met by a concrete tag list. -/
example : ListText [(c!"v", c!"1"), (c!"b", c!"ab")] c!"v=1; b=ab" := by
  have t1 : SpecText c!"v" c!"1" c!"v=1" := by
    have := SpecText.value [] c!"v" [] [] c!"1" [] (.inl rfl) ⟨'v', [], rfl, by decide, by simp⟩ (.inl rfl)
      (.inl rfl) (.one _ ⟨by simp, by simp [valChar]⟩) (.inl rfl)
    simpa using this
  have t2 : SpecText c!"b" c!"ab" c!" b=ab" := by
    have := SpecText.value c!" " c!"b" [] [] c!"ab" [] (.inr (.plain _ (by simp) (by simp [wsp]))) tagName_b
      (.inl rfl) (.inl rfl) (.one _ ⟨by simp, by simp [valChar]⟩) (.inl rfl)
    simpa using this
  exact .more _ _ _ _ _ t1 (.last _ _ _ t2)

end Dkim
