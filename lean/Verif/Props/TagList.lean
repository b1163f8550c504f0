import Verif.Proofs.TagList

/-!
# Property C22: tag lists
-/

namespace Dkim

open Spec

theorem parseTagList_spec (s : Str) (tags : List TagSpec) :
    stripTagList s = some ([], tags) ↔ ListText (toPairs tags) s := by
  constructor
  · exact stripTagList_some
  · intro h
    have := stripTagList_text h
    rwa [ofPairs_toPairs] at this

theorem listText_unique {tags tags' : List (Str × Str)} {s : Str} (h : ListText tags s)
    (h' : ListText tags' s) : tags = tags' := by
  have h1 := stripTagList_text h
  rw [stripTagList_text h'] at h1
  have h2 : ofPairs tags' = ofPairs tags := by simpa using h1
  have inj : ∀ l l' : List (Str × Str), ofPairs l = ofPairs l' → l = l' := by
    intro l l' e
    have := congrArg toPairs e
    simpa [toPairs, ofPairs, Function.comp_def] using this
  exact (inj _ _ h2).symm

/-- C22: the parser returns a list of tags exactly if the text is generated by the
grammar for these names and values and no name occurs twice. -/
theorem C22_tag_list_exact (s : Str) (tags : List TagSpec) :
    parseTagList s = .ok tags ↔
      ListText (tags.map fun t => (t.name, t.value)) s ∧ (tags.map (·.name)).Nodup := by
  have key := parseTagList_spec s
  rw [show (tags.map fun t => (t.name, t.value)) = toPairs tags from rfl, ← key tags]
  unfold parseTagList
  split
  · next tags' h =>
    rw [h]
    have hd := hasDuplicate_iff [] tags'
    simp only [List.not_mem_nil, not_false_eq_true, implies_true, and_true] at hd
    split
    · next hdup =>
      simp only [reduceCtorEq, Option.some.injEq, Prod.mk.injEq, true_and, false_iff, not_and]
      rintro rfl h2
      rw [hd.2 h2] at hdup
      exact absurd hdup (by decide)
    · next hdup =>
      simp only [Except.ok.injEq, Option.some.injEq, Prod.mk.injEq, true_and]
      constructor
      · rintro rfl; exact ⟨rfl, hd.1 (by simpa using hdup)⟩
      · rintro ⟨h, _⟩; exact h
  · next hne =>
    simp only [reduceCtorEq, false_iff, not_and]
    intro h
    exact absurd h (hne tags)

/-- C22: a grammatical list in which a name is repeated is reported as such, and
nothing else is. -/
theorem C22_duplicate_reported (s : Str) :
    parseTagList s = .error .duplicateTag ↔
      ∃ tags, ListText tags s ∧ ¬ (tags.map (·.1)).Nodup := by
  have key := parseTagList_spec s
  unfold parseTagList
  split
  · next tags' h =>
    have hd := hasDuplicate_iff [] tags'
    simp only [List.not_mem_nil, not_false_eq_true, implies_true, and_true] at hd
    have hl := (key tags').1 h
    have hn : (toPairs tags').map (·.1) = tags'.map (·.name) := by
      simp [toPairs, Function.comp_def]
    split
    · next hdup =>
      simp only [true_iff]
      refine ⟨_, hl, ?_⟩
      rw [hn]
      intro h2
      rw [hd.2 h2] at hdup
      exact absurd hdup (by decide)
    · next hdup =>
      simp only [reduceCtorEq, false_iff]
      rintro ⟨tags, h1, h2⟩
      rw [listText_unique h1 hl, hn] at h2
      exact h2 (hd.1 (by simpa using hdup))
  · next hne =>
    simp only [Except.error.injEq, reduceCtorEq, false_iff]
    rintro ⟨tags, h1, _⟩
    exact hne _ (stripTagList_text h1)

/-- C22: everything else is reported as a syntax error. -/
theorem C22_syntax_reported (s : Str) :
    parseTagList s = .error .syntax ↔ ¬ ∃ tags, ListText tags s := by
  constructor
  · rintro h ⟨tags, ht⟩
    by_cases hn : (tags.map (·.1)).Nodup
    · have := (C22_tag_list_exact s (ofPairs tags)).2
        ⟨by simpa [ofPairs, Function.comp_def] using ht, by simpa [ofPairs, Function.comp_def] using hn⟩
      rw [h] at this; simp at this
    · have := (C22_duplicate_reported s).2 ⟨tags, ht, hn⟩
      rw [h] at this; simp at this
  · intro h
    cases hp : parseTagList s with
    | ok tags => exact absurd ⟨_, ((C22_tag_list_exact s tags).1 hp).1⟩ h
    | error e =>
      cases e with
      | «syntax» => rfl
      | duplicateTag =>
        obtain ⟨tags, ht, _⟩ := (C22_duplicate_reported s).1 hp
        exact absurd ⟨tags, ht⟩ h

/-- C22: the grammar determines names and values. -/
theorem C22_unambiguous (s : Str) (tags tags' : List (Str × Str)) (h : ListText tags s)
    (h' : ListText tags' s) : tags = tags' := listText_unique h h'

/-! The grammar `ListText` lets the last `[FWS]` of a tag follow a non-empty value
only. In the RFC, it may also follow an empty value. -/

theorem specText_rfc {n v s : Str} (h : SpecText n v s) : RfcSpecText n v s := by
  cases h with
  | value f1 _ f2 f3 _ f4 h1 h2 h3 h4 h5 h6 => exact .value f1 n f2 f3 v f4 h1 h2 h3 h4 h5 h6
  | empty f1 _ f2 f3 h1 h2 h3 h4 =>
    have := RfcSpecText.empty f1 n f2 f3 [] h1 h2 h3 h4 (Or.inl rfl)
    simpa using this

/-- C22, partial (literal RFC grammar, one direction): what the parser accepts is
grammatical. Missing: the converse, which is false, see `C22_violation`. -/
theorem C22_rfc_sound_partial (s : Str) (tags : List TagSpec) (h : parseTagList s = .ok tags) :
    RfcListText (tags.map fun t => (t.name, t.value)) s ∧ (tags.map (·.name)).Nodup := by
  obtain ⟨h1, h2⟩ := (C22_tag_list_exact s tags).1 h
  refine ⟨?_, h2⟩
  clear h h2
  generalize (tags.map fun t => (t.name, t.value)) = l at h1
  induction h1 with
  | last n v s h => exact .last n v s (specText_rfc h)
  | lastSemicolon n v s h => exact .lastSemicolon n v s (specText_rfc h)
  | more n v s tags r h _ ih => exact .more n v s tags r (specText_rfc h) ih

theorem rfcListText_values {tags : List (Str × Str)} {s : Str} (h : RfcListText tags s)
    (hne : ∀ t ∈ tags, t.2 ≠ []) : ListText tags s := by
  have key : ∀ n v s, RfcSpecText n v s → v ≠ [] → SpecText n v s := by
    intro n v s h hv
    cases h with
    | value f1 _ f2 f3 _ f4 h1 h2 h3 h4 h5 h6 => exact .value f1 n f2 f3 v f4 h1 h2 h3 h4 h5 h6
    | empty => exact absurd rfl hv
  induction h with
  | last n v s h => exact .last n v s (key n v s h (hne (n, v) (by simp)))
  | lastSemicolon n v s h => exact .lastSemicolon n v s (key n v s h (hne (n, v) (by simp)))
  | more n v s tags r h _ ih =>
    exact .more n v s tags r (key n v s h (hne (n, v) (by simp))) (ih fun t ht => hne t (by simp [ht]))

/-- C22, partial (literal RFC grammar, other direction): a list generated by the
grammar with distinct names is accepted with its names and values if no value is
empty. -/
theorem C22_rfc_complete_partial (s : Str) (tags : List TagSpec)
    (h : RfcListText (tags.map fun t => (t.name, t.value)) s) (hn : (tags.map (·.name)).Nodup)
    (hv : ∀ t ∈ tags, t.value ≠ []) : parseTagList s = .ok tags := by
  refine (C22_tag_list_exact s tags).2 ⟨rfcListText_values h ?_, hn⟩
  intro t ht
  obtain ⟨u, hu, rfl⟩ := List.mem_map.1 ht
  exact hv u hu

/-- C22: the literal grammar allows two FWS after the equals sign if the value is
empty; the parser rejects such a list. -/
theorem C22_violation :
    ∃ s tags, RfcListText tags s ∧ (tags.map (·.1)).Nodup ∧ parseTagList s = .error .syntax := by
  refine ⟨c!"p= \r\n \r\n ", [(c!"p", [])], .last _ _ _ ?_, by simp, by rfl⟩
  refine .empty [] c!"p" [] c!" \r\n " c!"\r\n " (Or.inl rfl)
    ⟨'p', [], rfl, by decide, by simp⟩ (Or.inl rfl)
    (Or.inr (.folded [' '] [' '] ?_ (by simp) ?_)) (Or.inr (.folded [] [' '] ?_ (by simp) ?_))
  all_goals simp [wsp]

/-- Non-vacuity: names, values with inner folds, empty values, final semicolon. -/
example : parseTagList c!" a=1 ;\r\n b = x\r\n y; c=;" =
    .ok [⟨c!"a", c!"1"⟩, ⟨c!"b", c!"x\r\n y"⟩, ⟨c!"c", []⟩] := by rfl
example : parseTagList c!"a=1; a=2" = .error .duplicateTag := by rfl
example : parseTagList c!"a=1;;b=2" = .error .syntax := by rfl

end Dkim
