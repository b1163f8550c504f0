import Verif.Props.TagList

/-!
# Property C22: the exception is exact

The parser accepts what the literal grammar of the RFC generates, except texts in which more
than one FWS is between an equals sign and the end of the tag.
-/

namespace Dkim

open Spec

namespace Spec

/-- What is between an equals sign and the end of a tag, if it is only whitespace, is at most
one FWS. -/
def SingleFws (s : Str) : Prop :=
  ∀ before w after, s = before ++ '=' :: (w ++ after) → (∀ c ∈ w, fwsChar c) →
    (after = [] ∨ ∃ r, after = ';' :: r) → OptFws w

end Spec

/-- The same for a single tag. -/
def singleFwsTag (p : Str) : Prop := ∀ before w, p = before ++ '=' :: w → (∀ c ∈ w, fwsChar c) → OptFws w

theorem lastSplit_unique {P : Char → Prop} {a b u w : Str} {x y : Char} (h : a ++ x :: u = b ++ y :: w)
    (hu : ∀ c ∈ u, P c) (hw : ∀ c ∈ w, P c) (hx : ¬ P x) (hy : ¬ P y) : u = w := by
  rcases List.append_eq_append_iff.1 h with ⟨z, h1, h2⟩ | ⟨z, h1, h2⟩
  · cases z with
    | nil => simp at h2; exact h2.2
    | cons d z =>
      simp only [List.cons_append, List.cons.injEq] at h2
      exact absurd (hu y (by rw [h2.2]; simp)) hy
  · cases z with
    | nil => simp at h2; exact h2.2.symm
    | cons d z =>
      simp only [List.cons_append, List.cons.injEq] at h2
      exact absurd (hw x (by rw [h2.2]; simp)) hx

theorem firstSplit_unique {P : Char → Prop} {a b u w : Str} {x : Char} (h : a ++ x :: u = b ++ x :: w)
    (ha : ∀ c ∈ a, P c) (hb : ∀ c ∈ b, P c) (hx : ¬ P x) : a = b := by
  rcases List.append_eq_append_iff.1 h with ⟨z, h1, h2⟩ | ⟨z, h1, h2⟩
  · cases z with
    | nil => simpa using h1.symm
    | cons d z =>
      simp only [List.cons_append, List.cons.injEq] at h2
      exact absurd (hb x (by rw [h1, ← h2.1]; simp)) hx
  · cases z with
    | nil => simpa using h1
    | cons d z =>
      simp only [List.cons_append, List.cons.injEq] at h2
      exact absurd (ha x (by rw [h1, ← h2.1]; simp)) hx

theorem semicolon_fws {w : Str} (hw : ∀ c ∈ w, fwsChar c) : ';' ∉ w := fun h => semicolon_noFws (hw _ h)

theorem singleFws_cons {p r : Str} (hp : ';' ∉ p) :
    SingleFws (p ++ ';' :: r) ↔ singleFwsTag p ∧ SingleFws r := by
  constructor
  · intro h
    refine ⟨fun before w e hw => h before w (';' :: r) (by rw [e]; simp) hw (.inr ⟨r, rfl⟩), ?_⟩
    intro before w after e hw ha
    exact h (p ++ ';' :: before) w after (by rw [e]; simp) hw ha
  · rintro ⟨h1, h2⟩ before w after e hw ha
    rcases List.append_eq_append_iff.1 e with ⟨z, e1, e2⟩ | ⟨z, e1, e2⟩
    · cases z with
      | nil => simp at e2
      | cons d z =>
        simp only [List.cons_append, List.cons.injEq] at e2
        exact h2 z w after e2.2 hw ha
    · cases z with
      | nil => simp at e2
      | cons d z =>
        simp only [List.cons_append, List.cons.injEq] at e2
        obtain ⟨rfl, e2⟩ := e2
        have hz : ';' ∉ z := fun h => hp (by rw [e1]; simp [h])
        rcases ha with rfl | ⟨r', rfl⟩
        · rw [List.append_nil] at e2
          exact absurd (by rw [e2]; simp) (semicolon_fws hw)
        · have : w = z := firstSplit_unique (P := fun c => c ≠ ';') e2 (fun c hc e => semicolon_fws hw (e ▸ hc))
            (fun c hc e => hz (e ▸ hc)) (by simp)
          subst this
          exact h1 before w e1 hw

theorem singleFws_one {p : Str} (hp : ';' ∉ p) : SingleFws p ↔ singleFwsTag p := by
  constructor
  · intro h before w e hw
    exact h before w [] (by rw [e]; simp) hw (.inl rfl)
  · intro h before w after e hw ha
    rcases ha with rfl | ⟨r, rfl⟩
    · exact h before w (by rw [e]; simp) hw
    · exact absurd (by rw [e]; simp) hp

theorem singleFws_nil : SingleFws [] := by
  intro before w after e
  simp at e

theorem optFws_chars {f : Str} (h : OptFws f) : ∀ c ∈ f, fwsChar c := by
  rcases h with rfl | h
  · simp
  · exact fws_chars h

theorem someValue_chars {v : Str} (h : SomeValue v) : ∀ c ∈ v, valChar c ∨ fwsChar c := by
  induction h with
  | one v h => exact fun c hc => .inl (h.2 c hc)
  | more v f r h1 h2 _ ih =>
    intro c hc
    simp only [List.mem_append] at hc
    rcases hc with (hc | hc) | hc
    · exact .inl (h1.2 c hc)
    · exact .inr (fws_chars h2 c hc)
    · exact ih c hc

theorem someValue_last {v : Str} (h : SomeValue v) : ∃ u c, v = u ++ [c] ∧ valChar c := by
  induction h with
  | one v h =>
    obtain ⟨h1, h2⟩ := h
    exact ⟨v.dropLast, v.getLast h1, (List.dropLast_concat_getLast h1).symm, h2 _ (List.getLast_mem h1)⟩
  | more v f r _ _ _ ih =>
    obtain ⟨u, c, rfl, hc⟩ := ih
    exact ⟨v ++ f ++ u, c, by simp, hc⟩

theorem optFws_noSemicolon {f : Str} (h : OptFws f) : ';' ∉ f := semicolon_fws (optFws_chars h)

theorem someValue_noSemicolon {v : Str} (h : SomeValue v) : ';' ∉ v := by
  intro hc
  rcases someValue_chars h _ hc with hv | hv
  · unfold valChar at hv
    revert hv
    decide
  · exact semicolon_noFws hv

theorem tagName_noSemicolon {n : Str} (h : TagName n) : ';' ∉ n := by
  obtain ⟨c, r, rfl, hc, hr⟩ := h
  intro hm
  rcases List.mem_cons.1 hm with rfl | hm
  · revert hc; decide
  · have := hr _ hm
    revert this; decide

theorem rfcSpecText_noSemicolon {n v p : Str} (h : RfcSpecText n v p) : ';' ∉ p := by
  cases h with
  | value f1 n f2 f3 v f4 h1 h2 h3 h4 h5 h6 =>
    simp only [List.mem_append, List.mem_singleton, not_or]
    exact ⟨⟨⟨⟨⟨⟨optFws_noSemicolon h1, tagName_noSemicolon h2⟩, optFws_noSemicolon h3⟩, by decide⟩,
      optFws_noSemicolon h4⟩, someValue_noSemicolon h5⟩, optFws_noSemicolon h6⟩
  | empty f1 n f2 f3 f4 h1 h2 h3 h4 h5 =>
    simp only [List.mem_append, List.mem_singleton, not_or]
    exact ⟨⟨⟨⟨⟨optFws_noSemicolon h1, tagName_noSemicolon h2⟩, optFws_noSemicolon h3⟩, by decide⟩,
      optFws_noSemicolon h4⟩, optFws_noSemicolon h5⟩

theorem equals_notFws : ¬ fwsChar '=' := by
  unfold fwsChar
  decide

theorem specText_single {n v p : Str} (h : SpecText n v p) : singleFwsTag p := by
  intro before w e hw
  cases h with
  | value f1 n f2 f3 v f4 h1 h2 h3 h4 h5 h6 =>
    obtain ⟨u, c, rfl, hc⟩ := someValue_last h5
    have := lastSplit_unique (P := fwsChar) (a := f1 ++ n ++ f2 ++ ['='] ++ f3 ++ u) (x := c) (u := f4) (by simpa using e)
      (optFws_chars h6) hw (valChar_noFws hc) equals_notFws
    exact this ▸ h6
  | empty f1 n f2 f3 h1 h2 h3 h4 =>
    have := lastSplit_unique (P := fwsChar) (a := f1 ++ n ++ f2) (x := '=') (u := f3) (by simpa using e)
      (optFws_chars h4) hw equals_notFws equals_notFws
    exact this ▸ h4

theorem rfcSpecText_single {n v p : Str} (h : RfcSpecText n v p) (hs : singleFwsTag p) : SpecText n v p := by
  cases h with
  | value f1 n f2 f3 v f4 h1 h2 h3 h4 h5 h6 => exact .value f1 n f2 f3 v f4 h1 h2 h3 h4 h5 h6
  | empty f1 n f2 f3 f4 h1 h2 h3 h4 h5 =>
    rw [List.append_assoc]
    refine .empty f1 n f2 (f3 ++ f4) h1 h2 h3 (hs (f1 ++ n ++ f2) _ (by simp) ?_)
    intro c hc
    rcases List.mem_append.1 hc with hc | hc
    · exact optFws_chars h4 c hc
    · exact optFws_chars h5 c hc

theorem listText_single {tags : List (Str × Str)} {s : Str} (h : ListText tags s) : SingleFws s := by
  induction h with
  | last n v s h => exact (singleFws_one (rfcSpecText_noSemicolon (specText_rfc h))).2 (specText_single h)
  | lastSemicolon n v s h =>
    exact (singleFws_cons (rfcSpecText_noSemicolon (specText_rfc h))).2 ⟨specText_single h, singleFws_nil⟩
  | more n v s tags r h _ ih =>
    exact (singleFws_cons (rfcSpecText_noSemicolon (specText_rfc h))).2 ⟨specText_single h, ih⟩

theorem rfcListText_single {tags : List (Str × Str)} {s : Str} (h : RfcListText tags s) (hs : SingleFws s) :
    ListText tags s := by
  induction h with
  | last n v s h =>
    exact .last n v s (rfcSpecText_single h ((singleFws_one (rfcSpecText_noSemicolon h)).1 hs))
  | lastSemicolon n v s h =>
    exact .lastSemicolon n v s (rfcSpecText_single h ((singleFws_cons (rfcSpecText_noSemicolon h)).1 hs).1)
  | more n v s tags r h _ ih =>
    have := (singleFws_cons (rfcSpecText_noSemicolon h)).1 hs
    exact .more n v s tags r (rfcSpecText_single h this.1) (ih this.2)

/-- C22, exactly: the parser returns a list of tags if and only if the text is generated for
these names and values by the grammar of the RFC, taken literally, no name occurs twice, and
nowhere is more than one FWS between an equals sign and the end of the tag. -/
theorem C22_rfc_exactly (s : Str) (tags : List TagSpec) :
    parseTagList s = .ok tags ↔
      RfcListText (tags.map fun t => (t.name, t.value)) s ∧ (tags.map (·.name)).Nodup ∧ SingleFws s := by
  constructor
  · intro h
    obtain ⟨h1, h2⟩ := C22_rfc_sound_partial s tags h
    exact ⟨h1, h2, listText_single ((C22_tag_list_exact s tags).1 h).1⟩
  · rintro ⟨h1, h2, h3⟩
    exact (C22_tag_list_exact s tags).2 ⟨rfcListText_single h1 h3, h2⟩

/-- Non-vacuity: whitespace after the equals sign, with and without a value. -/
example : parseTagList c!"a=\r\n ; b = = \r\n\t" = .ok [⟨c!"a", []⟩, ⟨c!"b", c!"="⟩] := by rfl

/-- With a second line break it is not a single FWS. -/
example : ¬ SingleFws c!"a=\r\n \r\n " := by
  intro h
  have h := h c!"a" c!"\r\n \r\n " [] rfl (by unfold fwsChar; decide) (.inl rfl)
  have : parseTagList c!"a=\r\n \r\n " = .ok [⟨c!"a", []⟩] :=
    (C22_tag_list_exact _ _).2 ⟨.last c!"a" [] _ (.empty [] c!"a" [] _ (.inl rfl)
      ⟨'a', [], rfl, by decide, by simp⟩ (.inl rfl) h), by decide⟩
  exact absurd this (by
    have : parseTagList c!"a=\r\n \r\n " = .error .syntax := by rfl
    rw [this]
    intro h
    cases h)

end Dkim
