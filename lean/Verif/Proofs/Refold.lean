import Verif.Spec.Refold
import Verif.Proofs.Copied
import Verif.Proofs.Errors

/-!
# Refolding: helpers for C56
-/

namespace Dkim

open Spec

theorem Spec.Refold.symm {s t : Str} (h : Refold s t) : Refold t s := by
  induction h with
  | nil => exact .nil
  | char c s t hc _ ih => exact .char c _ _ hc ih
  | fws f g s t hf hg hs h ih =>
    refine .fws g f t s hg hf ?_ ih
    intro c r e
    cases h with
    | nil => cases e
    | char d s t hd _ =>
      injection e with e1 e2
      rw [← e1]
      exact hd
    | fws f' g' s' t' hf' _ _ _ =>
      cases hf' : f' with
      | nil => exact absurd hf' (fws_ne_nil ‹Fws f'›)
      | cons x f'' =>
        exact absurd (fws_chars ‹Fws f'› x (by rw [hf']; simp)) (hs x (f'' ++ s') (by rw [hf']; rfl))

theorem Spec.Refold.nil_left {t : Str} (h : Refold [] t) : t = [] := by
  generalize hs : ([] : Str) = s at h
  cases h with
  | nil => rfl
  | char => cases hs
  | fws f g s t hf => exact absurd (List.append_eq_nil_iff.1 hs.symm).1 (fws_ne_nil hf)

/-- Texts correspond on both sides of a character. -/
theorem Spec.Refold.split {a b t : Str} {c : Char} (hc : ¬ fwsChar c) (h : Refold (a ++ c :: b) t) :
    ∃ a' b', t = a' ++ c :: b' ∧ Refold a a' ∧ Refold b b' := by
  generalize hs : a ++ c :: b = s at h
  induction h generalizing a with
  | nil => simp at hs
  | char d s t hd h ih =>
    cases a with
    | nil =>
      injection hs with h1 h2
      subst h1; subst h2
      exact ⟨[], t, rfl, .nil, h⟩
    | cons x a =>
      injection hs with h1 h2
      subst h1
      obtain ⟨a', b', e, h3, h4⟩ := ih h2
      exact ⟨x :: a', b', by rw [e]; rfl, .char _ _ _ hd h3, h4⟩
  | fws f g s t hf hg hsol h ih =>
    have hfc := fws_chars hf
    rcases List.append_eq_append_iff.1 hs with ⟨m, h1, h2⟩ | ⟨m, h1, h2⟩
    · cases m with
      | nil =>
        obtain ⟨a', b', e, h3, h4⟩ := ih (a := []) (by simpa using h2)
        rw [h3.nil_left] at e
        refine ⟨g ++ [], b', by rw [e]; simp, ?_, h4⟩
        have : a = f ++ [] := by simpa using h1.symm
        rw [this]
        exact .fws _ _ _ _ hf hg (by intro c r e; cases e) .nil
      | cons x m =>
        injection h2 with h2 _
        exact absurd (hfc c (by rw [h1, h2]; simp)) hc
    · obtain ⟨a', b', e, h3, h4⟩ := ih h2.symm
      refine ⟨g ++ a', b', by rw [e]; simp, ?_, h4⟩
      rw [h1]
      refine .fws _ _ _ _ hf hg ?_ h3
      intro x r ex
      exact hsol x (r ++ c :: b) (by rw [h2, ex]; rfl)

theorem Spec.Refold.peel {w s t : Str} (hw : Clean w) (h : Refold (w ++ s) t) :
    ∃ t', t = w ++ t' ∧ Refold s t' := by
  induction w generalizing t with
  | nil => exact ⟨t, rfl, h⟩
  | cons c w ih =>
    obtain ⟨a', b', e, h1, h2⟩ := Refold.split (a := []) (hw c (by simp)) h
    obtain ⟨t', e', h3⟩ := ih (fun c hc => hw c (by simp [hc])) h2
    refine ⟨t', ?_, h3⟩
    rw [e, h1.nil_left, e']
    rfl

theorem Spec.Refold.clean_eq {w t : Str} (hw : Clean w) (h : Refold w t) : t = w := by
  obtain ⟨t', e, h'⟩ := Refold.peel (s := []) hw (by simpa using h)
  rw [e, h'.nil_left, List.append_nil]

theorem Spec.Refold.fws_iff {f g : Str} (h : Refold f g) (hf : Fws f) : Fws g := by
  cases h with
  | nil => exact hf
  | char c s t hc _ => exact absurd (fws_chars hf c (by simp)) hc
  | fws f' g' s t hf' hg' hs h =>
    cases s with
    | nil => rw [h.nil_left, List.append_nil]; exact hg'
    | cons c s => exact absurd (fws_chars hf c (by simp)) (hs c s rfl)

theorem Spec.Refold.optFws {f g : Str} (h : Refold f g) (hf : OptFws f) : OptFws g := by
  rcases hf with rfl | hf
  · exact .inl h.nil_left
  · exact .inr (h.fws_iff hf)

/-- Texts correspond at the start of a word. -/
theorem Spec.Refold.before {a b t : Str} (hb : b ≠ []) (hs : Solid b) (h : Refold (a ++ b) t) :
    ∃ a' b', t = a' ++ b' ∧ Refold a a' ∧ Refold b b' := by
  cases b with
  | nil => exact absurd rfl hb
  | cons c b =>
    obtain ⟨a', b', e, h1, h2⟩ := Refold.split (hs c b rfl) h
    exact ⟨a', c :: b', e, h1, .char _ _ _ (hs c b rfl) h2⟩

theorem Spec.Refold.snoc {a a' : Str} {c : Char} (hc : ¬ fwsChar c) (h : Refold a a') :
    Refold (a ++ [c]) (a' ++ [c]) := by
  induction h with
  | nil => exact .char c [] [] hc .nil
  | char d s t hd _ ih => exact .char d _ _ hd ih
  | fws f g s t hf hg hs _ ih =>
    rw [List.append_assoc, List.append_assoc]
    refine .fws _ _ _ _ hf hg ?_ ih
    intro x r e
    cases s with
    | nil =>
      injection e with e _
      rw [← e]
      exact hc
    | cons y s =>
      injection e with e _
      rw [← e]
      exact hs y s rfl

/-- Texts correspond at the end of a word. -/
theorem Spec.Refold.after {a b t : Str} {c : Char} (hc : ¬ fwsChar c) (h : Refold (a ++ [c] ++ b) t) :
    ∃ a' b', t = a' ++ b' ∧ Refold (a ++ [c]) a' ∧ Refold b b' := by
  rw [List.append_assoc] at h
  obtain ⟨a', b', e, h1, h2⟩ := Refold.split hc h
  exact ⟨a' ++ [c], b', by rw [e]; simp, h1.snoc hc, h2⟩

theorem Spec.Refold.unfws_eq {s t : Str} (h : Refold s t) : unfws t = unfws s := by
  induction h with
  | nil => rfl
  | char c s t hc _ ih =>
    have e : ∀ r, unfws (c :: r) = unfws [c] ++ unfws r := fun r => unfws_append [c] r
    rw [e t, e s, ih]
  | fws f g s t hf hg _ _ ih => rw [unfws_append, unfws_append, unfws_fws hf, unfws_fws hg, ih]

theorem Spec.Refold.mem_iff {s t : Str} {c : Char} (hc : ¬ fwsChar c) (h : Refold s t) : c ∈ s ↔ c ∈ t := by
  induction h with
  | nil => rfl
  | char d s t _ _ ih => simp [ih]
  | fws f g s t hf hg _ _ ih =>
    rw [List.mem_append, List.mem_append, ih]
    constructor
    · rintro (h | h)
      · exact absurd (fws_chars hf c h) hc
      · exact .inr h
    · rintro (h | h)
      · exact absurd (fws_chars hg c h) hc
      · exact .inr h

theorem tagName_noFold {n : Str} (h : TagName n) : Clean n := by
  obtain ⟨c, r, rfl, h1, h2⟩ := h
  intro d hd hf
  have hn : d.toNat = 32 ∨ d.toNat = 9 ∨ d.toNat = 13 ∨ d.toNat = 10 := by
    rcases hf with rfl | rfl | rfl | rfl <;> decide
  rcases List.mem_cons.1 hd with rfl | hd
  · omega
  · rcases h2 d hd with h | h | rfl
    · omega
    · omega
    · revert hn; decide

theorem equals_noFws : ¬ fwsChar '=' := eq_noFws

/-- Refolding of a value and what follows it. -/
theorem someValue_refold {v w t : Str} (hv : SomeValue v) (h : Refold (v ++ w) t) :
    ∃ v' w', t = v' ++ w' ∧ SomeValue v' ∧ Refold v v' ∧ Refold w w' := by
  induction hv generalizing t with
  | one v hv =>
    obtain ⟨t', e, h'⟩ := Refold.peel (fun c hc => valChar_noFws (hv.2 c hc)) h
    have hc : Clean v := fun c hc => valChar_noFws (hv.2 c hc)
    have : ∀ u : Str, Clean u → Refold u u := by
      intro u hu
      induction u with
      | nil => exact .nil
      | cons c u ih => exact .char c _ _ (hu c (by simp)) (ih fun c hc => hu c (by simp [hc]))
    exact ⟨v, t', e, .one v hv, this v hc, h'⟩
  | more v f r hv hf hr ih =>
    have hc : Clean v := fun c hc => valChar_noFws (hv.2 c hc)
    rw [List.append_assoc, List.append_assoc] at h
    obtain ⟨t1, e1, h1⟩ := Refold.peel hc h
    have hr0 : r ++ w ≠ [] ∧ Solid (r ++ w) := by
      have key : ∀ u : Str, Tval u → ∀ z, u ++ z ≠ [] ∧ Solid (u ++ z) := by
        intro u hu z
        cases u with
        | nil => exact absurd rfl hu.1
        | cons c u =>
          refine ⟨by simp, ?_⟩
          intro x y e
          injection e with e _
          rw [← e]
          exact valChar_noFws (hu.2 c (by simp))
      cases hr with
      | one _ hu => exact key _ hu w
      | more u f' r' hu _ _ => rw [List.append_assoc, List.append_assoc]; exact key _ hu _
    obtain ⟨f', t2, e2, h2, h3⟩ := Refold.before hr0.1 hr0.2 h1
    obtain ⟨r', w', e3, h4, h5, h6⟩ := ih h3
    refine ⟨v ++ f' ++ r', w', by rw [e1, e2, e3]; simp, .more v f' r' hv (h2.fws_iff hf) h4, ?_, h6⟩
    have hg := h2.fws_iff hf
    have : Refold (f ++ r) (f' ++ r') := by
      refine .fws f f' r r' hf hg ?_ h5
      intro x y e
      exact hr0.2 x (y ++ w) (by rw [e]; rfl)
    rw [List.append_assoc, List.append_assoc]
    clear e1 h ih
    induction v with
    | nil => exact this
    | cons c v ih2 =>
      by_cases hve : v = []
      · subst hve; exact .char c _ _ (hc c (by simp)) this
      · exact .char c _ _ (hc c (by simp)) (ih2 ⟨hve, fun c hc => hv.2 c (by simp [hc])⟩ fun c hc' => hc c (by simp [hc']))

theorem someValue_solid {v : Str} (h : SomeValue v) (r : Str) : v ++ r ≠ [] ∧ Solid (v ++ r) := by
  have key : ∀ u : Str, Tval u → ∀ z, u ++ z ≠ [] ∧ Solid (u ++ z) := by
    intro u hu z
    cases u with
    | nil => exact absurd rfl hu.1
    | cons c u =>
      refine ⟨by simp, ?_⟩
      intro x y e
      injection e with e _
      rw [← e]
      exact valChar_noFws (hu.2 c (by simp))
  cases h with
  | one _ hu => exact key _ hu _
  | more u f' r' hu _ _ => rw [List.append_assoc, List.append_assoc]; exact key _ hu _

theorem clean_solid {n : Str} (hne : n ≠ []) (h : Clean n) (r : Str) : n ++ r ≠ [] ∧ Solid (n ++ r) := by
  cases n with
  | nil => exact absurd rfl hne
  | cons c n =>
    refine ⟨by simp, ?_⟩
    intro x y e
    injection e with e _
    rw [← e]
    exact h c (by simp)

theorem tagName_ne_nil {n : Str} (h : TagName n) : n ≠ [] := by
  obtain ⟨c, r, rfl, _⟩ := h
  simp

/-- Refolding of the part before the equals sign. -/
theorem nameText_refold {f1 n f2 t : Str} (h1 : OptFws f1) (hn : TagName n) (h2 : OptFws f2)
    (h : Refold (f1 ++ n ++ f2) t) : ∃ f1' f2', t = f1' ++ n ++ f2' ∧ OptFws f1' ∧ OptFws f2' := by
  have hs := clean_solid (tagName_ne_nil hn) (tagName_noFold hn) f2
  rw [List.append_assoc] at h
  obtain ⟨f1', t1, e1, g1, g2⟩ := Refold.before hs.1 hs.2 h
  obtain ⟨f2', e2, g3⟩ := Refold.peel (tagName_noFold hn) g2
  exact ⟨f1', f2', by rw [e1, e2]; simp, g1.optFws h1, g3.optFws h2⟩

theorem specText_refold {n v s t : Str} (h : SpecText n v s) (hr : Refold s t) :
    ∃ v', SpecText n v' t ∧ Refold v v' := by
  cases h with
  | value f1 _ f2 f3 _ f4 h1 hn h2 h3 hv h4 =>
    have e : f1 ++ n ++ f2 ++ ['='] ++ f3 ++ v ++ f4 = (f1 ++ n ++ f2) ++ '=' :: (f3 ++ (v ++ f4)) := by simp
    rw [e] at hr
    obtain ⟨a, b, e1, g1, g2⟩ := Refold.split equals_noFws hr
    obtain ⟨f1', f2', e2, o1, o2⟩ := nameText_refold h1 hn h2 g1
    have hs := someValue_solid hv f4
    obtain ⟨f3', b', e3, g3, g4⟩ := Refold.before hs.1 hs.2 g2
    obtain ⟨v', f4', e4, hv', g5, g6⟩ := someValue_refold hv g4
    refine ⟨v', ?_, g5⟩
    have := SpecText.value f1' n f2' f3' v' f4' o1 hn o2 (g3.optFws h3) hv' (g6.optFws h4)
    rw [e1, e2, e3, e4]
    simpa using this
  | empty f1 _ f2 f3 h1 hn h2 h3 =>
    have e : f1 ++ n ++ f2 ++ ['='] ++ f3 = (f1 ++ n ++ f2) ++ '=' :: f3 := by simp
    rw [e] at hr
    obtain ⟨a, b, e1, g1, g2⟩ := Refold.split equals_noFws hr
    obtain ⟨f1', f2', e2, o1, o2⟩ := nameText_refold h1 hn h2 g1
    refine ⟨[], ?_, .nil⟩
    have := SpecText.empty f1' n f2' b o1 hn o2 (g2.optFws h3)
    rw [e1, e2]
    simpa using this

theorem listText_refold {tags : List (Str × Str)} {s t : Str} (h : ListText tags s) (hr : Refold s t) :
    ∃ tags', ListText tags' t ∧ SameTags tags tags' := by
  induction h generalizing t with
  | last n v s h =>
    obtain ⟨v', h1, h2⟩ := specText_refold h hr
    exact ⟨[(n, v')], .last _ _ _ h1, .cons _ _ _ _ _ h2 .nil⟩
  | lastSemicolon n v s h =>
    obtain ⟨a, b, e, h1, h2⟩ := Refold.split semicolon_noFws hr
    obtain ⟨v', h3, h4⟩ := specText_refold h h1
    rw [e, h2.nil_left]
    exact ⟨[(n, v')], .lastSemicolon _ _ _ h3, .cons _ _ _ _ _ h4 .nil⟩
  | more n v s tags r h _ ih =>
    obtain ⟨a, b, e, h1, h2⟩ := Refold.split semicolon_noFws hr
    obtain ⟨v', h3, h4⟩ := specText_refold h h1
    obtain ⟨tags', h5, h6⟩ := ih h2
    rw [e]
    exact ⟨(n, v') :: tags', .more _ _ _ _ _ h3 h5, .cons _ _ _ _ _ h4 h6⟩

theorem Spec.SameTags.names {tags tags' : List (Str × Str)} (h : SameTags tags tags') :
    tags'.map (·.1) = tags.map (·.1) := by
  induction h with
  | nil => rfl
  | cons n v w tags tags' _ _ ih => simp [ih]

theorem Spec.SameTags.mem {tags tags' : List (Str × Str)} (h : SameTags tags tags') {n v : Str}
    (hm : (n, v) ∈ tags) : ∃ w, (n, w) ∈ tags' ∧ Refold v w := by
  induction h with
  | nil => cases hm
  | cons m v' w tags tags' hr _ ih =>
    rcases List.mem_cons.1 hm with e | hm
    · simp only [Prod.mk.injEq] at e
      obtain ⟨rfl, rfl⟩ := e
      exact ⟨w, by simp, hr⟩
    · obtain ⟨w', h1, h2⟩ := ih hm
      exact ⟨w', by simp [h1], h2⟩

theorem Spec.SameTags.symm {tags tags' : List (Str × Str)} (h : SameTags tags tags') : SameTags tags' tags := by
  induction h with
  | nil => exact .nil
  | cons n v w tags tags' hr _ ih => exact .cons _ _ _ _ _ hr.symm ih

theorem Spec.SameTags.filter {tags tags' : List (Str × Str)} (h : SameTags tags tags') (p : Str → Bool) :
    SameTags (tags.filter fun t => p t.1) (tags'.filter fun t => p t.1) := by
  induction h with
  | nil => exact .nil
  | cons n v w tags tags' hr _ ih =>
    simp only [List.filter_cons]
    split
    · exact .cons _ _ _ _ _ hr ih
    · exact ih

/-! ## Meanings of values -/

/-- A meaning that does not depend on folding. -/
def FoldFree {α : Type} (means : Str → α → Prop) : Prop := ∀ v w x, Refold v w → means v x → means w x

theorem required_refold {α : Type} {tags tags' : List (Str × Str)} {n : Str} {means : Str → α → Prop} {x : α}
    (hm : FoldFree means) (h : SameTags tags tags') (hr : Required tags n means x) :
    Required tags' n means x := by
  obtain ⟨v, h1, h2⟩ := hr
  obtain ⟨w, h3, h4⟩ := h.mem h1
  exact ⟨w, h3, hm _ _ _ h4 h2⟩

theorem absent_refold {tags tags' : List (Str × Str)} {n : Str} (h : SameTags tags tags')
    (ha : ∀ v, (n, v) ∉ tags) : ∀ v, (n, v) ∉ tags' := by
  intro v hv
  obtain ⟨w, h1, _⟩ := h.symm.mem hv
  exact ha w h1

theorem optional_refold {α : Type} {tags tags' : List (Str × Str)} {n : Str} {means : Str → α → Prop}
    {x : Option α} (hm : FoldFree means) (h : SameTags tags tags') (ho : Optional tags n means x) :
    Optional tags' n means x := by
  cases x with
  | none => exact absent_refold h ho
  | some a => exact required_refold hm h ho

theorem defaulting_refold {α : Type} {tags tags' : List (Str × Str)} {n : Str} {means : Str → α → Prop}
    {d x : α} (hm : FoldFree means) (h : SameTags tags tags') (hd : Defaulting tags n means d x) :
    Defaulting tags' n means d x := by
  rcases hd with hd | ⟨ha, e⟩
  · exact .inl (required_refold hm h hd)
  · exact .inr ⟨absent_refold h ha, e⟩

theorem foldFree_of_clean {α : Type} {means : Str → α → Prop} (h : ∀ v x, means v x → Clean v) : FoldFree means := by
  intro v w x hr hm
  rw [hr.clean_eq (h v x hm)]
  exact hm

theorem foldFree_of_unfws {α : Type} {means : Str → α → Prop} (h : ∀ v w x, unfws v = unfws w → means v x → means w x) :
    FoldFree means := fun v w x hr hm => h v w x hr.unfws_eq.symm hm

theorem noFold_of_lower {v w : Str} (h : lower v = w) (hw : ∀ c ∈ w, ¬ fwsChar c) : Clean v := by
  intro c hc hf
  have h1 : c.toLower ∈ w := by
    rw [← h]
    exact List.mem_map_of_mem hc
  have : c.toLower = c := by rcases hf with rfl | rfl | rfl | rfl <;> decide
  rw [this] at h1
  exact hw c h1 hf

theorem lit_clean (w : Str) (h : w.all (fun c => !(c == ' ' || c == '\t' || c == '\r' || c == '\n')) = true) :
    ∀ c ∈ w, ¬ fwsChar c := by
  intro c hc hf
  have := List.all_eq_true.1 h c hc
  rcases hf with rfl | rfl | rfl | rfl <;> revert this <;> decide

theorem algText_foldFree (pre : Bool) : FoldFree (AlgText pre) := by
  apply foldFree_of_clean
  rintro v x (⟨_, h⟩ | ⟨_, h⟩ | ⟨_, _, h⟩) <;> exact noFold_of_lower h (lit_clean _ (by decide))

theorem canonText_foldFree : FoldFree CanonText := by
  apply foldFree_of_clean
  rintro v ⟨a, b⟩ (h | ⟨h, _⟩)
  · exact noFold_of_lower h (lit_clean _ (by cases a <;> cases b <;> decide))
  · exact noFold_of_lower h (lit_clean _ (by clear h; cases a <;> rfl))

theorem base64Text_foldFree : FoldFree Base64Text :=
  foldFree_of_unfws fun _ _ _ h hm => ⟨hm.1, h ▸ hm.2⟩

theorem validName_noFold {n : Str} (h : ValidName n) : Clean n := by
  intro c hc hf
  have h1 := h.2 c hc
  rcases hf with rfl | rfl | rfl | rfl <;> revert h1 <;> decide

theorem colon_noFws : ¬ fwsChar ':' := by
  rintro (h | h | h | h) <;> revert h <;> decide

theorem headersText_foldFree : FoldFree HeadersText := by
  rintro v w x hr ⟨h1, h2, h3⟩
  refine ⟨?_, h2, h3⟩
  clear h3
  have item : ∀ f n g t, OptFws f → OptFws g → ValidName n → Refold (f ++ n ++ g) t →
      ∃ f' g', OptFws f' ∧ OptFws g' ∧ t = f' ++ n ++ g' := by
    intro f n g t hf hg hn h
    have hs := clean_solid hn.1 (validName_noFold hn) g
    rw [List.append_assoc] at h
    obtain ⟨f', t1, e1, g1, g2⟩ := Refold.before hs.1 hs.2 h
    obtain ⟨g', e2, g3⟩ := Refold.peel (validName_noFold hn) g2
    exact ⟨f', g', g1.optFws hf, g3.optFws hg, by rw [e1, e2]; simp⟩
  induction h1 generalizing w with
  | one f n g hf hg =>
    obtain ⟨f', g', hf', hg', e⟩ := item f n g w hf hg (h2 n (by simp)) hr
    rw [e]
    exact .one _ _ _ hf' hg'
  | more f n g ns s hf hg _ ih =>
    obtain ⟨a, b, e, h4, h5⟩ := Refold.split colon_noFws hr
    obtain ⟨f', g', hf', hg', e'⟩ := item f n g a hf hg (h2 n (by simp)) h4
    rw [e, e']
    exact .more _ _ _ _ _ hf' hg' (ih _ h5 fun h hh => h2 h (by simp [hh]))

theorem decimal_clean {v : Str} {n : Nat} (h : PlusDecimal v n) : Clean v := by
  have key : ∀ c, digit c → ¬ fwsChar c := by
    intro c hc hf
    unfold digit at hc
    rcases hf with rfl | rfl | rfl | rfl <;> revert hc <;> decide
  rcases h with h | ⟨ds, rfl, h⟩
  · exact fun c hc => key c (h.2.1 c hc)
  · intro c hc
    rcases List.mem_cons.1 hc with rfl | hc
    · rintro (h | h | h | h) <;> revert h <;> decide
    · exact key c (h.2.1 c hc)

theorem plusDecimal_foldFree : FoldFree PlusDecimal := foldFree_of_clean fun _ _ h => decimal_clean h

theorem identityText_foldFree (ix : Idna) : FoldFree (IdentityText ix) :=
  foldFree_of_unfws fun _ _ _ h hm => ⟨hm.1, h ▸ hm.2⟩

theorem copiedText_foldFree : FoldFree CopiedText :=
  foldFree_of_unfws fun _ _ _ h hm => (copied_congr h).1 hm

theorem joinDots_forall {ls : List Str} {P : Char → Prop} (h : ∀ l ∈ ls, ∀ c ∈ l, P c) (hd : P '.') :
    ∀ c ∈ joinDots ls, P c := by
  induction ls with
  | nil => intro c hc; cases hc
  | cons l ls ih =>
    have ih' := ih fun m hm => h m (by simp [hm])
    cases ls with
    | nil => exact h l (by simp)
    | cons m ls =>
      intro c hc
      rw [joinDots] at hc
      · rcases List.mem_append.1 hc with hc | hc
        · exact h l (by simp) c hc
        · rcases List.mem_cons.1 hc with rfl | hc
          · exact hd
          · exact ih' c hc
      · simp

theorem dnsName_clean {b : Bool} {s : Str} (h : DnsName b s) : Clean s := by
  obtain ⟨_, _, ls, last, rfl, h1, h2, _⟩ := h
  refine joinDots_forall ?_ (by rintro (h | h | h | h) <;> revert h <;> decide)
  intro l hl c hc hf
  have hL : Label l := by
    rcases List.mem_append.1 hl with hl | hl
    · exact h1 l hl
    · rw [List.mem_singleton.1 hl]; exact h2
  have := hL.2.2.1 c hc
  unfold letter digit at this
  rcases hf with rfl | rfl | rfl | rfl <;> revert this <;> decide

theorem validDomain_clean {ix : Idna} (law : BlankLaw ix) {b : Bool} {d : Str} (h : ValidDomain b ix d) : Clean d := by
  obtain ⟨a, h1, _, h3⟩ := h
  intro c hc hf
  exact dnsName_clean h3 c (law d a h1 c hc hf) hf

theorem domainText_foldFree {ix : Idna} (law : BlankLaw ix) (b : Bool) :
    FoldFree (fun v d : Str => d = v ∧ ValidDomain b ix v) :=
  foldFree_of_clean fun _ _ h => validDomain_clean law h.2

theorem trimmed_refold {n n' : Str} (h : Trimmed n) (hr : Refold n n') : Trimmed n' := by
  refine ⟨?_, ?_⟩
  · intro c r e hc
    cases hr with
    | nil => cases e
    | char d s t hd _ => injection e with e _; exact hd (e ▸ hc)
    | fws f g s t hf _ _ _ =>
      cases f with
      | nil => exact fws_ne_nil hf rfl
      | cons x f => exact h.1 x (f ++ s) rfl (fws_chars hf x (by simp))
  · intro c r e hc
    by_cases hne : n = []
    · subst hne
      rw [hr.nil_left] at e
      simp at e
    · have hd := h.2 (n.getLast hne) n.dropLast (List.dropLast_concat_getLast hne).symm
      have hr' := hr
      rw [← List.dropLast_concat_getLast hne] at hr'
      obtain ⟨a, b, e', _, h2⟩ := Refold.split hd hr'
      rw [h2.nil_left] at e'
      rw [e'] at e
      have := (List.append_inj' e rfl).2
      injection this with this
      exact hd (this ▸ hc)

/-- Refolding of a list of items. -/
inductive SameItems : List Str → List Str → Prop
  | nil : SameItems [] []
  | cons (i j : Str) (is js : List Str) : Refold i j → SameItems is js → SameItems (i :: is) (j :: js)

def GoodItem (i : Str) : Prop := i ≠ [] ∧ Trimmed i ∧ ':' ∉ i

theorem item_refold {f n g t : Str} (hf : OptFws f) (hg : OptFws g) (hn : GoodItem n) (h : Refold (f ++ n ++ g) t) :
    ∃ f' n' g', OptFws f' ∧ OptFws g' ∧ t = f' ++ n' ++ g' ∧ Refold n n' ∧ GoodItem n' := by
  obtain ⟨hne, htr, hcol⟩ := hn
  have hsol : n ++ g ≠ [] ∧ Solid (n ++ g) := by
    cases n with
    | nil => exact absurd rfl hne
    | cons c n =>
      refine ⟨by simp, ?_⟩
      intro x y e
      injection e with e _
      rw [← e]
      exact htr.1 c n rfl
  rw [List.append_assoc] at h
  obtain ⟨f', t1, e1, g1, g2⟩ := Refold.before hsol.1 hsol.2 h
  have hd := htr.2 (n.getLast hne) n.dropLast (List.dropLast_concat_getLast hne).symm
  rw [← List.dropLast_concat_getLast hne] at g2
  obtain ⟨n', g', e2, g3, g4⟩ := Refold.after hd g2
  rw [List.dropLast_concat_getLast hne] at g3
  refine ⟨f', n', g', g1.optFws hf, g4.optFws hg, by rw [e1, e2]; simp, g3, ?_, trimmed_refold htr g3, ?_⟩
  · intro e
    rw [e] at g3
    exact hne g3.symm.nil_left
  · intro hc
    exact hcol ((g3.mem_iff colon_noFws).2 hc)

theorem colonList_refold {items : List Str} {v w : Str} (h : ColonList items v) (hi : ∀ i ∈ items, GoodItem i)
    (hr : Refold v w) : ∃ items', ColonList items' w ∧ (∀ i ∈ items', GoodItem i) ∧ SameItems items items' := by
  induction h generalizing w with
  | one f n g hf hg =>
    obtain ⟨f', n', g', hf', hg', e, h1, h2⟩ := item_refold hf hg (hi n (by simp)) hr
    refine ⟨[n'], e ▸ .one _ _ _ hf' hg', ?_, .cons _ _ _ _ h1 .nil⟩
    intro i hi
    rw [List.mem_singleton.1 hi]
    exact h2
  | more f n g ns s hf hg _ ih =>
    obtain ⟨a, b, e, h4, h5⟩ := Refold.split colon_noFws hr
    obtain ⟨f', n', g', hf', hg', e', h1, h2⟩ := item_refold hf hg (hi n (by simp)) h4
    obtain ⟨items', h6, h7, h8⟩ := ih (fun i hh => hi i (by simp [hh])) h5
    refine ⟨n' :: items', ?_, ?_, .cons _ _ _ _ h1 h8⟩
    · rw [e, e']
      exact .more _ _ _ _ _ hf' hg' h6
    · intro i hi
      rcases List.mem_cons.1 hi with rfl | hi
      · exact h2
      · exact h7 i hi

theorem SameItems.mem {is js : List Str} (h : SameItems is js) {i : Str} (hi : i ∈ is) : ∃ j ∈ js, Refold i j := by
  induction h with
  | nil => cases hi
  | cons a b as bs hab _ ih =>
    rcases List.mem_cons.1 hi with rfl | hi
    · exact ⟨b, by simp, hab⟩
    · obtain ⟨j, h1, h2⟩ := ih hi
      exact ⟨j, by simp [h1], h2⟩

theorem queryText_refold {v w : Str} (hr : Refold v w) (h : QueryText v) : QueryText w := by
  obtain ⟨items, h1, h2, i, hi, e⟩ := h
  obtain ⟨items', h3, h4, h5⟩ := colonList_refold h1 h2 hr
  obtain ⟨j, hj, hij⟩ := h5.mem hi
  refine ⟨items', h3, h4, j, hj, ?_⟩
  rw [hij.clean_eq (noFold_of_lower e (lit_clean _ (by decide)))]
  exact e

theorem signatureOf_refold {ix : Idna} (law : BlankLaw ix) {pre : Bool} {tags tags' : List (Str × Str)}
    {s : DkimSignature} (h : SameTags tags tags') (hs : SignatureOf ix pre tags s) :
    SignatureOf ix pre tags' { s with extTags := tags'.filter fun t => !knownTags.contains t.1 } where
  version := by
    obtain ⟨w, h1, h2⟩ := h.mem hs.version
    rw [h2.clean_eq (lit_clean _ (by decide))] at h1
    exact h1
  algorithm := required_refold (algText_foldFree pre) h hs.algorithm
  signatureData := required_refold base64Text_foldFree h hs.signatureData
  bodyHash := required_refold base64Text_foldFree h hs.bodyHash
  canonicalization := defaulting_refold canonText_foldFree h hs.canonicalization
  domain := required_refold (domainText_foldFree law true) h hs.domain
  signedHeaders := required_refold headersText_foldFree h hs.signedHeaders
  identity := optional_refold (identityText_foldFree ix) h hs.identity
  bodyLength := optional_refold plusDecimal_foldFree h hs.bodyLength
  queryMethods := by
    intro v hv
    obtain ⟨w, h1, h2⟩ := h.symm.mem hv
    exact queryText_refold h2.symm (hs.queryMethods w h1)
  selector := required_refold (domainText_foldFree law false) h hs.selector
  timestamp := optional_refold plusDecimal_foldFree h hs.timestamp
  expiration := optional_refold plusDecimal_foldFree h hs.expiration
  copiedHeaders := defaulting_refold copiedText_foldFree h hs.copiedHeaders
  extTags := rfl
  identityUnderDomain := hs.identityUnderDomain
  expirationAfter := hs.expirationAfter

end Dkim
