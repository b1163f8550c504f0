import Verif.Props.Body

/-! Helper lemmas about bodies to which something is appended. -/

namespace Dkim

open Spec

theorem splitLines_ends (front : Bytes) :
    ∃ l ls, splitLines (front ++ [13, 10]) = (l :: ls, []) := by
  suffices h : ∀ n, ∀ front : Bytes, front.length ≤ n → ∃ l ls, splitLines (front ++ [13, 10]) = (l :: ls, []) from
    h _ front (Nat.le_refl _)
  intro n
  induction n with
  | zero =>
    intro front hl
    have : front = [] := List.eq_nil_of_length_eq_zero (Nat.le_zero.1 hl)
    subst this
    exact ⟨[], [], rfl⟩
  | succ n ih =>
    intro front hl
    rcases front with _ | ⟨b, r⟩
    · exact ⟨[], [], rfl⟩
    by_cases hc : b = 13 ∧ ∃ r', r = 10 :: r'
    · obtain ⟨rfl, r', rfl⟩ := hc
      obtain ⟨l, ls, e⟩ := ih r' (by simp only [List.length_cons] at hl; omega)
      refine ⟨[], l :: ls, ?_⟩
      rw [List.cons_append, List.cons_append, splitLines_CRLF, e]
    · obtain ⟨l, ls, e⟩ := ih r (by simp only [List.length_cons] at hl; omega)
      refine ⟨b :: l, ls, ?_⟩
      rw [List.cons_append, splitLines_cons_ne b _ ?_, e]
      · rintro r' ⟨rfl, hr⟩
        apply hc
        refine ⟨rfl, ?_⟩
        rcases r with _ | ⟨c, r⟩
        · simp at hr
        · rw [List.cons_append, List.cons.injEq] at hr
          exact ⟨r, by rw [hr.1]⟩

theorem splitLines_append_of_ends {body : Bytes} (h : [13, 10] <:+ body) (extra : Bytes) :
    body ≠ [] ∧ (splitLines body).2 = [] ∧
    splitLines (body ++ extra) = ((splitLines body).1 ++ (splitLines extra).1, (splitLines extra).2) := by
  obtain ⟨front, rfl⟩ := h
  obtain ⟨l, ls, e⟩ := splitLines_ends front
  have hn := (splitLines_noCrlf (front ++ [13, 10])).1
  have hc := splitLines_complete (front ++ [13, 10])
  rw [e] at hn hc
  simp only [List.append_nil] at hc
  refine ⟨by simp, by rw [e], ?_⟩
  rw [e]
  conv => lhs; rw [← hc]
  rw [splitLines_join _ _ hn]

theorem dropTrailingEmpty_append (a b : List Bytes) :
    dropTrailingEmpty (a ++ b) = if dropTrailingEmpty b = [] then dropTrailingEmpty a else a ++ dropTrailingEmpty b := by
  induction a with
  | nil => by_cases h : dropTrailingEmpty b = [] <;> simp [h, dropTrailingEmpty_nil]
  | cons l ls ih =>
    rw [List.cons_append, dropTrailingEmpty_cons, ih]
    by_cases h : dropTrailingEmpty b = []
    · simp [h, dropTrailingEmpty_cons l ls]
    · simp [h]

theorem dropTrailingEmpty_prefix (a : List Bytes) : dropTrailingEmpty a <+: a := by
  induction a with
  | nil => exact List.prefix_refl _
  | cons l ls ih =>
    rw [dropTrailingEmpty_cons]
    split
    · split
      · exact List.nil_prefix
      · exact ⟨ls, rfl⟩
    · exact List.cons_prefix_cons.2 ⟨rfl, ih⟩

theorem joinLines_ne {a : List Bytes} (h : a ≠ []) : joinLines a ≠ [] := by
  cases a with
  | nil => contradiction
  | cons l ls => simp [joinLines]

/-- Lines appended to lines: the form without empty lines at the end is continued, and it is
the same only if all appended lines are empty. -/
theorem join_appended (a b : List Bytes) :
    ∃ more, joinLines (dropTrailingEmpty (a ++ b)) = joinLines (dropTrailingEmpty a) ++ more ∧
      (more = [] ↔ ∀ l ∈ b, l = []) := by
  rw [dropTrailingEmpty_append]
  by_cases h : dropTrailingEmpty b = []
  · exact ⟨[], by simp [h], by simpa using (dropTrailingEmpty_eq_nil b).1 h⟩
  · rw [if_neg h]
    obtain ⟨t, ht⟩ := dropTrailingEmpty_prefix a
    refine ⟨joinLines (t ++ dropTrailingEmpty b), ?_, ?_⟩
    · conv => lhs; rw [← ht]
      rw [List.append_assoc, joinLines_append]
    · constructor
      · intro hm
        exact absurd hm (joinLines_ne (by simp [h]))
      · intro hm
        exact absurd ((dropTrailingEmpty_eq_nil b).2 hm) h

theorem codeSimpleBody_of_ne {body : Bytes} (h : body ≠ []) :
    codeSimpleBody body = joinLines (dropTrailingEmpty (bodyLines body)) := by
  have h1 := C02_simple_body_exact [body]
  rw [canonBody_eq_run, simple_run_eq] at h1
  simpa [h] using h1.symm

theorem blankLine_noCrlf {k : CanonAlg} {l : Bytes} (h : blankLine k l) : NoCrlf l := by
  rw [infix_noCrlf]
  rintro ⟨a, b, rfl⟩
  have := (h 13 (by simp)).2
  simp [isWsp] at this

theorem blankLines_iff (k : CanonAlg) (extra : Bytes) :
    BlankLines k extra ↔ (splitLines extra).2 = [] ∧ ∀ l ∈ (splitLines extra).1, blankLine k l := by
  constructor
  · rintro ⟨ls, h, rfl⟩
    have := splitLines_join ls [] (fun l hl => blankLine_noCrlf (h l hl))
    rw [List.append_nil] at this
    rw [this]
    simpa [splitLines] using h
  · rintro ⟨h1, h2⟩
    refine ⟨_, h2, ?_⟩
    have := splitLines_complete extra
    rw [h1, List.append_nil] at this
    exact this.symm

theorem codeBody_append (k : CanonAlg) {body : Bytes} (h : [13, 10] <:+ body) (extra : Bytes) :
    ∃ more, codeBody k (body ++ extra) = codeBody k body ++ more ∧ (more = [] ↔ BlankLines k extra) := by
  obtain ⟨hne, hlast, hs⟩ := splitLines_append_of_ends h extra
  have hne' : body ++ extra ≠ [] := by simp [hne]
  have hl : bodyLines body = (splitLines body).1 := by simp [bodyLines, hlast]
  have hl' : bodyLines (body ++ extra) = (splitLines body).1 ++ bodyLines extra := by
    simp [bodyLines, hs]
  rw [blankLines_iff]
  cases k with
  | simple =>
    simp only [codeBody]
    rw [codeSimpleBody_of_ne hne, codeSimpleBody_of_ne hne', hl, hl']
    obtain ⟨more, e, hm⟩ := join_appended (splitLines body).1 (bodyLines extra)
    refine ⟨more, e, hm.trans ?_⟩
    have hb : ∀ l : Bytes, blankLine .simple l ↔ l = [] := by
      intro l
      cases l with
      | nil => simp [blankLine]
      | cons b l =>
        simp only [reduceCtorEq, iff_false]
        intro hall
        exact absurd (hall b (by simp)).1 (by simp)
    simp only [hb, bodyLines]
    by_cases hx : (splitLines extra).2 = []
    · simp [hx]
    · simp only [hx, if_false, false_and, iff_false]
      intro hall
      exact hx (hall _ (by simp))
  | relaxed =>
    simp only [codeBody, codeRelaxedBody, hlast, hs, ne_eq, not_true_eq_false, false_and, if_false, rfcRelaxedBody,
      hl, hl', List.map_append]
    obtain ⟨more, e, hm⟩ := join_appended ((splitLines body).1.map relaxLine) ((bodyLines extra).map relaxLine)
    have hb : ∀ l : Bytes, blankLine .relaxed l ↔ relaxLine l = [] := by
      intro l
      rw [relaxLine_eq_nil]
      simp [blankLine]
    simp only [hb]
    rw [e]
    by_cases hx : (splitLines extra).2 = []
    · refine ⟨more, by simp [hx], hm.trans ?_⟩
      simp [bodyLines, hx]
    · by_cases hw : (splitLines extra).2.all isWsp = true
      · refine ⟨more ++ [13, 10], by simp [hx, hw], by simp [hx]⟩
      · refine ⟨more, by simp [hw], hm.trans ?_⟩
        simp only [hx, false_and, iff_false]
        intro hall
        have := hall (relaxLine (splitLines extra).2) (List.mem_map.2 ⟨_, by simp [bodyLines, hx], rfl⟩)
        rw [relaxLine_eq_nil] at this
        exact hw (by simpa using this)

end Dkim
