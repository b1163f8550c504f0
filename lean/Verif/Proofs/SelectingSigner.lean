import Verif.Proofs.Selecting

/-!
# Lemmas about the work of selecting header fields when the names are those of the header
-/

namespace Dkim

open Spec

theorem fieldsUpTo_next {n : Str} {f : Field} (hf : sameName f.name n = true) (b : List Field) :
    ∀ (a : List Field), fieldsUpTo n (a.countP fun g => sameName g.name n) (a ++ f :: b) = a.length + 1 := by
  intro a
  induction a with
  | nil =>
    rw [List.countP_nil, List.nil_append, fieldsUpTo.eq_def]
    simp only
    rw [if_pos hf]
    rfl
  | cons g a ih =>
    rw [List.cons_append, fieldsUpTo.eq_def]
    simp only
    cases hg : sameName g.name n with
    | false =>
      rw [List.countP_cons_of_neg (by rw [hg]; exact Bool.false_ne_true), if_neg Bool.false_ne_true, ih,
        List.length_cons]
    | true =>
      rw [List.countP_cons_of_pos (p := fun (g : Field) => sameName g.name n) hg, if_pos rfl]
      simp only
      rw [ih, List.length_cons]

/-- The names chosen by a test in which case does not matter select the fields in order. -/
theorem fieldsLookedAt_chosen {headers : List Field} {p : Str → Bool}
    (hp : ∀ m n, sameName m n = true → p m = p n) :
    ∀ (b a : List Field), headers.reverse = a ++ b →
      fieldsLookedAt headers (((a.map (·.name)).filter p).reverse) ((b.map (·.name)).filter p) =
        (((enumFrom (a.length + 1) b).filter fun q => p q.2.name).map (·.1)).sum := by
  intro b
  induction b with
  | nil => intro a _; rfl
  | cons f b ih =>
    intro a ha
    have step := ih (a ++ [f]) (by rw [ha, List.append_assoc]; rfl)
    rw [List.length_append, List.length_singleton, List.map_append, List.filter_append, List.reverse_append] at step
    rw [List.map_cons, enumFrom]
    cases hf : p f.name with
    | false =>
      rw [List.filter_cons_of_neg (by rw [hf]; exact Bool.false_ne_true),
        List.filter_cons_of_neg (by simp only [hf]; exact Bool.false_ne_true)]
      rw [List.map_cons, List.map_nil, List.filter_cons_of_neg (by rw [hf]; exact Bool.false_ne_true)] at step
      exact step
    | true =>
      rw [List.filter_cons_of_pos hf, List.filter_cons_of_pos (by simp only [hf]), fieldsLookedAt, List.map_cons,
        List.sum_cons]
      rw [List.map_cons, List.map_nil, List.filter_cons_of_pos hf] at step
      have e : (((a.map (·.name)).filter p).reverse).countP (sameName f.name) =
          a.countP fun g => sameName g.name f.name := by
        rw [List.countP_reverse, List.countP_filter, List.countP_map]
        apply List.countP_congr
        intro g _
        simp only [Function.comp, Bool.and_eq_true]
        constructor
        · rintro ⟨h, _⟩
          rwa [sameName_comm]
        · intro h
          exact ⟨by rwa [sameName_comm], by rw [hp _ _ h, hf]⟩
      rw [e, ha, fieldsUpTo_next ((sameName_iff ..).2 rfl)]
      exact congrArg (a.length + 1 + ·) step

theorem sum_positions {α : Type} (l : List α) :
    ∀ n, 2 * ((enumFrom (n + 1) l).map (·.1)).sum + n * (n + 1) = (n + l.length) * (n + l.length + 1) := by
  induction l with
  | nil => intro n; simp [enumFrom]
  | cons x l ih =>
    intro n
    have := ih (n + 1)
    rw [enumFrom, List.map_cons, List.sum_cons, List.length_cons]
    have e : (n + 1) * (n + 1 + 1) = n * (n + 1) + 2 * (n + 1) := by
      rw [Nat.mul_comm, ← Nat.add_mul]
    rw [show n + (l.length + 1) = n + 1 + l.length by omega]
    simp only at this ⊢
    omega

theorem containsNameV_fst (name : Str) (names : List Str) :
    (containsNameV name names).1 = names.any fun n => fieldNameEq n name := by
  induction names with
  | nil => rfl
  | cons n names ih =>
    rw [containsNameV, List.any_cons, ← ih]
    cases fieldNameEq n name <;> rfl

theorem containsNameV_snd (name : Str) (names : List Str) :
    (containsNameV name names).2 = namesUpTo name names := by
  induction names with
  | nil => rfl
  | cons n names ih =>
    rw [namesUpTo] at ih
    rw [containsNameV, namesUpTo, List.findIdx_cons, List.length_cons]
    have e : fieldNameEq n name = sameName name n := by
      rw [sameName_comm]
      exact eqIgnoreCase_eq n name
    rw [e]
    cases sameName name n with
    | true => simp
    | false =>
      simp only [Bool.false_eq_true, if_false, cond_false]
      rw [ih]
      omega

theorem prepareCopiedHeadersV_fst (headers : List Field) (names : List Str) :
    (prepareCopiedHeadersV headers names).1 = prepareCopiedHeaders headers names := by
  induction headers with
  | nil => rfl
  | cons f headers ih =>
    rw [prepareCopiedHeadersV, prepareCopiedHeaders, List.filter_cons, ← containsNameV_fst]
    rw [prepareCopiedHeaders] at ih
    rcases h : containsNameV f.name names with ⟨b, n⟩
    cases b
    · exact ih
    · exact congrArg ((f.name, f.body) :: ·) ih

theorem prepareCopiedHeadersV_snd (headers : List Field) (names : List Str) :
    (prepareCopiedHeadersV headers names).2 = (headers.map fun f => namesUpTo f.name names).sum := by
  induction headers with
  | nil => rfl
  | cons f headers ih =>
    rw [prepareCopiedHeadersV, List.map_cons, List.sum_cons, ← ih, ← containsNameV_snd]
    rcases containsNameV f.name names with ⟨b, n⟩
    cases b <;> rfl

theorem namesUpTo_absent {name : Str} {names : List Str} (h : ∀ n ∈ names, lower name ≠ lower n) :
    namesUpTo name names = names.length := by
  have : names.findIdx (sameName name) = names.length := by
    rw [List.findIdx_eq_length]
    intro n hn
    cases e : sameName name n with
    | false => rfl
    | true => exact absurd ((sameName_iff ..).1 e) (h n hn)
  rw [namesUpTo, this]
  omega

end Dkim
