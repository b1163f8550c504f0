import Verif.Model.Selecting
import Verif.Proofs.HeaderCanon
import Verif.Proofs.HeaderText
import Verif.Spec.Selecting

/-!
# The work of selecting header fields (helpers for C113)
-/

namespace Dkim

open Spec

theorem findUnprocessedV_fst (name : Str) (processed : List Nat) (l : List (Nat × Field)) :
    (findUnprocessedV name processed l).1 = findUnprocessed name processed l := by
  induction l with
  | nil => rfl
  | cons p l ih =>
    obtain ⟨i, f⟩ := p
    rw [findUnprocessedV, findUnprocessed]
    split
    · exact ih
    · split
      · rfl
      · exact ih

theorem canonHeadersLoopV_fst (alg : CanonAlg) (rev : List (Nat × Field)) (sel : List Str) :
    ∀ processed, (canonHeadersLoopV alg rev processed sel).1 = canonHeadersLoop alg rev processed sel := by
  induction sel with
  | nil => intro _; rfl
  | cons n sel ih =>
    intro processed
    rw [canonHeadersLoopV, canonHeadersLoop, ← findUnprocessedV_fst]
    rcases findUnprocessedV n processed rev with ⟨_ | ⟨i, f⟩, m⟩
    · exact ih processed
    · show canonHeader alg f.name f.body ++ CRLF ++ (canonHeadersLoopV alg rev (i :: processed) sel).1 = _
      rw [ih]

theorem findUnprocessedV_le (name : Str) (processed : List Nat) (l : List (Nat × Field)) :
    (findUnprocessedV name processed l).2 ≤ l.length := by
  induction l with
  | nil => exact Nat.le_refl _
  | cons p l ih =>
    obtain ⟨i, f⟩ := p
    rw [findUnprocessedV, List.length_cons]
    split
    · exact Nat.succ_le_succ ih
    · split
      · exact Nat.succ_le_succ (Nat.zero_le _)
      · exact Nat.succ_le_succ ih

/-- The number of fields visited for one name is the number up to the found one. -/
theorem findUnprocessedV_found {name : Str} {processed : List Nat} {l : List (Nat × Field)} {p : Nat × Field}
    (h : findUnprocessed name processed l = some p) :
    ∃ before after, l = before ++ p :: after ∧ (findUnprocessedV name processed l).2 = before.length + 1 := by
  induction l with
  | nil => cases h
  | cons q l ih =>
    obtain ⟨i, f⟩ := q
    rw [findUnprocessed] at h
    rw [findUnprocessedV]
    split at h
    · next hp =>
      obtain ⟨b, a, h1, h2⟩ := ih h
      rw [if_pos hp]
      exact ⟨(i, f) :: b, a, by rw [h1]; rfl, by simp only [h2, List.length_cons]⟩
    · next hp =>
      rw [if_neg hp]
      split at h
      · next hn =>
        rw [if_pos hn]
        cases h
        exact ⟨[], l, rfl, rfl⟩
      · next hn =>
        rw [if_neg hn]
        obtain ⟨b, a, h1, h2⟩ := ih h
        exact ⟨(i, f) :: b, a, by rw [h1]; rfl, by simp only [h2, List.length_cons]⟩

theorem findUnprocessedV_absent {name : Str} {processed : List Nat} {l : List (Nat × Field)}
    (h : findUnprocessed name processed l = none) : (findUnprocessedV name processed l).2 = l.length := by
  induction l with
  | nil => rfl
  | cons q l ih =>
    obtain ⟨i, f⟩ := q
    rw [findUnprocessed] at h
    rw [findUnprocessedV]
    split at h
    · next hp => rw [if_pos hp, List.length_cons]; show _ + 1 = _; rw [ih h]
    · next hp =>
      rw [if_neg hp]
      split at h
      · cases h
      · next hn => rw [if_neg hn, List.length_cons]; show _ + 1 = _; rw [ih h]

theorem canonHeadersLoopV_le (alg : CanonAlg) (rev : List (Nat × Field)) (sel : List Str) :
    ∀ processed, (canonHeadersLoopV alg rev processed sel).2 ≤ sel.length * rev.length := by
  induction sel with
  | nil => intro _; exact Nat.zero_le _
  | cons n sel ih =>
    intro processed
    have h1 := findUnprocessedV_le n processed rev
    rw [canonHeadersLoopV, List.length_cons, Nat.succ_mul]
    rcases hf : findUnprocessedV n processed rev with ⟨_ | ⟨i, f⟩, m⟩
    · have := ih processed
      rw [hf] at h1
      simp only at h1 ⊢
      omega
    · have := ih (i :: processed)
      rw [hf] at h1
      simp only at h1 ⊢
      omega

theorem length_enumFrom {α : Type} (l : List α) : ∀ n, (enumFrom n l).length = l.length := by
  induction l with
  | nil => intro _; rfl
  | cons a l ih => intro n; rw [enumFrom, List.length_cons, ih, List.length_cons]

theorem findUnprocessed_absent {name : Str} (processed : List Nat) {l : List (Nat × Field)}
    (h : ∀ p ∈ l, eqIgnoreCase p.2.name name = false) : findUnprocessed name processed l = none := by
  induction l with
  | nil => rfl
  | cons q l ih =>
    obtain ⟨i, f⟩ := q
    have h1 := h _ (List.mem_cons_self ..)
    have h2 := ih fun p hp => h p (List.mem_cons_of_mem _ hp)
    rw [findUnprocessed]
    split
    · exact h2
    · rw [if_neg (by simp only at h1; rw [h1]; decide)]
      exact h2

theorem mem_enumFrom_snd {α : Type} {l : List α} : ∀ {n : Nat} {p : Nat × α}, p ∈ enumFrom n l → p.2 ∈ l := by
  induction l with
  | nil => intro n p h; cases h
  | cons a l ih =>
    intro n p h
    rw [enumFrom] at h
    rcases List.mem_cons.1 h with rfl | h
    · exact List.mem_cons_self ..
    · exact List.mem_cons_of_mem _ (ih h)

/-- If no field has any of the names, all fields are visited for each. -/
theorem canonHeadersLoopV_absent (alg : CanonAlg) (rev : List (Nat × Field)) (processed : List Nat) (sel : List Str)
    (h : ∀ n ∈ sel, ∀ p ∈ rev, eqIgnoreCase p.2.name n = false) :
    (canonHeadersLoopV alg rev processed sel).2 = sel.length * rev.length := by
  induction sel with
  | nil => exact (Nat.zero_mul _).symm
  | cons n sel ih =>
    have h0 := findUnprocessed_absent processed (h n (List.mem_cons_self ..))
    have h1 := findUnprocessedV_absent h0
    have h2 := findUnprocessedV_fst n processed rev
    rw [h0] at h2
    rw [canonHeadersLoopV, List.length_cons, Nat.succ_mul]
    rcases hf : findUnprocessedV n processed rev with ⟨_ | p, m⟩
    · rw [hf] at h1
      simp only at h1 ⊢
      rw [ih fun n hn => h n (List.mem_cons_of_mem _ hn), h1]
      omega
    · rw [hf] at h2; cases h2

/-! ## The exact number -/

theorem pairwise_fst_unique {l : List (Nat × Field)} (hp : l.Pairwise fun p q => p.1 ≠ q.1) {a b : Nat × Field}
    (ha : a ∈ l) (hb : b ∈ l) (hab : a.1 = b.1) : a = b := by
  induction l with
  | nil => cases ha
  | cons x l ih =>
    rw [List.pairwise_cons] at hp
    rcases List.mem_cons.1 ha with h1 | h1 <;> rcases List.mem_cons.1 hb with h2 | h2
    · rw [h1, h2]
    · rw [h1] at hab; exact absurd hab (hp.1 b h2)
    · rw [h2] at hab; exact absurd hab.symm (hp.1 a h1)
    · exact ih hp.2 h1 h2

/-- Which fields have been processed: for each name as many as there were names, from the first. -/
def Processed (l : List (Nat × Field)) (earlier : List Str) (pr : List Nat) : Prop :=
  ∀ n, (l.filter fun p => eqIgnoreCase p.2.name n).filter (fun p => !pr.contains p.1) =
    (l.filter fun p => eqIgnoreCase p.2.name n).drop (earlier.countP (eqIgnoreCase n))

theorem processed_step {headers : List Field} {earlier : List Str} {pr : List Nat} {n : Str}
    (hinv : Processed (enumFrom 0 headers.reverse) earlier pr) :
    Processed (enumFrom 0 headers.reverse) (n :: earlier)
      (match findUnprocessed n pr (enumFrom 0 headers.reverse) with
        | some p => p.1 :: pr
        | none => pr) := by
  have hcnt : ∀ m, (n :: earlier).countP (eqIgnoreCase m)
      = earlier.countP (eqIgnoreCase m) + (if eqIgnoreCase m n then 1 else 0) := by
    intro m; rw [List.countP_cons]
  rw [findUnprocessed_eq, hinv, List.head?_drop]
  cases hx : ((enumFrom 0 headers.reverse).filter fun p => eqIgnoreCase p.2.name n)[
      earlier.countP (eqIgnoreCase n)]? with
  | none =>
    intro m
    simp only
    rw [hinv m, hcnt]
    by_cases hm : eqIgnoreCase m n = true
    · have e1 : (fun p : Nat × Field => eqIgnoreCase p.2.name m) = fun p => eqIgnoreCase p.2.name n := by
        funext p; exact eqIgnoreCase_congr hm _
      have e2 : eqIgnoreCase m = eqIgnoreCase n := by
        funext c; rw [eqIgnoreCase_comm m, eqIgnoreCase_comm n]; exact eqIgnoreCase_congr hm c
      rw [e1, e2, if_pos (eqIgnoreCase_refl n)]
      rw [List.getElem?_eq_none_iff] at hx
      rw [List.drop_eq_nil_of_le hx, List.drop_eq_nil_of_le (by omega)]
    · rw [if_neg hm]; rfl
  | some p =>
    obtain ⟨i, f⟩ := p
    intro m
    simp only
    rw [hcnt]
    have hfil : ∀ l : List (Nat × Field), l.filter (fun p => !(i :: pr).contains p.1)
        = (l.filter (fun p => !pr.contains p.1)).filter (fun p => p.1 != i) := by
      intro l
      rw [List.filter_filter]
      apply List.filter_congr
      intro p _
      rw [List.contains_cons]
      cases h : (p.1 == i) <;> simp [h, bne]
    rw [hfil, hinv m]
    have hxdrop := List.drop_eq_getElem_cons
      (l := (enumFrom 0 headers.reverse).filter fun p => eqIgnoreCase p.2.name n)
      (List.getElem?_eq_some_iff.1 hx).1
    have hget := (List.getElem?_eq_some_iff.1 hx).2
    rw [hget] at hxdrop
    have hpw : ((enumFrom 0 headers.reverse).filter fun p => eqIgnoreCase p.2.name n).Pairwise
        (fun p q => p.1 ≠ q.1) := (enumFrom_pairwise 0 headers.reverse).filter _
    by_cases hm : eqIgnoreCase m n = true
    · have e1 : (fun p : Nat × Field => eqIgnoreCase p.2.name m) = fun p => eqIgnoreCase p.2.name n := by
        funext p; exact eqIgnoreCase_congr hm _
      have e2 : eqIgnoreCase m = eqIgnoreCase n := by
        funext c; rw [eqIgnoreCase_comm m, eqIgnoreCase_comm n]; exact eqIgnoreCase_congr hm c
      rw [e1, e2, if_pos (eqIgnoreCase_refl n), hxdrop]
      rw [List.filter_cons_of_neg (by simp)]
      rw [List.filter_eq_self]
      intro q hq
      have := hpw.sublist (List.drop_sublist (earlier.countP (eqIgnoreCase n)) _)
      rw [hxdrop, List.pairwise_cons] at this
      have := this.1 q hq
      simp only [bne_iff_ne, ne_eq]; exact fun h => this h.symm
    · rw [if_neg hm, Nat.add_zero, List.filter_eq_self]
      intro q hq
      have hq1 := List.mem_of_mem_drop hq
      rw [List.mem_filter] at hq1
      have hi : (i, f) ∈ (enumFrom 0 headers.reverse).filter fun p => eqIgnoreCase p.2.name n :=
        List.mem_of_getElem? hx
      rw [List.mem_filter] at hi
      simp only [bne_iff_ne, ne_eq]
      intro hqi
      have := pairwise_fst_unique (enumFrom_pairwise 0 headers.reverse) hq1.1 hi.1 hqi
      rw [this] at hq1
      have h3 := hi.2
      have h4 := hq1.2
      simp only at h3 h4
      apply hm
      rw [eqIgnoreCase_iff] at h3 h4 ⊢
      rw [← h4, h3]

theorem findUnprocessedV_upTo (n : Str) (pr : List Nat) : ∀ (l : List (Nat × Field)) (k : Nat),
    l.Pairwise (fun p q => p.1 ≠ q.1) →
    (l.filter fun p => eqIgnoreCase p.2.name n).filter (fun p => !pr.contains p.1) =
      (l.filter fun p => eqIgnoreCase p.2.name n).drop k →
    (findUnprocessedV n pr l).2 = fieldsUpTo n k (l.map (·.2)) := by
  intro l
  induction l with
  | nil => intro k _ _; cases k <;> rfl
  | cons q l ih =>
    obtain ⟨i, f⟩ := q
    intro k hpw h
    rw [List.pairwise_cons] at hpw
    have hs : sameName f.name n = eqIgnoreCase f.name n := (eqIgnoreCase_eq ..).symm
    rw [findUnprocessedV, List.map_cons, fieldsUpTo.eq_def]
    simp only
    rw [hs]
    cases hn : eqIgnoreCase f.name n with
    | false =>
      rw [List.filter_cons_of_neg (by simp [hn])] at h
      have hi := ih k hpw.2 h
      simp only [Bool.false_eq_true, if_false]
      rw [← hi]
      split <;> rfl
    | true =>
      rw [List.filter_cons_of_pos (by simp [hn])] at h
      simp only [if_true]
      cases k with
      | zero =>
        have hc : ¬ pr.contains i = true := by
          intro hc
          rw [List.filter_cons_of_neg (by simp only [hc]; decide), List.drop_zero] at h
          have := congrArg List.length h
          rw [List.length_cons] at this
          have := List.length_filter_le (fun p : Nat × Field => !pr.contains p.1)
            (l.filter fun p => eqIgnoreCase p.2.name n)
          omega
        rw [if_neg hc]
      | succ k =>
        by_cases hc : pr.contains i = true
        · rw [List.filter_cons_of_neg (by simp only [hc]; decide), List.drop_succ_cons] at h
          rw [if_pos hc]
          simp only
          rw [ih k hpw.2 h]
        · exfalso
          rw [List.filter_cons_of_pos (by simp only [Bool.not_eq_true] at hc; simp only [hc]; decide),
            List.drop_succ_cons] at h
          have hm : (i, f) ∈ (l.filter fun p => eqIgnoreCase p.2.name n).drop k := by
            rw [← h]; exact List.mem_cons_self ..
          exact hpw.1 _ (List.mem_filter.1 (List.mem_of_mem_drop hm)).1 rfl

theorem canonHeadersLoopV_exact (alg : CanonAlg) (headers : List Field) (sel : List Str) :
    ∀ (earlier : List Str) (pr : List Nat), Processed (enumFrom 0 headers.reverse) earlier pr →
    (canonHeadersLoopV alg (enumFrom 0 headers.reverse) pr sel).2 = fieldsLookedAt headers earlier sel := by
  induction sel with
  | nil => intro _ _ _; rfl
  | cons n sel ih =>
    intro earlier pr hinv
    have h1 := findUnprocessedV_upTo n pr _ _ (enumFrom_pairwise 0 headers.reverse) (hinv n)
    have h2 := processed_step (n := n) hinv
    rw [← findUnprocessedV_fst] at h2
    rw [enumFrom_map_snd] at h1
    have hc : earlier.countP (sameName n) = earlier.countP (eqIgnoreCase n) := by
      congr 1
      funext m
      exact (eqIgnoreCase_eq ..).symm
    rw [canonHeadersLoopV, fieldsLookedAt, hc, ← h1]
    rcases hf : findUnprocessedV n pr (enumFrom 0 headers.reverse) with ⟨_ | ⟨i, f⟩, m⟩
    · rw [hf] at h2
      simp only at h2 ⊢
      rw [ih _ _ h2]
    · rw [hf] at h2
      simp only at h2 ⊢
      rw [ih _ _ h2]

/-! ## The worst case -/

theorem fieldsUpTo_append {n : Str} {l : List Field} (h : ∀ f ∈ l, sameName f.name n = false) (r : List Field) :
    ∀ k, fieldsUpTo n k (l ++ r) = l.length + fieldsUpTo n k r := by
  induction l with
  | nil => intro k; rw [List.nil_append, List.length_nil, Nat.zero_add]
  | cons f l ih =>
    intro k
    rw [List.cons_append, fieldsUpTo.eq_def]
    simp only
    rw [h f (List.mem_cons_self ..), if_neg Bool.false_ne_true,
      ih (fun f hf => h f (List.mem_cons_of_mem _ hf)), List.length_cons]
    omega

theorem fieldsUpTo_nil (n : Str) (k : Nat) : fieldsUpTo n k [] = 0 := by cases k <;> rfl

theorem fieldsUpTo_absent {n : Str} {l : List Field} (h : ∀ f ∈ l, sameName f.name n = false) (k : Nat) :
    fieldsUpTo n k l = l.length := by
  have := fieldsUpTo_append h [] k
  rwa [List.append_nil, fieldsUpTo_nil, Nat.add_zero] at this

theorem fieldsLookedAt_absent {headers : List Field} {n : Str}
    (h : ∀ f ∈ headers, sameName f.name n = false) :
    ∀ (k : Nat) (earlier : List Str),
      fieldsLookedAt headers earlier (List.replicate k n) = k * headers.length := by
  intro k
  induction k with
  | zero => intro _; exact (Nat.zero_mul _).symm
  | succ k ih =>
    intro earlier
    rw [List.replicate_succ, fieldsLookedAt, ih,
      fieldsUpTo_absent fun f hf => h f (List.mem_reverse.1 hf), List.length_reverse, Nat.succ_mul, Nat.add_comm]

theorem fieldsUpTo_present (f : Field) : ∀ (m k : Nat), k < m →
    fieldsUpTo f.name k (List.replicate m f) = k + 1 := by
  intro m
  induction m with
  | zero => intro k h; omega
  | succ m ih =>
    intro k h
    have hs : sameName f.name f.name = true := (sameName_iff ..).2 rfl
    rw [List.replicate_succ, fieldsUpTo.eq_def]
    simp only
    rw [if_pos hs]
    cases k with
    | zero => rfl
    | succ k => simp only; rw [ih k (by omega)]

theorem fieldsLookedAt_present (f : Field) (m : Nat) : ∀ k j, j + k = m →
    2 * fieldsLookedAt (List.replicate m f) (List.replicate j f.name) (List.replicate k f.name) + j * (j + 1) =
      m * (m + 1) := by
  intro k
  induction k with
  | zero => intro j h; rw [List.replicate_zero, fieldsLookedAt]; rw [show j = m by omega]; omega
  | succ k ih =>
    intro j h
    have hs : sameName f.name f.name = true := (sameName_iff ..).2 rfl
    have := ih (j + 1) (by omega)
    rw [List.replicate_succ] at this
    rw [List.replicate_succ, fieldsLookedAt, List.reverse_replicate, List.countP_replicate, if_pos hs,
      fieldsUpTo_present f m j (by omega)]
    have e : (j + 1) * (j + 1 + 1) = j * (j + 1) + 2 * (j + 1) := by
      rw [Nat.mul_comm, ← Nat.add_mul]
    omega

end Dkim
