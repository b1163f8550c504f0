import Verif.Spec.Size
import Verif.Proofs.HeaderCanon
import Verif.Proofs.Signature

/-!
# Sizes of canonical forms (helpers for C66)
-/

namespace Dkim

open Spec

/-! ## Bodies -/

/-- The number of bytes that were read but not yet written. -/
def BodyCanon.pending (c : BodyCanon) : Nat :=
  2 * c.emptyLines + (match c.state with | .cr => 1 | .wsp => 1 | .wspCr => 2 | _ => 0)

theorem crlfs_length (n : Nat) : (crlfs n).length = 2 * n := by
  induction n with
  | zero => rfl
  | succ n ih => rw [crlfs_succ, List.length_append, ih]; simp [CRLF]; omega

theorem stepSimple_size {c c' : BodyCanon} {b : UInt8} {out : Bytes}
    (h : c.stepSimple b = some (c', out)) : out.length + c'.pending ≤ c.pending + 1 := by
  obtain ⟨k, s, bl, e⟩ := c
  unfold BodyCanon.stepSimple at h
  cases s <;> simp only [BodyCanon.flush] at h
  case wsp => cases h
  case wspCr => cases h
  case cr =>
    rcases ite_eq_cases h with ⟨_, h⟩ | ⟨_, h⟩
    · rcases ite_eq_cases h with ⟨_, h⟩ | ⟨_, h⟩ <;>
        (simp only [Option.some.injEq, Prod.mk.injEq] at h; obtain ⟨rfl, rfl⟩ := h;
          simp [BodyCanon.pending, CRLF]; try omega)
    · rcases ite_eq_cases h with ⟨_, h⟩ | ⟨_, h⟩ <;>
        (simp only [Option.some.injEq, Prod.mk.injEq] at h; obtain ⟨rfl, rfl⟩ := h;
          simp [BodyCanon.pending, crlfs_length]; try omega)
  all_goals
    rcases ite_eq_cases h with ⟨_, h⟩ | ⟨_, h⟩ <;>
      (simp only [Option.some.injEq, Prod.mk.injEq] at h; obtain ⟨rfl, rfl⟩ := h;
        simp [BodyCanon.pending, crlfs_length]; try omega)

theorem stepRelaxed_size (c : BodyCanon) (b : UInt8) :
    (c.stepRelaxed b).2.length + (c.stepRelaxed b).1.pending ≤ c.pending + 1 := by
  obtain ⟨k, s, bl, e⟩ := c
  unfold BodyCanon.stepRelaxed
  cases s <;> simp only [BodyCanon.flush] <;> (repeat' split) <;>
    simp [BodyCanon.pending, crlfs_length, CRLF] <;> omega

theorem step_size {c c' : BodyCanon} {b : UInt8} {out : Bytes} (h : c.step b = some (c', out)) :
    out.length + c'.pending ≤ c.pending + 1 := by
  unfold BodyCanon.step at h
  cases hk : c.kind with
  | simple => rw [hk] at h; exact stepSimple_size h
  | relaxed =>
    rw [hk] at h
    simp only [Option.some.injEq] at h
    have := stepRelaxed_size c b
    rw [h] at this
    exact this

theorem chunk_size {c c' : BodyCanon} {bs out : Bytes} (h : c.chunk bs = some (c', out)) :
    out.length + c'.pending ≤ c.pending + bs.length := by
  induction bs generalizing c out with
  | nil =>
    simp only [BodyCanon.chunk, Option.some.injEq, Prod.mk.injEq] at h
    obtain ⟨rfl, rfl⟩ := h
    simp
  | cons b bs ih =>
    rw [BodyCanon.chunk] at h
    cases h1 : c.step b with
    | none => rw [h1] at h; cases h
    | some p =>
      obtain ⟨c1, o1⟩ := p
      rw [h1] at h
      simp only at h
      cases h2 : c1.chunk bs with
      | none => rw [h2] at h; cases h
      | some q =>
        obtain ⟨c2, o2⟩ := q
        rw [h2] at h
        simp only [Option.some.injEq, Prod.mk.injEq] at h
        obtain ⟨rfl, rfl⟩ := h
        have g1 := step_size h1
        have g2 := ih h2
        simp only [List.length_append, List.length_cons]
        omega

theorem chunks_size {c c' : BodyCanon} {chs : List Bytes} {out : Bytes} (h : c.chunks chs = some (c', out)) :
    out.length + c'.pending ≤ c.pending + chs.flatten.length := by
  induction chs generalizing c out with
  | nil =>
    simp only [BodyCanon.chunks, Option.some.injEq, Prod.mk.injEq] at h
    obtain ⟨rfl, rfl⟩ := h
    simp
  | cons ch chs ih =>
    rw [BodyCanon.chunks] at h
    cases h1 : c.chunk ch with
    | none => rw [h1] at h; cases h
    | some p =>
      obtain ⟨c1, o1⟩ := p
      rw [h1] at h
      simp only at h
      cases h2 : c1.chunks chs with
      | none => rw [h2] at h; cases h
      | some q =>
        obtain ⟨c2, o2⟩ := q
        rw [h2] at h
        simp only [Option.some.injEq, Prod.mk.injEq] at h
        obtain ⟨rfl, rfl⟩ := h
        have g1 := chunk_size h1
        have g2 := ih h2
        simp only [List.length_append, List.flatten_cons]
        omega

theorem finish_size {c : BodyCanon} {out : Bytes} (h : c.finish = some out) : out.length ≤ c.pending + 2 := by
  obtain ⟨k, s, bl, e⟩ := c
  unfold BodyCanon.finish at h
  cases k <;> cases s <;> simp only [BodyCanon.flush, Option.some.injEq, reduceCtorEq] at h
  all_goals
    subst h
    simp [BodyCanon.pending, crlfs_length, CRLF]
    try omega

/-! ## Header fields -/

theorem compressLoop_size (k : Bool) (v : Bytes) : (compressLoop k v).length ≤ v.length := by
  induction v generalizing k with
  | nil => simp [compressLoop]
  | cons b v ih =>
    rw [compressLoop]
    have h1 := ih true
    have h2 := ih false
    have h3 := ih k
    split
    · split <;> simp only [List.length_cons] <;> omega
    · simp only [List.length_cons]; omega

theorem dropWhile_size (p : UInt8 → Bool) (v : Bytes) : (v.dropWhile p).length ≤ v.length :=
  (List.dropWhile_sublist p).length_le

theorem relaxedValue_size (v : Bytes) : (canonHeaderValueRelaxed v).length ≤ v.length := by
  unfold canonHeaderValueRelaxed trimSpace
  refine Nat.le_trans (compressLoop_size _ _) ?_
  rw [List.length_reverse]
  refine Nat.le_trans (dropWhile_size _ _) ?_
  rw [List.length_reverse]
  exact dropWhile_size _ _

theorem utf8_lower_size (n : Str) : (utf8 (strLower n)).length = (utf8 n).length := by
  have key : ∀ c : Char, (String.utf8EncodeChar c.toLower).length = (String.utf8EncodeChar c).length := by
    intro c
    rw [String.length_utf8EncodeChar, String.length_utf8EncodeChar]
    have := toLower_toNat c
    by_cases h : c.toNat < 128
    · have h1 : c.toLower.toNat < 128 := by split at this <;> omega
      have e : ∀ d : Char, d.toNat < 128 → d.utf8Size = 1 := by
        intro d hd
        exact Char.utf8Size_eq_one_iff.2 (by
          rw [UInt32.le_iff_toNat_le]
          have : d.val.toNat = d.toNat := rfl
          rw [this]
          show d.toNat ≤ 127
          omega)
      rw [e _ h, e _ h1]
    · have : c.toLower = c := by
        apply char_ext_toNat
        rw [this]
        split <;> omega
      rw [this]
  have e : strLower n = n.map Char.toLower := strLower_eq n
  rw [e]
  clear e
  induction n with
  | nil => rfl
  | cons c n ih =>
    rw [List.map_cons, utf8_cons, utf8_cons, List.length_append, List.length_append, ih, key]

theorem canonHeader_size (alg : CanonAlg) (name : Str) (value : Bytes) :
    (canonHeader alg name value).length ≤ (utf8 name).length + 1 + value.length := by
  cases alg with
  | simple => simp [canonHeader]; omega
  | relaxed =>
    have h1 := relaxedValue_size value
    have h2 := utf8_lower_size name
    simp only [canonHeader, List.length_append, List.length_singleton]
    omega

theorem findUnprocessed_some {name : Str} {pr : List Nat} {l : List (Nat × Field)} {p : Nat × Field}
    (h : findUnprocessed name pr l = some p) : p ∈ l ∧ p.1 ∉ pr := by
  induction l with
  | nil => cases h
  | cons q l ih =>
    obtain ⟨i, f⟩ := q
    rw [findUnprocessed] at h
    rcases ite_eq_cases h with ⟨_, h⟩ | ⟨hc, h⟩
    · exact ⟨List.mem_cons_of_mem _ (ih h).1, (ih h).2⟩
    · rcases ite_eq_cases h with ⟨_, h⟩ | ⟨_, h⟩
      · injection h with h
        subst h
        exact ⟨by simp, by simpa using hc⟩
      · exact ⟨List.mem_cons_of_mem _ (ih h).1, (ih h).2⟩

theorem sum_unprocessed {l : List (Nat × Field)} {pr : List Nat} {p : Nat × Field} (hm : p ∈ l) (hp : p.1 ∉ pr) :
    fieldSize p.2 + ((l.filter fun q => !(p.1 :: pr).contains q.1).map fun q => fieldSize q.2).sum ≤
      ((l.filter fun q => !pr.contains q.1).map fun q => fieldSize q.2).sum := by
  have mono : ∀ l : List (Nat × Field),
      ((l.filter fun q => !(p.1 :: pr).contains q.1).map fun q => fieldSize q.2).sum ≤
      ((l.filter fun q => !pr.contains q.1).map fun q => fieldSize q.2).sum := by
    intro l
    induction l with
    | nil => simp
    | cons q l ih =>
      simp only [List.filter_cons]
      by_cases h1 : q.1 ∈ pr
      · have : q.1 ∈ p.1 :: pr := List.mem_cons_of_mem _ h1
        simpa [h1] using ih
      · by_cases h2 : q.1 = p.1
        · simp only [List.contains_eq_mem, h1, h2, List.mem_cons, true_or, decide_true, decide_false,
            Bool.not_true, Bool.not_false, if_true, Bool.false_eq_true, if_false, List.map_cons, List.sum_cons]
          simp only [List.contains_eq_mem, List.mem_cons] at ih
          rw [h2] at h1
          simp only [h1, decide_false, Bool.not_false, if_true, List.map_cons, List.sum_cons]
          omega
        · simp only [List.contains_eq_mem, h1, h2, List.mem_cons, or_self, decide_false, Bool.not_false,
            if_true, List.map_cons, List.sum_cons]
          simp only [List.contains_eq_mem, List.mem_cons] at ih
          omega
  induction l with
  | nil => cases hm
  | cons q l ih =>
    simp only [List.filter_cons]
    rcases List.mem_cons.1 hm with rfl | hm
    · have := mono l
      simp only [List.contains_eq_mem, List.mem_cons, true_or, decide_true, Bool.not_true, Bool.false_eq_true,
        if_false, hp, decide_false, Bool.not_false, if_true, List.map_cons, List.sum_cons] at this ⊢
      omega
    · have := ih hm
      by_cases h1 : q.1 ∈ pr
      · simpa [h1] using this
      · by_cases h2 : q.1 = p.1
        · simp only [List.contains_eq_mem, h2, List.mem_cons, true_or, decide_true, Bool.not_true,
            Bool.false_eq_true, if_false, hp, decide_false, Bool.not_false, if_true, List.map_cons,
            List.sum_cons] at this ⊢
          omega
        · simp only [List.contains_eq_mem, h1, h2, List.mem_cons, or_self, decide_false, Bool.not_false,
            if_true, List.map_cons, List.sum_cons] at this ⊢
          omega

theorem canonHeadersLoop_size (alg : CanonAlg) (rev : List (Nat × Field)) (pr : List Nat) (sel : List Str) :
    (canonHeadersLoop alg rev pr sel).length ≤
      ((rev.filter fun q => !pr.contains q.1).map fun q => fieldSize q.2).sum := by
  induction sel generalizing pr with
  | nil => simp [canonHeadersLoop]
  | cons n sel ih =>
    rw [canonHeadersLoop]
    cases h : findUnprocessed n pr rev with
    | none => exact ih pr
    | some p =>
      obtain ⟨i, f⟩ := p
      obtain ⟨h1, h2⟩ := findUnprocessed_some h
      have h3 := sum_unprocessed h1 h2
      have h4 := ih (i :: pr)
      have h5 := canonHeader_size alg f.name f.body
      have h6 : fieldSize f = (utf8 f.name).length + 1 + f.body.length + 2 := rfl
      have h7 : CRLF.length = 2 := rfl
      simp only [List.length_append, h7] at h3 ⊢
      omega

end Dkim
