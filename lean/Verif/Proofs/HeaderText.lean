import Verif.Proofs.HeaderCanon
import Verif.Proofs.Utf8
import Verif.Proofs.BodyCanon
import Verif.Model.Header
import Verif.Model.DataHash
import Verif.Spec.Header

/-! Helper lemmas about header text. -/

namespace Dkim

open Spec

/-! ### Case -/

theorem char_toNat_ofNat (n : Nat) (h : n.isValidChar) : (Char.ofNat n).toNat = n := by
  unfold Char.ofNat
  rw [dif_pos h]
  rfl

theorem asciiLower_eq (c : Char) : asciiLower c = c.toLower := by
  unfold asciiLower Char.toLower isAsciiUpper
  have hA : ('A' : Char).val.toNat = 65 := rfl
  have hZ : ('Z' : Char).val.toNat = 90 := rfl
  have hc : c.toNat = c.val.toNat := rfl
  by_cases h : 65 ≤ c.toNat ∧ c.toNat ≤ 90
  · have h' : c.val ≥ 'A'.val ∧ c.val ≤ 'Z'.val := by
      constructor
      · show 'A'.val ≤ c.val
        rw [UInt32.le_iff_toNat_le, hA]; omega
      · rw [UInt32.le_iff_toNat_le, hZ]; omega
    rw [dif_pos h', if_pos (by simpa using h)]
    apply char_ext_toNat
    show (Char.ofNat (c.toNat + 32)).toNat = (c.val + ('a'.val - 'A'.val)).toNat
    have h1 : (Char.ofNat (c.toNat + 32)).toNat = c.toNat + 32 := by
      apply char_toNat_ofNat
      left; omega
    rw [h1, UInt32.toNat_add]
    have : ('a'.val - 'A'.val).toNat = 32 := rfl
    rw [this, ← hc]; omega
  · have h' : ¬ (c.val ≥ 'A'.val ∧ c.val ≤ 'Z'.val) := by
      rintro ⟨h1, h2⟩
      apply h
      have h1 : 'A'.val ≤ c.val := h1
      rw [UInt32.le_iff_toNat_le, hA] at h1
      rw [UInt32.le_iff_toNat_le, hZ] at h2
      omega
    rw [dif_neg h', if_neg (by simpa using h)]

theorem strLower_eq (s : Str) : strLower s = lower s := by
  unfold strLower lower
  congr 1
  funext c; exact asciiLower_eq c

theorem eqIgnoreCase_eq (a b : Str) : eqIgnoreCase a b = sameName a b := by
  simp [eqIgnoreCase, sameName, strLower_eq]

theorem sameName_iff (a b : Str) : sameName a b = true ↔ lower a = lower b := by simp [sameName]

theorem sameName_comm (a b : Str) : sameName a b = sameName b a := by
  rw [← eqIgnoreCase_eq, eqIgnoreCase_comm, eqIgnoreCase_eq]

theorem pick_eq (headers : List Field) (earlier sel : List Str) :
    pick headers earlier sel = selectAux headers earlier sel := by
  have he : eqIgnoreCase = sameName := by funext a b; exact eqIgnoreCase_eq a b
  induction sel generalizing earlier with
  | nil => rfl
  | cons n ns ih => rw [pick, selectAux, ih, he, fromBottom]

theorem canonHeader_eq (alg : CanonAlg) (n : Str) (v : Bytes) :
    canonHeader alg n v = canonField alg n v := by
  cases alg with
  | simple => rfl
  | relaxed => simp only [canonHeader, canonField, strLower_eq, canonHeaderValueRelaxed_eq]

/-! ### Words and spacing -/

theorem words_fold_prefix (g v : Bytes) (hg : ∀ b ∈ g, isFoldChar b = true) :
    words (g ++ v) = words v := by
  induction g with
  | nil => rfl
  | cons b g ih =>
    have := ih (fun c hc => hg c (by simp [hc]))
    simp only [words, List.cons_append, wordsAux, hg b (by simp), if_true] at this ⊢
    exact this

theorem words_all_fold (g : Bytes) (hg : ∀ b ∈ g, isFoldChar b = true) : words g = [] := by
  have := words_fold_prefix g [] hg
  rw [List.append_nil] at this
  rw [this]; rfl

theorem spaced_words {ws : List Bytes} {v : Bytes} (h : Spaced ws v) : words v = ws := by
  induction h with
  | blank g hg => exact words_all_fold g hg
  | last g w g' hg hw1 hw2 hg' =>
    rw [List.append_assoc, words_fold_prefix g _ hg]
    have h1 := wordsAux_append_fold w g' (by simpa using hg') []
    rw [words, h1]
    have := words_joinWords [w] (by simpa [IsWord] using ⟨hw1, hw2⟩)
    simpa [joinWords, words] using this
  | more g w s ws v hg hw1 hw2 hs hv ih =>
    rw [List.append_assoc, words_fold_prefix g _ hg, words, wordsAux_append_solid _ _ hw2,
      List.nil_append, wordsAux, if_pos hs, if_neg hw1]
    rw [← ih]; rfl

theorem spaced_cons_fold {ws : List Bytes} {v : Bytes} (b : UInt8) (hb : isFoldChar b = true)
    (h : Spaced ws v) : Spaced ws (b :: v) := by
  cases h with
  | blank g hg => exact .blank _ (by simpa [hb] using hg)
  | last g w g' hg hw1 hw2 hg' =>
    exact .last (b :: g) w g' (by simpa [hb] using hg) hw1 hw2 hg'
  | more g w s ws v hg hw1 hw2 hs hv =>
    exact .more (b :: g) w s ws v (by simpa [hb] using hg) hw1 hw2 hs hv

theorem words_spaced_aux (v cur : Bytes) (hcur : ∀ b ∈ cur, isFoldChar b = false) :
    Spaced (wordsAux cur v) (cur ++ v) := by
  induction v generalizing cur with
  | nil =>
    by_cases h : cur = []
    · subst h; exact .blank [] (by simp)
    · rw [wordsAux, if_neg h, List.append_nil]
      have := Spaced.last [] cur [] (by simp) h hcur (by simp)
      simpa using this
  | cons b r ih =>
    rw [wordsAux]
    by_cases hb : isFoldChar b = true
    · rw [if_pos hb]
      have h0 := ih [] (by simp)
      by_cases h : cur = []
      · subst h
        rw [if_pos rfl]
        exact spaced_cons_fold b hb h0
      · rw [if_neg h]
        have := Spaced.more [] cur b _ _ (by simp) h hcur hb h0
        simpa using this
    · rw [if_neg hb]
      have := ih (cur ++ [b]) (by
        intro c hc
        simp only [List.mem_append, List.mem_singleton] at hc
        rcases hc with hc | hc
        · exact hcur c hc
        · rw [hc]; simpa using hb)
      simpa using this

theorem words_spaced (v : Bytes) : Spaced (words v) v := words_spaced_aux v [] (by simp)

theorem rfcRelaxedValue_injective {v v' : Bytes} (h : rfcRelaxedValue v = rfcRelaxedValue v') :
    words v = words v' := by
  have := congrArg words h
  rwa [rfcRelaxedValue, rfcRelaxedValue, words_joinWords _ (words_isWord v),
    words_joinWords _ (words_isWord v')] at this

theorem rfcRelaxedValue_noCrLf (v : Bytes) : ∀ b ∈ rfcRelaxedValue v, b ≠ 13 ∧ b ≠ 10 := by
  intro b hb
  rcases joinWords_mem _ b hb with h | ⟨w, hw, hbw⟩
  · subst h; decide
  · have := (words_isWord v w hw).2 b hbw
    constructor <;> (rintro rfl; revert this; decide)

/-! ### RFC steps -/

theorem isFold_of_isWsp {w : UInt8} (h : isWsp w = true) : isFoldChar w = true := by
  simp only [isWsp, isFoldChar, Bool.or_eq_true] at h ⊢
  rcases h with h | h <;> simp [h]

theorem isWsp_eq_isFold {b : UInt8} (h1 : b ≠ 13) (h2 : b ≠ 10) : isFoldChar b = isWsp b := by
  have e1 : (b == 13) = false := by simpa using h1
  have e2 : (b == 10) = false := by simpa using h2
  simp only [isFoldChar, isWsp, e1, e2, Bool.or_false]

theorem isWsp_ne {w : UInt8} (h : isWsp w = true) : w ≠ 13 ∧ w ≠ 10 := by
  constructor <;> (rintro rfl; revert h; decide)

theorem unfold_fold (r : Bytes) : Spec.unfold (13 :: 10 :: r) = Spec.unfold r := by
  simp [Spec.unfold]

theorem unfold_byte (b : UInt8) (r : Bytes) (h : b ≠ 13) : Spec.unfold (b :: r) = b :: Spec.unfold r := by
  cases r with
  | nil => simp [Spec.unfold]
  | cons c r => simp [Spec.unfold, h]

theorem foldsOnly_unfold {v : Bytes} (h : FoldsOnly v) :
    (∀ b ∈ Spec.unfold v, b ≠ 13 ∧ b ≠ 10) ∧
    ∀ cur, wordsAux cur (Spec.unfold v) = wordsAux cur v := by
  induction h with
  | nil => exact ⟨by simp [Spec.unfold], fun _ => rfl⟩
  | byte b r h1 h2 _ ih =>
    rw [unfold_byte b r h1]
    refine ⟨?_, ?_⟩
    · intro c hc
      rcases List.mem_cons.1 hc with hc | hc
      · subst hc; exact ⟨h1, h2⟩
      · exact ih.1 c hc
    · intro cur; simp only [wordsAux, ih.2]
  | fold w r hw _ ih =>
    rw [unfold_fold, unfold_byte w r (isWsp_ne hw).1]
    refine ⟨?_, ?_⟩
    · intro c hc
      rcases List.mem_cons.1 hc with hc | hc
      · subst hc; exact isWsp_ne hw
      · exact ih.1 c hc
    · intro cur
      have h13 : isFoldChar 13 = true := by decide
      have h10 : isFoldChar 10 = true := by decide
      simp only [wordsAux, ih.2, h13, h10, isFold_of_isWsp hw, if_true]

theorem reduceWsp_words (u cur : Bytes) (hu : ∀ b ∈ u, b ≠ 13 ∧ b ≠ 10) :
    wordsAux cur (reduceWsp u) = wordsAux cur u := by
  induction u using reduceWsp.induct generalizing cur with
  | case1 => rfl
  | case2 b hb =>
    simp only [reduceWsp, hb, if_true]
    have h32 : isFoldChar 32 = true := by decide
    simp only [wordsAux, h32, isFold_of_isWsp hb, if_true]
  | case3 b hb => simp [reduceWsp, hb]
  | case4 b c r hb hc ih =>
    simp only [reduceWsp, hb, hc, if_true]
    rw [ih _ (fun x hx => hu x (List.mem_cons_of_mem _ hx))]
    simp only [wordsAux, isFold_of_isWsp hb, isFold_of_isWsp hc, if_true]
  | case5 b c r hb hc ih =>
    simp only [reduceWsp, hb, hc, if_true]
    have h32 : isFoldChar 32 = true := by decide
    rw [if_neg (by simp), wordsAux, if_pos h32, wordsAux, if_pos (isFold_of_isWsp hb)]
    rw [ih _ (fun x hx => hu x (List.mem_cons_of_mem _ hx))]
  | case6 b c r hb ih =>
    simp only [reduceWsp, hb]
    rw [if_neg (by simp), wordsAux, wordsAux]
    simp only [ih _ (fun x hx => hu x (List.mem_cons_of_mem _ hx))]

/-- No two neighbouring WSP, and WSP is SP. -/
inductive Single : Bytes → Prop
  | nil : Single []
  | solid (b : UInt8) (r : Bytes) : isFoldChar b = false → Single r → Single (b :: r)
  | sp (r : Bytes) : (∀ c, r.head? = some c → isFoldChar c = false) → Single r → Single (32 :: r)

theorem reduceWsp_single (u : Bytes) (hu : ∀ b ∈ u, b ≠ 13 ∧ b ≠ 10) :
    Single (reduceWsp u) ∧ (∀ c r, u = c :: r → isWsp c = false → (reduceWsp u).head? = some c) := by
  induction u using reduceWsp.induct with
  | case1 => exact ⟨.nil, by simp⟩
  | case2 b hb =>
    simp only [reduceWsp, hb, if_true]
    exact ⟨.sp _ (by simp) .nil, by
      intro c r h1 h2
      simp only [List.cons.injEq] at h1
      rw [← h1.1, hb] at h2; simp at h2⟩
  | case3 b hb =>
    have hbu := hu b (by simp)
    rw [reduceWsp, if_neg hb]
    refine ⟨.solid _ _ ?_ .nil, by simp⟩
    rw [isWsp_eq_isFold hbu.1 hbu.2]; simpa using hb
  | case4 b c r hb hc ih =>
    have ih := ih (fun x hx => hu x (List.mem_cons_of_mem _ hx))
    rw [reduceWsp, if_pos hb, if_pos hc]
    refine ⟨ih.1, ?_⟩
    intro x y hxy hx
    simp at hxy; obtain ⟨h1, _⟩ := hxy; subst h1; simp [hb] at hx
  | case5 b c r hb hc ih =>
    have ih := ih (fun x hx => hu x (List.mem_cons_of_mem _ hx))
    rw [reduceWsp, if_pos hb, if_neg hc]
    refine ⟨.sp _ ?_ ih.1, ?_⟩
    · intro x hx
      rw [ih.2 c r rfl (by simpa using hc)] at hx
      have hcu := hu c (by simp)
      cases hx
      rw [isWsp_eq_isFold hcu.1 hcu.2]; simpa using hc
    · intro x y hxy hx
      simp at hxy; obtain ⟨h1, _⟩ := hxy; subst h1; simp [hb] at hx
  | case6 b c r hb ih =>
    have ih := ih (fun x hx => hu x (List.mem_cons_of_mem _ hx))
    have hbu := hu b (by simp)
    rw [reduceWsp, if_neg hb]
    refine ⟨.solid _ _ ?_ ih.1, by simp⟩
    rw [isWsp_eq_isFold hbu.1 hbu.2]; simpa using hb

theorem single_prefix {a b : Bytes} (h : Single (a ++ b)) : Single a := by
  induction a with
  | nil => exact .nil
  | cons x a ih =>
    cases h with
    | solid _ _ h1 h2 => exact .solid _ _ h1 (ih h2)
    | sp _ h1 h2 =>
      refine .sp _ ?_ (ih h2)
      intro c hc
      apply h1
      cases a with
      | nil => simp at hc
      | cons y a => simpa using hc

theorem single_suffix {a b : Bytes} (h : Single (a ++ b)) : Single b := by
  induction a with
  | nil => exact h
  | cons x a ih =>
    cases h with
    | solid _ _ h1 h2 => exact ih h2
    | sp _ h1 h2 => exact ih h2

theorem compressLoop_single {t : Bytes} (h : Single t) : compressLoop false t = t ∧
    ((∀ c, t.head? = some c → isFoldChar c = false) → compressLoop true t = t) := by
  induction h with
  | nil => exact ⟨rfl, fun _ => rfl⟩
  | solid b r h1 _ ih =>
    have : isSpaceByte b = false := h1
    constructor
    · simp [compressLoop, this, ih.1]
    · intro _; simp [compressLoop, this, ih.1]
  | sp r h1 _ ih =>
    have h32 : isSpaceByte 32 = true := by decide
    constructor
    · simp only [compressLoop, h32, if_true, Bool.not_false, ih.2 h1]; rfl
    · intro h; have := h 32 (by simp); exact absurd this (by decide)

theorem dropWhile_sub {u : Bytes} (p : UInt8 → Bool) : ∃ g, (∀ b ∈ g, p b = true) ∧ u = g ++ u.dropWhile p := by
  refine ⟨u.takeWhile p, ?_, (List.takeWhile_append_dropWhile).symm⟩
  intro b hb
  revert hb
  induction u with
  | nil => simp
  | cons c u ih =>
    by_cases hc : p c = true
    · simp only [List.takeWhile_cons, hc, if_true, List.mem_cons]
      rintro (rfl | h)
      · exact hc
      · exact ih h
    · simp [hc]

theorem stripTrailing_sub (u : Bytes) :
    ∃ g, (∀ b ∈ g, isWsp b = true) ∧ u = stripTrailingWsp u ++ g := by
  obtain ⟨g, h1, h2⟩ := dropWhile_sub (u := u.reverse) isWsp
  refine ⟨g.reverse, by simpa using h1, ?_⟩
  rw [stripTrailingWsp, ← List.reverse_append, ← h2, List.reverse_reverse]

theorem single_fold {t : Bytes} (h : Single t) : ∀ b ∈ t, isFoldChar b = isWsp b := by
  induction h with
  | nil => simp
  | solid b r h1 _ ih =>
    intro c hc
    rcases List.mem_cons.1 hc with hc | hc
    · subst hc
      rw [h1]
      cases hw : isWsp c with
      | false => rfl
      | true => rw [isFold_of_isWsp hw] at h1; simp at h1
    · exact ih c hc
  | sp r h1 _ ih =>
    intro c hc
    rcases List.mem_cons.1 hc with hc | hc
    · subst hc; decide
    · exact ih c hc

theorem dropWhile_id {p : UInt8 → Bool} {t : Bytes} (h : ∀ c, t.head? = some c → p c = false) :
    t.dropWhile p = t := by
  cases t with
  | nil => rfl
  | cons c t => simp [h c (by simp)]

theorem dropWhile_congr' {p q : UInt8 → Bool} {t : Bytes} (h : ∀ c ∈ t, p c = q c) :
    t.dropWhile p = t.dropWhile q := by
  induction t with
  | nil => rfl
  | cons c t ih =>
    simp only [List.dropWhile_cons, h c (by simp)]
    rw [ih (fun d hd => h d (by simp [hd]))]

theorem relaxSteps_eq {v : Bytes} (h : FoldsOnly v) : relaxSteps v = rfcRelaxedValue v := by
  have hu := foldsOnly_unfold h
  unfold relaxSteps
  generalize Spec.unfold v = u at hu
  have hR := (reduceWsp_single u hu.1).1
  have hw : words (reduceWsp u) = words v := by
    rw [words, reduceWsp_words u [] hu.1]; exact hu.2 []
  generalize reduceWsp u = R at hR hw
  obtain ⟨g, hg1, hg2⟩ := stripTrailing_sub R
  have hlast : ∀ c, (stripTrailingWsp R).getLast? = some c → isWsp c = false := by
    intro c hc
    unfold stripTrailingWsp at hc
    rw [List.getLast?_reverse] at hc
    have := List.head?_dropWhile_not isWsp R.reverse
    rw [hc] at this; simpa using this
  generalize stripTrailingWsp R = S at hg2 hlast
  obtain ⟨g', hg1', hg2'⟩ := dropWhile_sub (u := S) isWsp
  have hfirst : ∀ c, (S.dropWhile isWsp).head? = some c → isWsp c = false := by
    intro c hc
    have := List.head?_dropWhile_not isWsp S
    rw [hc] at this; simpa using this
  generalize S.dropWhile isWsp = T at hg2' hfirst
  have hS : Single S := by rw [hg2] at hR; exact single_prefix hR
  have hT : Single T := by rw [hg2'] at hS; exact single_suffix hS
  have hwT : words T = words v := by
    rw [← hw, hg2, words, words, wordsAux_append_fold S g (by
      rw [List.all_eq_true]; intro b hb; exact isFold_of_isWsp (hg1 b hb))]
    rw [hg2']
    exact (words_fold_prefix g' T fun b hb => isFold_of_isWsp (hg1' b hb)).symm
  have hlastT : ∀ c, T.getLast? = some c → isWsp c = false := by
    intro c hc
    apply hlast
    rw [hg2', List.getLast?_append, hc]; rfl
  have htrim : trimSpace T = T := by
    unfold trimSpace
    rw [dropWhile_id (p := isSpaceByte) (t := T), dropWhile_id, List.reverse_reverse]
    · intro c hc
      rw [List.head?_reverse] at hc
      have hm : c ∈ T := List.mem_of_getLast? hc
      rw [isSpace_eq, single_fold hT c hm]; exact hlastT c hc
    · intro c hc
      have hm : c ∈ T := List.mem_of_head? hc
      rw [isSpace_eq, single_fold hT c hm]; exact hfirst c hc
  rw [rfcRelaxedValue, ← hwT]
  show T = rfcRelaxedValue T
  rw [← canonHeaderValueRelaxed_eq, canonHeaderValueRelaxed, htrim, (compressLoop_single hT).1]

/-! ### Field names and bodies -/

theorem fieldNameOk_iff (n : Str) : fieldNameOk n = true ↔ ValidName n := by
  simp [fieldNameOk, ValidName, isAsciiGraphic, List.all_eq_true, and_assoc]

theorem splitCrlf_ne_nil (v : Bytes) : splitCrlf v ≠ [] := by
  induction v using splitCrlf.induct with
  | case1 => simp [splitCrlf]
  | case2 => simp [splitCrlf]
  | case3 b r h1 h2 ih => rw [splitCrlf] <;> simp_all
  | case4 b r h1 p ps h2 ih => rw [splitCrlf] <;> simp_all

theorem splitCrlf_join (v : Bytes) :
    ∃ l ls, splitCrlf v = l :: ls ∧ v = l ++ ls.flatMap (fun l => 13 :: 10 :: l) := by
  induction v using splitCrlf.induct with
  | case1 => exact ⟨[], [], rfl, rfl⟩
  | case2 r ih =>
    obtain ⟨l, ls, h1, h2⟩ := ih
    refine ⟨[], l :: ls, by simp [splitCrlf, h1], ?_⟩
    simp; exact h2
  | case3 b r h1 h2 ih => exact absurd h2 (splitCrlf_ne_nil r)
  | case4 b r h1 p ps h2 ih =>
    obtain ⟨l, ls, h3, h4⟩ := ih
    rw [h2] at h3
    obtain ⟨rfl, rfl⟩ := List.cons.inj h3
    refine ⟨b :: p, ps, ?_, by simp [← h4]⟩
    rw [splitCrlf, h2]
    exact h1

theorem splitCrlf_noCr (l : Bytes) (hl : ∀ b ∈ l, b ≠ 13) : splitCrlf l = [l] := by
  induction l with
  | nil => rfl
  | cons b r ih =>
    have := ih (fun c hc => hl c (by simp [hc]))
    rw [splitCrlf, this]
    rintro r' rfl
    exact absurd rfl (hl 13 (by simp))

theorem splitCrlf_append (l v : Bytes) (hl : ∀ b ∈ l, b ≠ 13) :
    splitCrlf (l ++ 13 :: 10 :: v) = l :: splitCrlf v := by
  induction l with
  | nil => simp [splitCrlf]
  | cons b r ih =>
    have := ih (fun c hc => hl c (by simp [hc]))
    rw [List.cons_append, splitCrlf, this]
    rintro r' rfl
    exact absurd rfl (hl 13 (by simp))

theorem splitCrlf_of_lines (l : Bytes) (ls : List Bytes) (h : ∀ x ∈ l :: ls, ∀ b ∈ x, b ≠ 13) :
    splitCrlf (l ++ ls.flatMap (fun l => 13 :: 10 :: l)) = l :: ls := by
  induction ls generalizing l with
  | nil => simp; exact splitCrlf_noCr l (h l (by simp))
  | cons m ls ih =>
    rw [List.flatMap_cons, List.cons_append, List.cons_append, splitCrlf_append _ _ (h l (by simp)),
      ih m (fun x hx => h x (by simp at hx ⊢; right; exact hx))]

theorem enumFrom_all_succ {α : Type} (p : Nat × α → Bool) (k : Nat) (l : List α) :
    (enumFrom k l).all p = true ↔ ∀ i a, l[i]? = some a → p (k + i, a) = true := by
  induction l generalizing k with
  | nil => simp [enumFrom]
  | cons a l ih =>
    simp only [enumFrom, List.all_cons, Bool.and_eq_true, ih]
    constructor
    · rintro ⟨h1, h2⟩ i b hb
      cases i with
      | zero => simp at hb; subst hb; exact h1
      | succ i =>
        simp at hb
        have := h2 i b hb
        rw [show k + (i + 1) = k + 1 + i by omega]; exact this
    · intro h
      refine ⟨h 0 a (by simp), ?_⟩
      intro i b hb
      have := h (i + 1) b (by simpa using hb)
      rw [show k + 1 + i = k + (i + 1) by omega]; exact this

theorem cleanLine_iff (l : Bytes) :
    (l.any fun b => isControlByte b && b != TAB) = false ↔ cleanLine l := by
  rw [List.any_eq_false]
  unfold cleanLine
  apply forall_congr'; intro b
  apply forall_congr'; intro _
  simp only [isControlByte, TAB, Bool.and_eq_true, Bool.or_eq_true, decide_eq_true_eq, beq_iff_eq,
    bne_iff_ne, ne_eq, UInt8.lt_iff_toNat_lt]
  have h127 : b = 127 ↔ b.toNat = 127 := by
    rw [← UInt8.toNat_inj]; rfl
  have h32 : (32 : UInt8).toNat = 32 := rfl
  rw [h127, h32]
  by_cases h9 : b = 9
  · simp [h9]
  · simp only [h9, not_false_eq_true, and_true, false_or]; omega

theorem continuation_iff (l : Bytes) :
    ((!([SP].isPrefixOf l) && !([TAB].isPrefixOf l)) = false ∧
      (l.all fun b => b == SP || b == TAB) = false) ↔ continuation l := by
  unfold continuation
  have h1 : (l.all fun b => b == SP || b == TAB) = false ↔ ∃ b ∈ l, isWsp b = false := by
    rw [List.all_eq_false]
    apply exists_congr; intro b
    simp [isWsp, SP, TAB]
  rw [h1]
  apply and_congr_left'
  cases l with
  | nil => simp
  | cons w r =>
    simp only [List.isPrefixOf_cons_cons, List.isPrefixOf_nil_left, SP, TAB, isWsp, Bool.and_true]
    constructor
    · intro h
      refine ⟨w, r, rfl, ?_⟩
      by_cases e1 : w = 32
      · simp [e1]
      · by_cases e2 : w = 9
        · simp [e2]
        · have e1' : ¬ (32 : UInt8) = w := fun h => e1 h.symm
          have e2' : ¬ (9 : UInt8) = w := fun h => e2 h.symm
          simp [e1', e2'] at h
    · rintro ⟨w', r', h, hw⟩
      obtain ⟨rfl, rfl⟩ := List.cons.inj h
      simp only [Bool.or_eq_true, beq_iff_eq] at hw
      rcases hw with rfl | rfl <;> rfl

theorem fieldBodyLineOk_zero (l : Bytes) : fieldBodyLineOk 0 l = true ↔ cleanLine l := by
  rw [← cleanLine_iff]
  simp [fieldBodyLineOk]

theorem fieldBodyLineOk_succ (i : Nat) (l : Bytes) :
    fieldBodyLineOk (i + 1) l = true ↔ cleanLine l ∧ continuation l := by
  rw [← cleanLine_iff, ← continuation_iff]
  unfold fieldBodyLineOk
  cases (l.any fun b => isControlByte b && b != TAB) <;>
  cases (!([SP].isPrefixOf l) && !([TAB].isPrefixOf l)) <;>
  cases (l.all fun b => b == SP || b == TAB) <;> simp

theorem cleanLine_ne {l : Bytes} (h : cleanLine l) : ∀ b ∈ l, b ≠ 13 ∧ b ≠ 10 := by
  intro b hb
  have := h b hb
  constructor <;> (rintro rfl; revert this; decide)

theorem fieldBodyOk_lines (l : Bytes) (ls : List Bytes) (v : Bytes) (h : splitCrlf v = l :: ls) :
    fieldBodyOk v = true ↔ cleanLine l ∧ ∀ x ∈ ls, cleanLine x ∧ continuation x := by
  rw [fieldBodyOk, h, enumFrom, List.all_cons, Bool.and_eq_true, fieldBodyLineOk_zero,
    enumFrom_all_succ]
  apply and_congr_right'
  constructor
  · intro h x hx
    obtain ⟨i, hi⟩ := List.mem_iff_getElem?.1 hx
    have := h i x hi
    rw [show 0 + 1 + i = i + 1 by omega] at this
    exact (fieldBodyLineOk_succ i x).1 this
  · intro h i a ha
    rw [show 0 + 1 + i = i + 1 by omega]
    exact (fieldBodyLineOk_succ i a).2 (h a (List.mem_iff_getElem?.2 ⟨i, ha⟩))

theorem fieldBodyOk_iff (v : Bytes) : fieldBodyOk v = true ↔ ValidBody v := by
  constructor
  · intro h
    obtain ⟨l, ls, h1, h2⟩ := splitCrlf_join v
    have := (fieldBodyOk_lines l ls v h1).1 h
    exact ⟨l, ls, h2, this.1, this.2⟩
  · rintro ⟨l, ls, h1, h2, h3⟩
    have : splitCrlf v = l :: ls := by
      rw [h1]
      apply splitCrlf_of_lines
      intro x hx b hb
      rcases List.mem_cons.1 hx with rfl | hx
      · exact (cleanLine_ne h2 b hb).1
      · exact (cleanLine_ne (h3 x hx).1 b hb).1
    exact (fieldBodyOk_lines l ls v this).2 ⟨h2, h3⟩

theorem Spec.FoldsOnly.append {a b : Bytes} (ha : FoldsOnly a) (hb : FoldsOnly b) : FoldsOnly (a ++ b) := by
  induction ha with
  | nil => exact hb
  | byte x r h1 h2 _ ih => exact .byte x _ h1 h2 ih
  | fold w r h _ ih => exact .fold w _ h ih

theorem Spec.FoldsOnly.of_clean {l : Bytes} (h : ∀ b ∈ l, b ≠ 13 ∧ b ≠ 10) : FoldsOnly l := by
  induction l with
  | nil => exact .nil
  | cons b r ih => exact .byte b r (h b (by simp)).1 (h b (by simp)).2 (ih fun c hc => h c (by simp [hc]))

theorem Spec.ValidBody.foldsOnly {v : Bytes} (h : ValidBody v) : FoldsOnly v := by
  obtain ⟨l, ls, rfl, h2, h3⟩ := h
  refine (FoldsOnly.of_clean (cleanLine_ne h2)).append ?_
  clear h2
  induction ls with
  | nil => exact .nil
  | cons m ls ih =>
    have hm := h3 m (by simp)
    rw [List.flatMap_cons]
    refine FoldsOnly.append ?_ (ih fun x hx => h3 x (by simp [hx]))
    obtain ⟨⟨w, r, rfl, hw⟩, _⟩ := hm.2
    exact .fold w r hw (FoldsOnly.of_clean fun b hb => cleanLine_ne hm.1 b (by simp [hb]))

/-! ### Injectivity of the hash input -/

/-- Starts with a byte that is not whitespace. -/
def StartsSolid (s : Bytes) : Prop := ∃ b r, s = b :: r ∧ isWsp b = false

theorem cut_injective {a b s t : Bytes} (ha : FoldsOnly a) (hb : FoldsOnly b)
    (hs : StartsSolid s) (ht : StartsSolid t) (h : a ++ 13 :: 10 :: s = b ++ 13 :: 10 :: t) :
    a = b ∧ s = t := by
  induction ha generalizing b with
  | nil =>
    cases hb with
    | nil => simpa using h
    | byte x r h1 h2 h3 => simp at h; exact absurd h.1.symm h1
    | fold w r hw h3 =>
      obtain ⟨x, r', rfl, hx⟩ := hs
      simp at h
      rw [h.1, hw] at hx; simp at hx
  | byte x r h1 h2 _ ih =>
    cases hb with
    | nil => simp at h; exact absurd h.1 h1
    | byte y r' h1' h2' h3 =>
      simp at h
      have := ih h3 h.2
      exact ⟨by rw [h.1, this.1], this.2⟩
    | fold w r' hw h3 => simp at h; exact absurd h.1 h1
  | fold w r hw _ ih =>
    cases hb with
    | nil =>
      obtain ⟨x, r', rfl, hx⟩ := ht
      simp at h
      rw [← h.1, hw] at hx; simp at hx
    | byte y r' h1' h2' h3 => simp at h; exact absurd h.1.symm h1'
    | fold w' r' hw' h3 =>
      simp at h
      have := ih h3 h.2
      exact ⟨by rw [h.1, this.1], this.2⟩

theorem no_cut {a b s : Bytes} (ha : FoldsOnly a) (hb : FoldsOnly b) (hs : StartsSolid s)
    (h : a ++ 13 :: 10 :: s = b) : False := by
  induction ha generalizing b with
  | nil =>
    obtain ⟨x, r', rfl, hx⟩ := hs
    subst h
    cases hb with
    | byte x r h1 h2 h3 => exact h1 rfl
    | fold w r hw h3 => rw [hw] at hx; simp at hx
  | byte x r h1 h2 _ ih =>
    rw [List.cons_append] at h
    generalize hz : r ++ 13 :: 10 :: s = z at h
    subst h
    cases hb with
    | byte _ _ _ _ h3 => exact ih h3 hz
    | fold => exact h1 rfl
  | fold w r hw _ ih =>
    subst h
    cases hb with
    | byte _ _ h3 => exact h3 rfl
    | fold _ _ _ h3 => exact ih h3 rfl

/-- A list of texts, each followed by CRLF, then a final text, can be taken apart
again. -/
theorem lines_injective (xs ys : List Bytes) (x y : Bytes)
    (hx : ∀ l ∈ xs ++ [x], FoldsOnly l ∧ StartsSolid l) (hy : ∀ l ∈ ys ++ [y], FoldsOnly l ∧ StartsSolid l)
    (h : xs.flatMap (· ++ CRLF) ++ x = ys.flatMap (· ++ CRLF) ++ y) : xs = ys ∧ x = y := by
  have solid : ∀ (xs : List Bytes) (x : Bytes), (∀ l ∈ xs ++ [x], FoldsOnly l ∧ StartsSolid l) →
      StartsSolid (xs.flatMap (· ++ CRLF) ++ x) := by
    intro xs x hx
    cases xs with
    | nil => simpa using (hx x (by simp)).2
    | cons a xs =>
      obtain ⟨b, r, rfl, hb⟩ := (hx a (by simp)).2
      exact ⟨b, _, by simp; rfl, hb⟩
  induction xs generalizing ys with
  | nil =>
    cases ys with
    | nil => simpa using h
    | cons b ys =>
      exfalso
      have hb := hy b (by simp)
      refine no_cut hb.1 (hx x (by simp)).1 (solid ys y fun l hl => hy l (by simp at hl ⊢; right; exact hl)) ?_
      simp at h; rw [h]; simp [CRLF, CR, LF]
  | cons a xs ih =>
    have ha := hx a (by simp)
    have hsa := solid xs x fun l hl => hx l (by simp at hl ⊢; right; exact hl)
    cases ys with
    | nil =>
      exfalso
      refine no_cut ha.1 (hy y (by simp)).1 hsa ?_
      simp at h; rw [← h]; simp [CRLF, CR, LF]
    | cons b ys =>
      have hb := hy b (by simp)
      have hsb := solid ys y fun l hl => hy l (by simp at hl ⊢; right; exact hl)
      have := cut_injective ha.1 hb.1 hsa hsb (by simpa [CRLF, CR, LF] using h)
      have h2 := ih ys (fun l hl => hx l (by simp at hl ⊢; right; exact hl))
        (fun l hl => hy l (by simp at hl ⊢; right; exact hl)) this.2
      exact ⟨by rw [this.1, h2.1], h2.2⟩

end Dkim

namespace Dkim

open Spec

/-! ### Canonical fields can be taken apart -/

theorem uint8_ofNat_toNat (k : Nat) (h : k < 256) : (UInt8.ofNat k).toNat = k := by
  simp [UInt8.toNat_ofNat']; omega

theorem toLower_toNat (c : Char) :
    c.toLower.toNat = if 65 ≤ c.toNat ∧ c.toNat ≤ 90 then c.toNat + 32 else c.toNat := by
  rw [← asciiLower_eq]
  unfold asciiLower isAsciiUpper
  by_cases h : 65 ≤ c.toNat ∧ c.toNat ≤ 90
  · rw [if_pos h, if_pos (by simpa using h)]
    apply char_toNat_ofNat
    left; omega
  · rw [if_neg h, if_neg (by simpa using h)]

theorem validName_lower {n : Str} (h : ValidName n) : ValidName (lower n) := by
  refine ⟨by simpa [lower] using h.1, ?_⟩
  intro c hc
  obtain ⟨d, hd, rfl⟩ := List.mem_map.1 hc
  have h1 := h.2 d hd
  have h2 := toLower_toNat d
  have h58 : ∀ x : Char, x ≠ ':' ↔ x.toNat ≠ 58 := by
    intro x
    apply not_congr
    exact ⟨fun h => by rw [h]; rfl, fun h => char_ext_toNat (d := ':') h⟩
  rw [h58] at h1 ⊢
  split at h2 <;> omega

theorem validName_bytes {n : Str} (h : ValidName n) :
    ∀ b ∈ utf8 n, 33 ≤ b.toNat ∧ b.toNat ≤ 126 ∧ b ≠ 58 := by
  intro b hb
  rw [utf8_ascii n fun c hc => by have := (h.2 c hc).2.1; omega] at hb
  obtain ⟨c, hc, rfl⟩ := List.mem_map.1 hb
  have h1 := h.2 c hc
  have h2 := uint8_ofNat_toNat c.toNat (by omega)
  refine ⟨by omega, by omega, ?_⟩
  intro h3
  rw [h3] at h2
  exact h1.2.2 (char_ext_toNat (d := ':') h2.symm)

theorem validName_text {n : Str} (h : ValidName n) {v : Bytes} (hv : FoldsOnly v) :
    FoldsOnly (utf8 n ++ [58] ++ v) ∧ StartsSolid (utf8 n ++ [58] ++ v) := by
  have hb := validName_bytes h
  constructor
  · refine FoldsOnly.append (FoldsOnly.of_clean ?_) hv
    intro b hb'
    simp only [List.mem_append, List.mem_singleton] at hb'
    rcases hb' with hb' | rfl
    · have := hb b hb'
      constructor <;> (rintro rfl; exact absurd this.1 (by decide))
    · decide
  · cases hu : utf8 n with
    | nil => exact absurd (utf8_eq_nil.1 hu) h.1
    | cons b r =>
      have := hb b (by simp [hu])
      refine ⟨b, r ++ [58] ++ v, by simp, ?_⟩
      cases hw : isWsp b with
      | false => rfl
      | true =>
        simp only [isWsp, Bool.or_eq_true, beq_iff_eq] at hw
        rcases hw with rfl | rfl <;> exact absurd this.1 (by decide)

theorem canonField_text (alg : CanonAlg) {n : Str} {v : Bytes} (h : ValidName n)
    (hv : FoldsOnly v) : FoldsOnly (canonField alg n v) ∧ StartsSolid (canonField alg n v) := by
  cases alg with
  | simple => exact validName_text h hv
  | relaxed => exact validName_text (validName_lower h) (FoldsOnly.of_clean (rfcRelaxedValue_noCrLf v))

theorem colon_injective {a b x y : Bytes} (ha : ∀ c ∈ a, c ≠ 58) (hb : ∀ c ∈ b, c ≠ 58)
    (h : a ++ 58 :: x = b ++ 58 :: y) : a = b ∧ x = y := by
  induction a generalizing b with
  | nil =>
    cases b with
    | nil => simpa using h
    | cons c b => simp at h; exact absurd h.1.symm (hb c (by simp))
  | cons c a ih =>
    cases b with
    | nil => simp at h; exact absurd h.1 (ha c (by simp))
    | cons d b =>
      simp at h
      have := ih (fun e he => ha e (by simp [he])) (fun e he => hb e (by simp [he])) h.2
      exact ⟨by rw [h.1, this.1], this.2⟩

theorem canonField_injective (alg : CanonAlg) {n n' : Str} {v v' : Bytes} (h : ValidName n)
    (h' : ValidName n') (e : canonField alg n v = canonField alg n' v') :
    (alg = .simple → n = n' ∧ v = v') ∧ (alg = .relaxed → lower n = lower n' ∧ words v = words v') := by
  cases alg with
  | simple =>
    refine ⟨fun _ => ?_, by simp⟩
    have := colon_injective (fun c hc => (validName_bytes h c hc).2.2)
      (fun c hc => (validName_bytes h' c hc).2.2) (by simpa [canonField] using e)
    exact ⟨utf8_injective this.1, this.2⟩
  | relaxed =>
    refine ⟨by simp, fun _ => ?_⟩
    have := colon_injective (fun c hc => (validName_bytes (validName_lower h) c hc).2.2)
      (fun c hc => (validName_bytes (validName_lower h') c hc).2.2) (by simpa [canonField] using e)
    exact ⟨utf8_injective this.1, rfcRelaxedValue_injective this.2⟩

theorem selectAux_mem (headers : List Field) (earlier sel : List Str) :
    ∀ f ∈ selectAux headers earlier sel, f ∈ headers := by
  induction sel generalizing earlier with
  | nil => simp [selectAux]
  | cons n ns ih =>
    intro f hf
    rw [selectAux, List.mem_append] at hf
    rcases hf with hf | hf
    · rw [Option.mem_toList] at hf
      have := List.mem_of_getElem? hf
      rw [fromBottom, List.mem_filter] at this
      simpa using this.1
    · exact ih _ f hf

end Dkim
