import Verif.Model.Header
import Verif.Spec.Canon

/-! Helper lemmas about header canonicalization. -/

namespace Dkim

open Spec

theorem isSpace_eq (b : UInt8) : isSpaceByte b = isFoldChar b := rfl

/-! ### Words -/

theorem wordsAux_ne_nil (cur v : Bytes) (h : cur ≠ []) : wordsAux cur v ≠ [] := by
  induction v generalizing cur with
  | nil => simp [wordsAux, h]
  | cons b r ih =>
    rw [wordsAux]
    by_cases hb : isFoldChar b
    · simp [hb, h]
    · simp only [hb]; exact ih _ (by simp)

theorem words_ne_nil_of_mem (v : Bytes) (b : UInt8) (hb : b ∈ v) (hf : isFoldChar b = false) :
    wordsAux [] v ≠ [] := by
  induction v with
  | nil => simp at hb
  | cons c r ih =>
    rw [wordsAux]
    by_cases hc : isFoldChar c
    · simp only [hc, if_true]
      rcases List.mem_cons.1 hb with rfl | hb
      · rw [hf] at hc; simp at hc
      · exact ih hb
    · simp only [hc]; exact wordsAux_ne_nil _ _ (by simp)

theorem joinWords_cons (w : Bytes) (ws : List Bytes) (h : ws ≠ []) :
    joinWords (w :: ws) = w ++ [32] ++ joinWords ws := by
  cases ws with
  | nil => exact absurd rfl h
  | cons v ws => rfl

/-- `v` is empty or ends with a non-fold character. -/
def EndsSolid (v : Bytes) : Prop := ∀ b, v.getLast? = some b → isFoldChar b = false

theorem endsSolid_tail {b : UInt8} {r : Bytes} (h : EndsSolid (b :: r)) : EndsSolid r := by
  intro c hc
  apply h c
  cases r with
  | nil => simp at hc
  | cons d r => rw [List.getLast?_cons_cons]; exact hc

theorem joinWords_wordsAux (v : Bytes) (h : EndsSolid v) :
    (∀ cur, cur ≠ [] → joinWords (wordsAux cur v) = cur ++ compressLoop false v) ∧
    joinWords (wordsAux [] v) = compressLoop true v := by
  induction v with
  | nil =>
    refine ⟨?_, by simp [wordsAux, joinWords, compressLoop]⟩
    intro cur hc; simp [wordsAux, hc, joinWords, compressLoop]
  | cons b r ih =>
    obtain ⟨ih1, ih2⟩ := ih (endsSolid_tail h)
    have hsome : isFoldChar b = true → wordsAux [] r ≠ [] := by
      intro hb
      cases hr : r.getLast? with
      | none =>
        simp at hr; subst hr
        have := h b (by simp)
        rw [hb] at this; simp at this
      | some c =>
        refine words_ne_nil_of_mem r c (List.mem_of_getLast? hr) (endsSolid_tail h c hr)
    refine ⟨?_, ?_⟩
    · intro cur hc
      rw [wordsAux]
      by_cases hb : isFoldChar b = true
      · simp only [hb, if_true, hc, if_false]
        rw [joinWords_cons _ _ (hsome hb), ih2]
        simp [compressLoop, isSpace_eq, hb, SP]
      · simp only [hb]
        rw [if_neg (by simp), ih1 _ (by simp)]
        simp [compressLoop, isSpace_eq, hb]
    · rw [wordsAux]
      by_cases hb : isFoldChar b = true
      · simp only [hb, if_true, ih2]
        simp [compressLoop, isSpace_eq, hb]
      · simp only [hb]
        rw [if_neg (by simp), ih1 _ (by simp)]
        simp [compressLoop, isSpace_eq, hb]

theorem words_dropWhile (v : Bytes) : words (v.dropWhile isFoldChar) = words v := by
  induction v with
  | nil => rfl
  | cons b r ih =>
    by_cases hb : isFoldChar b = true
    · simp only [List.dropWhile_cons, hb, if_true, ih]
      simp [words, wordsAux, hb]
    · simp [hb]

theorem wordsAux_append_fold (v t : Bytes) (ht : t.all isFoldChar = true) (cur : Bytes) :
    wordsAux cur (v ++ t) = wordsAux cur v := by
  induction v generalizing cur with
  | nil =>
    induction t generalizing cur with
    | nil => rfl
    | cons b t iht =>
      simp at ht
      have iht := iht (by simpa using ht.2)
      simp only [List.nil_append] at iht ⊢
      by_cases hc : cur = []
      · simp [wordsAux, ht.1, hc, iht]
      · simp [wordsAux, ht.1, hc, iht]
  | cons b r ih =>
    simp only [List.cons_append, wordsAux]
    by_cases hb : isFoldChar b = true
    · by_cases hc : cur = [] <;> simp [hb, hc, ih]
    · simp [hb, ih]

theorem trim_split (v : Bytes) : ∃ t, t.all isFoldChar = true ∧
    v.dropWhile isFoldChar = trimSpace v ++ t := by
  refine ⟨((v.dropWhile isFoldChar).reverse.takeWhile isFoldChar).reverse, ?_, ?_⟩
  · rw [List.all_reverse, List.all_eq_true]
    intro b hb
    have : ∀ (l : Bytes), ∀ b ∈ l.takeWhile isFoldChar, isFoldChar b = true := by
      intro l
      induction l with
      | nil => simp
      | cons c l ih =>
        intro b hb
        by_cases hc : isFoldChar c = true
        · rw [List.takeWhile_cons_of_pos hc] at hb
          rcases List.mem_cons.1 hb with rfl | hb
          · exact hc
          · exact ih b hb
        · rw [List.takeWhile_cons_of_neg hc] at hb; simp at hb
    exact this _ b hb
  · unfold trimSpace
    rw [← List.reverse_append]
    have : isSpaceByte = isFoldChar := rfl
    rw [this, List.takeWhile_append_dropWhile, List.reverse_reverse]

theorem words_trim (v : Bytes) : words (trimSpace v) = words v := by
  obtain ⟨t, ht, he⟩ := trim_split v
  rw [← words_dropWhile v, he]
  exact (wordsAux_append_fold _ _ ht []).symm

theorem trim_endsSolid (v : Bytes) : EndsSolid (trimSpace v) := by
  intro b hb
  unfold trimSpace at hb
  rw [List.getLast?_reverse] at hb
  have := List.head?_dropWhile_not isSpaceByte (v.dropWhile isSpaceByte).reverse
  rw [hb] at this
  simpa [isSpace_eq] using this

theorem trim_startsSolid (v : Bytes) (b : UInt8) (hb : (trimSpace v).head? = some b) :
    isFoldChar b = false := by
  obtain ⟨t, ht, he⟩ := trim_split v
  have := List.head?_dropWhile_not isFoldChar v
  rw [he] at this
  have h2 : (trimSpace v ++ t).head? = some b := by
    cases h : trimSpace v with
    | nil => rw [h] at hb; simp at hb
    | cons c r => rw [h] at hb; simpa using hb
  rw [h2] at this
  simpa using this

theorem canonHeaderValueRelaxed_eq (v : Bytes) :
    canonHeaderValueRelaxed v = rfcRelaxedValue v := by
  unfold canonHeaderValueRelaxed rfcRelaxedValue
  rw [← words_trim v, words, (joinWords_wordsAux _ (trim_endsSolid v)).2]
  cases h : trimSpace v with
  | nil => rfl
  | cons b r =>
    have := trim_startsSolid v b (by rw [h]; rfl)
    simp [compressLoop, isSpace_eq, this]

/-- A word: not empty, no fold characters. -/
def IsWord (w : Bytes) : Prop := w ≠ [] ∧ ∀ b ∈ w, isFoldChar b = false

theorem wordsAux_append_solid (w v : Bytes) (hw : ∀ b ∈ w, isFoldChar b = false) (cur : Bytes) :
    wordsAux cur (w ++ v) = wordsAux (cur ++ w) v := by
  induction w generalizing cur with
  | nil => simp
  | cons b r ih =>
    simp only [List.cons_append, wordsAux, hw b (by simp)]
    rw [if_neg (by simp), ih (fun c hc => hw c (by simp [hc]))]
    simp

theorem wordsAux_isWord (v cur : Bytes) (hc : ∀ b ∈ cur, isFoldChar b = false) :
    ∀ w ∈ wordsAux cur v, IsWord w := by
  induction v generalizing cur with
  | nil =>
    intro w hw
    by_cases h : cur = []
    · simp [wordsAux, h] at hw
    · simp [wordsAux, h] at hw; subst hw; exact ⟨h, hc⟩
  | cons b r ih =>
    intro w hw
    rw [wordsAux] at hw
    by_cases hb : isFoldChar b = true
    · by_cases h : cur = []
      · simp only [hb, h, if_true] at hw; exact ih [] (by simp) w hw
      · simp only [hb, h, if_true, if_false] at hw
        rcases List.mem_cons.1 hw with rfl | hw
        · exact ⟨h, hc⟩
        · exact ih [] (by simp) w hw
    · simp only [hb] at hw
      rw [if_neg (by simp)] at hw
      refine ih _ ?_ w hw
      intro c hc'
      rw [List.mem_append] at hc'
      rcases hc' with hc' | hc'
      · exact hc c hc'
      · simp at hc'; subst hc'; simpa using hb

theorem words_isWord (v : Bytes) : ∀ w ∈ words v, IsWord w := wordsAux_isWord v [] (by simp)

theorem wordsAux_joinWords (w : Bytes) (ws : List Bytes) (h : ∀ x ∈ w :: ws, IsWord x) :
    words (joinWords (w :: ws)) = w :: ws := by
  induction ws generalizing w with
  | nil =>
    have hw := h w (by simp)
    have := wordsAux_append_solid w [] hw.2 []
    simp only [List.append_nil, List.nil_append] at this
    simp [joinWords, words, this, wordsAux, hw.1]
  | cons v vs ih =>
    have hw := h w (by simp)
    have ih := ih v (fun x hx => h x (by simp [List.mem_cons.1 hx]))
    simp only [joinWords, words, List.append_assoc] at ih ⊢
    rw [wordsAux_append_solid w _ hw.2]
    have h32 : isFoldChar 32 = true := by decide
    simp only [List.nil_append, List.cons_append, wordsAux, h32, hw.1, if_true, if_false, ih]

theorem words_joinWords (ws : List Bytes) (h : ∀ x ∈ ws, IsWord x) : words (joinWords ws) = ws := by
  cases ws with
  | nil => rfl
  | cons w ws => exact wordsAux_joinWords w ws h

theorem joinWords_mem (ws : List Bytes) (b : UInt8) (hb : b ∈ joinWords ws) :
    b = 32 ∨ ∃ w ∈ ws, b ∈ w := by
  induction ws with
  | nil => simp [joinWords] at hb
  | cons w ws ih =>
    cases ws with
    | nil => simp [joinWords] at hb; exact Or.inr ⟨w, by simp, hb⟩
    | cons v vs =>
      simp only [joinWords, List.mem_append, List.mem_singleton] at hb
      rcases hb with (hb | hb) | hb
      · exact Or.inr ⟨w, by simp, hb⟩
      · exact Or.inl hb
      · rcases ih hb with h | ⟨x, hx, hbx⟩
        · exact Or.inl h
        · exact Or.inr ⟨x, by simp at hx ⊢; exact Or.inr hx, hbx⟩

/-! ### Selection of header fields -/

theorem findUnprocessed_eq (n : Str) (pr : List Nat) (l : List (Nat × Field)) :
    findUnprocessed n pr l =
      ((l.filter fun p => eqIgnoreCase p.2.name n).filter fun p => !pr.contains p.1).head? := by
  induction l with
  | nil => rfl
  | cons p l ih =>
    obtain ⟨i, f⟩ := p
    rw [findUnprocessed, ih]
    by_cases h1 : pr.contains i = true
    · by_cases h2 : eqIgnoreCase f.name n = true
      · rw [if_pos h1, List.filter_cons_of_pos (by exact h2),
          List.filter_cons_of_neg (by simp only [Bool.not_eq_true', Bool.not_eq_false]; exact h1)]
      · rw [if_pos h1, List.filter_cons_of_neg (by exact h2)]
    · rw [if_neg h1]
      by_cases h2 : eqIgnoreCase f.name n = true
      · rw [if_pos h2, List.filter_cons_of_pos (by exact h2),
          List.filter_cons_of_pos (by simpa using h1)]; rfl
      · rw [if_neg h2, List.filter_cons_of_neg (by exact h2)]

theorem enumFrom_map_snd {α : Type} (k : Nat) (l : List α) : (enumFrom k l).map (·.2) = l := by
  induction l generalizing k with
  | nil => rfl
  | cons a l ih => simp [enumFrom, ih]

theorem enumFrom_fst_ge {α : Type} (k : Nat) (l : List α) : ∀ p ∈ enumFrom k l, k ≤ p.1 := by
  induction l generalizing k with
  | nil => simp [enumFrom]
  | cons a l ih =>
    intro p hp
    simp only [enumFrom, List.mem_cons] at hp
    rcases hp with rfl | hp
    · exact Nat.le_refl k
    · have := ih (k + 1) p hp; omega

theorem enumFrom_pairwise {α : Type} (k : Nat) (l : List α) :
    (enumFrom k l).Pairwise fun p q => p.1 ≠ q.1 := by
  induction l generalizing k with
  | nil => simp [enumFrom]
  | cons a l ih =>
    simp only [enumFrom, List.pairwise_cons]
    refine ⟨?_, ih _⟩
    intro p hp
    have := enumFrom_fst_ge (k + 1) l p hp
    show k ≠ p.1
    omega

/-- Fields selected by the list of names, as the RFC describes it: the k-th
mention of a name selects the k-th field of that name from the bottom. -/
def pick (headers : List Field) : List Str → List Str → List Field
  | _, [] => []
  | earlier, n :: ns =>
    ((headers.reverse.filter fun f => eqIgnoreCase f.name n)[earlier.countP (eqIgnoreCase n)]?).toList
      ++ pick headers (n :: earlier) ns

theorem eqIgnoreCase_iff (a b : Str) : eqIgnoreCase a b = true ↔ strLower a = strLower b := by
  simp [eqIgnoreCase]

theorem eqIgnoreCase_congr {a b : Str} (h : eqIgnoreCase a b = true) (c : Str) :
    eqIgnoreCase c a = eqIgnoreCase c b := by
  rw [eqIgnoreCase_iff] at h; simp [eqIgnoreCase, h]

theorem eqIgnoreCase_comm (a b : Str) : eqIgnoreCase a b = eqIgnoreCase b a := by
  rw [Bool.eq_iff_iff]; simp only [eqIgnoreCase_iff]; exact eq_comm

theorem eqIgnoreCase_refl (a : Str) : eqIgnoreCase a a = true := by simp [eqIgnoreCase]

theorem canonHeadersLoop_eq (alg : CanonAlg) (headers : List Field) (sel : List Str)
    (earlier : List Str) (pr : List Nat)
    (hinv : ∀ n, ((enumFrom 0 headers.reverse).filter fun p => eqIgnoreCase p.2.name n).filter
        (fun p => !pr.contains p.1)
      = ((enumFrom 0 headers.reverse).filter fun p => eqIgnoreCase p.2.name n).drop
        (earlier.countP (eqIgnoreCase n))) :
    canonHeadersLoop alg (enumFrom 0 headers.reverse) pr sel
      = (pick headers earlier sel).flatMap fun f => canonHeader alg f.name f.body ++ CRLF := by
  induction sel generalizing earlier pr with
  | nil => rfl
  | cons n ns ih =>
    have hpick : (headers.reverse.filter fun f => eqIgnoreCase f.name n)[earlier.countP (eqIgnoreCase n)]?
        = (findUnprocessed n pr (enumFrom 0 headers.reverse)).map (·.2) := by
      rw [findUnprocessed_eq, hinv, List.head?_drop, ← List.getElem?_map]
      congr 1
      conv => lhs; rw [← enumFrom_map_snd 0 headers.reverse]
      rw [List.filter_map]
      rfl
    rw [canonHeadersLoop, pick, hpick, findUnprocessed_eq, hinv, List.head?_drop]
    have hcnt : ∀ m, (n :: earlier).countP (eqIgnoreCase m)
        = earlier.countP (eqIgnoreCase m) + (if eqIgnoreCase m n then 1 else 0) := by
      intro m; rw [List.countP_cons]
    cases hx : ((enumFrom 0 headers.reverse).filter fun p => eqIgnoreCase p.2.name n)[
        earlier.countP (eqIgnoreCase n)]? with
    | none =>
      simp only [Option.map_none, Option.toList_none, List.nil_append]
      refine ih (n :: earlier) pr ?_
      intro m
      rw [hinv m, hcnt]
      by_cases hm : eqIgnoreCase m n = true
      · have e1 : (fun p : Nat × Field => eqIgnoreCase p.2.name m)
            = fun p => eqIgnoreCase p.2.name n := by
          funext p; exact eqIgnoreCase_congr hm _
        have e2 : eqIgnoreCase m = eqIgnoreCase n := by
          funext c; rw [eqIgnoreCase_comm m, eqIgnoreCase_comm n]; exact eqIgnoreCase_congr hm c
        rw [e1, e2, if_pos (eqIgnoreCase_refl n)]
        rw [List.getElem?_eq_none_iff] at hx
        rw [List.drop_eq_nil_of_le hx, List.drop_eq_nil_of_le (by omega)]
      · rw [if_neg hm]; rfl
    | some p =>
      obtain ⟨i, f⟩ := p
      simp only [Option.map_some, Option.toList_some, List.cons_append, List.nil_append,
        List.flatMap_cons]
      congr 1
      refine ih (n :: earlier) (i :: pr) ?_
      intro m
      rw [hcnt]
      have hfil : ∀ l : List (Nat × Field), l.filter (fun p => !(i :: pr).contains p.1)
          = (l.filter (fun p => !pr.contains p.1)).filter (fun p => p.1 != i) := by
        intro l
        rw [List.filter_filter]
        apply List.filter_congr
        intro p _
        rw [List.contains_cons]
        cases h : (p.1 == i) <;> simp [h, bne]
      rw [hfil, hinv m]
      have hxdrop := List.drop_eq_getElem_cons
        (l := (enumFrom 0 headers.reverse).filter fun p => eqIgnoreCase p.2.name n)
        (List.getElem?_eq_some_iff.1 hx).1
      have hget := (List.getElem?_eq_some_iff.1 hx).2
      rw [hget] at hxdrop
      have hpw : ((enumFrom 0 headers.reverse).filter fun p => eqIgnoreCase p.2.name n).Pairwise
          (fun p q => p.1 ≠ q.1) := (enumFrom_pairwise 0 headers.reverse).filter _
      by_cases hm : eqIgnoreCase m n = true
      · have e1 : (fun p : Nat × Field => eqIgnoreCase p.2.name m)
            = fun p => eqIgnoreCase p.2.name n := by
          funext p; exact eqIgnoreCase_congr hm _
        have e2 : eqIgnoreCase m = eqIgnoreCase n := by
          funext c; rw [eqIgnoreCase_comm m, eqIgnoreCase_comm n]; exact eqIgnoreCase_congr hm c
        rw [e1, e2, if_pos (eqIgnoreCase_refl n), hxdrop]
        rw [List.filter_cons_of_neg (by simp)]
        rw [List.filter_eq_self]
        intro q hq
        have := hpw.sublist (List.drop_sublist (earlier.countP (eqIgnoreCase n)) _)
        rw [hxdrop, List.pairwise_cons] at this
        have := this.1 q hq
        simp only [bne_iff_ne, ne_eq]; exact fun h => this h.symm
      · rw [if_neg hm, Nat.add_zero, List.filter_eq_self]
        intro q hq
        have hq1 := List.mem_of_mem_drop hq
        rw [List.mem_filter] at hq1
        -- the chosen field has a different name
        have hi : (i, f) ∈ (enumFrom 0 headers.reverse).filter fun p => eqIgnoreCase p.2.name n :=
          List.mem_of_getElem? hx
        rw [List.mem_filter] at hi
        simp only [bne_iff_ne, ne_eq]
        intro hqi
        have huniq : ∀ (l : List (Nat × Field)), l.Pairwise (fun p q => p.1 ≠ q.1) →
            ∀ a ∈ l, ∀ b ∈ l, a.1 = b.1 → a = b := by
          intro l
          induction l with
          | nil => simp
          | cons x l ihl =>
            intro hp a ha b hb hab
            rw [List.pairwise_cons] at hp
            rcases List.mem_cons.1 ha with h1 | h1 <;> rcases List.mem_cons.1 hb with h2 | h2
            · rw [h1, h2]
            · rw [h1] at hab; exact absurd hab (hp.1 b h2)
            · rw [h2] at hab; exact absurd hab.symm (hp.1 a h1)
            · exact ihl hp.2 a h1 b h2 hab
        have := huniq _ (enumFrom_pairwise 0 headers.reverse) q hq1.1 (i, f) hi.1 hqi
        rw [this] at hq1
        have h3 := hi.2
        have h4 := hq1.2
        simp only at h3 h4
        apply hm
        rw [eqIgnoreCase_iff] at h3 h4 ⊢
        rw [← h4, h3]

theorem canonHeaders_eq (alg : CanonAlg) (headers : List Field) (sel : List Str) :
    canonHeaders alg headers sel
      = (pick headers [] sel).flatMap fun f => canonHeader alg f.name f.body ++ CRLF := by
  refine canonHeadersLoop_eq alg headers sel [] [] ?_
  intro n
  simp

theorem pick_congr (h h' : List Field) (sel earlier : List Str)
    (heq : ∀ n ∈ sel, (h.filter fun f => eqIgnoreCase f.name n)
      = (h'.filter fun f => eqIgnoreCase f.name n)) :
    pick h earlier sel = pick h' earlier sel := by
  induction sel generalizing earlier with
  | nil => rfl
  | cons n ns ih =>
    rw [pick, pick, ih _ (fun m hm => heq m (by simp [hm]))]
    rw [List.filter_reverse, List.filter_reverse, heq n (by simp)]

/-- Total length of the canonicalized fields. -/
def totalLen (alg : CanonAlg) (fs : List Field) : Nat :=
  (fs.map fun f => (canonHeader alg f.name f.body).length + 2).sum

theorem totalLen_append (alg : CanonAlg) (a b : List Field) :
    totalLen alg (a ++ b) = totalLen alg a + totalLen alg b := by
  simp [totalLen]

theorem totalLen_flatMap (alg : CanonAlg) (fs : List Field) :
    (fs.flatMap fun f => canonHeader alg f.name f.body ++ CRLF).length = totalLen alg fs := by
  induction fs with
  | nil => rfl
  | cons f fs ih =>
    rw [List.flatMap_cons, List.length_append, ih]
    simp [totalLen, CRLF]

theorem drop_take_succ {α : Type} (l : List α) (c k : Nat) :
    (l.drop c).take (k + 1) = l[c]?.toList ++ (l.drop (c + 1)).take k := by
  by_cases h : c < l.length
  · rw [List.drop_eq_getElem_cons h, List.take_succ_cons, List.getElem?_eq_getElem h]
    rfl
  · have : l.length ≤ c := by omega
    rw [List.drop_eq_nil_of_le this, List.drop_eq_nil_of_le (by omega)]
    simp [List.getElem?_eq_none this]

theorem pick_len (alg : CanonAlg) (h h' : List Field) (n : Str) (sel earlier : List Str)
    (hother : ∀ m, eqIgnoreCase m n = false →
      (h.filter fun f => eqIgnoreCase f.name m) = (h'.filter fun f => eqIgnoreCase f.name m)) :
    totalLen alg (pick h' earlier sel) +
        totalLen alg (((h.reverse.filter fun f => eqIgnoreCase f.name n).drop
          (earlier.countP (eqIgnoreCase n))).take (sel.countP (eqIgnoreCase n)))
      = totalLen alg (pick h earlier sel) +
        totalLen alg (((h'.reverse.filter fun f => eqIgnoreCase f.name n).drop
          (earlier.countP (eqIgnoreCase n))).take (sel.countP (eqIgnoreCase n))) := by
  induction sel generalizing earlier with
  | nil => simp [pick]
  | cons m ms ih =>
    have ih := ih (m :: earlier)
    rw [pick, pick, totalLen_append, totalLen_append]
    by_cases hm : eqIgnoreCase n m = true
    · have e2 : eqIgnoreCase m = eqIgnoreCase n := by
        funext c; rw [eqIgnoreCase_comm m, eqIgnoreCase_comm n]; exact (eqIgnoreCase_congr hm c).symm
      have e1 : (fun f : Field => eqIgnoreCase f.name m) = fun f => eqIgnoreCase f.name n := by
        funext f; exact (eqIgnoreCase_congr hm _).symm
      rw [List.countP_cons_of_pos hm] at ih ⊢
      rw [e1, e2]
      rw [drop_take_succ, drop_take_succ, totalLen_append, totalLen_append]
      omega
    · have hm' : eqIgnoreCase m n = false := by
        rw [eqIgnoreCase_comm]; simpa using hm
      rw [List.countP_cons_of_neg hm] at ih ⊢
      have : (h.reverse.filter fun f => eqIgnoreCase f.name m)
          = (h'.reverse.filter fun f => eqIgnoreCase f.name m) := by
        rw [List.filter_reverse, List.filter_reverse, hother m hm']
      rw [this]
      omega

end Dkim
