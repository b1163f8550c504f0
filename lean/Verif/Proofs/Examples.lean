import Verif.Model.Examples
import Verif.Spec.BodyHash
import Verif.Props.Header

/-!
# Lemmas about the example programs
-/

namespace Dkim

open Spec

/-! ## Length of canonical bodies -/

def linesLength (ls : List Bytes) : Nat := (ls.map fun l => l.length + 2).sum

theorem splitLines_length (b : Bytes) : linesLength (splitLines b).1 + (splitLines b).2.length = b.length := by
  induction b using splitLines.induct with
  | case1 => rfl
  | case2 r ih => rw [splitLines]; simp [linesLength] at ih ⊢; omega
  | case3 b r hne ls hls ih =>
    rw [splitLines]
    · rw [hls]; rw [hls] at ih; simp [linesLength] at ih ⊢; omega
    · exact hne
  | case4 b r hne l ls last hls ih =>
    rw [splitLines]
    · rw [hls]; rw [hls] at ih; simp [linesLength] at ih ⊢; omega
    · exact hne

theorem linesLength_append (a b : List Bytes) : linesLength (a ++ b) = linesLength a + linesLength b := by
  simp [linesLength]

theorem bodyLines_length (b : Bytes) : linesLength (bodyLines b) ≤ b.length + 2 := by
  have := splitLines_length b
  unfold bodyLines
  rw [linesLength_append]
  split
  · simp [linesLength] at this ⊢; omega
  · simp [linesLength] at this ⊢; omega

theorem joinLines_length (ls : List Bytes) : (joinLines ls).length = linesLength ls := by
  induction ls with
  | nil => rfl
  | cons l ls ih => rw [joinLines]; simp [linesLength] at ih ⊢; omega

theorem linesLength_dropWhile (p : Bytes → Bool) (ls : List Bytes) : linesLength (ls.dropWhile p) ≤ linesLength ls := by
  induction ls with
  | nil => exact Nat.le_refl _
  | cons l ls ih =>
    rw [List.dropWhile_cons]
    split
    · simp [linesLength] at ih ⊢; omega
    · exact Nat.le_refl _

theorem linesLength_reverse (ls : List Bytes) : linesLength ls.reverse = linesLength ls := by
  induction ls with
  | nil => rfl
  | cons l ls ih => rw [List.reverse_cons, linesLength_append, ih]; simp [linesLength]; omega

theorem dropTrailingEmpty_length (ls : List Bytes) : linesLength (dropTrailingEmpty ls) ≤ linesLength ls := by
  unfold dropTrailingEmpty
  rw [linesLength_reverse]
  exact Nat.le_trans (linesLength_dropWhile _ _) (Nat.le_of_eq (linesLength_reverse ls))

theorem reduceWsp_length (l : Bytes) : (reduceWsp l).length ≤ l.length := by
  induction l using reduceWsp.induct with
  | case1 => exact Nat.le_refl _
  | case2 b h => simp [reduceWsp, h]
  | case3 b h => simp [reduceWsp, h]
  | case4 b c r h1 h2 ih => simp [reduceWsp, h1, h2] at ih ⊢; omega
  | case5 b c r h1 h2 ih => simp [reduceWsp, h1, h2] at ih ⊢; omega
  | case6 b c r h1 ih => simp [reduceWsp, h1] at ih ⊢; omega

theorem dropWhile_length {α : Type} (p : α → Bool) (l : List α) : (l.dropWhile p).length ≤ l.length := by
  induction l with
  | nil => exact Nat.le_refl _
  | cons a l ih =>
    rw [List.dropWhile_cons]
    split
    · simp; omega
    · exact Nat.le_refl _

theorem relaxLine_length (l : Bytes) : (relaxLine l).length ≤ l.length := by
  unfold relaxLine stripTrailingWsp
  refine Nat.le_trans (reduceWsp_length _) ?_
  rw [List.length_reverse]
  exact Nat.le_trans (dropWhile_length _ _) (by simp)

theorem map_relaxLine_length (ls : List Bytes) : linesLength (ls.map relaxLine) ≤ linesLength ls := by
  induction ls with
  | nil => exact Nat.le_refl _
  | cons l ls ih =>
    have := relaxLine_length l
    simp [linesLength] at ih ⊢
    omega

/-- The canonical form of a body is at most four bytes longer. -/
theorem codeBody_length (k : CanonAlg) (b : Bytes) : (codeBody k b).length ≤ b.length + 4 := by
  have h1 := bodyLines_length b
  cases k with
  | simple =>
    show (codeSimpleBody b).length ≤ _
    unfold codeSimpleBody
    split
    · simp
    · unfold rfcSimpleBody
      have h2 := dropTrailingEmpty_length (bodyLines b)
      split
      · simp
      · rw [joinLines_length]; omega
  | relaxed =>
    show (codeRelaxedBody b).length ≤ _
    have h2 : (rfcRelaxedBody b).length ≤ b.length + 2 := by
      unfold rfcRelaxedBody
      rw [joinLines_length]
      have := dropTrailingEmpty_length ((bodyLines b).map relaxLine)
      have := map_relaxLine_length (bodyLines b)
      omega
    unfold codeRelaxedBody
    split
    · rw [List.length_append]; simp; omega
    · omega

/-! ## Text functions -/

theorem replaceLf_append (a b : Str) : replaceLf (a ++ b) = replaceLf a ++ replaceLf b := by
  simp [replaceLf]

theorem replaceLf_clean {l : Str} (h : '\n' ∉ l) : replaceLf l = l := by
  induction l with
  | nil => rfl
  | cons c l ih =>
    have hc : c ≠ '\n' := fun e => h (by rw [e]; simp)
    have := ih fun hm => h (by simp [hm])
    unfold replaceLf at this ⊢
    rw [List.flatMap_cons, if_neg hc, this]
    rfl

theorem replaceLf_lines (ls : List Str) (h : ∀ l ∈ ls, cleanChars l) :
    replaceLf (ls.flatMap (· ++ ['\n'])) = ls.flatMap (· ++ ['\r', '\n']) := by
  induction ls with
  | nil => rfl
  | cons l ls ih =>
    rw [List.flatMap_cons, List.flatMap_cons, replaceLf_append, replaceLf_append,
      replaceLf_clean fun hm => ((h l (by simp)) _ hm).2 rfl, ih fun x hx => h x (by simp [hx])]
    rfl

theorem replaceCrlf_step {l : Str} (hl : cleanChars l) (r : Str) (hr : replaceCrlf ('\r' :: '\n' :: r) = '\n' :: replaceCrlf r) :
    replaceCrlf (l ++ '\r' :: '\n' :: r) = l ++ '\n' :: replaceCrlf r := by
  induction l with
  | nil => exact hr
  | cons c l ih =>
    have hc := (hl c (by simp)).1
    have := ih fun d hd => hl d (by simp [hd])
    cases l with
    | nil =>
      show replaceCrlf (c :: '\r' :: '\n' :: r) = _
      rw [replaceCrlf, if_neg (by simp [hc]), hr]
      rfl
    | cons d l =>
      show replaceCrlf (c :: d :: (l ++ '\r' :: '\n' :: r)) = _
      rw [replaceCrlf, if_neg (by simp [hc])]
      show c :: replaceCrlf ((d :: l) ++ '\r' :: '\n' :: r) = _
      rw [this]
      rfl

theorem replaceCrlf_clean {l : Str} (h : cleanChars l) : replaceCrlf l = l := by
  induction l with
  | nil => rfl
  | cons c l ih =>
    have hc := (h c (by simp)).1
    have := ih fun d hd => h d (by simp [hd])
    cases l with
    | nil => rfl
    | cons d l => rw [replaceCrlf, if_neg (by simp [hc]), this]

theorem replaceCrlf_folded (first : Str) (conts : List Str) (hf : cleanChars first)
    (hc : ∀ l ∈ conts, cleanChars l) :
    replaceCrlf (first ++ conts.flatMap fun x => '\r' :: '\n' :: x) = first ++ conts.flatMap fun x => '\n' :: x := by
  induction conts generalizing first with
  | nil => simpa using replaceCrlf_clean hf
  | cons l ls ih =>
    rw [List.flatMap_cons, List.flatMap_cons]
    show replaceCrlf (first ++ '\r' :: '\n' :: (l ++ _)) = _
    rw [replaceCrlf_step hf _ (by rw [replaceCrlf, if_pos ⟨rfl, rfl⟩]),
      ih l (hc l (by simp)) fun x hx => hc x (by simp [hx])]
    simp

/-- The separator of header and body. -/
abbrev blank : Str := ['\r', '\n', '\r', '\n']

theorem splitOnceStr_some {sep s a b : Str} (h : splitOnceStr sep s = some (a, b)) : s = a ++ sep ++ b := by
  induction s generalizing a with
  | nil =>
    rw [splitOnceStr] at h
    split at h
    · next he =>
      cases h
      have : sep = [] := by simpa using he
      simp [this]
    · cases h
  | cons c r ih =>
    rw [splitOnceStr] at h
    split at h
    · next hp =>
      cases h
      obtain ⟨t, ht⟩ := List.isPrefixOf_iff_prefix.1 hp
      rw [← ht]
      simp
    · split at h
      · cases h
      · next a' b' e =>
        cases h
        rw [ih e]
        rfl

/-- No separator begins in a line that is not followed by an empty line. -/
theorem splitOnceStr_line {l : Str} (hl : cleanChars l) (t : Str) (ht : ¬ ['\r', '\n'] <+: t) :
    splitOnceStr blank (l ++ ['\r', '\n'] ++ t) =
      (splitOnceStr blank t).map fun p => (l ++ ['\r', '\n'] ++ p.1, p.2) := by
  induction l with
  | nil =>
    show splitOnceStr blank ('\r' :: '\n' :: t) = _
    rw [splitOnceStr, if_neg, splitOnceStr, if_neg]
    · cases splitOnceStr blank t <;> rfl
    · simp [List.isPrefixOf]
    · intro hp
      obtain ⟨u, hu⟩ := List.isPrefixOf_iff_prefix.1 hp
      refine ht ⟨u, ?_⟩
      simpa using hu
  | cons c l ih =>
    have hc := (hl c (by simp)).1
    rw [List.cons_append, List.cons_append, splitOnceStr, if_neg, ih fun d hd => hl d (by simp [hd])]
    · cases splitOnceStr blank t <;> rfl
    · simp [List.isPrefixOf, Ne.symm hc]

theorem splitOnceStr_last {l : Str} (hl : cleanChars l) (t : Str) :
    splitOnceStr blank (l ++ blank ++ t) = some (l, t) := by
  induction l with
  | nil =>
    show splitOnceStr blank ('\r' :: _) = _
    rw [splitOnceStr, if_pos (by simp [List.isPrefixOf])]
    simp
  | cons c l ih =>
    have hc := (hl c (by simp)).1
    rw [List.cons_append, List.cons_append, splitOnceStr, if_neg, ih fun d hd => hl d (by simp [hd])]
    simp [List.isPrefixOf, Ne.symm hc]

theorem not_break_prefix {l : Str} (hl : cleanChars l) (hne : l ≠ []) (t : Str) : ¬ ['\r', '\n'] <+: l ++ t := by
  rintro ⟨u, hu⟩
  cases l with
  | nil => exact hne rfl
  | cons c l =>
    injection hu with h1 _
    exact (hl c (by simp)).1 h1.symm

theorem splitOnceStr_lines (ls : List Str) (h : ∀ l ∈ ls, cleanChars l ∧ l ≠ []) (t : Str)
    (ht : ¬ ['\r', '\n'] <+: t) :
    splitOnceStr blank (ls.flatMap (· ++ ['\r', '\n']) ++ t) =
      (splitOnceStr blank t).map fun p => (ls.flatMap (· ++ ['\r', '\n']) ++ p.1, p.2) := by
  induction ls with
  | nil =>
    show splitOnceStr blank t = _
    cases splitOnceStr blank t <;> rfl
  | cons l ls ih =>
    rw [List.flatMap_cons, List.append_assoc, splitOnceStr_line (h l (by simp)).1, ih fun x hx => h x (by simp [hx])]
    · cases splitOnceStr blank t <;> simp
    · cases ls with
      | nil => exact ht
      | cons m ms =>
        rw [List.flatMap_cons, List.append_assoc, List.append_assoc]
        exact not_break_prefix (h m (by simp)).1 (h m (by simp)).2 _

theorem strLines_append (ls : List Str) (h : ∀ l ∈ ls, cleanChars l) (t : Str) :
    strLines (ls.flatMap (· ++ ['\r', '\n']) ++ t) = ls ++ strLines t := by
  induction ls with
  | nil => rfl
  | cons l ls ih =>
    unfold strLines at ih ⊢
    rw [List.flatMap_cons, List.append_assoc,
      linesAux_line (Or.inl rfl) l _ [] (h l (by simp)) (by intro c hc; cases hc), ih fun x hx => h x (by simp [hx])]
    simp

theorem linesAux_last (l cur : Str) (h : '\n' ∉ l) : linesAux cur l = if cur ++ l = [] then [] else [cur ++ l] := by
  induction l generalizing cur with
  | nil => rw [linesAux]; cases cur <;> simp
  | cons c l ih =>
    have hc : c ≠ '\n' := fun e => h (by rw [e]; simp)
    rw [linesAux, if_neg hc, ih _ fun hm => h (by simp [hm])]
    simp

theorem headerFieldsFromStr_congr {s t : Str} (h : strLines s = strLines t) :
    headerFieldsFromStr s = headerFieldsFromStr t := by
  unfold headerFieldsFromStr
  rw [h]

theorem LineField.Ok.lines {f : LineField} (h : f.Ok) : ∀ l ∈ f.lines, cleanChars l ∧ l ≠ [] := by
  intro l hl
  simp only [LineField.lines, List.mem_cons] at hl
  rcases hl with rfl | hl
  · refine ⟨?_, by simp⟩
    intro c hc
    simp only [List.mem_append, List.mem_cons] at hc
    rcases hc with hc | rfl | hc
    · have := h.1.2 c hc
      constructor <;> rintro rfl <;> exact absurd this.1 (by decide)
    · decide
    · exact h.2.1 c hc
  · have := h.2.2.1 l hl
    refine ⟨this.1, ?_⟩
    rintro rfl
    cases this.2

/-- The text before the separator does not begin with a line break if it is a header. -/
theorem header_no_break {h b : Str} {fs : List Field} (hp : headerFieldsFromStr h = some fs) :
    ¬ ['\r', '\n'] <+: h ++ blank ++ b := by
  rintro ⟨u, hu⟩
  match h with
  | [] => cases hp
  | [c] => simp at hu
  | c :: d :: r =>
    simp only [List.cons_append, List.nil_append, List.cons.injEq] at hu
    obtain ⟨rfl, rfl, _⟩ := hu
    have : strLines ('\r' :: '\n' :: r) = [] :: strLines r := by
      simp [strLines, linesAux, stripCr]
    unfold headerFieldsFromStr at hp
    rw [this] at hp
    cases hp

/-- A separator in the text with replaced line breaks was an empty line. -/
theorem replaceLf_blank (x : Str) : ∀ a b, replaceLf x = a ++ blank ++ b → ∃ c d, x = c ++ ['\n', '\n'] ++ d := by
  induction x with
  | nil =>
    intro a b h
    have := congrArg List.length h
    simp [replaceLf] at this
  | cons c x ih =>
    intro a b h
    have e : replaceLf (c :: x) = (if c = '\n' then ['\r', '\n'] else [c]) ++ replaceLf x := by
      simp [replaceLf]
    rw [e] at h
    have lift : (∃ c d, x = c ++ ['\n', '\n'] ++ d) → ∃ p q, c :: x = p ++ ['\n', '\n'] ++ q := by
      rintro ⟨p, q, rfl⟩
      exact ⟨c :: p, q, by simp⟩
    by_cases hc : c = '\n'
    · rw [if_pos hc] at h
      subst hc
      match a with
      | [] =>
        simp only [List.nil_append, List.cons_append, List.cons.injEq, true_and] at h
        -- the next character is a replaced line break, too
        cases x with
        | nil => simp [replaceLf] at h
        | cons d x =>
          have e' : replaceLf (d :: x) = (if d = '\n' then ['\r', '\n'] else [d]) ++ replaceLf x := by
            simp [replaceLf]
          rw [e'] at h
          by_cases hd : d = '\n'
          · subst hd; exact ⟨[], x, rfl⟩
          · rw [if_neg hd] at h
            simp only [List.cons_append, List.nil_append, List.cons.injEq] at h
            obtain ⟨_, h⟩ := h
            exfalso
            cases x with
            | nil => simp [replaceLf] at h
            | cons y x =>
              have e'' : replaceLf (y :: x) = (if y = '\n' then ['\r', '\n'] else [y]) ++ replaceLf x := by
                simp [replaceLf]
              rw [e''] at h
              by_cases hy : y = '\n'
              · rw [if_pos hy] at h; simp at h
              · rw [if_neg hy] at h
                simp only [List.cons_append, List.nil_append, List.cons.injEq] at h
                exact hy h.1
      | [p] => simp at h
      | p :: q :: a =>
        simp only [List.cons_append, List.nil_append, List.cons.injEq] at h
        exact lift (ih a b h.2.2)
    · rw [if_neg hc] at h
      match a with
      | [] =>
        simp only [List.nil_append, List.cons_append, List.cons.injEq] at h
        obtain ⟨_, h⟩ := h
        exfalso
        cases x with
        | nil => simp [replaceLf] at h
        | cons y x =>
          have e'' : replaceLf (y :: x) = (if y = '\n' then ['\r', '\n'] else [y]) ++ replaceLf x := by
            simp [replaceLf]
          rw [e''] at h
          by_cases hy : y = '\n'
          · rw [if_pos hy] at h; simp at h
          · rw [if_neg hy] at h
            simp only [List.cons_append, List.nil_append, List.cons.injEq] at h
            exact hy h.1
      | p :: a =>
        simp only [List.cons_append, List.nil_append, List.cons.injEq] at h
        exact lift (ih a b h.2)

theorem replaceLf_length (x : Str) : (utf8 (replaceLf x)).length ≤ 2 * (utf8 x).length := by
  induction x with
  | nil => exact Nat.le_refl _
  | cons c x ih =>
    have e : replaceLf (c :: x) = (if c = '\n' then ['\r', '\n'] else [c]) ++ replaceLf x := by
      simp [replaceLf]
    have e2 : utf8 (c :: x) = utf8 [c] ++ utf8 x := by rw [← utf8_append]; rfl
    rw [e, e2, utf8_append, List.length_append, List.length_append]
    split
    · next h => subst h; have : (utf8 ['\r', '\n']).length = 2 ∧ (utf8 ['\n']).length = 1 := by decide
                omega
    · omega

end Dkim
