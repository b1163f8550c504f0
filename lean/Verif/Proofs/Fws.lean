import Verif.Proofs.HeaderText
import Verif.Model.TagList
import Verif.Spec.TagList

/-! Helper lemmas about folding whitespace. -/

namespace Dkim

open Spec

theorem isWspChar_iff (c : Char) : isWspChar c = true ↔ wsp c := by
  simp [isWspChar, wsp]

theorem isFwsChar_iff (c : Char) : isFwsChar c = true ↔ fwsChar c := by
  simp [isFwsChar, fwsChar, or_assoc]

theorem dropWhile_all {α : Type} {p : α → Bool} (l r : List α) (h : ∀ c ∈ l, p c = true) :
    (l ++ r).dropWhile p = r.dropWhile p := by
  induction l with
  | nil => rfl
  | cons c l ih => simp [h c (by simp), ih (fun d hd => h d (by simp [hd]))]

theorem takeWhile_append_all {α : Type} {p : α → Bool} (l r : List α) (h : ∀ c ∈ l, p c = true) :
    (l ++ r).takeWhile p = l ++ r.takeWhile p := by
  induction l with
  | nil => rfl
  | cons c l ih => simp [h c (by simp), ih (fun d hd => h d (by simp [hd]))]

/-- `s` does not start with a character satisfying `p`. -/
def NotStart {α : Type} (p : α → Bool) (s : List α) : Prop := ∀ c r, s = c :: r → p c = false

theorem dropWhile_notStart {α : Type} {p : α → Bool} {s : List α} (h : NotStart p s) :
    s.dropWhile p = s := by
  cases s with
  | nil => rfl
  | cons c r => simp [h c r rfl]

theorem takeWhile_notStart {α : Type} {p : α → Bool} {s : List α} (h : NotStart p s) :
    s.takeWhile p = [] := by
  cases s with
  | nil => rfl
  | cons c r => simp [h c r rfl]

theorem notStart_dropWhile {α : Type} (p : α → Bool) (s : List α) : NotStart p (s.dropWhile p) := by
  induction s with
  | nil => intro c r h; simp at h
  | cons d s ih =>
    by_cases hd : p d = true
    · simp only [List.dropWhile_cons, hd, if_true]; exact ih
    · intro c r h
      simp [hd] at h
      obtain ⟨rfl, _⟩ := h
      simpa using hd

theorem takeWhile_forall {α : Type} (p : α → Bool) (s : List α) : ∀ c ∈ s.takeWhile p, p c = true := by
  induction s with
  | nil => simp
  | cons d s ih =>
    by_cases hd : p d = true
    · simp only [List.takeWhile_cons, hd, if_true, List.mem_cons]
      rintro c (rfl | h)
      · exact hd
      · exact ih c h
    · simp [hd]

/-- `s` does not start with WSP nor CR. -/
def NoFws (s : Str) : Prop := ∀ c r, s = c :: r → isWspChar c = false ∧ c ≠ '\r'

theorem NoFws.notStart {s : Str} (h : NoFws s) : NotStart isWspChar s := fun c r e => (h c r e).1

theorem noFws_nil : NoFws [] := by intro c r h; simp at h

theorem noFws_cons {c : Char} {r : Str} (h : fwsChar c → False) : NoFws (c :: r) := by
  intro d s e
  obtain ⟨rfl, rfl⟩ := List.cons.inj e
  constructor
  · cases hw : isWspChar c with
    | false => rfl
    | true =>
      exfalso; apply h
      rcases (isWspChar_iff c).1 hw with h | h
      · exact Or.inl h
      · exact Or.inr (Or.inl h)
  · rintro rfl; exact h (Or.inr (Or.inr (Or.inl rfl)))

theorem stripWsp_ws {w r : Str} (hne : w ≠ []) (hw : ∀ c ∈ w, wsp c) (hr : NotStart isWspChar r) :
    stripWsp (w ++ r) = some r := by
  cases w with
  | nil => exact absurd rfl hne
  | cons c w =>
    rw [List.cons_append, stripWsp, if_pos ((isWspChar_iff c).2 (hw c (by simp))),
      dropWhile_all _ _ (fun d hd => (isWspChar_iff d).2 (hw d (by simp [hd]))), dropWhile_notStart hr]

theorem stripWsp_none {s : Str} (h : NotStart isWspChar s) : stripWsp s = none := by
  cases s with
  | nil => rfl
  | cons c r => simp [stripWsp, h c r rfl]

theorem stripWsp_some {s r : Str} (h : stripWsp s = some r) :
    ∃ w, w ≠ [] ∧ (∀ c ∈ w, wsp c) ∧ s = w ++ r ∧ NotStart isWspChar r := by
  cases s with
  | nil => simp [stripWsp] at h
  | cons c s =>
    rw [stripWsp] at h
    split at h
    · next hc =>
      simp at h; subst h
      refine ⟨c :: s.takeWhile isWspChar, by simp, ?_, by simp, notStart_dropWhile _ _⟩
      intro d hd
      rcases List.mem_cons.1 hd with rfl | hd
      · exact (isWspChar_iff _).1 hc
      · exact (isWspChar_iff _).1 (takeWhile_forall _ _ d hd)
    · simp at h

theorem stripCrlf_none {s : Str} (h : ∀ r, s ≠ '\r' :: r) : stripCrlf s = none := by
  unfold stripCrlf
  split
  · exact absurd rfl (h _)
  · rfl

theorem stripCrlf_some {s r : Str} (h : stripCrlf s = some r) : s = '\r' :: '\n' :: r := by
  unfold stripCrlf at h
  split at h
  · simp at h; rw [h]
  · simp at h

/-- FWS is stripped when followed by something that cannot continue it. -/
theorem stripFws_fws {f r : Str} (hf : Fws f) (hr : NoFws r) : stripFws (f ++ r) = some r := by
  have hcr : stripCrlf r = none := stripCrlf_none fun r' e => (hr '\r' r' e).2 rfl
  cases hf with
  | plain w hne hw =>
    rw [stripFws, stripWsp_ws hne hw hr.notStart]
    simp [hcr]
  | folded v w hv hne hw =>
    have hn : NotStart isWspChar ('\r' :: '\n' :: (w ++ r)) := by
      intro c s e; obtain ⟨rfl, _⟩ := List.cons.inj e; decide
    rw [List.append_assoc, List.cons_append, List.cons_append]
    cases v with
    | nil =>
      rw [List.nil_append, stripFws, stripWsp_none hn]
      simp [stripCrlf, stripWsp_ws hne hw hr.notStart]
    | cons c v =>
      rw [stripFws, stripWsp_ws (by simp) hv hn]
      simp [stripCrlf, stripWsp_ws hne hw hr.notStart]

theorem stripFws_none {s : Str} (h : NoFws s) : stripFws s = none := by
  rw [stripFws, stripWsp_none h.notStart, stripCrlf_none fun r' e => (h '\r' r' e).2 rfl]
  rfl

theorem stripFws_some {s r : Str} (h : stripFws s = some r) : ∃ f, Fws f ∧ s = f ++ r := by
  unfold stripFws at h
  cases h1 : stripWsp s with
  | none =>
    rw [h1] at h
    simp only at h
    cases h2 : stripCrlf s with
    | none => rw [h2] at h; simp at h
    | some s' =>
      rw [h2] at h
      simp only [Option.bind_some] at h
      obtain ⟨w, hne, hw, rfl, _⟩ := stripWsp_some h
      exact ⟨[] ++ '\r' :: '\n' :: w, .folded [] w (by simp) hne hw, by rw [stripCrlf_some h2]; simp⟩
  | some s' =>
    rw [h1] at h
    simp only at h
    obtain ⟨v, hvne, hv, rfl, _⟩ := stripWsp_some h1
    cases h2 : (stripCrlf s').bind stripWsp with
    | none =>
      rw [h2] at h; simp at h; subst h
      exact ⟨v, .plain v hvne hv, rfl⟩
    | some s'' =>
      rw [h2] at h; simp at h; subst h
      cases h3 : stripCrlf s' with
      | none => rw [h3] at h2; simp at h2
      | some s3 =>
        rw [h3] at h2
        simp only [Option.bind_some] at h2
        obtain ⟨w, hne, hw, rfl, _⟩ := stripWsp_some h2
        exact ⟨v ++ '\r' :: '\n' :: w, .folded v w hv hne hw, by rw [stripCrlf_some h3]; simp⟩

theorem skipFws_opt {f r : Str} (hf : OptFws f) (hr : NoFws r) : skipFws (f ++ r) = r := by
  unfold skipFws
  rcases hf with rfl | hf
  · rw [List.nil_append, stripFws_none hr]; rfl
  · rw [stripFws_fws hf hr]; rfl

theorem skipFws_some (s : Str) : ∃ f, OptFws f ∧ s = f ++ skipFws s := by
  unfold skipFws
  cases h : stripFws s with
  | none => exact ⟨[], Or.inl rfl, by simp⟩
  | some r =>
    obtain ⟨f, hf, rfl⟩ := stripFws_some h
    exact ⟨f, Or.inr hf, by simp⟩

theorem fws_ne_nil {f : Str} (h : Fws f) : f ≠ [] := by
  cases h with
  | plain w hne _ => exact hne
  | folded v w _ _ _ => simp

/-- FWS starts with a whitespace character or CR. -/
theorem fws_head {f : Str} (h : Fws f) : ∃ c r, f = c :: r ∧ (isWspChar c = true ∨ c = '\r') := by
  cases h with
  | plain w hne hw =>
    cases f with
    | nil => exact absurd rfl hne
    | cons c r => exact ⟨c, r, rfl, Or.inl ((isWspChar_iff c).2 (hw c (by simp)))⟩
  | folded v w hv hne hw =>
    cases v with
    | nil => exact ⟨'\r', '\n' :: w, rfl, Or.inr rfl⟩
    | cons c v => exact ⟨c, v ++ '\r' :: '\n' :: w, rfl, Or.inl ((isWspChar_iff c).2 (hv c (by simp)))⟩

theorem fws_chars {f : Str} (h : Fws f) : ∀ c ∈ f, fwsChar c := by
  have hw : ∀ c, wsp c → fwsChar c := by
    rintro c (h | h)
    · exact Or.inl h
    · exact Or.inr (Or.inl h)
  cases h with
  | plain w hne h => intro c hc; exact hw c (h c hc)
  | folded v w hv hne h =>
    intro c hc
    simp only [List.mem_append, List.mem_cons] at hc
    rcases hc with hc | rfl | rfl | hc
    · exact hw c (hv c hc)
    · exact Or.inr (Or.inr (Or.inl rfl))
    · exact Or.inr (Or.inr (Or.inr rfl))
    · exact hw c (h c hc)

theorem stripSuffix_append (a b : Str) : stripSuffix (a ++ b) b = a := by
  simp [stripSuffix]

end Dkim
