import Verif.Proofs.TagList
import Verif.Proofs.Qp
import Verif.Proofs.Domain
import Verif.Spec.Signature

/-! Helper lemmas about tag values: whitespace, colon-separated lists,
Quoted-Printable and numbers. -/

namespace Dkim

open Spec

/-- What can be the value of a tag. -/
def IsValue (v : Str) : Prop := v = [] ∨ SomeValue v

theorem unfws_eq (s : Str) : unfws s = s.filter fun c => !isFwsChar c := rfl

theorem unfws_clean (s : Str) : Clean (unfws s) := by
  intro c hc hf
  rw [unfws_eq, List.mem_filter, (isFwsChar_iff c).2 hf] at hc
  simp at hc

theorem inserted_unfws {s t : Str} (h : Inserted s t) (hs : Clean s) : unfws t = s := by
  have hf : ∀ f : Str, Fws f → unfws f = [] := by
    intro f hf
    rw [unfws_eq, List.filter_eq_nil_iff]
    intro c hc
    rw [(isFwsChar_iff c).2 (fws_chars hf c hc)]; decide
  have hk : ∀ c t, ¬ fwsChar c → unfws (c :: t) = c :: unfws t := by
    intro c t hc
    have : isFwsChar c = false := by
      cases h : isFwsChar c with
      | false => rfl
      | true => exact absurd ((isFwsChar_iff c).1 h) hc
    rw [unfws_eq, List.filter_cons_of_pos (by simp [this]), unfws_eq]
  induction h with
  | nil => rfl
  | final f h => exact hf f h
  | keep c s t _ ih => rw [hk c t (hs c (by simp)), ih hs.tail]
  | insert f c s t h _ ih =>
    have e : unfws (f ++ c :: t) = unfws f ++ unfws (c :: t) := by simp [unfws]
    rw [e, hf f h, hk c t (hs c (by simp)), ih hs.tail]; rfl

theorem inserted_cons_inv {s t : Str} {d : Char} (h : Inserted s (d :: t)) (hd : ¬ fwsChar d) :
    ∃ s', s = d :: s' ∧ Inserted s' t := by
  generalize hu : d :: t = u at h
  cases h with
  | nil => simp at hu
  | final f hf => subst hu; exact absurd (fws_chars hf d (by simp)) hd
  | keep c s t' h =>
    obtain ⟨rfl, rfl⟩ := List.cons.inj hu
    exact ⟨s, rfl, h⟩
  | insert f c s t' hf h =>
    cases f with
    | nil => exact absurd rfl (fws_ne_nil hf)
    | cons e f =>
      obtain ⟨rfl, _⟩ := List.cons.inj hu
      exact absurd (fws_chars hf d (by simp)) hd

theorem inserted_keeps {s t : Str} (r : Str) (h : Inserted s t) : Inserted (r ++ s) (r ++ t) := by
  induction r with
  | nil => exact h
  | cons c r ih => exact .keep c _ _ ih

theorem someValue_inserted {v : Str} (h : SomeValue v) :
    ∃ s, (∀ c ∈ s, valChar c) ∧ Inserted s v := by
  induction h with
  | one v h => exact ⟨v, h.2, inserted_refl v⟩
  | more v f r hv hf hr ih =>
    obtain ⟨s, hs, hi⟩ := ih
    obtain ⟨t, r', ht, rfl⟩ := someValue_head hr
    obtain ⟨d, t', rfl⟩ : ∃ d t', t = d :: t' := by
      cases t with
      | nil => exact absurd rfl ht.1
      | cons d t' => exact ⟨d, t', rfl⟩
    obtain ⟨s', rfl, hi'⟩ := inserted_cons_inv hi (valChar_noFws (ht.2 d (by simp)))
    refine ⟨v ++ d :: s', ?_, ?_⟩
    · intro c hc
      rcases List.mem_append.1 hc with hc | hc
      · exact hv.2 c hc
      · exact hs c hc
    · rw [List.append_assoc]
      exact inserted_keeps v (.insert f d s' _ hf hi')

theorem isValue_inserted {v : Str} (h : IsValue v) : Inserted (unfws v) v ∧ ∀ c ∈ unfws v, valChar c := by
  rcases h with rfl | h
  · exact ⟨.nil, by simp [unfws]⟩
  · obtain ⟨s, hs, hi⟩ := someValue_inserted h
    rw [inserted_unfws hi (fun c hc => valChar_noFws (hs c hc))]
    exact ⟨hi, hs⟩

theorem inserted_split {s t a b : Str} {x : Char} (h : Inserted s t) (hx : ¬ fwsChar x)
    (e : t = a ++ x :: b) : ∃ s1 s2, s = s1 ++ x :: s2 ∧ Inserted s1 a ∧ Inserted s2 b := by
  induction h generalizing a with
  | nil => simp at e
  | final f hf => exact absurd (fws_chars hf x (by rw [e]; simp)) hx
  | keep c s t h ih =>
    cases a with
    | nil =>
      obtain ⟨rfl, rfl⟩ := List.cons.inj e
      exact ⟨[], s, rfl, .nil, h⟩
    | cons d a =>
      obtain ⟨rfl, e'⟩ := List.cons.inj e
      obtain ⟨s1, s2, rfl, h1, h2⟩ := ih e'
      exact ⟨c :: s1, s2, rfl, .keep c s1 a h1, h2⟩
  | insert f c s t hf h ih =>
    rcases List.append_eq_append_iff.1 e with ⟨a', rfl, e2⟩ | ⟨c', e1, e2⟩
    · cases a' with
      | nil =>
        obtain ⟨rfl, rfl⟩ := List.cons.inj e2
        exact ⟨[], s, rfl, by simpa using Inserted.final f hf, h⟩
      | cons d a' =>
        obtain ⟨rfl, e3⟩ := List.cons.inj e2
        obtain ⟨s1, s2, rfl, h1, h2⟩ := ih e3
        exact ⟨c :: s1, s2, rfl, .insert f c s1 a' hf h1, h2⟩
    · cases c' with
      | nil =>
        obtain ⟨rfl, rfl⟩ := List.cons.inj e2
        rw [List.append_nil] at e1
        subst e1
        exact ⟨[], s, rfl, .final f hf, h⟩
      | cons d c' =>
        obtain ⟨rfl, _⟩ := List.cons.inj e2
        exact absurd (fws_chars hf x (by rw [e1]; simp)) hx

/-- Every list is either free of a separator or splits at the first one. -/
theorem first_sep {α : Type} [DecidableEq α] (x : α) (t : List α) :
    x ∉ t ∨ ∃ a b, t = a ++ x :: b ∧ x ∉ a := by
  cases h : splitOnce x t with
  | none =>
    left
    induction t with
    | nil => simp
    | cons c r ih =>
      rw [splitOnce] at h
      split at h
      · simp at h
      · next hc =>
        rw [List.mem_cons, not_or]
        refine ⟨fun e => hc e.symm, ih ?_⟩
        cases h2 : splitOnce x r with
        | none => rfl
        | some p => rw [h2] at h; simp at h
  | some p => right; exact ⟨p.1, p.2, splitOnce_some h⟩

/-- Induction over the pieces of a text. -/
theorem split_induction {α : Type} [DecidableEq α] (x : α) {P : List α → Prop}
    (one : ∀ p, x ∉ p → P p) (more : ∀ p r, x ∉ p → P r → P (p ++ x :: r)) (t : List α) : P t := by
  generalize hn : t.length = n
  induction n using Nat.strongRecOn generalizing t with
  | ind n ih =>
    rcases first_sep x t with h | ⟨a, b, rfl, h⟩
    · exact one t h
    · exact more a b h (ih b.length (by simp at hn; omega) b rfl)

theorem splitOn_inserted {x : Char} (hx : ¬ fwsChar x) {s t : Str} (h : Inserted s t) :
    ∀ p ∈ splitOn x t, ∃ s', Inserted s' p ∧ ∀ c ∈ s', c ∈ s := by
  induction t using split_induction x generalizing s with
  | one p hp =>
    rw [splitOn_single x p hp]
    intro q hq
    simp only [List.mem_singleton] at hq
    subst hq
    exact ⟨s, h, fun c hc => hc⟩
  | more p r hp ih =>
    rw [splitOn_cons x p r hp]
    obtain ⟨s1, s2, rfl, h1, h2⟩ := inserted_split h hx rfl
    intro q hq
    rcases List.mem_cons.1 hq with rfl | hq
    · exact ⟨s1, h1, fun c hc => by simp [hc]⟩
    · obtain ⟨s', hs', hc'⟩ := ih h2 q hq
      exact ⟨s', hs', fun c hc => by simp [hc' c hc]⟩

/-! ### Trimming -/

theorem rstripWsp_ws {w r : Str} (hne : w ≠ []) (hw : ∀ c ∈ w, wsp c)
    (hr : NotStart isWspChar r.reverse) : rstripWsp (r ++ w) = some r := by
  rw [rstripWsp, List.reverse_append, stripWsp_ws (by simpa using hne) (by simpa using hw) hr]
  simp

theorem rstripWsp_none {s : Str} (h : NotStart isWspChar s.reverse) : rstripWsp s = none := by
  rw [rstripWsp, stripWsp_none h]; rfl

theorem rstripWsp_some {s r : Str} (h : rstripWsp s = some r) :
    ∃ w, w ≠ [] ∧ (∀ c ∈ w, wsp c) ∧ s = r ++ w := by
  rw [rstripWsp, Option.map_eq_some_iff] at h
  obtain ⟨r', h, rfl⟩ := h
  obtain ⟨w, hne, hw, e, _⟩ := stripWsp_some h
  refine ⟨w.reverse, by simpa using hne, by simpa using hw, ?_⟩
  rw [← List.reverse_append, ← e, List.reverse_reverse]

theorem rstripCrlf_some {s r : Str} (h : rstripCrlf s = some r) : s = r ++ ['\r', '\n'] := by
  unfold rstripCrlf at h
  split at h
  · next r' e =>
    simp at h
    subst h
    have := congrArg List.reverse e
    simpa using this
  · simp at h

theorem rstripFws_some {s r : Str} (h : rstripFws s = some r) : ∃ f, Fws f ∧ s = r ++ f := by
  unfold rstripFws at h
  split at h
  · simp at h
  · next s' h1 =>
    obtain ⟨w, hne, hw, rfl⟩ := rstripWsp_some h1
    split at h
    · next s2 h2 =>
      have := rstripCrlf_some h2
      subst this
      cases h3 : rstripWsp s2 with
      | none =>
        rw [h3] at h; simp at h; subst h
        exact ⟨[] ++ '\r' :: '\n' :: w, .folded [] w (by simp) hne hw, by simp⟩
      | some s3 =>
        rw [h3] at h; simp at h; subst h
        obtain ⟨v, _, hv, rfl⟩ := rstripWsp_some h3
        exact ⟨v ++ '\r' :: '\n' :: w, .folded v w hv hne hw, by simp⟩
    · simp at h
      subst h
      exact ⟨w, .plain w hne hw, rfl⟩

theorem trimmed_notStart_rev {n : Str} (h : Trimmed n) : NotStart isWspChar n.reverse ∧
    ∀ r, n.reverse ≠ '\n' :: r := by
  constructor
  · intro c r e
    have e2 : n = r.reverse ++ [c] := by
      have := congrArg List.reverse e; simpa using this
    cases hw : isWspChar c with
    | false => rfl
    | true =>
      exfalso
      refine h.2 c _ e2 ?_
      rcases (isWspChar_iff c).1 hw with h | h
      · exact Or.inl h
      · exact Or.inr (Or.inl h)
  · intro r e
    have e2 : n = r.reverse ++ ['\n'] := by
      have := congrArg List.reverse e; simpa using this
    exact h.2 _ _ e2 (Or.inr (Or.inr (Or.inr rfl)))

theorem rstripFws_fws {n f : Str} (hn : Trimmed n) (hf : Fws f) (hne : n ≠ []) :
    rstripFws (n ++ f) = some n := by
  obtain ⟨h1, h2⟩ := trimmed_notStart_rev hn
  have hlf : rstripCrlf n = none := by
    unfold rstripCrlf
    split
    · next r e => exact absurd e (h2 _)
    · rfl
  unfold rstripFws
  cases hf with
  | plain w hne' hw =>
    rw [rstripWsp_ws hne' hw h1]
    simp only
    rw [hlf]
  | folded v w hv hne' hw =>
    have e : n ++ (v ++ '\r' :: '\n' :: w) = (n ++ v ++ ['\r', '\n']) ++ w := by simp
    rw [e, rstripWsp_ws hne' hw (by
      intro c r e
      simp at e
      rw [← e.1]; decide)]
    simp only
    have : rstripCrlf (n ++ v ++ ['\r', '\n']) = some (n ++ v) := by simp [rstripCrlf]
    rw [this]
    simp only
    by_cases hv0 : v = []
    · subst hv0
      rw [List.append_nil, rstripWsp_none h1]; rfl
    · rw [rstripWsp_ws hv0 hv h1]; rfl

theorem rstripFws_none {n : Str} (hn : Trimmed n) : rstripFws n = none := by
  unfold rstripFws
  rw [rstripWsp_none (trimmed_notStart_rev hn).1]

theorem trimmed_noFws {n : Str} (hn : Trimmed n) (hne : n ≠ []) (r : Str) : NoFws (n ++ r) := by
  cases n with
  | nil => exact absurd rfl hne
  | cons c n => exact noFws_cons (hn.1 c n rfl)

theorem trimFws_item {f n g : Str} (hf : OptFws f) (hg : OptFws g) (hn : Trimmed n) (hne : n ≠ []) :
    trimFws (f ++ n ++ g) = n := by
  unfold trimFws
  rw [List.append_assoc, skipFws_opt hf (trimmed_noFws hn hne g)]
  rcases hg with rfl | hg
  · simp [rstripFws_none hn]
  · simp [rstripFws_fws hn hg hne]

theorem trimFws_fws {f : Str} (hf : OptFws f) : trimFws f = [] := by
  have := skipFws_opt hf noFws_nil
  rw [List.append_nil] at this
  unfold trimFws
  simp only [this]
  decide

theorem trimFws_split (s : Str) : ∃ f g, OptFws f ∧ OptFws g ∧ s = f ++ trimFws s ++ g := by
  obtain ⟨f, hf, e⟩ := skipFws_some s
  unfold trimFws
  cases h : rstripFws (skipFws s) with
  | none => exact ⟨f, [], hf, Or.inl rfl, by simp only [h]; simpa using e⟩
  | some r =>
    obtain ⟨g, hg, e2⟩ := rstripFws_some h
    refine ⟨f, g, hf, Or.inr hg, ?_⟩
    simp only [h]
    rw [e2] at e
    simpa using e

/-- Text with insertions is an item surrounded by FWS. -/
theorem inserted_shape {s t : Str} (h : Inserted s t) (hs : Clean s) :
    ∃ f n g, OptFws f ∧ OptFws g ∧ Trimmed n ∧ t = f ++ n ++ g ∧ (n = [] → g = [] ∧ s = []) := by
  have single : ∀ c, ¬ fwsChar c → Trimmed [c] := by
    intro c hc
    constructor
    · intro d r e; obtain ⟨rfl, _⟩ := List.cons.inj e; exact hc
    · intro d r e
      cases r with
      | nil => simp at e; rw [← e]; exact hc
      | cons _ r => simp at e
  have extend : ∀ c (f n : Str), ¬ fwsChar c → n ≠ [] → Trimmed n → Trimmed (c :: (f ++ n)) := by
    intro c f n hc hne hn
    constructor
    · intro d r e; obtain ⟨rfl, _⟩ := List.cons.inj e; exact hc
    · intro d r e
      obtain ⟨n', d', rfl⟩ : ∃ n' d', n = n' ++ [d'] := by
        rcases List.eq_nil_or_concat n with h | ⟨n', d', h⟩
        · exact absurd h hne
        · exact ⟨n', d', by simpa using h⟩
      have e2 : (c :: (f ++ n')) ++ [d'] = r ++ [d] := by simpa using e
      have := List.append_inj' e2 rfl
      have e3 : d' = d := by simpa using this.2
      rw [← e3]
      exact hn.2 d' n' rfl
  have tnil : Trimmed [] := ⟨by intro c r e; simp at e, by intro c r e; simp at e⟩
  induction h with
  | nil => exact ⟨[], [], [], Or.inl rfl, Or.inl rfl, tnil, rfl, by simp⟩
  | final f hf => exact ⟨f, [], [], Or.inr hf, Or.inl rfl, tnil, by simp, by simp⟩
  | keep c s t h ih =>
    obtain ⟨f, n, g, hf, hg, hn, rfl, h0⟩ := ih hs.tail
    have hc := hs c (by simp)
    by_cases hne : n = []
    · obtain ⟨rfl, rfl⟩ := h0 hne
      subst hne
      exact ⟨[], [c], f, Or.inl rfl, hf, single c hc, by simp, by simp⟩
    · exact ⟨[], c :: (f ++ n), g, Or.inl rfl, hg, extend c f n hc hne hn, by simp, by simp⟩
  | insert f' c s t hf' h ih =>
    obtain ⟨f, n, g, hf, hg, hn, rfl, h0⟩ := ih hs.tail
    have hc := hs c (by simp)
    by_cases hne : n = []
    · obtain ⟨rfl, rfl⟩ := h0 hne
      subst hne
      exact ⟨f', [c], f, Or.inr hf', hf, single c hc, by simp, by simp⟩
    · exact ⟨f', c :: (f ++ n), g, Or.inr hf', hg, extend c f n hc hne hn, by simp, by simp⟩

theorem trimmed_trimFws {s t : Str} (h : Inserted s t) (hs : Clean s) : Trimmed (trimFws t) := by
  obtain ⟨f, n, g, hf, hg, hn, rfl, h0⟩ := inserted_shape h hs
  by_cases hne : n = []
  · obtain ⟨rfl, rfl⟩ := h0 hne
    subst hne
    rw [List.append_nil, List.append_nil, trimFws_fws hf]
    exact hn
  · rw [trimFws_item hf hg hn hne]; exact hn

/-! ### Colon-separated lists -/

theorem parseColon_sound (v : Str) : ColonList (parseColonSeparated v) v := by
  unfold parseColonSeparated
  induction v using split_induction ':' with
  | one p hp =>
    rw [splitOn_single _ p hp]
    obtain ⟨f, g, hf, hg, e⟩ := trimFws_split p
    have := ColonList.one f (trimFws p) g hf hg
    rwa [← e] at this
  | more p r hp ih =>
    rw [splitOn_cons _ p r hp]
    obtain ⟨f, g, hf, hg, e⟩ := trimFws_split p
    have := ColonList.more f (trimFws p) g _ r hf hg ih
    rwa [← e] at this

theorem optFws_noColon {f : Str} (hf : OptFws f) : ':' ∉ f := by
  rcases hf with rfl | hf
  · simp
  · intro h
    have := fws_chars hf ':' h
    revert this
    simp [fwsChar]

theorem parseColon_complete {items : List Str} {v : Str} (h : ColonList items v)
    (hi : ∀ i ∈ items, i ≠ [] ∧ Trimmed i ∧ ':' ∉ i) : parseColonSeparated v = items := by
  unfold parseColonSeparated
  induction h with
  | one f n g hf hg =>
    obtain ⟨h1, h2, h3⟩ := hi n (by simp)
    rw [splitOn_single]
    · rw [List.map_singleton, trimFws_item hf hg h2 h1]
    · simp only [List.mem_append, not_or]
      exact ⟨⟨optFws_noColon hf, h3⟩, optFws_noColon hg⟩
  | more f n g ns s hf hg _ ih =>
    obtain ⟨h1, h2, h3⟩ := hi n (by simp)
    rw [splitOn_cons]
    · rw [List.map_cons, trimFws_item hf hg h2 h1, ih (fun i h => hi i (by simp [h]))]
    · simp only [List.mem_append, not_or]
      exact ⟨⟨optFws_noColon hf, h3⟩, optFws_noColon hg⟩

theorem trimFws_sub (p : Str) : ∀ c ∈ trimFws p, c ∈ p := by
  obtain ⟨f, g, _, _, e⟩ := trimFws_split p
  intro c hc
  rw [e]; simp [hc]

theorem parseColon_items {v : Str} (h : IsValue v) :
    ∀ i ∈ parseColonSeparated v, Trimmed i ∧ ':' ∉ i := by
  obtain ⟨h1, h2⟩ := isValue_inserted h
  unfold parseColonSeparated
  intro i hi
  obtain ⟨p, hp, rfl⟩ := List.mem_map.1 hi
  obtain ⟨s', hs', hc'⟩ := splitOn_inserted (x := ':') (by simp [fwsChar]) h1 p hp
  refine ⟨trimmed_trimFws hs' (fun c hc => unfws_clean v c (hc' c hc)), ?_⟩
  intro hm
  exact splitOn_not_mem ':' v p hp (trimFws_sub p _ hm)

theorem validName_trimmed {n : Str} (h : ValidName n) : n ≠ [] ∧ Trimmed n ∧ ':' ∉ n := by
  have hf : ∀ c ∈ n, ¬ fwsChar c := by
    intro c hc hf
    have := h.2 c hc
    rcases hf with rfl | rfl | rfl | rfl <;> revert this <;> decide
  refine ⟨h.1, ⟨?_, ?_⟩, ?_⟩
  · rintro c r rfl; exact hf c (by simp)
  · rintro c r rfl; exact hf c (by simp)
  · intro hm; exact (h.2 _ hm).2.2 rfl

/-! ### Quoted-Printable -/

theorem hexVal_spec (c : Char) (n : Nat) : hexVal c = some n ↔ HexVal c n := by
  unfold hexVal HexVal
  split
  · next h => simp [isAsciiDigit] at h; simp; omega
  · next h1 =>
    simp only [isAsciiDigit, Bool.and_eq_true, decide_eq_true_eq] at h1
    split
    · next h => simp at h; simp; omega
    · next h2 =>
      simp only [Bool.and_eq_true, decide_eq_true_eq] at h2
      split
      · next h => simp at h; simp; omega
      · next h3 =>
        simp only [Bool.and_eq_true, decide_eq_true_eq] at h3
        simp; omega

theorem dkimSafe_iff (c : Char) : isDkimSafe c = true ↔ dkimSafe c := by
  rw [isDkimSafe_iff]
  simp only [dkimSafe, char_eq_iff]

theorem utf8_single (c : Char) : utf8 [c] = String.utf8EncodeChar c := by simp [utf8]

theorem qpRef_iff (s : Str) (bs : Bytes) : qpRef s = some bs ↔ QpBytes s bs := by
  constructor
  · intro h
    induction s using qpRef.induct generalizing bs with
    | case1 => simp [qpRef] at h; subst h; exact .nil
    | case2 a b r x y hb ha ih =>
      rw [qpRef_hex a b r x y ha hb, Option.map_eq_some_iff] at h
      obtain ⟨bs', h, rfl⟩ := h
      exact .hex a b x y r bs' ((hexVal_spec a x).1 ha) ((hexVal_spec b y).1 hb) (ih bs' h)
    | case3 a b r hn =>
      rw [qpRef.eq_def] at h
      simp only [if_true] at h
      simp at h
    | case4 r hn =>
      rw [qpRef.eq_def] at h
      simp only [if_true] at h
      simp at h
    | case5 c r hc hs ih =>
      rw [qpRef.eq_def] at h
      simp only [hc, if_false, hs, if_true] at h
      rw [Option.map_eq_some_iff] at h
      obtain ⟨bs', h, rfl⟩ := h
      rw [← utf8_single]
      exact .char c r bs' ((dkimSafe_iff c).1 hs) (ih bs' h)
    | case6 c r hc hs =>
      rw [qpRef.eq_def] at h
      simp [hc, hs] at h
  · intro h
    induction h with
    | nil => rfl
    | char c s bs hc _ ih =>
      have hc' := (dkimSafe_iff c).2 hc
      have := qpRef_safe (run := [c]) (r := s) (by simpa using hc')
      rw [List.singleton_append] at this
      rw [this, ih]; rfl
    | hex a b x y s bs ha hb _ ih =>
      rw [qpRef_hex a b s x y ((hexVal_spec a x).2 ha) ((hexVal_spec b y).2 hb), ih]; rfl

theorem qpDecode_exact {s t : Str} (hs : Clean s) (h : Inserted s t) (bs : Bytes) :
    qpDecode t = .ok bs ↔ QpBytes (unfws t) bs := by
  rw [qpDecode_inserted hs h, inserted_unfws h hs, ← qpRef_iff]
  cases qpRef s <;> simp [qpOut]

theorem qpDecode_noPanic {s t : Str} (hs : Clean s) (h : Inserted s t) : qpDecode t ≠ .panic := by
  rw [qpDecode_inserted hs h]
  cases qpRef s <;> simp [qpOut]

/-! ### Numbers -/

theorem digitsVal_eq (s : Str) : digitsVal s = decimalVal s := by
  have key : ∀ (s : Str) (n : Nat),
      s.foldl (fun n c => n * 10 + (c.toNat - 48)) n = n * 10 ^ s.length + decimalVal s := by
    intro s
    induction s with
    | nil => intro n; simp [decimalVal]
    | cons c s ih =>
      intro n
      rw [List.foldl_cons, ih, decimalVal, List.length_cons, Nat.pow_succ, Nat.add_mul,
        Nat.mul_assoc, Nat.mul_comm 10]
      omega
  rw [digitsVal, key]; simp

theorem digits_all (s : Str) : s.all isAsciiDigit = true ↔ ∀ c ∈ s, digit c := by
  simp [List.all_eq_true, isAsciiDigit, digit]

theorem parseU64_digits (ds : Str) (n : Nat) :
    (if ds.isEmpty || !ds.all isAsciiDigit then none
      else if digitsVal ds ≤ u64Max then some (digitsVal ds) else none) = some n ↔ Decimal ds n := by
  unfold Decimal
  rw [← digits_all, ← digitsVal_eq]
  have hu : u64Max < 2 ^ 64 ∧ ∀ k, k < 2 ^ 64 → k ≤ u64Max := by
    constructor
    · decide
    · intro k; unfold u64Max; omega
  by_cases h1 : ds = []
  · simp [h1]
  · have h1' : ds.isEmpty = false := by cases ds <;> simp_all
    cases h2 : ds.all isAsciiDigit with
    | false => simp [h1']
    | true =>
      simp only [h1', Bool.not_true, Bool.or_self, Bool.false_eq_true, if_false]
      by_cases h3 : digitsVal ds ≤ u64Max
      · rw [if_pos h3]
        simp only [Option.some.injEq]
        constructor
        · rintro rfl; exact ⟨h1, trivial, rfl, by omega⟩
        · rintro ⟨_, _, rfl, _⟩; rfl
      · rw [if_neg h3]
        simp only [reduceCtorEq, false_iff, not_and]
        rintro _ _ rfl h4
        exact h3 (hu.2 _ h4)

theorem parseU64_iff (s : Str) (n : Nat) : parseU64 s = some n ↔ PlusDecimal s n := by
  unfold parseU64 PlusDecimal
  have plus : ∀ r n, ¬ Decimal ('+' :: r) n := by
    intro r n h
    have := h.2.1 '+' (by simp)
    simp [digit] at this
  split
  · next r =>
    rw [parseU64_digits]
    constructor
    · intro h; exact Or.inr ⟨r, rfl, h⟩
    · rintro (h | ⟨ds, e, h⟩)
      · exact absurd h (plus r n)
      · rw [(List.cons.inj e).2]; exact h
  · next hr =>
    rw [parseU64_digits]
    constructor
    · intro h; exact Or.inl h
    · rintro (h | ⟨ds, e, h⟩)
      · exact h
      · exact absurd e (hr ds)

end Dkim
