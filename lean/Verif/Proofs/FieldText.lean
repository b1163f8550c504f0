import Verif.Proofs.FormatOut

/-!
# The formatted text as the body of a header field: helper lemmas for C17
-/

namespace Dkim

open Spec

/-- A character that is neither whitespace nor a control character. -/
def solidChar (c : Char) : Prop := valChar c ∨ c = ';'

/-- Text with proper folds. -/
inductive FoldedText : Str → Prop
  | nil : FoldedText []
  | solid (c : Char) (s : Str) : solidChar c → FoldedText s → FoldedText (c :: s)
  | space (c : Char) (s : Str) : wsp c → FoldedText s → FoldedText (c :: s)
  | fold (w : Str) (c : Char) (s : Str) : w ≠ [] → (∀ d ∈ w, wsp d) → solidChar c → FoldedText s →
      FoldedText ('\r' :: '\n' :: (w ++ c :: s))

theorem FoldedText.append {s t : Str} (h : FoldedText s) (h' : FoldedText t) : FoldedText (s ++ t) := by
  induction h with
  | nil => exact h'
  | solid c s hc _ ih => exact .solid c _ hc ih
  | space c s hc _ ih => exact .space c _ hc ih
  | fold w c s h1 h2 h3 _ ih => simpa using FoldedText.fold w c _ h1 h2 h3 ih

theorem FoldedText.solids {s : Str} (h : ∀ c ∈ s, solidChar c) : FoldedText s := by
  induction s with
  | nil => exact .nil
  | cons c s ih => exact .solid c s (h c (by simp)) (ih fun d hd => h d (by simp [hd]))

theorem FoldedText.spaces {w s : Str} (h : ∀ c ∈ w, wsp c) (hs : FoldedText s) : FoldedText (w ++ s) := by
  induction w with
  | nil => exact hs
  | cons c w ih => exact .space c _ (h c (by simp)) (ih fun d hd => h d (by simp [hd]))

theorem FoldedText.fws {f : Str} {c : Char} {s : Str} (hf : Fws f) (hc : solidChar c) (hs : FoldedText s) :
    FoldedText (f ++ c :: s) := by
  cases hf with
  | plain _ _ h => exact .spaces h (.solid c s hc hs)
  | folded v w hv hne hw =>
    simpa using FoldedText.spaces hv (.fold w c s hne hw hc hs)

theorem FoldedText.optFws {f : Str} {c : Char} {s : Str} (hf : OptFws f) (hc : solidChar c) (hs : FoldedText s) :
    FoldedText (f ++ c :: s) := by
  rcases hf with rfl | hf
  · exact .solid c s hc hs
  · exact .fws hf hc hs

theorem someValue_folded {v : Str} (h : SomeValue v) : ∃ c r, v = c :: r ∧ solidChar c ∧ FoldedText r := by
  induction h with
  | one v hv =>
    cases v with
    | nil => exact absurd rfl hv.1
    | cons c r => exact ⟨c, r, rfl, .inl (hv.2 c (by simp)), .solids fun d hd => .inl (hv.2 d (by simp [hd]))⟩
  | more v f r hv hf _ ih =>
    obtain ⟨d, q, rfl, h1, h2⟩ := ih
    cases v with
    | nil => exact absurd rfl hv.1
    | cons c v =>
      refine ⟨c, v ++ f ++ d :: q, by simp, .inl (hv.2 c (by simp)), ?_⟩
      have h3 : FoldedText v := .solids fun d hd => .inl (hv.2 d (by simp [hd]))
      simpa using h3.append (.fws hf h1 h2)

theorem tagName_solid {n : Str} (h : TagName n) : ∃ c r, n = c :: r ∧ solidChar c ∧ ∀ d ∈ r, solidChar d := by
  obtain ⟨c, r, rfl, h1, h2⟩ := h
  have ne : ∀ d : Char, d.toNat ≠ 59 → d ≠ ';' := by rintro d h rfl; exact h rfl
  refine ⟨c, r, rfl, .inl (.inl ⟨by omega, by omega, ne c (by omega)⟩), ?_⟩
  intro d hd
  rcases h2 d hd with h | h | rfl
  · exact .inl (.inl ⟨by omega, by omega, ne d (by omega)⟩)
  · exact .inl (.inl ⟨by omega, by omega, ne d (by omega)⟩)
  · exact .inl (.inl (by decide))

variable {ix : Idna} {u : UnsignedSig}

theorem piece_folded (law : IdnaLaw ix) (hf : SigFine ix u) {ascii : Bool} {brk bText n p : Str} (hbrk : Fws brk)
    (hb : ValueText bText) (h : Piece ix u ascii brk bText n p) : FoldedText p := by
  cases h with
  | mk lead t hl ht =>
    obtain ⟨h1, f, v, h2, h3, rfl, h4, _⟩ := tagText_value law hf hbrk hb ht
    obtain ⟨c, r, rfl, h5, h6⟩ := tagName_solid h1
    have heq : solidChar '=' := .inl (.inl (by decide))
    have ht : FoldedText (f ++ v) := by
      rcases h3 with rfl | h3
      · rw [h4 rfl]; exact .nil
      · obtain ⟨d, q, rfl, h7, h8⟩ := someValue_folded h3
        exact .optFws h2 h7 h8
    have := FoldedText.fws (lead_optFws hbrk hl) h5 ((FoldedText.solids h6).append (.solid '=' _ heq ht))
    simpa using this

theorem closed_folded (law : IdnaLaw ix) (hf : SigFine ix u) {ascii : Bool} {brk bText : Str} (hbrk : Fws brk)
    (hb : ValueText bText) {ns : List Str} {t : Str} (h : Closed (Piece ix u ascii brk bText) ns t) :
    FoldedText t := by
  induction h with
  | nil => exact .nil
  | cons n p ns t hp _ ih => exact (piece_folded law hf hbrk hb hp).append (.solid _ _ (.inr rfl) ih)

theorem tail_folded (law : IdnaLaw ix) (hf : SigFine ix u) {ascii : Bool} {brk bText : Str} (hbrk : Fws brk)
    (hb : ValueText bText) {ns : List Str} {t : Str} (h : Tail (Piece ix u ascii brk bText) ns t) :
    FoldedText t := by
  induction h with
  | nil => exact .nil
  | cons n p ns t hp _ ih =>
    exact .solid _ _ (.inr rfl) ((piece_folded law hf hbrk hb hp).append ih)

theorem formatted_folded (law : IdnaLaw ix) (hf : SigFine ix u) {ascii : Bool} {brk bText : Str}
    (hbrk : Fws brk) (hb : ValueText bText) {names ns1 ns2 : List Str} {t1 lead t2 : Str}
    (h : Formatted (Piece ix u ascii brk bText) brk names ns1 ns2 t1 lead t2) :
    FoldedText (t1 ++ lead ++ c!"b=" ++ bText ++ t2) := by
  have hp : Piece ix u ascii brk bText c!"b" (lead ++ c!"b" ++ '=' :: bText) := .mk _ _ _ h.lead_ok .b
  have := ((closed_folded law hf hbrk hb h.before).append (piece_folded law hf hbrk hb hp)).append
    (tail_folded law hf hbrk hb h.after)
  simpa using this

/-- Such text is accepted as the body of a header field. -/
theorem FoldedText.validBody {s : Str} (h : FoldedText s) : ValidBody (utf8 s) := by
  have solid : ∀ c, solidChar c → cleanLine (String.utf8EncodeChar c) ∧
      ∀ b ∈ String.utf8EncodeChar c, isWsp b = false := by
    intro c hc
    by_cases ha : c.toNat < 128
    · have hc' : 33 ≤ c.toNat ∧ c.toNat ≤ 126 := by
        rcases hc with (h | h) | rfl
        · exact ⟨h.1, h.2.1⟩
        · omega
        · decide
      have hb : ∀ b ∈ String.utf8EncodeChar c, b.toNat = c.toNat := by
        intro b hb
        rw [encodeChar_ascii c ha] at hb
        simp only [List.mem_singleton] at hb
        subst hb
        exact uint8_ofNat_toNat _ (by omega)
      refine ⟨fun b h => .inr ?_, fun b h => ?_⟩
      · have := hb b h
        omega
      · have := hb b h
        cases hw : isWsp b with
        | false => rfl
        | true =>
          simp only [isWsp, Bool.or_eq_true, beq_iff_eq] at hw
          rcases hw with rfl | rfl
          · have : 32 = c.toNat := this
            omega
          · have : 9 = c.toNat := this
            omega
    · have hb : ∀ b ∈ String.utf8EncodeChar c, 128 ≤ b.toNat := fun b hb => encodeChar_nonascii c ha b hb
      refine ⟨fun b h => .inr ?_, fun b h => ?_⟩
      · have := hb b h
        omega
      · have := hb b h
        cases hw : isWsp b with
        | false => rfl
        | true =>
          simp only [isWsp, Bool.or_eq_true, beq_iff_eq] at hw
          rcases hw with rfl | rfl
          · exact absurd this (by decide)
          · exact absurd this (by decide)
  have space : ∀ c, wsp c → ∃ b, String.utf8EncodeChar c = [b] ∧ isWsp b = true ∧ (b = 9 ∨ b = 32) := by
    rintro c (rfl | rfl)
    · exact ⟨32, by decide, by decide, .inr rfl⟩
    · exact ⟨9, by decide, by decide, .inl rfl⟩
  have spaces : ∀ w : Str, (∀ d ∈ w, wsp d) → cleanLine (utf8 w) ∧ (w ≠ [] → ∃ b r, utf8 w = b :: r ∧ isWsp b = true) := by
    intro w hw
    induction w with
    | nil => exact ⟨by simp [cleanLine, utf8_nil], fun h => absurd rfl h⟩
    | cons c w ih =>
      obtain ⟨b, h1, h2, h3⟩ := space c (hw c (by simp))
      rw [utf8_cons, h1]
      refine ⟨?_, fun _ => ⟨b, utf8 w, rfl, h2⟩⟩
      intro x hx
      simp only [List.cons_append, List.nil_append, List.mem_cons] at hx
      rcases hx with rfl | hx
      · rcases h3 with rfl | rfl
        · exact .inl rfl
        · exact .inr (by decide)
      · exact (ih fun d hd => hw d (by simp [hd])).1 x hx
  induction h with
  | nil => exact ⟨[], [], by simp [utf8_nil], by simp [cleanLine], by simp⟩
  | solid c s hc _ ih =>
    obtain ⟨first, conts, h1, h2, h3⟩ := ih
    refine ⟨String.utf8EncodeChar c ++ first, conts, by rw [utf8_cons, h1]; simp, ?_, h3⟩
    intro b hb
    rcases List.mem_append.1 hb with hb | hb
    · exact (solid c hc).1 b hb
    · exact h2 b hb
  | space c s hc _ ih =>
    obtain ⟨first, conts, h1, h2, h3⟩ := ih
    refine ⟨String.utf8EncodeChar c ++ first, conts, by rw [utf8_cons, h1]; simp, ?_, h3⟩
    intro b hb
    rcases List.mem_append.1 hb with hb | hb
    · have := (spaces [c] (by simpa using hc)).1 b
      rw [utf8_cons, utf8_nil, List.append_nil] at this
      exact this hb
    · exact h2 b hb
  | fold w c s hne hw hc _ ih =>
    obtain ⟨first, conts, h1, h2, h3⟩ := ih
    obtain ⟨g1, g2⟩ := spaces w hw
    obtain ⟨b, r, g3, g4⟩ := g2 hne
    refine ⟨[], (utf8 w ++ String.utf8EncodeChar c ++ first) :: conts, ?_, by simp [cleanLine], ?_⟩
    · have e : utf8 ('\r' :: '\n' :: (w ++ c :: s)) = 13 :: 10 :: utf8 (w ++ c :: s) := by
        rw [utf8_cons, utf8_cons]; rfl
      rw [e, utf8_append, utf8_cons, h1]
      simp
    · intro l hl
      rcases List.mem_cons.1 hl with rfl | hl
      · refine ⟨?_, ⟨b, r ++ String.utf8EncodeChar c ++ first, by rw [g3]; simp, g4⟩, ?_⟩
        · intro x hx
          rcases List.mem_append.1 hx with hx | hx
          · rcases List.mem_append.1 hx with hx | hx
            · exact g1 x hx
            · exact (solid c hc).1 x hx
          · exact h2 x hx
        · cases he : String.utf8EncodeChar c with
          | nil => exact absurd he (encodeChar_ne_nil c)
          | cons y ys => exact ⟨y, by simp, (solid c hc).2 y (by simp [he])⟩
      · exact h3 l hl

end Dkim
