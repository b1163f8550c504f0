import Verif.Spec.Rfc5322
import Verif.Props.Header
import Verif.Proofs.Utf8

namespace Dkim

open Spec

/-- The lines of a field value, as text. -/
def ValueLines (m : Str) (ms : List Str) : Prop :=
  (∀ c ∈ m, wsp c ∨ Rfc5322.VChar c) ∧
    ∀ l ∈ ms, (∀ c ∈ l, wsp c ∨ Rfc5322.VChar c) ∧ (∃ w r, l = w :: r ∧ wsp w) ∧ ∃ c ∈ l, ¬ wsp c

theorem utf8_char_ascii {c : Char} (h : c.toNat < 128) : String.utf8EncodeChar c = [UInt8.ofNat c.toNat] := by
  have := utf8_ascii [c] (by simpa using h)
  simpa [utf8] using this

theorem cleanLine_text (l : Str) : cleanLine (utf8 l) ↔ ∀ c ∈ l, wsp c ∨ Rfc5322.VChar c := by
  unfold cleanLine
  simp only [utf8, List.mem_flatMap]
  constructor
  · intro h c hc
    rcases Nat.lt_or_ge c.toNat 128 with h1 | h1
    · have := h (UInt8.ofNat c.toNat) ⟨c, hc, by rw [utf8_char_ascii h1]; simp⟩
      have e : (UInt8.ofNat c.toNat).toNat = c.toNat := by simp; omega
      rcases this with h2 | h2
      · left; right
        apply Char.toNat_inj.1
        rw [← e, h2]
        rfl
      · rw [e] at h2
        by_cases h3 : c.toNat = 32
        · left; left
          exact Char.toNat_inj.1 h3
        · exact .inr (.inl ⟨by omega, by omega⟩)
    · exact .inr (.inr h1)
  · rintro h b ⟨c, hc, hb⟩
    rcases Nat.lt_or_ge c.toNat 128 with h1 | h1
    · rw [utf8_char_ascii h1, List.mem_singleton] at hb
      have e : b.toNat = c.toNat := by rw [hb]; simp; omega
      rcases h c hc with (rfl | rfl) | h2
      · exact .inr ⟨by rw [e]; decide, by rw [e]; decide⟩
      · left
        rw [hb]
        decide
      · right
        unfold Rfc5322.VChar at h2
        omega
    · have := encodeChar_nonascii c (Nat.not_lt.2 h1) b hb
      right
      omega

theorem isWsp_char {c : Char} : (∀ b ∈ String.utf8EncodeChar c, isWsp b = true) ↔ wsp c := by
  constructor
  · intro h
    rcases Nat.lt_or_ge c.toNat 128 with h1 | h1
    · have := h (UInt8.ofNat c.toNat) (by rw [utf8_char_ascii h1]; simp)
      have e : (UInt8.ofNat c.toNat).toNat = c.toNat := by simp; omega
      simp only [isWsp, Bool.or_eq_true, beq_iff_eq] at this
      rcases this with h2 | h2
      · left
        apply Char.toNat_inj.1
        rw [← e, h2]
        rfl
      · right
        apply Char.toNat_inj.1
        rw [← e, h2]
        rfl
    · cases e : String.utf8EncodeChar c with
      | nil =>
        have := c.utf8Size_pos
        rw [← String.length_utf8EncodeChar, e] at this
        simp at this
      | cons b bs =>
        have h2 := h b (by rw [e]; simp)
        have h3 := encodeChar_nonascii c (Nat.not_lt.2 h1) b (by rw [e]; simp)
        simp only [isWsp, Bool.or_eq_true, beq_iff_eq] at h2
        rcases h2 with rfl | rfl <;> exact absurd h3 (by decide)
  · rintro (rfl | rfl) <;> decide

theorem continuation_text (l : Str) :
    continuation (utf8 l) ↔ (∃ w r, l = w :: r ∧ wsp w) ∧ ∃ c ∈ l, ¬ wsp c := by
  unfold continuation
  constructor
  · rintro ⟨⟨w, r, h1, h2⟩, b, h3, h4⟩
    refine ⟨?_, ?_⟩
    · cases l with
      | nil => cases h1
      | cons c l =>
        refine ⟨c, l, rfl, ?_⟩
        rcases Nat.lt_or_ge c.toNat 128 with h5 | h5
        · rw [utf8_cons, utf8_char_ascii h5] at h1
          simp only [List.cons_append, List.nil_append, List.cons.injEq] at h1
          rw [← isWsp_char, utf8_char_ascii h5]
          intro b hb
          rw [List.mem_singleton.1 hb, h1.1]
          exact h2
        · cases e : String.utf8EncodeChar c with
          | nil =>
            have := c.utf8Size_pos
            rw [← String.length_utf8EncodeChar, e] at this
            simp at this
          | cons b bs =>
            rw [utf8_cons, e] at h1
            simp only [List.cons_append, List.cons.injEq] at h1
            have h6 := encodeChar_nonascii c (Nat.not_lt.2 h5) b (by rw [e]; simp)
            rw [h1.1] at h6
            simp only [isWsp, Bool.or_eq_true, beq_iff_eq] at h2
            rcases h2 with rfl | rfl <;> exact absurd h6 (by decide)
    · simp only [utf8, List.mem_flatMap] at h3
      obtain ⟨c, hc, hb⟩ := h3
      refine ⟨c, hc, fun hw => ?_⟩
      rw [isWsp_char.2 hw b hb] at h4
      cases h4
  · rintro ⟨⟨w, r, rfl, h2⟩, c, h3, h4⟩
    refine ⟨?_, ?_⟩
    · rcases h2 with rfl | rfl
      · exact ⟨32, utf8 r, rfl, rfl⟩
      · exact ⟨9, utf8 r, rfl, rfl⟩
    · rw [← isWsp_char] at h4
      simp only [Classical.not_forall] at h4
      obtain ⟨b, hb, h5⟩ := h4
      exact ⟨b, by simp only [utf8, List.mem_flatMap]; exact ⟨c, h3, hb⟩, by simpa using h5⟩

theorem utf8_valueLines (m : Str) (ms : List Str) :
    utf8 (m ++ ms.flatMap fun l => '\r' :: '\n' :: l) = utf8 m ++ (ms.map utf8).flatMap fun l => 13 :: 10 :: l := by
  rw [utf8_append]
  congr 1
  induction ms with
  | nil => rfl
  | cons x ms ih => rw [List.flatMap_cons, utf8_append, ih]; rfl

theorem validBody_text (v : Str) : ValidBody (utf8 v) ↔
    ∃ m ms, v = m ++ ms.flatMap (fun l => '\r' :: '\n' :: l) ∧ ValueLines m ms := by
  constructor
  · rintro ⟨first, conts, h1, h2, h3⟩
    obtain ⟨m, ms, rfl, rfl, rfl⟩ := utf8_lines h1
    refine ⟨m, ms, rfl, (cleanLine_text m).1 h2, fun l hl => ?_⟩
    obtain ⟨h4, h5⟩ := h3 (utf8 l) (List.mem_map.2 ⟨l, hl, rfl⟩)
    exact ⟨(cleanLine_text l).1 h4, (continuation_text l).1 h5⟩
  · rintro ⟨m, ms, rfl, h1, h2⟩
    refine ⟨utf8 m, ms.map utf8, utf8_valueLines m ms, (cleanLine_text m).2 h1, ?_⟩
    intro l hl
    obtain ⟨x, hx, rfl⟩ := List.mem_map.1 hl
    exact ⟨(cleanLine_text x).2 (h2 x hx).1, (continuation_text x).2 (h2 x hx).2⟩

theorem vchar_not_wsp {c : Char} (h : Rfc5322.VChar c) : ¬ wsp c := by
  rintro (rfl | rfl) <;> exact absurd h (by unfold Rfc5322.VChar; decide)

theorem unstructured_lines {v : Str} (h : Rfc5322.Unstructured v) :
    ∃ m ms, v = m ++ ms.flatMap (fun l => '\r' :: '\n' :: l) ∧ ValueLines m ms := by
  induction h with
  | blank w hw => exact ⟨w, [], by simp, fun c hc => .inl (hw c hc), nofun⟩
  | more f c s hf hc _ ih =>
    obtain ⟨m, ms, rfl, h1, h2⟩ := ih
    have line : ∀ w : Str, (∀ c ∈ w, wsp c) → ∀ d ∈ w ++ c :: m, wsp d ∨ Rfc5322.VChar d := by
      intro w hw d hd
      simp only [List.mem_append, List.mem_cons] at hd
      rcases hd with hd | rfl | hd
      · exact .inl (hw d hd)
      · exact .inr hc
      · exact h1 d hd
    rcases hf with rfl | hf
    · exact ⟨c :: m, ms, by simp, line [] nofun, h2⟩
    · cases hf with
      | plain _ hn hw => exact ⟨f ++ c :: m, ms, by simp, line f hw, h2⟩
      | folded v w hv hn hw =>
        refine ⟨v, (w ++ c :: m) :: ms, by simp, fun d hd => .inl (hv d hd), ?_⟩
        intro l hl
        rcases List.mem_cons.1 hl with rfl | hl
        · refine ⟨line w hw, ?_, c, by simp, vchar_not_wsp hc⟩
          cases w with
          | nil => exact absurd rfl hn
          | cons x w => exact ⟨x, w ++ c :: m, rfl, hw x (by simp)⟩
        · exact h2 l hl

theorem unstructured_append {t : Str} (ht : ∀ pre : Str, (∀ c ∈ pre, wsp c) → Rfc5322.Unstructured (pre ++ t)) :
    ∀ m : Str, (∀ c ∈ m, wsp c ∨ Rfc5322.VChar c) → ∀ pre : Str, (∀ c ∈ pre, wsp c) →
      Rfc5322.Unstructured (pre ++ (m ++ t)) := by
  intro m
  induction m with
  | nil => exact fun _ pre hp => ht pre hp
  | cons c m ih =>
    intro hm pre hp
    have ih := ih fun d hd => hm d (by simp [hd])
    rcases hm c (by simp) with hc | hc
    · have := ih (pre ++ [c]) (by
        intro d hd
        rcases List.mem_append.1 hd with hd | hd
        · exact hp d hd
        · rw [List.mem_singleton.1 hd]; exact hc)
      simpa using this
    · refine .more pre c (m ++ t) ?_ hc (ih [] nofun)
      cases pre with
      | nil => exact .inl rfl
      | cons x pre => exact .inr (.plain _ (by simp) hp)

theorem split_wsp {l : Str} (h1 : ∃ w r, l = w :: r ∧ wsp w) (h2 : ∃ c ∈ l, ¬ wsp c) :
    ∃ (w : Str) (c : Char) (r : Str), l = w ++ c :: r ∧ w ≠ [] ∧ (∀ d ∈ w, wsp d) ∧ ¬ wsp c := by
  obtain ⟨x, l, rfl, hx⟩ := h1
  have go : ∀ l : Str, (∃ c ∈ l, ¬ wsp c) → ∃ (w : Str) (c : Char) (r : Str), l = w ++ c :: r ∧ (∀ d ∈ w, wsp d) ∧ ¬ wsp c := by
    intro l
    induction l with
    | nil => rintro ⟨c, hc, _⟩; cases hc
    | cons y l ih =>
      rintro ⟨c, hc, hn⟩
      by_cases hy : wsp y
      · have : c ∈ l := by
          rcases List.mem_cons.1 hc with rfl | hc
          · exact absurd hy hn
          · exact hc
        obtain ⟨w, d, r, rfl, h3, h4⟩ := ih ⟨c, this, hn⟩
        exact ⟨y :: w, d, r, rfl, by simpa [hy] using h3, h4⟩
      · exact ⟨[], y, l, rfl, nofun, hy⟩
  obtain ⟨c, hc, hn⟩ := h2
  have : c ∈ l := by
    rcases List.mem_cons.1 hc with rfl | hc
    · exact absurd hx hn
    · exact hc
  obtain ⟨w, d, r, rfl, h3, h4⟩ := go l ⟨c, this, hn⟩
  exact ⟨x :: w, d, r, rfl, by simp, by simpa [hx] using h3, h4⟩

theorem unstructured_of_lines {ms : List Str} : ∀ {m : Str}, ValueLines m ms →
    Rfc5322.Unstructured (m ++ ms.flatMap fun l => '\r' :: '\n' :: l) := by
  induction ms with
  | nil =>
    intro m h
    exact unstructured_append (t := []) (fun pre hp => by simpa using .blank pre hp) m h.1 [] nofun
  | cons l ms ih =>
    intro m h
    obtain ⟨h1, h2, h3⟩ := h.2 l (by simp)
    obtain ⟨w, c, r, rfl, hw, hd, hc⟩ := split_wsp h2 h3
    refine unstructured_append ?_ m h.1 [] nofun
    intro pre hp
    have hr := ih (m := r) ⟨fun d hd => h1 d (by simp [hd]), fun x hx => h.2 x (by simp [hx])⟩
    have := Rfc5322.Unstructured.more (pre ++ '\r' :: '\n' :: w) c _ (.inr (.folded pre w hp hw hd))
      ((h1 c (by simp)).resolve_left hc) hr
    simpa using this

theorem validBody_unstructured (v : Str) : ValidBody (utf8 v) ↔ Rfc5322.Unstructured v := by
  rw [validBody_text]
  constructor
  · rintro ⟨m, ms, rfl, h⟩
    exact unstructured_of_lines h
  · exact unstructured_lines

theorem validName_fieldName (n : Str) : ValidName n ↔ Rfc5322.FieldName n := by
  unfold ValidName Rfc5322.FieldName
  refine and_congr_right fun _ => forall_congr' fun c => forall_congr' fun _ => ?_
  constructor
  · rintro ⟨h1, h2, h3⟩
    have : c.toNat ≠ 58 := fun h => h3 (Char.toNat_inj.1 h)
    omega
  · intro h
    refine ⟨by omega, by omega, ?_⟩
    rintro rfl
    exact absurd h (by decide)

theorem header_block {s : Str} {fs : List (Str × Str)} (h : Rfc5322.Header s fs) :
    s = writeBlock fs ∧ fs ≠ [] ∧ ∀ f ∈ fs, ValidName f.1 ∧ ValidBody (utf8 f.2) := by
  induction h with
  | one n v hn hv =>
    refine ⟨by simp [writeBlock], by simp, ?_⟩
    intro f hf
    rw [List.mem_singleton.1 hf]
    exact ⟨(validName_fieldName n).2 hn, (validBody_unstructured v).2 hv⟩
  | more n v s fs hn hv _ ih =>
    obtain ⟨rfl, _, h2⟩ := ih
    refine ⟨by simp [writeBlock], by simp, ?_⟩
    intro f hf
    rcases List.mem_cons.1 hf with rfl | hf
    · exact ⟨(validName_fieldName n).2 hn, (validBody_unstructured v).2 hv⟩
    · exact h2 f hf

theorem header_of_block {fs : List (Str × Str)} (h : fs ≠ []) (hf : ∀ f ∈ fs, ValidName f.1 ∧ ValidBody (utf8 f.2)) :
    Rfc5322.Header (writeBlock fs) fs := by
  induction fs with
  | nil => exact absurd rfl h
  | cons f fs ih =>
    obtain ⟨n, v⟩ := f
    have hnv := hf (n, v) (by simp)
    have hn := (validName_fieldName n).1 hnv.1
    have hv := (validBody_unstructured v).1 hnv.2
    cases fs with
    | nil =>
      have := Rfc5322.Header.one n v hn hv
      simpa [writeBlock] using this
    | cons g fs =>
      have := Rfc5322.Header.more n v _ _ hn hv (ih (by simp) fun x hx => hf x (by simp [hx]))
      simpa [writeBlock] using this

theorem linesAux_crlf (l r : Str) (h : '\n' ∉ l) : ∀ cur, linesAux cur (l ++ '\r' :: '\n' :: r) = (cur ++ l) :: linesAux [] r := by
  induction l with
  | nil =>
    intro cur
    have h1 : linesAux cur ('\r' :: '\n' :: r) = linesAux (cur ++ ['\r']) ('\n' :: r) := by
      rw [linesAux, if_neg (by decide)]
    rw [List.nil_append, h1, linesAux, if_pos rfl, stripCr]
    simp
  | cons c l ih =>
    intro cur
    simp only [List.mem_cons, not_or] at h
    rw [List.cons_append, linesAux, if_neg (fun e => h.1 e.symm), ih h.2]
    simp

theorem strLines_crlf (ls : List Str) (h : ∀ l ∈ ls, '\n' ∉ l) : strLines (ls.flatMap (· ++ ['\r', '\n'])) = ls := by
  induction ls with
  | nil => rfl
  | cons l ls ih =>
    have h1 := linesAux_crlf l (ls.flatMap (· ++ ['\r', '\n'])) (h l (by simp)) []
    rw [List.flatMap_cons, strLines]
    simp only [List.append_assoc, List.cons_append, List.nil_append] at h1 ⊢
    rw [h1]
    congr 1
    exact ih fun x hx => h x (by simp [hx])

end Dkim
