import Verif.Model.Basic

/-! Helper lemmas about UTF-8. -/

namespace Dkim

theorem byteArray_eq_toByteArray (l : Bytes) : ByteArray.mk l.toArray = l.toByteArray := by
  apply ByteArray.ext
  simp [List.data_toByteArray]

theorem decodeChar_encode_append (c : Char) (r : Bytes) :
    decodeChar (String.utf8EncodeChar c ++ r) = some (c, r) := by
  have h : (ByteArray.mk (String.utf8EncodeChar c ++ r).toArray).utf8DecodeChar? 0 = some c := by
    rw [byteArray_eq_toByteArray, List.toByteArray_append]
    exact ByteArray.utf8DecodeChar?_utf8EncodeChar_append
  simp only [decodeChar, h]
  rw [← String.length_utf8EncodeChar c, List.drop_left]

theorem decodeChar_eq_some (bs : Bytes) (c : Char) (r : Bytes) (h : decodeChar bs = some (c, r)) :
    bs = String.utf8EncodeChar c ++ r := by
  unfold decodeChar at h
  cases h1 : (ByteArray.mk bs.toArray).utf8DecodeChar? 0 with
  | none => rw [h1] at h; simp at h
  | some d =>
    rw [h1] at h
    simp only [Option.some.injEq, Prod.mk.injEq] at h
    obtain ⟨rfl, rfl⟩ := h
    have := String.toByteArray_utf8EncodeChar_of_utf8DecodeChar?_eq_some h1
    have h2 := congrArg ByteArray.data this
    rw [List.data_toByteArray, ByteArray.data_extract] at h2
    have h3 := congrArg Array.toList h2
    simp at h3
    rw [h3, List.take_append_drop]

theorem encodeChar_ne_nil (c : Char) : String.utf8EncodeChar c ≠ [] := by
  intro h
  have := congrArg List.length h
  rw [String.length_utf8EncodeChar] at this
  have := c.utf8Size_pos
  simp_all

theorem decodeChar_nil : decodeChar [] = none := by
  cases h : decodeChar [] with
  | none => rfl
  | some p =>
    have := decodeChar_eq_some [] p.1 p.2 h
    have h2 := encodeChar_ne_nil p.1
    simp at this

theorem utf8_nil : utf8 [] = [] := rfl

theorem utf8_cons (c : Char) (s : Str) : utf8 (c :: s) = String.utf8EncodeChar c ++ utf8 s := rfl

theorem utf8_append (a b : Str) : utf8 (a ++ b) = utf8 a ++ utf8 b := by simp [utf8]

theorem utf8_length (s : Str) : (utf8 s).length = byteLen s := by
  induction s with
  | nil => rfl
  | cons c s ih => simp [utf8_cons, ih, byteLen]

theorem encodeChar_append_inj {c d : Char} {x y : Bytes}
    (h : String.utf8EncodeChar c ++ x = String.utf8EncodeChar d ++ y) : c = d ∧ x = y := by
  have h1 := decodeChar_encode_append c x
  rw [h, decodeChar_encode_append] at h1
  simp at h1; exact ⟨h1.1.symm, h1.2.symm⟩

theorem utf8_injective {a b : Str} (h : utf8 a = utf8 b) : a = b := by
  induction a generalizing b with
  | nil =>
    cases b with
    | nil => rfl
    | cons d b =>
      rw [utf8_cons] at h
      have := encodeChar_ne_nil d
      simp [utf8] at h
  | cons c a ih =>
    cases b with
    | nil =>
      rw [utf8_cons] at h
      have := encodeChar_ne_nil c
      simp [utf8] at h
    | cons d b =>
      rw [utf8_cons, utf8_cons] at h
      have := encodeChar_append_inj h
      rw [this.1, ih this.2]

theorem utf8_eq_nil {s : Str} : utf8 s = [] ↔ s = [] := by
  constructor
  · intro h; exact utf8_injective (b := []) h
  · rintro rfl; rfl

/-- The decomposition property of the prefix decoder. -/
theorem utf8PrefixAux_spec (n : Nat) (bs : Bytes) :
    utf8 (utf8PrefixAux n bs).1 ++ (utf8PrefixAux n bs).2 = bs := by
  induction n generalizing bs with
  | zero => simp [utf8PrefixAux, utf8_nil]
  | succ n ih =>
    rw [utf8PrefixAux]
    cases h : decodeChar bs with
    | none => simp [utf8_nil]
    | some p =>
      obtain ⟨c, rest⟩ := p
      have := decodeChar_eq_some bs c rest h
      simp only
      rw [utf8_cons, List.append_assoc, ih rest, ← this]

theorem utf8Prefix_spec (bs : Bytes) : utf8 (utf8Prefix bs).1 ++ (utf8Prefix bs).2 = bs :=
  utf8PrefixAux_spec _ _

theorem utf8_length_ge (s : Str) : s.length ≤ (utf8 s).length := by
  induction s with
  | nil => simp
  | cons c s ih =>
    rw [utf8_cons, List.length_append, String.length_utf8EncodeChar]
    have := c.utf8Size_pos
    simp; omega

theorem utf8PrefixAux_encode (s : Str) (r : Bytes) (n : Nat) (hn : s.length ≤ n) :
    utf8PrefixAux n (utf8 s ++ r) =
      (s ++ (utf8PrefixAux (n - s.length) r).1, (utf8PrefixAux (n - s.length) r).2) := by
  induction s generalizing n with
  | nil => simp [utf8_nil]
  | cons c s ih =>
    cases n with
    | zero => simp at hn
    | succ n =>
      rw [utf8_cons, List.append_assoc, utf8PrefixAux, decodeChar_encode_append]
      simp only
      rw [ih n (by simpa using hn)]
      simp

theorem utf8PrefixAux_nil (n : Nat) : utf8PrefixAux n [] = ([], []) := by
  cases n <;> simp [utf8PrefixAux, decodeChar_nil]

theorem utf8Prefix_encode (s : Str) : utf8Prefix (utf8 s) = (s, []) := by
  have := utf8PrefixAux_encode s [] (utf8 s).length (utf8_length_ge s)
  simp only [List.append_nil, utf8PrefixAux_nil] at this
  exact this

theorem fromUtf8_utf8 (s : Str) : fromUtf8 (utf8 s) = some s := by
  simp [fromUtf8, utf8Prefix_encode]

theorem fromUtf8_eq_some (bs : Bytes) (s : Str) : fromUtf8 bs = some s ↔ bs = utf8 s := by
  constructor
  · intro h
    unfold fromUtf8 at h
    have hs := utf8Prefix_spec bs
    cases hp : utf8Prefix bs with
    | mk a b =>
      rw [hp] at h hs
      cases b with
      | nil => simp at h hs; rw [← hs, h]
      | cons x xs => simp at h
  · rintro rfl; exact fromUtf8_utf8 s

/-! ### ASCII -/

theorem encodeChar_ascii (c : Char) (h : c.toNat < 128) :
    String.utf8EncodeChar c = [UInt8.ofNat c.toNat] := by
  unfold String.utf8EncodeChar
  have : c.val.toNat ≤ 127 := by
    have : c.toNat = c.val.toNat := rfl
    omega
  simp only [this, if_true]
  rfl

theorem encodeChar_nonascii (c : Char) (h : ¬ c.toNat < 128) :
    ∀ b ∈ String.utf8EncodeChar c, 128 ≤ b.toNat := by
  unfold String.utf8EncodeChar
  have h0 : c.toNat = c.val.toNat := rfl
  have h1 : ¬ c.val.toNat ≤ 127 := by omega
  have hlt : ∀ k, k < 256 → (UInt8.ofNat k).toNat = k := by
    intro k hk; simp [UInt8.toNat_ofNat']; omega
  simp only [h1, if_false]
  intro b hb
  split at hb
  · simp only [List.mem_cons, List.not_mem_nil, or_false] at hb
    rcases hb with rfl | rfl <;> rw [hlt _ (by omega)] <;> omega
  · split at hb
    · simp only [List.mem_cons, List.not_mem_nil, or_false] at hb
      rcases hb with rfl | rfl | rfl <;> rw [hlt _ (by omega)] <;> omega
    · simp only [List.mem_cons, List.not_mem_nil, or_false] at hb
      rcases hb with rfl | rfl | rfl | rfl <;> rw [hlt _ (by omega)] <;> omega

theorem char_ext_toNat {c d : Char} (h : c.toNat = d.toNat) : c = d := by
  apply Char.ext
  apply UInt32.toNat_inj.1
  exact h

/-- An ASCII byte occurs in the encoding exactly if the character occurs. -/
theorem mem_utf8_ascii (s : Str) (c : Char) (hc : c.toNat < 128) :
    UInt8.ofNat c.toNat ∈ utf8 s ↔ c ∈ s := by
  have hlt : ∀ k, k < 256 → (UInt8.ofNat k).toNat = k := by
    intro k hk; simp [UInt8.toNat_ofNat']; omega
  induction s with
  | nil => simp [utf8]
  | cons d s ih =>
    rw [utf8_cons, List.mem_append, List.mem_cons]
    constructor
    · rintro (h | h)
      · left
        by_cases hd : d.toNat < 128
        · rw [encodeChar_ascii d hd] at h
          simp only [List.mem_singleton] at h
          have := congrArg UInt8.toNat h
          rw [hlt _ (by omega), hlt _ (by omega)] at this
          exact char_ext_toNat this
        · have := encodeChar_nonascii d hd _ h
          rw [hlt _ (by omega)] at this
          omega
      · exact Or.inr (ih.1 h)
    · rintro (rfl | h)
      · left; rw [encodeChar_ascii c hc]; simp
      · exact Or.inr (ih.2 h)

/-- Encoding of ASCII text is byte by byte. -/
theorem utf8_ascii (s : Str) (h : ∀ c ∈ s, c.toNat < 128) :
    utf8 s = s.map fun c => UInt8.ofNat c.toNat := by
  induction s with
  | nil => rfl
  | cons c s ih =>
    rw [utf8_cons, encodeChar_ascii c (h c (by simp)), ih (fun d hd => h d (by simp [hd]))]
    rfl

end Dkim
