import Verif.Proofs.HeaderText
import Verif.Model.Encode

/-! Helper lemmas about Base64. -/

namespace Dkim

theorem b64_fin : ∀ n : Fin 64, b64Val (b64Char n) = some n.val ∧ b64Char n ≠ '=' ∧
    isFwsChar (b64Char n) = false := by decide

theorem b64Val_b64Char {n : Nat} (h : n < 64) : b64Val (b64Char n) = some n := (b64_fin ⟨n, h⟩).1

theorem b64Char_ne {n : Nat} (h : n < 64) : b64Char n ≠ '=' := (b64_fin ⟨n, h⟩).2.1

theorem b64Char_noFws {n : Nat} (h : n < 64) : isFwsChar (b64Char n) = false := (b64_fin ⟨n, h⟩).2.2

theorem b64Val_some {c : Char} {n : Nat} (h : b64Val c = some n) : n < 64 ∧ c = b64Char n := by
  have hof : ∀ k, k < 128 → (Char.ofNat k).toNat = k := fun k hk => char_toNat_ofNat k (Or.inl (by omega))
  unfold b64Val at h
  simp only [isAsciiUpper, isAsciiLower, isAsciiDigit, Bool.and_eq_true, decide_eq_true_eq] at h
  split at h
  · next hc =>
    simp at h
    refine ⟨by omega, ?_⟩
    apply char_ext_toNat
    unfold b64Char
    rw [if_pos (by omega), hof _ (by omega)]; omega
  · split at h
    · next hc =>
      simp at h
      refine ⟨by omega, ?_⟩
      apply char_ext_toNat
      unfold b64Char
      rw [if_neg (by omega), if_pos (by omega), hof _ (by omega)]; omega
    · split at h
      · next hc =>
        simp at h
        refine ⟨by omega, ?_⟩
        apply char_ext_toNat
        unfold b64Char
        rw [if_neg (by omega), if_neg (by omega), if_pos (by omega), hof _ (by omega)]; omega
      · split at h
        · next hc => simp at h; subst h; exact ⟨by omega, by rw [hc]; decide⟩
        · split at h
          · next hc => simp at h; subst h; exact ⟨by omega, by rw [hc]; decide⟩
          · simp at h

theorem ofNat_eq (a : UInt8) (k : Nat) (h : k = a.toNat) : UInt8.ofNat k = a := by
  rw [h]; simp

theorem decode_encodeBase64 (bs : Bytes) : decodeBase64 (encodeBase64 bs) = some bs := by
  induction bs using encodeBase64.induct with
  | case1 => rfl
  | case2 a =>
    have ha := a.toNat_lt
    rw [encodeBase64, decodeBase64, b64Val_b64Char (by omega), b64Val_b64Char (by omega)]
    simp only
    rw [if_pos (by omega), ofNat_eq a _ (by omega)]
  | case3 a b =>
    have ha := a.toNat_lt
    have hb := b.toNat_lt
    rw [encodeBase64, decodeBase64]
    · rw [b64Val_b64Char (by omega), b64Val_b64Char (by omega), b64Val_b64Char (by omega)]
      simp only
      rw [if_pos (by omega), ofNat_eq a _ (by omega), ofNat_eq b _ (by omega)]
    · exact b64Char_ne (by omega)
  | case4 a b c r ih =>
    have ha := a.toNat_lt
    have hb := b.toNat_lt
    have hc := c.toNat_lt
    rw [encodeBase64, decodeBase64.eq_4 _ _ _ _ _ (fun _ h => absurd h (b64Char_ne (by omega))) (fun h => absurd h (b64Char_ne (by omega))),
      b64Val_b64Char (by omega), b64Val_b64Char (by omega), b64Val_b64Char (by omega),
      b64Val_b64Char (by omega), ih]
    simp only
    rw [ofNat_eq a _ (by omega), ofNat_eq b _ (by omega), ofNat_eq c _ (by omega)]

theorem encode_decodeBase64 (s : Str) (bs : Bytes) (h : decodeBase64 s = some bs) :
    s = encodeBase64 bs := by
  induction s using decodeBase64.induct generalizing bs with
  | case1 => simp [decodeBase64] at h; subst h; rfl
  | case2 w x a b hx hw hm =>
    rw [decodeBase64, hw, hx] at h
    simp only [hm, if_true, Option.some.injEq] at h
    subst h
    obtain ⟨h1, rfl⟩ := b64Val_some hw
    obtain ⟨h2, rfl⟩ := b64Val_some hx
    rw [encodeBase64, uint8_ofNat_toNat _ (by omega)]
    congr 2
    · omega
    · congr 2; omega
  | case3 w x a b hx hw hm => rw [decodeBase64, hw, hx] at h; simp [hm] at h
  | case4 w x hn => rw [decodeBase64] at h; split at h <;> simp_all
  | case5 w x y hy a b c hc hb ha hm =>
    rw [decodeBase64.eq_3 _ _ _ hy, ha, hb, hc] at h
    simp only [hm, if_true, Option.some.injEq] at h
    subst h
    obtain ⟨h1, rfl⟩ := b64Val_some ha
    obtain ⟨h2, rfl⟩ := b64Val_some hb
    obtain ⟨h3, rfl⟩ := b64Val_some hc
    rw [encodeBase64, uint8_ofNat_toNat _ (by omega), uint8_ofNat_toNat _ (by omega)]
    rw [show (a * 4 + b / 16) / 4 = a by omega,
      show (a * 4 + b / 16) % 4 * 16 + (b % 16 * 16 + c / 4) / 16 = b by omega,
      show (b % 16 * 16 + c / 4) % 16 * 4 = c by omega]
  | case6 w x y hy a b c hc hb ha hm =>
    rw [decodeBase64.eq_3 _ _ _ hy, ha, hb, hc] at h; simp [hm] at h
  | case7 w x y hy hn =>
    rw [decodeBase64.eq_3 _ _ _ hy] at h; split at h <;> simp_all
  | case8 w x y z r h1 h2 a b c d hd hc hb ha bs' hr ih =>
    rw [decodeBase64.eq_4 _ _ _ _ _ h1 h2, ha, hb, hc, hd, hr] at h
    simp only [Option.some.injEq] at h
    subst h
    obtain ⟨h1, rfl⟩ := b64Val_some ha
    obtain ⟨h2, rfl⟩ := b64Val_some hb
    obtain ⟨h3, rfl⟩ := b64Val_some hc
    obtain ⟨h4, rfl⟩ := b64Val_some hd
    rw [encodeBase64, uint8_ofNat_toNat _ (by omega), uint8_ofNat_toNat _ (by omega),
      uint8_ofNat_toNat _ (by omega), ih bs' hr]
    rw [show (a * 4 + b / 16) / 4 = a by omega,
      show (a * 4 + b / 16) % 4 * 16 + (b % 16 * 16 + c / 4) / 16 = b by omega,
      show (b % 16 * 16 + c / 4) % 16 * 4 + (c % 4 * 64 + d) / 64 = c by omega,
      show (c % 4 * 64 + d) % 64 = d by omega]
  | case9 w x y z r h1 h2 a b c d hd hc hb ha hr ih =>
    rw [decodeBase64.eq_4 _ _ _ _ _ h1 h2, ha, hb, hc, hd, hr] at h; simp at h
  | case10 w x y z r h1 h2 hn =>
    rw [decodeBase64.eq_4 _ _ _ _ _ h1 h2] at h
    split at h
    · next e1 e2 e3 e4 => exact absurd e4 (fun e4 => hn _ _ _ _ e1 e2 e3 e4)
    · simp at h
  | case11 t h1 h2 h3 h4 => rw [decodeBase64] at h <;> simp_all

theorem encodeBase64_length (bs : Bytes) : (encodeBase64 bs).length = (bs.length + 2) / 3 * 4 := by
  induction bs using encodeBase64.induct with
  | case1 => rfl
  | case2 a => simp [encodeBase64]
  | case3 a b => simp [encodeBase64]
  | case4 a b c r ih => simp only [encodeBase64, List.length_cons, ih]; omega

theorem encodeBase64_chars (bs : Bytes) : ∀ c ∈ encodeBase64 bs, c = '=' ∨ ∃ n < 64, c = b64Char n := by
  induction bs using encodeBase64.induct with
  | case1 => simp [encodeBase64]
  | case2 a =>
    have ha := a.toNat_lt
    intro c hc
    simp only [encodeBase64, List.mem_cons, List.not_mem_nil, or_false] at hc
    rcases hc with rfl | rfl | rfl | rfl
    · exact Or.inr ⟨_, by omega, rfl⟩
    · exact Or.inr ⟨_, by omega, rfl⟩
    · exact Or.inl rfl
    · exact Or.inl rfl
  | case3 a b =>
    have ha := a.toNat_lt
    have hb := b.toNat_lt
    intro c hc
    simp only [encodeBase64, List.mem_cons, List.not_mem_nil, or_false] at hc
    rcases hc with rfl | rfl | rfl | rfl
    · exact Or.inr ⟨_, by omega, rfl⟩
    · exact Or.inr ⟨_, by omega, rfl⟩
    · exact Or.inr ⟨_, by omega, rfl⟩
    · exact Or.inl rfl
  | case4 a b c r ih =>
    have ha := a.toNat_lt
    have hb := b.toNat_lt
    have hc := c.toNat_lt
    intro d hd
    simp only [encodeBase64, List.mem_cons] at hd
    rcases hd with rfl | rfl | rfl | rfl | hd
    · exact Or.inr ⟨_, by omega, rfl⟩
    · exact Or.inr ⟨_, by omega, rfl⟩
    · exact Or.inr ⟨_, by omega, rfl⟩
    · exact Or.inr ⟨_, by omega, rfl⟩
    · exact ih d hd

end Dkim
