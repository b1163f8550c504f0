import Verif.Model.Debug
import Verif.Spec.Debug
import Verif.Proofs.Slices
import Verif.Props.Encode

/-!
# Property C83: debug output of byte strings is unambiguous
-/

namespace Dkim

open Spec

variable {U : UnicodeTables}

theorem hexDigit_digitChar : ∀ n, n < 16 → hexDigit? (Nat.digitChar n) = some n := by decide

theorem digitChar_ne_brace : ∀ n, n < 16 → Nat.digitChar n ≠ '}' := by decide

theorem read_digit (n x : Nat) (hx : x < 16) (r : Str) :
    readUpToQuote (.digits n) (Nat.digitChar x :: r) = readUpToQuote (.digits (n * 16 + x)) r := by
  rw [readUpToQuote, if_neg (digitChar_ne_brace x hx), hexDigit_digitChar x hx]

theorem read_digits (n : Nat) (r : Str) :
    readUpToQuote (.digits 0) (Nat.toDigits 16 n ++ r) = readUpToQuote (.digits n) r := by
  induction n using Nat.strongRecOn generalizing r with
  | _ n ih =>
    rw [Nat.toDigits_eq_if (by decide)]
    split
    · next h => rw [List.singleton_append, read_digit 0 n h]; simp
    · next h =>
      rw [List.append_assoc, ih (n / 16) (by omega), List.singleton_append,
        read_digit _ _ (Nat.mod_lt _ (by decide))]
      congr 2; omega

theorem read_escapeUnicode (c : Char) (r : Str) :
    readUpToQuote .plain (escapeUnicode c ++ r) =
      (readUpToQuote .plain r).map fun p => (utf8 [c] ++ p.1, p.2) := by
  show readUpToQuote (.digits 0) (Nat.toDigits 16 c.toNat ++ ['}'] ++ r) = _
  rw [List.append_assoc, read_digits]
  show (readUpToQuote .plain r).map (fun p => (utf8 [Char.ofNat c.toNat] ++ p.1, p.2)) = _
  rw [Char.ofNat_toNat]

theorem read_escapeDebugChar (g : Bool) (c : Char) (r : Str) :
    readUpToQuote .plain (escapeDebugChar U g c ++ r) =
      (readUpToQuote .plain r).map fun p => (utf8 [c] ++ p.1, p.2) := by
  unfold escapeDebugChar
  repeat' split
  any_goals (rename_i h; subst h; rfl)
  · exact read_escapeUnicode c r
  · next h1 h2 h3 h4 h5 h6 h7 h8 h9 =>
    rw [List.singleton_append, readUpToQuote, if_neg h6, if_neg h5]
  · exact read_escapeUnicode c r

theorem read_map_nil (s : Str) :
    readUpToQuote .plain s = (readUpToQuote .plain s).map fun p => (utf8 [] ++ p.1, p.2) := by
  cases readUpToQuote .plain s <;> rfl

theorem read_flatMap (g : Bool) (s : Str) (r : Str) :
    readUpToQuote .plain (s.flatMap (escapeDebugChar U g) ++ r) =
      (readUpToQuote .plain r).map fun p => (utf8 s ++ p.1, p.2) := by
  induction s with
  | nil => exact read_map_nil r
  | cons c s ih =>
    rw [List.flatMap_cons, List.append_assoc, read_escapeDebugChar, ih]
    cases readUpToQuote .plain r <;> simp [utf8_cons, utf8_nil]

theorem read_escapeDebug (s r : Str) :
    readUpToQuote .plain (escapeDebug U s ++ r) =
      (readUpToQuote .plain r).map fun p => (utf8 s ++ p.1, p.2) := by
  cases s with
  | nil => exact read_map_nil r
  | cons c s =>
    rw [escapeDebug, List.append_assoc, read_escapeDebugChar, read_flatMap]
    cases readUpToQuote .plain r <;> simp [utf8_cons, utf8_nil]

theorem read_lowerHex2 (b : UInt8) (r : Str) :
    readUpToQuote .plain (['\\', 'x'] ++ lowerHex2 b ++ r) =
      (readUpToQuote .plain r).map fun p => (b :: p.1, p.2) := by
  have hb := b.toNat_lt
  have h1 : b.toNat / 16 < 16 := by omega
  have h2 : b.toNat % 16 < 16 := by omega
  show readUpToQuote .hex1 (Nat.digitChar (b.toNat / 16) :: Nat.digitChar (b.toNat % 16) :: r) = _
  rw [readUpToQuote, hexDigit_digitChar _ h1]
  dsimp only
  rw [readUpToQuote, hexDigit_digitChar _ h2]
  dsimp only
  rw [show b.toNat / 16 * 16 + b.toNat % 16 = b.toNat by omega, UInt8.ofNat_toNat]

/-- One round of the loop: a decoded chunk or a byte that is not part of UTF-8 text. -/
theorem bytesDebugLoop_cons (n : Nat) (b : UInt8) (r : Bytes) :
    (∃ c s rest, b :: r = utf8 (c :: s) ++ rest ∧ bytesDebugLoop U (n + 1) (b :: r) =
      (bytesDebugLoop U n rest).map (escapeDebug U (c :: s) ++ ·)) ∨
    (utf8Prefix (b :: r)).1 = [] ∧ bytesDebugLoop U (n + 1) (b :: r) =
      (bytesDebugLoop U n r).map (['\\', 'x'] ++ lowerHex2 b ++ ·) := by
  rw [bytesDebugLoop, if_neg (by simp), nextUtf8Chunk_eq]
  have hs := utf8Prefix_spec (b :: r)
  generalize utf8Prefix (b :: r) = p at hs
  obtain ⟨s, rest⟩ := p
  dsimp only at hs ⊢
  cases s with
  | nil =>
    refine .inr ⟨rfl, ?_⟩
    show (match some b, bytesFrom 1 (b :: r) with
      | some b, some rest => (bytesDebugLoop U n rest).map (['\\', 'x'] ++ lowerHex2 b ++ ·)
      | _, _ => none) = _
    rw [show bytesFrom 1 (b :: r) = some r from bytesFrom_append [b] r]
  | cons c s =>
    refine .inl ⟨c, s, rest, hs.symm, ?_⟩
    rw [if_neg (by simp)]
    dsimp only
    rw [← hs, ← utf8_length, bytesFrom_append]

theorem read_bytesDebugLoop (n : Nat) (bytes : Bytes) (h : bytes.length ≤ n) :
    ∃ t, bytesDebugLoop U n bytes = some t ∧ ∀ r, readUpToQuote .plain (t ++ r) =
      (readUpToQuote .plain r).map fun p => (bytes ++ p.1, p.2) := by
  have base : ∀ r, readUpToQuote .plain ([] ++ r) =
      (readUpToQuote .plain r).map fun p => ([] ++ p.1, p.2) := fun r => read_map_nil r
  induction n generalizing bytes with
  | zero =>
    have : bytes = [] := List.eq_nil_of_length_eq_zero (by omega)
    subst this
    exact ⟨[], rfl, base⟩
  | succ n ih =>
    cases bytes with
    | nil => exact ⟨[], rfl, base⟩
    | cons b r =>
      rcases bytesDebugLoop_cons (U := U) n b r with ⟨c, s, rest, e, h1⟩ | ⟨_, h1⟩
      · have hl : rest.length ≤ n := by
          have h2 := congrArg List.length e
          have h3 := utf8_length_ge (c :: s)
          simp only [List.length_cons, List.length_append] at h2 h3 h
          omega
        obtain ⟨t, ht, hr⟩ := ih rest hl
        refine ⟨_, by rw [h1, ht]; rfl, fun x => ?_⟩
        rw [List.append_assoc, read_escapeDebug, hr, e]
        cases readUpToQuote .plain x <;> simp
      · obtain ⟨t, ht, hr⟩ := ih r (by simpa using h)
        refine ⟨_, by rw [h1, ht]; rfl, fun x => ?_⟩
        rw [List.append_assoc, read_lowerHex2, hr]
        cases readUpToQuote .plain x <;> simp

/-- C83: the debug output of a byte string is a quoted byte string that reads back as
the same bytes, whatever follows it, and making it does not panic. -/
theorem C83_read_back (U : UnicodeTables) (bytes : Bytes) :
    ∃ t, bytesDebug U bytes = some t ∧ ∀ rest, readQuoted (t ++ rest) = some (bytes, rest) := by
  obtain ⟨t, ht, hr⟩ := read_bytesDebugLoop (U := U) bytes.length bytes (Nat.le_refl _)
  refine ⟨_, by rw [bytesDebug, ht]; rfl, fun rest => ?_⟩
  show readUpToQuote .plain (t ++ ['"'] ++ rest) = _
  rw [List.append_assoc, hr]
  show some (bytes ++ [], rest) = _
  rw [List.append_nil]

/-- C83: different byte strings have different debug output, also within other text. -/
theorem C83_unambiguous (U : UnicodeTables) (a b : Bytes) (s t r r' : Str)
    (hs : bytesDebug U a = some s) (ht : bytesDebug U b = some t) (h : s ++ r = t ++ r') :
    a = b ∧ s = t ∧ r = r' := by
  obtain ⟨s', h1, h2⟩ := C83_read_back U a
  obtain ⟨t', h3, h4⟩ := C83_read_back U b
  cases hs.symm.trans h1
  cases ht.symm.trans h3
  have := (h2 r).symm.trans ((congrArg readQuoted h).trans (h4 r'))
  cases this
  exact ⟨rfl, List.append_cancel_right h, rfl⟩

example : bytesDebug ⟨fun c => 32 ≤ c.toNat ∧ c.toNat < 127, fun _ => false⟩ [0x61, 0xff, 0x0d, 0x22, 0xc3, 0xa4] =
    some c!"\"a\\xff\\r\\\"\\u{e4}\"" := by rfl

/-- Characters that upset a terminal or a log: C0 and C1 controls and DEL. -/
def Spec.ctl (c : Char) : Prop := c.toNat < 32 ∨ 127 ≤ c.toNat ∧ c.toNat < 160

theorem digit_range (n : Nat) (c : Char) (h : c ∈ Nat.toDigits 16 n) :
    ∃ x, x < 16 ∧ c = Nat.digitChar x := by
  induction n using Nat.strongRecOn with
  | _ n ih =>
    rw [Nat.toDigits_eq_if (by decide)] at h
    split at h
    · next hn => exact ⟨n, hn, by simpa using h⟩
    · rcases List.mem_append.1 h with h | h
      · exact ih _ (by omega) h
      · exact ⟨_, Nat.mod_lt _ (by decide), by simpa using h⟩

theorem digitChar_not_control : ∀ x, x < 16 → ¬ ctl (Nat.digitChar x) := by
  unfold ctl; decide

theorem escapeUnicode_not_control (c d : Char) (h : d ∈ escapeUnicode c) : ¬ ctl d := by
  simp only [escapeUnicode, List.mem_append, List.mem_cons, List.not_mem_nil, or_false] at h
  rcases h with ((rfl | rfl | rfl) | h) | rfl
  any_goals (unfold ctl; decide)
  obtain ⟨x, hx, rfl⟩ := digit_range _ _ h
  exact digitChar_not_control x hx

theorem escapeDebugChar_not_control (hU : ∀ c, U.printable c = true → ¬ ctl c) (g : Bool) (c d : Char)
    (h : d ∈ escapeDebugChar U g c) : ¬ ctl d := by
  unfold escapeDebugChar at h
  repeat' split at h
  any_goals
    (simp only [List.mem_cons, List.not_mem_nil, or_false] at h
     rcases h with rfl | rfl <;> (unfold ctl; decide))
  · exact escapeUnicode_not_control _ _ h
  · next hp =>
    simp only [List.mem_cons, List.not_mem_nil, or_false] at h
    exact h ▸ hU c hp
  · exact escapeUnicode_not_control _ _ h

theorem escapeDebug_not_control (hU : ∀ c, U.printable c = true → ¬ ctl c) (s : Str) (d : Char)
    (h : d ∈ escapeDebug U s) : ¬ ctl d := by
  cases s with
  | nil => simp [escapeDebug] at h
  | cons c s =>
    rcases List.mem_append.1 h with h | h
    · exact escapeDebugChar_not_control hU _ _ _ h
    · obtain ⟨x, _, h⟩ := List.mem_flatMap.1 h
      exact escapeDebugChar_not_control hU _ _ _ h

theorem bytesDebugLoop_not_control (hU : ∀ c, U.printable c = true → ¬ ctl c) (n : Nat) (bytes : Bytes)
    (t : Str) (ht : bytesDebugLoop U n bytes = some t) (d : Char) (hd : d ∈ t) : ¬ ctl d := by
  induction n generalizing bytes t with
  | zero => cases ht; simp at hd
  | succ n ih =>
    cases bytes with
    | nil => cases ht; simp at hd
    | cons b r =>
      rcases bytesDebugLoop_cons (U := U) n b r with ⟨c, s, rest, e, h1⟩ | ⟨_, h1⟩
      · rw [h1, Option.map_eq_some_iff] at ht
        obtain ⟨t', h2, rfl⟩ := ht
        rcases List.mem_append.1 hd with h | h
        · exact escapeDebug_not_control hU _ _ h
        · exact ih _ _ h2 h
      · rw [h1, Option.map_eq_some_iff] at ht
        obtain ⟨t', h2, rfl⟩ := ht
        have hb := b.toNat_lt
        rcases List.mem_append.1 hd with h | h
        · simp only [lowerHex2, List.mem_append, List.mem_cons, List.not_mem_nil, or_false] at h
          rcases h with (rfl | rfl) | (rfl | rfl)
          · unfold ctl; decide
          · unfold ctl; decide
          · exact digitChar_not_control _ (by omega)
          · exact digitChar_not_control _ (by omega)
        · exact ih _ _ h2 h

/-- C83: the output has no control characters, provided that the standard library does
not take any for printable. -/
theorem C83_no_control (U : UnicodeTables) (hU : ∀ c, U.printable c = true → ¬ ctl c) (bytes : Bytes)
    (t : Str) (ht : bytesDebug U bytes = some t) : ∀ c ∈ t, ¬ ctl c := by
  rw [bytesDebug, Option.map_eq_some_iff] at ht
  obtain ⟨s, hs, rfl⟩ := ht
  intro c hc
  simp only [List.mem_append, List.mem_cons, List.not_mem_nil, or_false] at hc
  rcases hc with (rfl | hc) | rfl
  · unfold ctl; decide
  · exact bytesDebugLoop_not_control hU _ _ _ hs _ hc
  · unfold ctl; decide

example : ∃ U : UnicodeTables, (∀ c, U.printable c = true → ¬ ctl c) ∧ U.printable 'a' = true :=
  ⟨⟨fun c => 32 ≤ c.toNat ∧ c.toNat < 127, fun _ => false⟩,
    fun c h => by simp only [decide_eq_true_eq] at h; unfold ctl; omega, by decide⟩

/-- C83: printable text without quotes and backslashes is shown as it is. -/
theorem C83_plain (U : UnicodeTables) (s : Str)
    (h : ∀ c ∈ s, U.printable c = true ∧ U.graphemeExtended c = false ∧ ¬ ctl c ∧
      c ≠ '"' ∧ c ≠ '\'' ∧ c ≠ '\\') :
    bytesDebug U (utf8 s) = some (['"'] ++ s ++ ['"']) := by
  have key : ∀ g, ∀ c ∈ s, escapeDebugChar U g c = [c] := by
    intro g c hc
    obtain ⟨h1, h2, h3, h4, h5, h6⟩ := h c hc
    have ne : ∀ d : Char, d.toNat < 32 → c ≠ d := fun d hd e => h3 (.inl (e ▸ hd))
    unfold escapeDebugChar
    rw [if_neg (ne _ (by decide)), if_neg (ne _ (by decide)), if_neg (ne _ (by decide)),
      if_neg (ne _ (by decide)), if_neg h6, if_neg h4, if_neg h5, if_neg (by simp [h2]), if_pos h1]
  have flat : ∀ l : Str, (∀ c ∈ l, c ∈ s) → l.flatMap (escapeDebugChar U false) = l := by
    intro l hl
    induction l with
    | nil => rfl
    | cons c l ih =>
      rw [List.flatMap_cons, key false c (hl c (by simp)), ih fun d hd => hl d (by simp [hd])]; rfl
  have all : escapeDebug U s = s := by
    cases s with
    | nil => rfl
    | cons c s =>
      rw [escapeDebug, key true c (by simp), flat s fun d hd => by simp [hd]]; rfl
  cases s with
  | nil => rfl
  | cons c s =>
    obtain ⟨b, r, e⟩ : ∃ b r, utf8 (c :: s) = b :: r := by
      cases h : utf8 (c :: s) with
      | nil => exact absurd (utf8_eq_nil.1 h) (by simp)
      | cons b r => exact ⟨b, r, rfl⟩
    have hp : utf8Prefix (b :: r) = (c :: s, []) := e ▸ utf8Prefix_encode (c :: s)
    rw [bytesDebug, e, List.length_cons, bytesDebugLoop, if_neg (by simp), nextUtf8Chunk_eq, hp]
    dsimp only
    rw [if_neg (by simp)]
    dsimp only
    rw [← e, ← utf8_length]
    have := bytesFrom_append (utf8 (c :: s)) []
    rw [List.append_nil] at this
    rw [this]
    dsimp only
    rw [all]
    cases r.length <;> simp [bytesDebugLoop]

/-- C83: key and signature data in debug output are the Base64 encoding in a fixed
wrapping, from which the data can be recovered. -/
theorem C83_base64 (a : Bytes) :
    (a = [] → base64Debug a = c!"Empty") ∧ (a ≠ [] → base64Debug a = c!"Base64(" ++ base64 a ++ c!")") ∧
    ∀ b, base64Debug a = base64Debug b → a = b := by
  have ne : ∀ x : Bytes, x ≠ [] → encodeBase64 x ≠ [] := by
    intro x hx e
    have := decode_encodeBase64 x
    rw [e] at this
    exact hx (Option.some.inj this).symm
  have nonempty : ∀ x : Bytes, x ≠ [] → base64Debug x = c!"Base64(" ++ encodeBase64 x ++ c!")" := by
    intro x hx
    unfold base64Debug
    dsimp only
    rw [if_neg (by simpa using ne x hx)]
  refine ⟨?_, fun h => by rw [← C20_base64_rfc4648]; exact nonempty a h, fun b h => ?_⟩
  · rintro rfl; rfl
  · by_cases ha : a = [] <;> by_cases hb : b = []
    · rw [ha, hb]
    · rw [ha, nonempty b hb] at h; simp [base64Debug, encodeBase64] at h
    · rw [hb, nonempty a ha] at h; simp [base64Debug, encodeBase64] at h
    · rw [nonempty a ha, nonempty b hb, List.append_cancel_right_eq] at h
      have := List.append_cancel_left h
      have h2 := decode_encodeBase64 a
      rw [this, decode_encodeBase64] at h2
      exact (Option.some.inj h2).symm

end Dkim
