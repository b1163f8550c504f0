import Verif.Proofs.Slices
import Verif.Proofs.QpExact
import Verif.Proofs.Record

/-!
# Property C76: cutting text at byte offsets never panics

The functions with the suffix `At` (Model/Slices.lean) compute with the byte offsets of
the code; `none` (or `Decoded.panic`) is a panic because of an offset out of range or
inside a character, an underflow, or a failed conversion. The theorems state that these
functions never panic, and that the description by remaining text used everywhere else
gives the same results.
-/

namespace Dkim

/-- What cutting a string means: `s[..n]` is a prefix of exactly `n` bytes; if there is
no such prefix, it panics. -/
theorem C76_slice_to (n : Nat) (s p : Str) : sliceTo n s = some p ↔ ∃ q, s = p ++ q ∧ (utf8 p).length = n := by
  constructor
  · intro h
    unfold sliceTo at h
    cases hs : splitAtByte n s with
    | none => rw [hs] at h; cases h
    | some x =>
      obtain ⟨a, b⟩ := x
      rw [hs] at h
      injection h with h; subst h
      obtain ⟨e, hl⟩ := splitAtByte_some hs
      exact ⟨b, e, by rw [utf8_length]; exact hl⟩
  · rintro ⟨q, rfl, rfl⟩
    rw [utf8_length, sliceTo_append]

/-- Likewise, `s[n..]` is what follows a prefix of exactly `n` bytes. -/
theorem C76_slice_from (n : Nat) (s q : Str) :
    sliceFrom n s = some q ↔ ∃ p, s = p ++ q ∧ (utf8 p).length = n := by
  constructor
  · intro h
    unfold sliceFrom at h
    cases hs : splitAtByte n s with
    | none => rw [hs] at h; cases h
    | some x =>
      obtain ⟨a, b⟩ := x
      rw [hs] at h
      injection h with h; subst h
      obtain ⟨e, hl⟩ := splitAtByte_some hs
      exact ⟨a, e, by rw [utf8_length]; exact hl⟩
  · rintro ⟨p, rfl, rfl⟩
    rw [utf8_length, sliceFrom_append]

/-- Likewise, `s[a..b]` is what follows a prefix of `a` bytes within a prefix of `b` bytes. -/
theorem C76_slice_range (a b : Nat) (s m : Str) :
    sliceRange a b s = some m ↔ ∃ p q, s = p ++ m ++ q ∧ (utf8 p).length = a ∧ (utf8 (p ++ m)).length = b := by
  unfold sliceRange
  constructor
  · intro h
    split at h
    · cases h1 : sliceTo b s with
      | none => rw [h1] at h; cases h
      | some x =>
        rw [h1] at h
        obtain ⟨q, e, hl⟩ := (C76_slice_to b s x).1 h1
        obtain ⟨p, e', hl'⟩ := (C76_slice_from a x m).1 h
        subst e'
        exact ⟨p, q, e, hl', hl⟩
    · cases h
  · rintro ⟨p, q, e, h1, h2⟩
    have hle : a ≤ b := by rw [← h1, ← h2, utf8_length, utf8_length, byteLen_app]; omega
    rw [if_pos hle, (C76_slice_to b s (p ++ m)).2 ⟨q, e, h2⟩]
    exact (C76_slice_from a (p ++ m) m).2 ⟨p, rfl, h1⟩

/-- `s.drain(a..b)` removes such a part. -/
theorem C76_drain (a b : Nat) (s r : Str) :
    drainRange a b s = some r ↔
      ∃ p m q, s = p ++ m ++ q ∧ r = p ++ q ∧ (utf8 p).length = a ∧ (utf8 (p ++ m)).length = b := by
  unfold drainRange
  constructor
  · intro h
    split at h
    · next hle =>
      split at h
      · next x y h1 h2 =>
        injection h with h
        obtain ⟨q1, e1, l1⟩ := (C76_slice_to a s x).1 h1
        obtain ⟨p2, e2, l2⟩ := (C76_slice_from b s y).1 h2
        rw [utf8_length] at l1 l2
        have hlen : byteLen x ≤ byteLen p2 := by omega
        rw [e1] at e2
        rcases List.append_eq_append_iff.1 e2 with ⟨m, hm, hq⟩ | ⟨m, hm, hq⟩
        · subst hm
          exact ⟨x, m, y, by rw [e1, hq, List.append_assoc], h.symm, by rw [utf8_length]; exact l1,
            by rw [utf8_length]; exact l2⟩
        · have hz : byteLen m = 0 := by rw [hm, byteLen_app] at hlen; omega
          have : m = [] := by
            cases m with
            | nil => rfl
            | cons c m => rw [byteLen_cons'] at hz; have := c.utf8Size_pos; omega
          subst this
          rw [List.append_nil] at hm
          rw [List.nil_append] at hq
          subst hm
          exact ⟨x, [], y, by rw [e1, List.append_nil, hq], h.symm, by rw [utf8_length]; exact l1,
            by rw [List.append_nil, utf8_length]; exact l2⟩
      · cases h
    · cases h
  · rintro ⟨p, m, q, e, rfl, h1, h2⟩
    have hle : a ≤ b := by rw [← h1, ← h2, utf8_length, utf8_length, byteLen_app]; omega
    rw [if_pos hle, (C76_slice_to a s p).2 ⟨m ++ q, by rw [e, List.append_assoc], h1⟩,
      (C76_slice_from b s q).2 ⟨p ++ m, e, h2⟩]

/-- The same for bytes: `v[..n]`. -/
theorem C76_bytes_to (n : Nat) (v p : Bytes) : bytesTo n v = some p ↔ ∃ q, v = p ++ q ∧ p.length = n := by
  unfold bytesTo
  constructor
  · intro h
    split at h
    · next hn =>
      injection h with h; subst h
      exact ⟨v.drop n, (List.take_append_drop ..).symm, by rw [List.length_take]; omega⟩
    · cases h
  · rintro ⟨q, rfl, rfl⟩
    simp

/-- The same for bytes: `v[n..]`. -/
theorem C76_bytes_from (n : Nat) (v q : Bytes) : bytesFrom n v = some q ↔ ∃ p, v = p ++ q ∧ p.length = n := by
  unfold bytesFrom
  constructor
  · intro h
    split at h
    · next hn =>
      injection h with h; subst h
      exact ⟨v.take n, (List.take_append_drop ..).symm, by rw [List.length_take]; omega⟩
    · cases h
  · rintro ⟨p, rfl, rfl⟩
    simp

/-- What subtraction means: it panics if the result would be negative. -/
theorem C76_subtraction (a b c : Nat) : usizeSub a b = some c ↔ a = b + c := by
  unfold usizeSub
  split
  · simp only [Option.some.injEq]; omega
  · simp only [reduceCtorEq, false_iff]; omega

/-- What the conversion of a character to a byte means: it fails if the code point is too large. -/
theorem C76_to_byte (c : Char) (b : UInt8) : u8TryFrom c = some b ↔ c.toNat = b.toNat := by
  unfold u8TryFrom
  split
  · next h =>
    simp only [Option.some.injEq]
    constructor
    · rintro rfl
      exact (UInt8.toNat_ofNat_of_lt' h).symm
    · intro e
      rw [e]
      simp
  · next h =>
    simp only [reduceCtorEq, false_iff]
    have := b.toNat_lt
    omega

-- An offset inside a character, and one out of range, panic.
example : sliceTo 1 c!"é=" = none ∧ sliceTo 2 c!"é=" = some c!"é" ∧ sliceTo 4 c!"é=" = none := by decide
example : sliceRange 2 1 c!"abc" = none ∧ drainRange 1 2 c!"abc" = some c!"ac" := by decide
-- `strip_suffix` with something that is not a suffix panics (in a debug build).
example : stripSuffixAt c!"ab" c!"abc" = none ∧ stripSuffixAt c!"abc" c!"b" = none := by decide

/-- C76, tag lists (tag_list.rs, parse.rs). -/
theorem C76_tag_list (s : Str) : parseTagListAt s = some (parseTagList s) := parseTagListAt_eq s

example : parseTagListAt c!"a=é ; b = ü\r\n ö;" = some (.ok [⟨c!"a", c!"é"⟩, ⟨c!"b", c!"ü\r\n ö"⟩]) := by rfl

/-- C76, Quoted-Printable decoding (quoted_printable.rs). -/
theorem C76_decode (s : Str) : qpDecodeAt s = qpDecode s ∧ qpDecodeAt s ≠ .panic := by
  have h : qpDecodeAt s = qpDecode s := qpDecodeLoopAt_eq ..
  exact ⟨h, by rw [h]; exact qpDecodeLoop_noPanic _ _ _ _⟩

/-- C76, decoding of quoted-printable sections (quoted_printable.rs). -/
theorem C76_decode_section (s : Str) :
    qpSectionLoopAt s [] = qpSectionDecode s ∧ qpSectionLoopAt s [] ≠ .panic := by
  have h : qpSectionLoopAt s [] = qpSectionDecode s := qpSectionLoopAt_eq ..
  refine ⟨h, ?_⟩
  rw [h, qpSectionDecode, qpSectionLoop_ref]
  cases qpsRef s <;> simp [qpOut]

example : qpSectionLoopAt c!"a=C3=a9 é" [] = .ok [97, 195, 169, 32, 195, 169] := by decide

example : qpDecodeAt c!"é= 2\r\n 0x" = .ok [195, 169, 32, 120] := by decide

/-- C76, Quoted-Printable encoding (quoted_printable.rs, util.rs). -/
theorem C76_encode (bytes : Bytes) (special : Option Char) (asciiOnly : Bool) :
    qpEncodeAt bytes special asciiOnly = some (qpEncode bytes special asciiOnly) := qpEncodeLoopAt_eq ..

example : qpEncodeAt [120, 195, 169, 195, 32] none false = some c!"xé=C3=20" := by decide

/-- C76, lines of a header field body (header.rs). -/
theorem C76_lines (v : Bytes) : splitCrlfAt (v.length + 1) v = some (splitCrlf v) :=
  splitCrlfAt_eq _ v (Nat.lt_succ_self _)

example : splitCrlfAt 8 b!"a\r\n\r\r\nb" = some [b!"a", b!"\r", b!"b"] := by decide

/-- C76, removal of the signature value (verifier/verify.rs). -/
theorem C76_original (value : Str) : makeOriginalAt value = some (makeOriginal value) := makeOriginalAt_eq value

example : makeOriginalAt c!" a = é ; b = ü ; c = 3 " = some c!" a = é ; b =; c = 3 " := by decide

/-- C76, folding of long values (signer/format.rs). -/
theorem C76_chunks (fmt : Fmt) (i : Nat) (s : Str) : formatChunksAt fmt i s = some (formatChunks fmt i s) :=
  formatChunksAt_eq fmt i s

example : formatChunksAt ⟨4, c!" ", false, false⟩ 2 c!"äöüßéè" = some (c!"äö\r\n üßé\r\n è", 2) := by decide

end Dkim
