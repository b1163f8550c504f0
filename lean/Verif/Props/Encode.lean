import Verif.Proofs.Qp
import Verif.Proofs.Base64
import Verif.Spec.Encode

/-!
# Properties C18 to C21: Quoted-Printable and Base64
-/

namespace Dkim

open Spec

/-! ## C18 -/

/-- C18: decoding inverts encoding, for all bytes, in both modes, with any extra
character. -/
theorem C18_qp_round_trip (bytes : Bytes) (special : Option Char) (asciiOnly : Bool) :
    qpDecode (qpEncode bytes special asciiOnly) = .ok bytes :=
  qpDecode_encode bytes special asciiOnly

theorem qpSection_hex (a b : Char) (r : Str) (x y : Nat) (ha : hexVal a = some x)
    (hb : hexVal b = some y) (res : Bytes) :
    qpSectionLoop ('=' :: a :: b :: r) res = qpSectionLoop r (res ++ [UInt8.ofNat (x * 16 + y)]) := by
  have h1 := (hexVal_iff a).1 ⟨x, ha⟩
  have h2 := (hexVal_iff b).1 ⟨y, hb⟩
  rw [qpSectionLoop]
  simp [h1, h2, u8FromDigits, ha, hb]

theorem qpSection_char (c : Char) (r : Str) (res : Bytes) (hc : isDkimSafe c = true) :
    qpSectionLoop (c :: r) res = qpSectionLoop r (res ++ String.utf8EncodeChar c) := by
  have hne : c ≠ '=' := by
    rw [isDkimSafe_iff] at hc
    rintro rfl
    exact absurd hc (by decide)
  rw [qpSectionLoop.eq_3 res c r (by intro c1 c2 r' e; exact absurd e hne),
    if_neg hne, hc]
  rfl

theorem qpSection_text {safe : Char → Bool} (hsafe : ∀ c, safe c = true → isDkimSafe c = true)
    {s : Str} {bs : Bytes} (h : QpText safe s bs) (res : Bytes) :
    qpSectionLoop s res = .ok (res ++ bs) := by
  induction h generalizing res with
  | nil => simp [qpSectionLoop]
  | char c s bs hc _ ih => rw [qpSection_char c s res (hsafe c hc), ih]; simp
  | hex b s bs _ ih =>
    have hb := b.toNat_lt
    have h1 := (hexDigit_facts (b.toNat / 16) (by omega)).1
    have h2 := (hexDigit_facts (b.toNat % 16) (by omega)).1
    show qpSectionLoop ('=' :: hexDigit (b.toNat / 16) :: hexDigit (b.toNat % 16) :: s) res = _
    rw [qpSection_hex _ _ _ _ _ h1 h2, ih,
      show b.toNat / 16 * 16 + b.toNat % 16 = b.toNat by omega]
    simp

/-- C18: the same for the decoder of `qp-section` text (used for the `n=` tag of
key records). -/
theorem C18_qp_section_round_trip (bytes : Bytes) (special : Option Char) (asciiOnly : Bool) :
    qpSectionDecode (qpEncode bytes special asciiOnly) = .ok bytes := by
  have := qpSection_text (fun c hc => (qpSafe_safe hc).1) (qpEncode_text bytes special asciiOnly) []
  simpa [qpSectionDecode] using this

/-- Non-vacuity: invalid UTF-8, a character outside ASCII, the extra character. -/
example : qpEncode [0xff, 0xc3, 0xa4, 0x7c, 0x20] (some '|') false = c!"=FFä=7C=20" := by decide

/-! ## C19 -/

/-- C19: exact description of the output. Literal characters are dkim-safe, are
not the extra character, and are ASCII in ASCII-only mode; all else is written as
equals sign and two upper case hex digits. -/
theorem C19_qp_tokens (bytes : Bytes) (special : Option Char) (asciiOnly : Bool) :
    QpTokens (fun c => dkimSafe c ∧ special ≠ some c ∧ (asciiOnly = true → c.toNat < 128))
      (qpEncode bytes special asciiOnly) := by
  have h := qpEncode_text bytes special asciiOnly
  generalize qpEncode bytes special asciiOnly = s at h
  have hex : ∀ n, n < 16 → upperHex (hexDigit n) := by
    intro n hn
    have := (hexDigit_facts n hn).2.2
    unfold upperHex
    revert this
    generalize hexDigit n = c
    simp only [List.mem_cons, List.not_mem_nil, or_false]
    rintro (rfl | rfl | rfl | rfl | rfl | rfl | rfl | rfl | rfl | rfl | rfl | rfl | rfl | rfl | rfl | rfl)
      <;> decide
  induction h with
  | nil => exact .nil
  | char c s bs hc _ ih =>
    have h2 := qpSafe_safe hc
    exact .char c s ⟨(isDkimSafe_iff c).1 h2.1, h2.2⟩ ih
  | hex b s bs _ ih =>
    have hb := b.toNat_lt
    exact .hex _ _ s (hex _ (by omega)) (hex _ (by omega)) ih

theorem qpTokens_mem {lit : Char → Prop} {s : Str} (h : QpTokens lit s) :
    ∀ c ∈ s, lit c ∨ c = '=' ∨ upperHex c := by
  induction h with
  | nil => simp
  | char d s hd _ ih =>
    intro c hc
    rcases List.mem_cons.1 hc with rfl | hc
    · exact Or.inl hd
    · exact ih c hc
  | hex a b s ha hb _ ih =>
    intro c hc
    rcases List.mem_cons.1 hc with rfl | hc
    · exact Or.inr (Or.inl rfl)
    rcases List.mem_cons.1 hc with rfl | hc
    · exact Or.inr (Or.inr ha)
    rcases List.mem_cons.1 hc with rfl | hc
    · exact Or.inr (Or.inr hb)
    · exact ih c hc

/-- C19: no semicolon, whitespace or control character in the output; ASCII only
in ASCII-only mode. -/
theorem C19_qp_safe_chars (bytes : Bytes) (special : Option Char) (asciiOnly : Bool) :
    ∀ c ∈ qpEncode bytes special asciiOnly, c ≠ ';' ∧ 33 ≤ c.toNat ∧ c.toNat ≠ 127 ∧
      (asciiOnly = true → c.toNat < 128) := by
  intro c hc
  rcases qpTokens_mem (C19_qp_tokens bytes special asciiOnly) c hc with ⟨h, _, h3⟩ | rfl | h
  · rcases h with ⟨h1, h2, h4, _⟩ | h1
    · exact ⟨h4, h1, by omega, fun _ => by omega⟩
    · refine ⟨?_, by omega, by omega, h3⟩
      rintro rfl; exact absurd h1 (by decide)
  · exact ⟨by decide, by decide, by decide, fun _ => by decide⟩
  · unfold upperHex at h
    refine ⟨?_, by omega, by omega, fun _ => by omega⟩
    rintro rfl; exact absurd h (by decide)

/-- C19: an equals sign in the output is always followed by two upper case hex
digits. -/
theorem C19_qp_equals (bytes : Bytes) (special : Option Char) (asciiOnly : Bool) (pre post : Str)
    (h : qpEncode bytes special asciiOnly = pre ++ '=' :: post) :
    ∃ a b r, post = a :: b :: r ∧ upperHex a ∧ upperHex b := by
  have ht := C19_qp_tokens bytes special asciiOnly
  rw [h] at ht
  clear h
  generalize hz : pre ++ '=' :: post = z at ht
  have lit_ne : ∀ c, dkimSafe c → c ≠ '=' := by
    rintro c hc rfl; exact absurd hc (by unfold dkimSafe; decide)
  have hex_ne : ∀ c, upperHex c → c ≠ '=' := by
    rintro c hc rfl; exact absurd hc (by unfold upperHex; decide)
  induction ht generalizing pre with
  | nil => simp at hz
  | char c s hc _ ih =>
    cases pre with
    | nil => exact absurd (List.cons.inj hz).1.symm (lit_ne c hc.1)
    | cons d pre => exact ih pre (List.cons.inj hz).2
  | hex a b s ha hb _ ih =>
    cases pre with
    | nil => exact ⟨a, b, s, (List.cons.inj hz).2, ha, hb⟩
    | cons d pre =>
      have hz := (List.cons.inj hz).2
      cases pre with
      | nil => exact absurd (List.cons.inj hz).1.symm (hex_ne a ha)
      | cons d pre =>
        have hz := (List.cons.inj hz).2
        cases pre with
        | nil => exact absurd (List.cons.inj hz).1.symm (hex_ne b hb)
        | cons d pre => exact ih pre (List.cons.inj hz).2

/-- C19, partial: the extra character does not occur in the output. Missing: extra
characters that are the equals sign or an upper case hex digit, for which the claim
is false, see `C19_violation`. -/
theorem C19_extra_char_absent_partial (bytes : Bytes) (special : Char) (asciiOnly : Bool)
    (h1 : special ≠ '=') (h2 : ¬ upperHex special) :
    special ∉ qpEncode bytes (some special) asciiOnly := by
  intro hc
  rcases qpTokens_mem (C19_qp_tokens bytes (some special) asciiOnly) special hc with h | h | h
  · exact h.2.1 rfl
  · exact h1 h
  · exact h2 h

/-- C19 fails for an extra character that is itself part of the hex notation: the
digit 3 as extra character is encoded as "=33". -/
theorem C19_violation :
    ¬ ∀ (bytes : Bytes) (special : Char) (asciiOnly : Bool),
      special ∉ qpEncode bytes (some special) asciiOnly := by
  intro h
  exact absurd (h [0x33] '3' false) (by decide)

/-- Non-vacuity: the extra characters used by the signer meet the hypotheses. -/
example : '|' ≠ '=' ∧ ¬ upperHex '|' ∧ ¬ upperHex ':' := by unfold upperHex; decide
example : '|' ∉ qpEncode b!"a|b;c=d e" (some '|') true ∧
    qpEncode b!"a|b;c=d e" (some '|') true = c!"a=7Cb=3Bc=3Dd=20e" := by decide

/-- C19, exactly: the extra characters that never occur in the output are those that are not
part of the hex notation. -/
theorem C19_extra_char_iff (special : Char) :
    (∀ (bytes : Bytes) (asciiOnly : Bool), special ∉ qpEncode bytes (some special) asciiOnly) ↔
      special ≠ '=' ∧ ¬ upperHex special := by
  refine ⟨fun h => ⟨?_, ?_⟩, fun h bytes asciiOnly => C19_extra_char_absent_partial bytes special asciiOnly h.1 h.2⟩
  · rintro rfl
    exact h [59] true (by decide)
  · intro hx
    have hs : ∀ n < 16, hexDigit n ∈ qpEncode [UInt8.ofNat n] (some (hexDigit n)) true := by decide
    have hd : ∀ n < 16, hexDigit n = Char.ofNat (if n < 10 then n + 48 else n + 55) := by decide
    obtain ⟨n, hn, e⟩ : ∃ n < 16, special = hexDigit n := by
      unfold upperHex at hx
      rcases hx with hx | hx
      · refine ⟨special.toNat - 48, by omega, ?_⟩
        rw [hd _ (by omega), if_pos (by omega), Nat.sub_add_cancel hx.1, Char.ofNat_toNat]
      · refine ⟨special.toNat - 55, by omega, ?_⟩
        rw [hd _ (by omega), if_neg (by omega), Nat.sub_add_cancel (by omega), Char.ofNat_toNat]
    subst e
    exact h _ _ (hs n hn)

/-- C19: the claim about whitespace and control characters concerns those of ASCII; outside
ASCII-only mode, the next line character U+0085 and the no-break space U+00A0 are written as
they are. -/
theorem C19_unicode_space : qpEncode [0xc2, 0x85, 0xc2, 0xa0] none false = [Char.ofNat 0x85, Char.ofNat 0xa0] := by
  decide

/-! ## C20 -/

/-- C20: decoding inverts encoding. -/
theorem C20_base64_round_trip (bytes : Bytes) : decodeBase64 (encodeBase64 bytes) = some bytes :=
  decode_encodeBase64 bytes

/-- C20: only canonical encodings are accepted. -/
theorem C20_base64_canonical (s : Str) (bytes : Bytes) :
    decodeBase64 s = some bytes ↔ s = encodeBase64 bytes :=
  ⟨encode_decodeBase64 s bytes, fun h => by rw [h, decode_encodeBase64]⟩

/-- C20: the length estimated by the signer is the length of the encoding. -/
theorem C20_estimate (bytes : Bytes) :
    (encodeBase64 bytes).length = estimateBTagLength bytes.length := encodeBase64_length bytes

theorem alphabet_fin : ∀ n : Fin 64, base64Alphabet.getD n '=' = b64Char n := by decide

theorem alphabet_eq (n : Nat) (h : n < 64) : base64Alphabet.getD n '=' = b64Char n := alphabet_fin ⟨n, h⟩

theorem base64_group (a b c : UInt8) (r : Bytes) :
    base64 (a :: b :: c :: r) = b64Char (a.toNat / 4) :: b64Char (a.toNat % 4 * 16 + b.toNat / 16) ::
      b64Char (b.toNat % 16 * 4 + c.toNat / 64) :: b64Char (c.toNat % 64) :: base64 r := by
  have ha := a.toNat_lt
  have hb := b.toNat_lt
  have hc := c.toNat_lt
  simp only [base64, List.flatMap_cons, byteBits, List.cons_append, List.nil_append, sextets, bitsVal,
    List.foldl_cons, List.foldl_nil, List.map_cons, List.length_cons, List.length_map]
  rw [alphabet_eq _ (by omega), alphabet_eq _ (by omega), alphabet_eq _ (by omega),
    alphabet_eq _ (by omega)]
  congr 1
  · congr 1; omega
  congr 1
  · congr 1; omega
  congr 1
  · congr 1; omega
  congr 1
  · congr 1; omega
  congr 2
  omega

/-- C20: the encoding is that of RFC 4648, section 4. -/
theorem C20_base64_rfc4648 (bytes : Bytes) : encodeBase64 bytes = base64 bytes := by
  induction bytes using encodeBase64.induct with
  | case1 => rfl
  | case2 a =>
    have ha := a.toNat_lt
    simp only [encodeBase64, base64, List.flatMap_cons, List.flatMap_nil, byteBits, List.cons_append,
      List.nil_append, sextets, bitsVal, List.foldl_cons, List.foldl_nil, List.map_cons, List.map_nil,
      List.length_cons, List.length_nil, List.take_succ_cons, List.take_zero]
    rw [alphabet_eq _ (by omega), alphabet_eq _ (by omega)]
    congr 1
    · congr 1; omega
    congr 1
    congr 1; omega
  | case3 a b =>
    have ha := a.toNat_lt
    have hb := b.toNat_lt
    simp only [encodeBase64, base64, List.flatMap_cons, List.flatMap_nil, byteBits, List.cons_append,
      List.nil_append, sextets, bitsVal, List.foldl_cons, List.foldl_nil, List.map_cons, List.map_nil,
      List.length_cons, List.length_nil, List.take_succ_cons, List.take_zero]
    rw [alphabet_eq _ (by omega), alphabet_eq _ (by omega), alphabet_eq _ (by omega)]
    congr 1
    · congr 1; omega
    congr 1
    · congr 1; omega
    congr 1
    congr 1; omega
  | case4 a b c r ih => rw [encodeBase64, ih, base64_group]

/-- Non-vacuity. -/
example : encodeBase64 [0xff, 0x01, 0x80, 0x7f] = c!"/wGAfw==" ∧ decodeBase64 c!"/wGAfw=="
    = some [0xff, 0x01, 0x80, 0x7f] ∧ decodeBase64 c!"/wGAfx==" = none := by decide

/-! ## C21 -/

theorem spread_filter {s t : Str} (h : Spread s t) (hs : ∀ c ∈ s, ¬ fwsChar c) :
    t.filter (fun c => !isFwsChar c) = s := by
  induction h with
  | nil => rfl
  | keep c s t _ ih =>
    have : isFwsChar c = false := by
      cases h : isFwsChar c with
      | false => rfl
      | true => exact absurd ((isFwsChar_iff c).1 h) (hs c (by simp))
    rw [List.filter_cons, this]
    simp only [Bool.not_false, if_true]
    rw [ih (fun d hd => hs d (by simp [hd]))]
  | insert c s t hc _ ih =>
    rw [List.filter_cons, (isFwsChar_iff c).2 hc]
    simpa using ih hs

/-- C21: whitespace put anywhere into a Base64 value does not change what it
decodes to. -/
theorem C21_base64_fws (s t : Str) (hs : ∀ c ∈ s, ¬ fwsChar c) (h : Spread s t) :
    parseBase64Value t = parseBase64Value s := by
  have hrefl : ∀ s : Str, Spread s s := by
    intro s
    induction s with
    | nil => exact .nil
    | cons c s ih => exact .keep c s s ih
  rw [parseBase64Value, parseBase64Value, spread_filter h hs, spread_filter (hrefl s) hs]

/-- C21: in particular a Base64 encoding into which whitespace was put still
decodes to the bytes. -/
theorem C21_base64_encoded (bytes : Bytes) (t : Str) (h : Spread (encodeBase64 bytes) t) :
    parseBase64Value t = some bytes := by
  have hs : ∀ c ∈ encodeBase64 bytes, ¬ fwsChar c := by
    intro c hc hf
    rcases encodeBase64_chars bytes c hc with rfl | ⟨n, hn, rfl⟩
    · exact eq_noFws hf
    · have := b64Char_noFws hn
      rw [(isFwsChar_iff _).2 hf] at this
      exact absurd this (by decide)
  rw [parseBase64Value, spread_filter h hs, decode_encodeBase64]

/-- C21: folding whitespace put between characters of a Quoted-Printable value
(also inside a hex pair) does not change what it decodes to; in particular it
neither makes a valid value invalid nor an invalid one valid. -/
theorem C21_qp_fws (s t : Str) (hs : ∀ c ∈ s, ¬ fwsChar c) (h : Inserted s t) :
    qpDecode t = qpDecode s := by
  rw [qpDecode_inserted hs h, qpDecode_inserted hs (inserted_refl s)]

/-- C21: the same for encodings. -/
theorem C21_qp_encoded (bytes : Bytes) (special : Option Char) (asciiOnly : Bool) (t : Str)
    (h : Inserted (qpEncode bytes special asciiOnly) t) : qpDecode t = .ok bytes := by
  have h2 := qpRef_text (fun c hc => (qpSafe_safe hc).1) (qpEncode_text bytes special asciiOnly)
  rw [qpDecode_inserted h2.2 h, h2.1]; rfl

/-- Non-vacuity: a fold inside a hex pair. -/
example : Inserted c!"=C3x" c!"=\r\n C\t3x" := by
  refine .keep '=' _ _ (.insert c!"\r\n " 'C' _ _ (.folded [] [' '] (by simp) (by simp) ?_)
    (.insert ['\t'] '3' _ _ (.plain ['\t'] (by simp) ?_) (.keep 'x' _ _ .nil)))
  · simp [wsp]
  · simp [wsp]
example : qpDecode c!"=\r\n C\t3x" = .ok [0xc3, 0x78] := by decide
example : Spread c!"/w==" c!"/ w\r\n ==" :=
  .keep _ _ _ (.insert ' ' _ _ (Or.inl rfl) (.keep _ _ _ (.insert '\r' _ _ (Or.inr (Or.inr (Or.inl rfl)))
    (.insert '\n' _ _ (Or.inr (Or.inr (Or.inr rfl))) (.insert ' ' _ _ (Or.inl rfl)
      (.keep _ _ _ (.keep _ _ _ .nil)))))))

end Dkim
