import Verif.Model.Slices
import Verif.Proofs.FormatOut
import Verif.Proofs.HeaderBlock
import Verif.Props.Domain

/-! Byte offsets: helper lemmas for property C76. -/

namespace Dkim

theorem byteLen_app (a b : Str) : byteLen (a ++ b) = byteLen a + byteLen b := by simp [byteLen]

theorem sliceTo_append (a b : Str) : sliceTo (byteLen a) (a ++ b) = some a := by
  rw [sliceTo, splitAtByte_append]; rfl

theorem sliceFrom_append (a b : Str) : sliceFrom (byteLen a) (a ++ b) = some b := by
  rw [sliceFrom, splitAtByte_append]; rfl

theorem sliceRange_append (a b c : Str) :
    sliceRange (byteLen a) (byteLen a + byteLen b) (a ++ b ++ c) = some b := by
  rw [sliceRange, if_pos (by omega), ← byteLen_app, sliceTo_append]
  exact sliceFrom_append a b

theorem drainRange_append (a b c : Str) :
    drainRange (byteLen a) (byteLen a + byteLen b) (a ++ b ++ c) = some (a ++ c) := by
  rw [drainRange, if_pos (by omega), ← byteLen_app, sliceFrom_append, List.append_assoc, sliceTo_append]

theorem splitAtByte_some {n : Nat} {s a b : Str} (h : splitAtByte n s = some (a, b)) :
    s = a ++ b ∧ byteLen a = n := by
  induction s generalizing n a b with
  | nil =>
    cases n with
    | zero => simp [splitAtByte] at h; obtain ⟨rfl, rfl⟩ := h; exact ⟨rfl, rfl⟩
    | succ n => simp [splitAtByte] at h
  | cons c s ih =>
    cases n with
    | zero => simp [splitAtByte] at h; obtain ⟨rfl, rfl⟩ := h; exact ⟨rfl, rfl⟩
    | succ n =>
      rw [splitAtByte] at h
      by_cases hc : c.utf8Size ≤ n + 1
      · rw [if_pos hc] at h
        cases hx : splitAtByte (n + 1 - c.utf8Size) s with
        | none => rw [hx] at h; simp at h
        | some p =>
          obtain ⟨x, y⟩ := p
          rw [hx] at h
          simp only [Option.some.injEq, Prod.mk.injEq] at h
          obtain ⟨rfl, rfl⟩ := h
          obtain ⟨e, hl⟩ := ih hx
          refine ⟨by rw [e]; rfl, ?_⟩
          have : byteLen (c :: x) = c.utf8Size + byteLen x := by simp [byteLen]
          omega
      · rw [if_neg hc] at h; simp at h

theorem usizeSub_some {a b : Nat} (h : b ≤ a) : usizeSub a b = some (a - b) := if_pos h

theorem stripSuffixAt_eq {s suffix : Str} (h : suffix <:+ s) :
    stripSuffixAt s suffix = some (stripSuffix s suffix) := by
  rw [stripSuffixAt, if_pos (List.isSuffixOf_iff_suffix.2 h)]
  obtain ⟨a, rfl⟩ := h
  rw [usizeSub_some (by rw [byteLen_app]; omega), Option.bind_some]
  have : byteLen (a ++ suffix) - byteLen suffix = byteLen a := by rw [byteLen_app]; omega
  rw [this, sliceTo_append, stripSuffix_append]

/-! ## Suffixes -/

theorem stripWsp_suffix {s r : Str} (h : stripWsp s = some r) : r <:+ s := by
  unfold stripWsp at h
  split at h
  · split at h
    · injection h with h; subst h
      exact (List.dropWhile_suffix _).trans (List.suffix_cons _ _)
    · cases h
  · cases h

theorem stripCrlf_suffix {s r : Str} (h : stripCrlf s = some r) : r <:+ s := by
  unfold stripCrlf at h
  split at h
  · injection h with h; subst h
    exact ⟨['\r', '\n'], rfl⟩
  · cases h

theorem stripCrlfWsp_suffix {s r : Str} (h : (stripCrlf s).bind stripWsp = some r) : r <:+ s := by
  cases hc : stripCrlf s with
  | none => rw [hc] at h; cases h
  | some t => rw [hc] at h; exact (stripWsp_suffix h).trans (stripCrlf_suffix hc)

theorem stripFws_suffix {s r : Str} (h : stripFws s = some r) : r <:+ s := by
  unfold stripFws at h
  cases hw : stripWsp s with
  | none => rw [hw] at h; exact stripCrlfWsp_suffix h
  | some t =>
    rw [hw] at h
    dsimp only at h
    cases hc : (stripCrlf t).bind stripWsp with
    | none => rw [hc] at h; injection h with h; subst h; exact stripWsp_suffix hw
    | some u =>
      rw [hc] at h; injection h with h; subst h
      exact (stripCrlfWsp_suffix hc).trans (stripWsp_suffix hw)

theorem skipFws_suffix (s : Str) : skipFws s <:+ s := by
  unfold skipFws
  cases h : stripFws s with
  | none => exact List.suffix_refl s
  | some r => exact stripFws_suffix h

theorem stripTval_suffix {s r : Str} (h : stripTval s = some r) : r <:+ s := by
  unfold stripTval at h
  split at h
  · split at h
    · injection h with h; subst h
      exact (List.dropWhile_suffix _).trans (List.suffix_cons _ _)
    · cases h
  · cases h

theorem stripDkimSafe_suffix {s r : Str} (h : stripDkimSafe s = some r) : r <:+ s := by
  unfold stripDkimSafe at h
  split at h
  · split at h
    · injection h with h; subst h
      exact (List.dropWhile_suffix _).trans (List.suffix_cons _ _)
    · cases h
  · cases h

theorem tvalLoop_suffix (n : Nat) (s : Str) : tvalLoop n s <:+ s := by
  induction n generalizing s with
  | zero => exact List.suffix_refl s
  | succ n ih =>
    rw [tvalLoop]
    cases h : (stripFws s).bind stripTval with
    | none => exact List.suffix_refl s
    | some t =>
      refine (ih t).trans ?_
      cases hf : stripFws s with
      | none => rw [hf] at h; cases h
      | some u => rw [hf] at h; exact (stripTval_suffix h).trans (stripFws_suffix hf)

/-! ## Tag lists -/

theorem stripTagNameAt_eq (s : Str) : stripTagNameAt s = some (stripTagName s) := by
  unfold stripTagNameAt stripTagName
  cases s with
  | nil => rfl
  | cons c r =>
    dsimp only
    by_cases h : isAsciiAlpha c = true
    · rw [if_pos h, if_pos h, stripSuffixAt_eq ((List.dropWhile_suffix _).trans (List.suffix_cons _ _))]; rfl
    · rw [if_neg h, if_neg h]

theorem stripTagValueAt_eq (s : Str) : stripTagValueAt s = some (stripTagValue s) := by
  unfold stripTagValueAt stripTagValue
  cases h : stripTval s with
  | none => rfl
  | some r =>
    dsimp only
    rw [stripSuffixAt_eq ((tvalLoop_suffix _ _).trans (stripTval_suffix h))]; rfl

theorem stripTagNameAndEqualsAt_eq (s : Str) :
    stripTagNameAndEqualsAt s = some (stripTagNameAndEquals s) := by
  unfold stripTagNameAndEqualsAt stripTagNameAndEquals
  rw [stripTagNameAt_eq]
  cases stripTagName (skipFws s) with
  | none => rfl
  | some p =>
    dsimp only
    generalize skipFws p.1 = t
    split
    · rfl
    · rename_i hne
      first
      | rfl
      | (split
         · exact absurd rfl (hne _)
         · rfl)

theorem stripTagSpecAt_eq (s : Str) : stripTagSpecAt s = some (stripTagSpec s) := by
  unfold stripTagSpecAt stripTagSpec
  rw [stripTagNameAndEqualsAt_eq]
  cases stripTagNameAndEquals s with
  | none => rfl
  | some p =>
    dsimp only
    rw [stripTagValueAt_eq]
    cases stripTagValue (skipFws p.1) <;> rfl

theorem tagListLoopAt_eq (n : Nat) (s : Str) (tags : List TagSpec) :
    tagListLoopAt n s tags = some (tagListLoop n s tags) := by
  induction n generalizing s tags with
  | zero => rfl
  | succ n ih =>
    unfold tagListLoopAt tagListLoop
    split
    · rename_i r
      rw [stripTagSpecAt_eq]
      show _ = some (match stripTagSpec r with
        | some (s', t) => tagListLoop n s' (tags ++ [t])
        | none => (';' :: r, tags))
      cases stripTagSpec r with
      | none => rfl
      | some p => exact ih _ _
    · rename_i hne
      first
      | rfl
      | (split
         · exact absurd rfl (hne _)
         · rfl)

theorem parseTagListAt_eq (s : Str) : parseTagListAt s = some (parseTagList s) := by
  unfold parseTagListAt parseTagList stripTagList
  rw [stripTagSpecAt_eq]
  cases stripTagSpec s with
  | none => rfl
  | some p =>
    obtain ⟨r, t⟩ := p
    dsimp only
    rw [tagListLoopAt_eq]
    obtain ⟨r', tags⟩ := tagListLoop r.length r [t]
    dsimp only
    cases r' with
    | nil => rfl
    | cons c r' =>
      by_cases hc : c = ';'
      · subst hc
        cases r' <;> rfl
      · simp [hc]

/-! ## Quoted-Printable -/

theorem hexdig_lt {c : Char} (h : isAsciiHexdigit c = true) : c.toNat < 128 := by
  simp [isAsciiHexdigit, isAsciiDigit] at h
  omega

theorem hexValByte_eq {c : Char} (h : c.toNat < 128) : hexValByte (UInt8.ofNat c.toNat) = hexVal c := by
  have e : (UInt8.ofNat c.toNat).toNat = c.toNat := by
    rw [UInt8.toNat_ofNat']; omega
  unfold hexValByte hexVal
  rw [e]
  simp [isAsciiDigit]

theorem u8FromDigitsByte_eq {c d : Char} (hc : c.toNat < 128) (hd : d.toNat < 128) :
    u8FromDigitsByte (UInt8.ofNat c.toNat) (UInt8.ofNat d.toNat) = u8FromDigits c d := by
  unfold u8FromDigitsByte u8FromDigits
  rw [hexValByte_eq hc, hexValByte_eq hd]
  cases h1 : hexVal c with
  | none => rfl
  | some a =>
    cases h2 : hexVal d with
    | none => rfl
    | some b =>
      have := hexVal_lt h1
      have := hexVal_lt h2
      dsimp only
      rw [if_pos (by omega)]

theorem stripHexdigAt_eq (s : Str) :
    stripHexdigAt s = some ((stripHexdig s).map fun p => (p.1, UInt8.ofNat p.2.toNat)) := by
  unfold stripHexdigAt stripHexdig
  cases skipFws s with
  | nil => rfl
  | cons c r =>
    dsimp only
    by_cases h : isAsciiHexdigit c = true
    · rw [if_pos h, if_pos h, utf8_cons, encodeChar_ascii c (hexdig_lt h)]; rfl
    · rw [if_neg h, if_neg h]; rfl

theorem stripHexdig_lt {s r : Str} {c : Char} (h : stripHexdig s = some (r, c)) : c.toNat < 128 := by
  unfold stripHexdig at h
  split at h
  · split at h
    · rename_i hx
      injection h with h; injection h with _ h; subst h
      exact hexdig_lt hx
    · cases h
  · cases h

theorem stripHexOctetAt_eq (s : Str) : stripHexOctetAt s = stripHexOctet s := by
  unfold stripHexOctetAt stripHexOctet
  rw [stripHexdigAt_eq]
  cases h1 : stripHexdig s with
  | none => rfl
  | some p =>
    obtain ⟨r, d1⟩ := p
    dsimp only [Option.map]
    rw [stripHexdigAt_eq]
    cases h2 : stripHexdig r with
    | none => rfl
    | some q =>
      obtain ⟨r', d2⟩ := q
      dsimp only [Option.map]
      have e := u8FromDigitsByte_eq (stripHexdig_lt h1) (stripHexdig_lt h2)
      simp only [e]
      try (cases u8FromDigits d1 d2 <;> rfl)

theorem qpDecodeLoopAt_eq (n : Nat) (inFws : Bool) (s : Str) (result : Bytes) :
    qpDecodeLoopAt n inFws s result = qpDecodeLoop n inFws s result := by
  induction n generalizing inFws s result with
  | zero => rfl
  | succ n ih =>
    by_cases hs : ∃ r, s = '=' :: r
    · obtain ⟨r, rfl⟩ := hs
      rw [qpDecodeLoopAt, qpDecodeLoop, stripHexOctetAt_eq]
      cases stripHexOctet r with
      | none => rfl
      | some o =>
        cases o with
        | none => rfl
        | some p => exact ih ..
    · have hne : ∀ r, s = '=' :: r → False := fun r h => hs ⟨r, h⟩
      rw [qpDecodeLoopAt, qpDecodeLoop]
      rotate_left
      · exact hne
      · exact hne
      cases hd : stripDkimSafe s with
      | some r =>
        dsimp only
        rw [stripSuffixAt_eq (stripDkimSafe_suffix hd)]
        exact ih ..
      | none =>
        dsimp only
        cases stripFws s with
        | none => rfl
        | some r => dsimp only; rw [ih]

theorem u8TryFrom_ascii {c : Char} (h : c.toNat < 128) : u8TryFrom c = some (UInt8.ofNat c.toNat) :=
  if_pos (by omega)

theorem qpSectionLoopAt_eq (s : Str) (result : Bytes) : qpSectionLoopAt s result = qpSectionLoop s result := by
  induction s, result using qpSectionLoop.induct with
  | case1 result => rfl
  | case2 c1 c2 r result h hu =>
    rw [qpSectionLoopAt, qpSectionLoop, if_pos h, if_pos h]
    simp only [Bool.and_eq_true] at h
    rw [u8TryFrom_ascii (hexdig_lt h.1), u8TryFrom_ascii (hexdig_lt h.2)]
    dsimp only
    rw [u8FromDigitsByte_eq (hexdig_lt h.1) (hexdig_lt h.2), hu]
  | case3 c1 c2 r result h b hu ih =>
    rw [qpSectionLoopAt, qpSectionLoop, if_pos h, if_pos h]
    simp only [Bool.and_eq_true] at h
    rw [u8TryFrom_ascii (hexdig_lt h.1), u8TryFrom_ascii (hexdig_lt h.2)]
    dsimp only
    rw [u8FromDigitsByte_eq (hexdig_lt h.1) (hexdig_lt h.2), hu]
    exact ih
  | case4 c1 c2 r result h => rw [qpSectionLoopAt, qpSectionLoop, if_neg h, if_neg h]
  | case5 r result hne =>
    rw [qpSectionLoopAt, qpSectionLoop, if_pos rfl, if_pos rfl]
    all_goals exact hne
  | case6 c r result hne h1 h2 ih =>
    rw [qpSectionLoopAt, qpSectionLoop, if_neg h1, if_neg h1, if_pos h2, if_pos h2, ih]
    all_goals exact hne
  | case7 c r result hne h1 h2 =>
    rw [qpSectionLoopAt, qpSectionLoop, if_neg h1, if_neg h1, if_neg h2, if_neg h2]
    all_goals exact hne

/-! ## Encoding -/

theorem bytesTo_append (a b : Bytes) : bytesTo a.length (a ++ b) = some a := by
  rw [bytesTo, if_pos (by simp)]; simp

theorem bytesFrom_append (a b : Bytes) : bytesFrom a.length (a ++ b) = some b := by
  rw [bytesFrom, if_pos (by simp)]; simp

theorem nextUtf8Chunk_eq (bytes : Bytes) :
    nextUtf8Chunk bytes = some (if (utf8Prefix bytes).1.isEmpty then none else some (utf8Prefix bytes).1) := by
  have hs := utf8Prefix_spec bytes
  unfold nextUtf8Chunk fromUtf8
  generalize hp : utf8Prefix bytes = p at hs
  obtain ⟨s, rest⟩ := p
  dsimp only at hs ⊢
  cases rest with
  | nil => rfl
  | cons b rest =>
    dsimp only
    have hl : bytes.length - (b :: rest).length = (utf8 s).length := by
      rw [← hs, List.length_append]; omega
    rw [hl, ← hs, bytesTo_append]
    dsimp only
    rw [utf8Prefix_encode]
    dsimp only
    cases s with
    | nil => rfl
    | cons c s =>
      rw [if_pos]
      · rfl
      · have := utf8_length_ge (c :: s)
        simp at this ⊢
        omega

theorem qpEncodeLoopAt_eq (special : Option Char) (asciiOnly : Bool) (n : Nat) (bytes : Bytes) :
    qpEncodeLoopAt special asciiOnly n bytes = some (qpEncodeLoop special asciiOnly n bytes) := by
  induction n generalizing bytes with
  | zero => rfl
  | succ n ih =>
    cases bytes with
    | nil => rfl
    | cons b r =>
      rw [qpEncodeLoopAt, if_neg (by simp), nextUtf8Chunk_eq, qpEncodeLoop]
      have hs := utf8Prefix_spec (b :: r)
      generalize utf8Prefix (b :: r) = p at hs
      obtain ⟨s, rest⟩ := p
      dsimp only at hs ⊢
      cases s with
      | nil =>
        show (match some b, bytesFrom 1 (b :: r) with
          | some b, some rest => (qpEncodeLoopAt special asciiOnly n rest).map (qpByte b ++ ·)
          | _, _ => none) = _
        rw [show bytesFrom 1 (b :: r) = some r from bytesFrom_append [b] r]
        dsimp only
        rw [ih]; rfl
      | cons c s =>
        rw [if_neg (by simp)]
        dsimp only
        rw [← hs, ← utf8_length, bytesFrom_append]
        dsimp only
        rw [ih]; rfl

/-! ## Lines -/

theorem crlfPosition_spec (v : Bytes) :
    match crlfPosition v with
    | none => splitCrlf v = [v]
    | some i => ∃ a r, v = a ++ 13 :: 10 :: r ∧ a.length = i ∧ splitCrlf v = a :: splitCrlf r := by
  induction v using crlfPosition.induct with
  | case1 => rfl
  | case2 b =>
    rw [crlfPosition]
    simp [splitCrlf]
  | case3 a b r h =>
    rw [crlfPosition, if_pos h]
    obtain ⟨rfl, rfl⟩ := h
    exact ⟨[], r, rfl, rfl, by rw [splitCrlf]⟩
  | case4 a b r h ih =>
    rw [crlfPosition, if_neg h]
    have hs : splitCrlf (a :: b :: r) = match splitCrlf (b :: r) with
        | [] => [[a]]
        | p :: ps => (a :: p) :: ps := by
      have hne : ∀ r', a = 13 → b :: r = 10 :: r' → False := by
        rintro r' rfl h'
        injection h' with h1 h2
        exact h ⟨rfl, h1⟩
      rw [splitCrlf]
      all_goals first
        | exact hne
        | rfl
    cases hc : crlfPosition (b :: r) with
    | none =>
      rw [hc] at ih
      dsimp only [Option.map] at ih ⊢
      rw [hs, ih]
    | some i =>
      rw [hc] at ih
      obtain ⟨x, y, e, hl, hx⟩ := ih
      refine ⟨a :: x, y, by rw [e]; rfl, by simp [hl], ?_⟩
      rw [hs, hx]

theorem splitCrlfAt_eq (n : Nat) (v : Bytes) (hn : v.length < n) : splitCrlfAt n v = some (splitCrlf v) := by
  induction n generalizing v with
  | zero => omega
  | succ n ih =>
    rw [splitCrlfAt]
    have h := crlfPosition_spec v
    cases hc : crlfPosition v with
    | none => rw [hc] at h; dsimp only at h ⊢; rw [h]
    | some i =>
      rw [hc] at h
      obtain ⟨a, r, rfl, rfl, hs⟩ := h
      dsimp only
      rw [bytesTo_append, bytesFrom_append]
      dsimp only
      rw [show bytesFrom 2 (13 :: 10 :: r) = some r from bytesFrom_append [13, 10] r]
      dsimp only
      rw [ih r (by simp at hn; omega), hs]; rfl

/-! ## Removal of the signature value -/

theorem stripTagName_suffix {s r name : Str} (h : stripTagName s = some (r, name)) : r <:+ s := by
  unfold stripTagName at h
  split at h
  · split at h
    · injection h with h; injection h with h _; subst h
      exact (List.dropWhile_suffix _).trans (List.suffix_cons _ _)
    · cases h
  · cases h

theorem stripTagNameAndEquals_suffix {s r name : Str} (h : stripTagNameAndEquals s = some (r, name)) : r <:+ s := by
  unfold stripTagNameAndEquals at h
  cases hn : stripTagName (skipFws s) with
  | none => rw [hn] at h; cases h
  | some p =>
    obtain ⟨t, name'⟩ := p
    rw [hn] at h
    dsimp only at h
    split at h
    · rename_i r' he
      injection h with h; injection h with h _; subst h
      have h1 : r' <:+ skipFws t := by rw [he]; exact List.suffix_cons _ _
      exact h1.trans ((skipFws_suffix t).trans ((stripTagName_suffix hn).trans (skipFws_suffix s)))
    · cases h

theorem bTagPrefixLen_eq (s : Str) : bTagPrefixLen s = some ((bTagPrefix s).map byteLen) := by
  unfold bTagPrefixLen bTagPrefix
  rw [stripTagNameAndEqualsAt_eq]
  cases h : stripTagNameAndEquals s with
  | none => rfl
  | some p =>
    obtain ⟨r, name⟩ := p
    dsimp only
    by_cases hb : name = c!"b"
    · rw [if_pos hb, if_pos hb]
      obtain ⟨a, rfl⟩ := stripTagNameAndEquals_suffix h
      rw [stripSuffix_append, usizeSub_some (by rw [byteLen_app]; omega)]
      simp [byteLen_app]
    · rw [if_neg hb, if_neg hb]; rfl

theorem bTagPrefix_prefix {s p : Str} (h : bTagPrefix s = some p) : ∃ q, s = p ++ q := by
  unfold bTagPrefix at h
  cases hs : stripTagNameAndEquals s with
  | none => rw [hs] at h; cases h
  | some x =>
    obtain ⟨r, name⟩ := x
    rw [hs] at h
    dsimp only at h
    split at h
    · injection h with h; subst h
      obtain ⟨a, rfl⟩ := stripTagNameAndEquals_suffix hs
      exact ⟨r, by rw [stripSuffix_append]⟩
    · cases h

theorem byteLen_cons' (c : Char) (s : Str) : byteLen (c :: s) = c.utf8Size + byteLen s := by simp [byteLen]

theorem matchIndices_not_mem (c : Char) (pos : Nat) (a : Str) (h : c ∉ a) : matchIndices c pos a = [] := by
  induction a generalizing pos with
  | nil => rfl
  | cons d a ih =>
    simp only [List.mem_cons, not_or] at h
    rw [matchIndices, if_neg (fun e => h.1 e.symm), ih _ h.2]; rfl

theorem matchIndices_append (c : Char) (pos : Nat) (a b : Str) (h : c ∉ a) :
    matchIndices c pos (a ++ b) = matchIndices c (pos + byteLen a) b := by
  induction a generalizing pos with
  | nil => rfl
  | cons d a ih =>
    simp only [List.mem_cons, not_or] at h
    rw [List.cons_append, matchIndices, if_neg (fun e => h.1 e.symm), List.nil_append, ih _ h.2, byteLen_cons',
      Nat.add_assoc]

theorem originalLoopAt_eq (n : Nat) (before rest : Str) (hn : rest.length < n) :
    originalLoopAt (before ++ rest) (byteLen before) (matchIndices ';' (byteLen before) rest) =
      some (originalLoop n before rest) := by
  induction n generalizing before rest with
  | zero => omega
  | succ n ih =>
    rw [originalLoop]
    cases h : splitOnce ';' rest with
    | some p =>
      obtain ⟨segment, after⟩ := p
      obtain ⟨hm, e⟩ : ';' ∉ segment ∧ rest = segment ++ ';' :: after := by
        obtain ⟨e, hm⟩ := splitOnce_some h
        exact ⟨hm, e⟩
      subst e
      rw [matchIndices_append _ _ _ _ hm, matchIndices, if_pos rfl, List.singleton_append, originalLoopAt,
        ← List.append_assoc, sliceRange_append, Option.bind_some, bTagPrefixLen_eq]
      cases hb : bTagPrefix segment with
      | none =>
        have e1 : byteLen (before ++ segment ++ [';']) = byteLen before + byteLen segment + 1 := by
          rw [byteLen_app, byteLen_app]; rfl
        have := ih (before ++ segment ++ [';']) after (by simp at hn; omega)
        rw [e1] at this
        rw [show before ++ segment ++ ';' :: after = before ++ segment ++ [';'] ++ after by simp]
        show originalLoopAt _ _ _ = some (match bTagPrefix segment with
          | some p => before ++ p ++ ';' :: after
          | none => originalLoop n (before ++ segment ++ [';']) after)
        rw [hb]
        exact this
      | some p =>
        obtain ⟨q, rfl⟩ := bTagPrefix_prefix hb
        show drainRange (byteLen before + byteLen p) (byteLen before + byteLen (p ++ q)) _ = _
        have := drainRange_append (before ++ p) q (';' :: after)
        rw [byteLen_app] at this
        rw [byteLen_app, ← Nat.add_assoc, ← List.append_assoc, this]
        dsimp only
        rw [hb]
    | none =>
      have hm : ';' ∉ rest := by
        exact splitOnce_none.mp h
      rw [matchIndices_not_mem _ _ _ hm, originalLoopAt, byteLen_app]
      cases rest with
      | nil => rw [if_neg (by simp [byteLen])]; simp
      | cons c r =>
        have hp := c.utf8Size_pos
        rw [if_pos (by rw [byteLen_cons']; omega), sliceFrom_append, Option.bind_some, bTagPrefixLen_eq]
        cases hb : bTagPrefix (c :: r) with
        | none => rfl
        | some p =>
          obtain ⟨q, e⟩ := bTagPrefix_prefix hb
          show sliceTo (byteLen before + byteLen p) (before ++ c :: r) = some (before ++ p)
          rw [e, ← byteLen_app, ← List.append_assoc, sliceTo_append]

theorem makeOriginalAt_eq (value : Str) : makeOriginalAt value = some (makeOriginal value) :=
  originalLoopAt_eq (value.length + 1) [] value (Nat.lt_succ_self _)

/-! ## Formatting -/

theorem charIndex_eq (pos k : Nat) (s : Str) :
    charIndex pos k s = if k < s.length then some (pos + byteLen (s.take k)) else none := by
  induction s generalizing pos k with
  | nil => simp [charIndex]
  | cons c s ih =>
    cases k with
    | zero => simp [charIndex, byteLen]
    | succ k =>
      rw [charIndex, ih, List.take_succ_cons, byteLen_cons', List.length_cons]
      simp [Nat.add_assoc]

theorem splitAt_charIndex (k : Nat) (s : Str) :
    splitAtByte ((charIndex 0 k s).getD (byteLen s)) s = some (s.take k, s.drop k) := by
  rw [charIndex_eq]
  by_cases h : k < s.length
  · rw [if_pos h, Option.getD_some, Nat.zero_add]
    have := splitAtByte_append (s.take k) (s.drop k)
    rwa [List.take_append_drop] at this
  · rw [if_neg h, Option.getD_none, List.take_of_length_le (by omega), List.drop_eq_nil_of_le (by omega)]
    have := splitAtByte_append s []
    rwa [List.append_nil] at this

theorem chunksLoopAt_eq (fmt : Fmt) (w n i : Nat) (s : Str) (hw : 0 < w) (hn : s.length ≤ n) :
    chunksLoopAt fmt w n i s = some (chunksLoop fmt w n i s) := by
  induction n generalizing i s with
  | zero =>
    have : s = [] := List.eq_nil_of_length_eq_zero (by omega)
    subst this; rfl
  | succ n ih =>
    cases s with
    | nil => rfl
    | cons c r =>
      rw [chunksLoopAt, chunksLoop, if_neg (by simp), if_neg (by simp), splitAt_charIndex]
      dsimp only
      rw [ih _ _ (by simp at hn ⊢; omega)]

theorem formatChunksAt_eq (fmt : Fmt) (i : Nat) (s : Str) : formatChunksAt fmt i s = some (formatChunks fmt i s) := by
  unfold formatChunksAt formatChunks
  dsimp only
  by_cases h : min (fmt.width - i) s.length > 0
  · rw [if_pos h, splitAt_charIndex]
    dsimp only [Option.map]
    rw [chunksLoopAt_eq _ _ _ _ _ (by omega) (Nat.le_refl _)]
  · rw [if_neg h]
    have h0 : min (fmt.width - i) s.length = 0 := by omega
    dsimp only
    rw [h0, chunksLoopAt_eq _ _ _ _ _ (by omega) (Nat.le_refl _)]
    rfl

end Dkim
