import Verif.Proofs.Fws
import Verif.Model.Encode

/-! Helper lemmas about DKIM-Quoted-Printable. -/

namespace Dkim

open Spec

theorem char_le_iff (a b : Char) : a ≤ b ↔ a.toNat ≤ b.toNat := by
  show a.val ≤ b.val ↔ _
  rw [UInt32.le_iff_toNat_le]; rfl

theorem char_eq_iff (a b : Char) : a = b ↔ a.toNat = b.toNat :=
  ⟨fun h => by rw [h], char_ext_toNat⟩

theorem isDkimSafeAscii_iff (c : Char) :
    isDkimSafeAscii c = true ↔ 33 ≤ c.toNat ∧ c.toNat ≤ 126 ∧ c ≠ ';' ∧ c ≠ '=' := by
  simp only [isDkimSafeAscii, Bool.or_eq_true, Bool.and_eq_true, decide_eq_true_eq, beq_iff_eq,
    char_le_iff, char_eq_iff, ne_eq]
  have h1 : ('!').toNat = 33 := rfl
  have h2 : (':').toNat = 58 := rfl
  have h3 : ('<').toNat = 60 := rfl
  have h4 : ('>').toNat = 62 := rfl
  have h5 : ('~').toNat = 126 := rfl
  have h6 : (';').toNat = 59 := rfl
  have h7 : ('=').toNat = 61 := rfl
  rw [h1, h2, h3, h4, h5, h6, h7]
  omega

theorem isDkimSafe_iff (c : Char) :
    isDkimSafe c = true ↔ (33 ≤ c.toNat ∧ c.toNat ≤ 126 ∧ c ≠ ';' ∧ c ≠ '=') ∨ 128 ≤ c.toNat := by
  simp only [isDkimSafe, Bool.or_eq_true, isDkimSafeAscii_iff, isAscii, Bool.not_eq_true',
    decide_eq_false_iff_not]
  rw [Nat.not_lt]

theorem isDkimSafe_noFws {c : Char} (h : isDkimSafe c = true) : fwsChar c → False := by
  rw [isDkimSafe_iff] at h
  rintro (rfl | rfl | rfl | rfl) <;> revert h <;> decide

theorem eq_noFws : fwsChar '=' → False := by
  rintro (h | h | h | h) <;> exact absurd h (by decide)

theorem hexVal_iff (c : Char) : (∃ n, hexVal c = some n) ↔ isAsciiHexdigit c = true := by
  unfold hexVal isAsciiHexdigit
  cases h1 : isAsciiDigit c
  · cases h2 : (decide (65 ≤ c.toNat) && decide (c.toNat ≤ 70))
    · cases h3 : (decide (97 ≤ c.toNat) && decide (c.toNat ≤ 102)) <;> simp
    · simp
  · simp

theorem hexVal_lt {c : Char} {n : Nat} (h : hexVal c = some n) : n < 16 := by
  unfold hexVal at h
  simp only [isAsciiDigit, Bool.and_eq_true, decide_eq_true_eq] at h
  split at h
  · simp at h; omega
  · split at h
    · simp at h; omega
    · split at h
      · simp at h; omega
      · simp at h

theorem hex_fin : ∀ n : Fin 16, hexVal (hexDigit n) = some n.val ∧ isAsciiHexdigit (hexDigit n) = true ∧
    (hexDigit n ∈ ['0', '1', '2', '3', '4', '5', '6', '7', '8', '9', 'A', 'B', 'C', 'D', 'E', 'F']) := by
  decide

theorem hexdigit_noFws {c : Char} (h : isAsciiHexdigit c = true) : fwsChar c → False := by
  rintro (rfl | rfl | rfl | rfl) <;> revert h <;> decide

/-- Decoding of text without whitespace. -/
def qpRef : Str → Option Bytes
  | [] => some []
  | c :: r =>
    if c = '=' then
      match r with
      | a :: b :: r =>
        match hexVal a, hexVal b with
        | some x, some y => (qpRef r).map (UInt8.ofNat (x * 16 + y) :: ·)
        | _, _ => none
      | _ => none
    else if isDkimSafe c then (qpRef r).map (String.utf8EncodeChar c ++ ·)
    else none

theorem qpRef_safe {run r : Str} (h : ∀ c ∈ run, isDkimSafe c = true) :
    qpRef (run ++ r) = (qpRef r).map (utf8 run ++ ·) := by
  induction run with
  | nil => cases h : qpRef r <;> simp [utf8, h]
  | cons c run ih =>
    have hc := h c (by simp)
    have hne : c ≠ '=' := by
      rintro rfl; revert hc; decide
    rw [List.cons_append, qpRef.eq_def]
    simp only [hne, if_false, hc, if_true]
    rw [ih (fun d hd => h d (by simp [hd])), utf8_cons]
    cases qpRef r <;> simp

/-! ### Inserted whitespace -/

def Clean (s : Str) : Prop := ∀ c ∈ s, ¬ fwsChar c

theorem Clean.tail {c : Char} {s : Str} (h : Clean (c :: s)) : Clean s := fun d hd => h d (by simp [hd])

theorem Clean.noFws {s : Str} (h : Clean s) : NoFws s := by
  cases s with
  | nil => exact noFws_nil
  | cons c r => exact noFws_cons (h c (by simp))

theorem inserted_nil {t : Str} (h : Inserted [] t) : OptFws t := by
  cases h with
  | nil => exact Or.inl rfl
  | final f hf => exact Or.inr hf

/-- Skipping FWS at the start of text with insertions. -/
theorem skipFws_inserted {s t : Str} (hs : Clean s) (h : Inserted s t) :
    (s = [] ∧ skipFws t = []) ∨ ∃ c s' t', s = c :: s' ∧ skipFws t = c :: t' ∧ Inserted s' t' ∧
      t'.length < t.length := by
  cases h with
  | nil => left; exact ⟨rfl, rfl⟩
  | final f hf =>
    left
    refine ⟨rfl, ?_⟩
    have := skipFws_opt (Or.inr hf) noFws_nil
    rwa [List.append_nil] at this
  | keep c s t h =>
    right
    refine ⟨c, s, t, rfl, ?_, h, by simp⟩
    have := skipFws_opt (f := []) (Or.inl rfl) (noFws_cons (c := c) (r := t) (hs c (by simp)))
    rwa [List.nil_append] at this
  | insert f c s t hf h =>
    right
    refine ⟨c, s, t, rfl, ?_, h, by simp; omega⟩
    exact skipFws_opt (Or.inr hf) (noFws_cons (c := c) (r := t) (hs c (by simp)))

theorem stripHexdig_inserted {s t : Str} (hs : Clean s) (h : Inserted s t) :
    (∃ c s' t', s = c :: s' ∧ isAsciiHexdigit c = true ∧ stripHexdig t = some (t', c) ∧
      Inserted s' t' ∧ t'.length < t.length) ∨
    (stripHexdig t = none ∧ (s = [] ∨ ∃ c s', s = c :: s' ∧ isAsciiHexdigit c = false)) := by
  unfold stripHexdig
  rcases skipFws_inserted hs h with ⟨h1, h2⟩ | ⟨c, s', t', h1, h2, h3, h4⟩
  · right; rw [h2]; exact ⟨rfl, Or.inl h1⟩
  · rw [h2]
    simp only
    cases hc : isAsciiHexdigit c with
    | true => left; exact ⟨c, s', t', h1, hc, by simp, h3, h4⟩
    | false => right; exact ⟨by simp, Or.inr ⟨c, s', h1, hc⟩⟩

theorem inserted_run {s t : Str} (hs : Clean s) (h : Inserted s t) :
    ∃ s', s = t.takeWhile isDkimSafe ++ s' ∧ Inserted s' (t.dropWhile isDkimSafe) := by
  have hstart : ∀ (f r : Str), Fws f → NotStart isDkimSafe (f ++ r) := by
    intro f r hf c x e
    obtain ⟨d, y, rfl, _⟩ := fws_head hf
    have hc := fws_chars hf d (by simp)
    obtain ⟨rfl, _⟩ := List.cons.inj e
    cases hd : isDkimSafe d with
    | false => rfl
    | true => exact absurd hc (isDkimSafe_noFws hd)
  induction h with
  | nil => exact ⟨[], rfl, .nil⟩
  | final f hf =>
    have := hstart f [] hf
    rw [List.append_nil] at this
    rw [takeWhile_notStart this, dropWhile_notStart this]
    exact ⟨[], rfl, .final f hf⟩
  | keep c s t h ih =>
    by_cases hc : isDkimSafe c = true
    · obtain ⟨s', h1, h2⟩ := ih hs.tail
      refine ⟨s', ?_, by simpa [hc] using h2⟩
      simp only [List.takeWhile_cons, hc, if_true, List.cons_append]
      rw [← h1]
    · simp only [List.takeWhile_cons, List.dropWhile_cons, hc]
      exact ⟨c :: s, rfl, .keep c s t h⟩
  | insert f c s t hf h ih =>
    have := hstart f (c :: t) hf
    rw [takeWhile_notStart this, dropWhile_notStart this]
    exact ⟨c :: s, rfl, .insert f c s t hf h⟩

/-- What the loop yields from the reference result. -/
def qpOut (res : Bytes) : Option Bytes → Decoded
  | some bs => .ok (res ++ bs)
  | none => .err

theorem qpOut_map (res x : Bytes) (o : Option Bytes) :
    qpOut res (o.map (x ++ ·)) = qpOut (res ++ x) o := by cases o <;> simp [qpOut]

theorem inserted_cases {s t : Str} (h : Inserted s t) :
    (s = [] ∧ OptFws t) ∨
      ∃ f c s' t', OptFws f ∧ s = c :: s' ∧ t = f ++ c :: t' ∧ Inserted s' t' := by
  cases h with
  | nil => exact Or.inl ⟨rfl, Or.inl rfl⟩
  | final f hf => exact Or.inl ⟨rfl, Or.inr hf⟩
  | keep c s t h => exact Or.inr ⟨[], c, s, t, Or.inl rfl, rfl, rfl, h⟩
  | insert f c s t hf h => exact Or.inr ⟨f, c, s, t, Or.inr hf, rfl, rfl, h⟩

theorem hexVal_none {c : Char} (h : isAsciiHexdigit c = false) : hexVal c = none := by
  cases hv : hexVal c with
  | none => rfl
  | some v => rw [(hexVal_iff c).1 ⟨v, hv⟩] at h; simp at h

theorem qpRef_hex (a b : Char) (r : Str) (x y : Nat) (ha : hexVal a = some x) (hb : hexVal b = some y) :
    qpRef ('=' :: a :: b :: r) = (qpRef r).map (UInt8.ofNat (x * 16 + y) :: ·) := by
  rw [qpRef.eq_def]; simp [ha, hb]

theorem qpRef_hex_none (s : Str) (h : (∃ a b r, s = a :: b :: r ∧ (hexVal a = none ∨ hexVal b = none)) ∨
    s.length < 2) : qpRef ('=' :: s) = none := by
  rw [qpRef.eq_def]
  simp only [if_true]
  rcases h with ⟨a, b, r, rfl, h⟩ | h
  · simp only
    split
    · next h1 h2 => rcases h with h | h <;> simp_all
    · rfl
  · match s, h with
    | [], _ => rfl
    | [a], _ => rfl

/-- The octet after an equals sign. -/
theorem stripHexOctet_inserted {s t : Str} (hs : Clean s) (h : Inserted s t) :
    (∃ a b s' t' x y, s = a :: b :: s' ∧ hexVal a = some x ∧ hexVal b = some y ∧
      stripHexOctet t = some (some (t', UInt8.ofNat (x * 16 + y))) ∧ Inserted s' t' ∧
      t'.length < t.length) ∨
    (stripHexOctet t = some none ∧ qpRef ('=' :: s) = none) := by
  unfold stripHexOctet
  rcases stripHexdig_inserted hs h with ⟨c1, s1, t1, rfl, hc1, e1, h1, l1⟩ | ⟨e1, h1⟩
  · rw [e1]
    simp only
    rcases stripHexdig_inserted hs.tail h1 with ⟨c2, s2, t2, rfl, hc2, e2, h2, l2⟩ | ⟨e2, h2⟩
    · rw [e2]
      simp only
      obtain ⟨v1, hv1⟩ := (hexVal_iff c1).2 hc1
      obtain ⟨v2, hv2⟩ := (hexVal_iff c2).2 hc2
      left
      refine ⟨c1, c2, s2, t2, v1, v2, rfl, hv1, hv2, ?_, h2, by omega⟩
      simp only [u8FromDigits, hv1, hv2]
    · right
      rw [e2]
      refine ⟨rfl, qpRef_hex_none _ ?_⟩
      rcases h2 with rfl | ⟨c2, s2, rfl, hc2⟩
      · right; simp
      · left; exact ⟨c1, c2, s2, rfl, Or.inr (hexVal_none hc2)⟩
  · right
    rw [e1]
    refine ⟨rfl, qpRef_hex_none _ ?_⟩
    rcases h1 with rfl | ⟨c1, s1, rfl, hc1⟩
    · right; simp
    · cases s1 with
      | nil => right; simp
      | cons c2 s2 => left; exact ⟨c1, c2, s2, rfl, Or.inl (hexVal_none hc1)⟩

/-- One step of the loop on text that does not start with an equals sign. -/
theorem qpDecodeLoop_other (n : Nat) (st : Bool) (t : Str) (res : Bytes) (h : ∀ r, t ≠ '=' :: r) :
    qpDecodeLoop (n + 1) st t res =
      match stripDkimSafe t with
      | some snext => qpDecodeLoop n false snext (res ++ utf8 (stripSuffix t snext))
      | none =>
        match stripFws t with
        | some snext => if st then .err else qpDecodeLoop n true snext res
        | none => if t.isEmpty then .ok res else .err := by
  rw [qpDecodeLoop]
  all_goals first
    | exact h
    | cases stripDkimSafe t with
      | some _ => rfl
      | none => cases stripFws t <;> rfl

theorem stripDkimSafe_none {t : Str} (h : NotStart isDkimSafe t) : stripDkimSafe t = none := by
  cases t with
  | nil => rfl
  | cons c r => simp [stripDkimSafe, h c r rfl]

theorem qpDecodeLoop_inserted (n : Nat) (s t : Str) (hs : Clean s) (h : Inserted s t)
    (hn : t.length < n) (st : Bool) (hst : st = true → NoFws t) (res : Bytes) :
    qpDecodeLoop n st t res = qpOut res (qpRef s) := by
  have fws_step : ∀ (n : Nat) (f r : Str) (st : Bool) (res : Bytes), Fws f → NoFws r →
      (st = true → NoFws (f ++ r)) →
      qpDecodeLoop (n + 1) st (f ++ r) res = qpDecodeLoop n true r res := by
    intro n f r st res hf hr hst
    obtain ⟨d, y, rfl, hd⟩ := fws_head hf
    have hc := fws_chars hf d (by simp)
    rw [qpDecodeLoop_other _ _ _ _ (by
      intro r' e; simp at e; rw [e.1] at hc; exact eq_noFws hc)]
    rw [stripDkimSafe_none (by
      intro c x e
      obtain ⟨rfl, _⟩ := List.cons.inj e
      cases hd : isDkimSafe d with
      | false => rfl
      | true => exact absurd hc (isDkimSafe_noFws hd)), stripFws_fws hf hr]
    simp only
    cases st with
    | false => rfl
    | true =>
      exfalso
      have := hst rfl d (y ++ r) rfl
      rcases hd with hd | hd
      · rw [this.1] at hd; simp at hd
      · exact this.2 hd
  induction n using Nat.strongRecOn generalizing s t st res with
  | _ n ih =>
  obtain ⟨n, rfl⟩ : ∃ m, n = m + 1 := ⟨n - 1, by omega⟩
  rcases inserted_cases h with ⟨rfl, ht⟩ | ⟨f, c, s', t', hf, rfl, rfl, h'⟩
  · -- end of the text
    rcases ht with rfl | ht
    · simp [qpDecodeLoop, stripDkimSafe, stripFws, stripWsp, stripCrlf, qpRef, qpOut]
    · have hne := fws_ne_nil ht
      have := fws_step n t [] st res ht noFws_nil (by simpa using hst)
      rw [List.append_nil] at this
      rw [this]
      have hpos : 0 < t.length := List.length_pos_iff.2 hne
      exact ih n (by omega) [] [] (by simp [Clean]) .nil (by simp; omega) true
        (fun _ => noFws_nil) res
  · rcases hf with rfl | hf
    · -- a character
      rw [List.nil_append] at hst hn h ⊢
      by_cases hc : c = '='
      · subst hc
        rw [qpDecodeLoop.eq_def]
        simp only
        rcases stripHexOctet_inserted hs.tail h' with
          ⟨a, b, s2, t2, x, y, rfl, ha, hb, e, h2, l2⟩ | ⟨e, hnone⟩
        · rw [e]
          simp only
          rw [ih n (by omega) s2 t2 hs.tail.tail.tail h2 (by simp at hn; omega) false (by simp),
            qpRef_hex a b s2 x y ha hb]
          exact (qpOut_map res [UInt8.ofNat (x * 16 + y)] (qpRef s2)).symm
        · rw [e, hnone]; rfl
      · rw [qpDecodeLoop_other _ _ _ _ (by intro r e; simp at e; exact hc e.1)]
        by_cases hsafe : isDkimSafe c = true
        · have hrun : stripDkimSafe (c :: t') = some (t'.dropWhile isDkimSafe) := by
            simp [stripDkimSafe, hsafe]
          rw [hrun]
          simp only
          obtain ⟨s2, e2, h2⟩ := inserted_run hs.tail h'
          have hlen : (t'.dropWhile isDkimSafe).length ≤ t'.length := by
            have := List.takeWhile_append_dropWhile (p := isDkimSafe) (l := t')
            have := congrArg List.length this
            rw [List.length_append] at this
            omega
          have hclean : Clean s2 := fun d hd => hs d (by rw [e2]; simp [hd])
          rw [ih n (by omega) s2 _ hclean h2 (by simp at hn; omega) false (by simp)]
          have hsuf : stripSuffix (c :: t') (t'.dropWhile isDkimSafe) = c :: t'.takeWhile isDkimSafe := by
            have := stripSuffix_append (c :: t'.takeWhile isDkimSafe) (t'.dropWhile isDkimSafe)
            rwa [List.cons_append, List.takeWhile_append_dropWhile] at this
          rw [hsuf, e2, ← List.cons_append, qpRef_safe (by
            intro d hd
            rcases List.mem_cons.1 hd with rfl | hd
            · exact hsafe
            · exact takeWhile_forall _ _ d hd), qpOut_map]
        · rw [stripDkimSafe_none (by
            intro d x e
            obtain ⟨rfl, _⟩ := List.cons.inj e
            simpa using hsafe), stripFws_none (noFws_cons (hs c (by simp)))]
          simp only [List.isEmpty_cons]
          rw [qpRef.eq_def]
          simp [hc, hsafe, qpOut]
    · -- whitespace, then a character
      rw [fws_step n f (c :: t') st res hf (noFws_cons (hs c (by simp))) hst]
      have hpos : 0 < f.length := List.length_pos_iff.2 (fws_ne_nil hf)
      exact ih n (by omega) (c :: s') (c :: t') hs (.keep c s' t' h') (by simp at hn ⊢; omega) true
        (fun _ => noFws_cons (hs c (by simp))) res

theorem qpDecode_inserted {s t : Str} (hs : Clean s) (h : Inserted s t) :
    qpDecode t = qpOut [] (qpRef s) :=
  qpDecodeLoop_inserted _ s t hs h (by omega) false (by simp) []

theorem inserted_refl (s : Str) : Inserted s s := by
  induction s with
  | nil => exact .nil
  | cons c s ih => exact .keep c s s ih

/-! ### Encoding -/

/-- A sequence of encoded pieces: characters that stand for themselves, and hex
pairs. -/
inductive QpText (safe : Char → Bool) : Str → Bytes → Prop
  | nil : QpText safe [] []
  | char (c : Char) (s : Str) (bs : Bytes) : safe c = true → QpText safe s bs →
      QpText safe (c :: s) (String.utf8EncodeChar c ++ bs)
  | hex (b : UInt8) (s : Str) (bs : Bytes) : QpText safe s bs →
      QpText safe ('=' :: hexDigit (b.toNat / 16) :: hexDigit (b.toNat % 16) :: s) (b :: bs)

theorem QpText.append {safe : Char → Bool} {s t : Str} {x y : Bytes} (h : QpText safe s x)
    (h' : QpText safe t y) : QpText safe (s ++ t) (x ++ y) := by
  induction h with
  | nil => exact h'
  | char c s bs hc _ ih => rw [List.append_assoc]; exact .char c _ _ hc ih
  | hex b s bs _ ih => exact .hex b _ _ ih

theorem qpByte_text (safe : Char → Bool) (bs : Bytes) : QpText safe (bs.flatMap qpByte) bs := by
  induction bs with
  | nil => exact .nil
  | cons b bs ih => exact .hex b _ _ ih

theorem qpChar_text (special : Option Char) (a : Bool) (s : Str) :
    QpText (qpSafe special a) (s.flatMap (qpChar special a)) (utf8 s) := by
  induction s with
  | nil => exact .nil
  | cons c s ih =>
    rw [List.flatMap_cons, utf8_cons]
    refine QpText.append ?_ ih
    unfold qpChar
    split
    · next hc =>
      have := QpText.char (safe := qpSafe special a) c [] [] hc .nil
      rwa [List.append_nil] at this
    · exact qpByte_text _ _

theorem qpEncodeLoop_text (special : Option Char) (a : Bool) (n : Nat) (bs : Bytes)
    (hn : bs.length ≤ n) : QpText (qpSafe special a) (qpEncodeLoop special a n bs) bs := by
  induction n using Nat.strongRecOn generalizing bs with
  | _ n ih =>
  cases bs with
  | nil => cases n <;> exact .nil
  | cons b r =>
    obtain ⟨n, rfl⟩ : ∃ m, n = m + 1 := ⟨n - 1, by simp at hn; omega⟩
    rw [qpEncodeLoop]
    have hs := utf8Prefix_spec (b :: r)
    cases hp : utf8Prefix (b :: r) with
    | mk chunk rest =>
      rw [hp] at hs
      simp only at hs
      cases chunk with
      | nil =>
        simp only
        exact (qpByte_text _ [b]).append (ih n (by omega) r (by simp at hn; omega))
      | cons c chunk =>
        simp only
        have hlen : rest.length ≤ n := by
          have h1 := congrArg List.length hs
          have h2 := utf8_length_ge (c :: chunk)
          simp only [List.length_append, List.length_cons] at h1 h2 hn
          omega
        have := (qpChar_text special a (c :: chunk)).append (ih n (by omega) rest hlen)
        rwa [hs] at this

theorem qpEncode_text (bs : Bytes) (special : Option Char) (a : Bool) :
    QpText (qpSafe special a) (qpEncode bs special a) bs := qpEncodeLoop_text _ _ _ _ (Nat.le_refl _)

theorem qpSafe_safe {special : Option Char} {a : Bool} {c : Char} (h : qpSafe special a c = true) :
    isDkimSafe c = true ∧ special ≠ some c ∧ (a = true → c.toNat < 128) := by
  simp only [qpSafe, Bool.and_eq_true, bne_iff_ne, ne_eq] at h
  refine ⟨?_, h.2, ?_⟩
  · have h1 := h.1
    cases a with
    | true =>
      simp only [if_true] at h1
      simp [isDkimSafe, h1]
    | false => simpa using h1
  · rintro rfl
    have h1 := h.1
    simp only [if_true, isDkimSafeAscii_iff] at h1
    omega

theorem hexDigit_facts (n : Nat) (h : n < 16) : hexVal (hexDigit n) = some n ∧
    isAsciiHexdigit (hexDigit n) = true ∧
    hexDigit n ∈ ['0', '1', '2', '3', '4', '5', '6', '7', '8', '9', 'A', 'B', 'C', 'D', 'E', 'F'] :=
  hex_fin ⟨n, h⟩

theorem qpRef_text {safe : Char → Bool} (hsafe : ∀ c, safe c = true → isDkimSafe c = true) {s : Str}
    {bs : Bytes} (h : QpText safe s bs) : qpRef s = some bs ∧ Clean s := by
  induction h with
  | nil => exact ⟨rfl, by simp [Clean]⟩
  | char c s bs hc _ ih =>
    constructor
    · have := qpRef_safe (run := [c]) (r := s) (by simpa using hsafe c hc)
      rw [List.singleton_append] at this
      rw [this, ih.1]; simp [utf8]
    · intro d hd
      rcases List.mem_cons.1 hd with rfl | hd
      · exact isDkimSafe_noFws (hsafe _ hc)
      · exact ih.2 d hd
  | hex b s bs _ ih =>
    have hb := b.toNat_lt
    have h1 := hexDigit_facts (b.toNat / 16) (by omega)
    have h2 := hexDigit_facts (b.toNat % 16) (by omega)
    constructor
    · rw [qpRef_hex _ _ _ _ _ h1.1 h2.1, ih.1]
      have : UInt8.ofNat (b.toNat / 16 * 16 + b.toNat % 16) = b := by
        rw [show b.toNat / 16 * 16 + b.toNat % 16 = b.toNat by omega]; simp
      rw [this]; rfl
    · intro d hd
      simp only [List.mem_cons] at hd
      rcases hd with rfl | rfl | rfl | hd
      · exact eq_noFws
      · exact hexdigit_noFws h1.2.1
      · exact hexdigit_noFws h2.2.1
      · exact ih.2 d hd

theorem qpDecode_encode (bs : Bytes) (special : Option Char) (a : Bool) :
    qpDecode (qpEncode bs special a) = .ok bs := by
  have h := qpRef_text (fun c hc => (qpSafe_safe hc).1) (qpEncode_text bs special a)
  rw [qpDecode_inserted h.2 (inserted_refl _), h.1]; rfl

end Dkim
