import Verif.Spec.Written
import Verif.Proofs.Reread
import Verif.Proofs.QpExact
import Verif.Props.Encode

/-!
# The values written by the signer: helper lemmas for C92
-/

namespace Dkim

open Spec

/-! ### UTF-8: first and further bytes -/

theorem encodeChar_shape (c : Char) : ∃ b rest, String.utf8EncodeChar c = b :: rest ∧
    (b.toNat < 128 ∨ 192 ≤ b.toNat) ∧ ∀ x ∈ rest, 128 ≤ x.toNat ∧ x.toNat < 192 := by
  have hlt : ∀ k, k < 256 → (UInt8.ofNat k).toNat = k := by
    intro k hk; simp [UInt8.toNat_ofNat']; omega
  unfold String.utf8EncodeChar
  simp only
  split
  · refine ⟨_, _, rfl, .inl ?_, by simp⟩
    show (UInt8.ofNat _).toNat < 128
    rw [hlt _ (by omega)]; omega
  · split
    · refine ⟨_, _, rfl, .inr ?_, ?_⟩
      · rw [hlt _ (by omega)]; omega
      · intro x hx
        simp only [List.mem_cons, List.not_mem_nil, or_false] at hx
        subst hx
        rw [hlt _ (by omega)]; omega
    · split
      · refine ⟨_, _, rfl, .inr ?_, ?_⟩
        · rw [hlt _ (by omega)]; omega
        · intro x hx
          simp only [List.mem_cons, List.not_mem_nil, or_false] at hx
          rcases hx with rfl | rfl <;> rw [hlt _ (by omega)] <;> omega
      · refine ⟨_, _, rfl, .inr ?_, ?_⟩
        · rw [hlt _ (by omega)]; omega
        · intro x hx
          simp only [List.mem_cons, List.not_mem_nil, or_false] at hx
          rcases hx with rfl | rfl | rfl <;> rw [hlt _ (by omega)] <;> omega

theorem utf8_one (c : Char) : utf8 [c] = String.utf8EncodeChar c := by simp [utf8]

theorem decodeChar_none_no {bs : Bytes} (h : decodeChar bs = none) (c : Char) (rest : Bytes) :
    bs ≠ utf8 [c] ++ rest := by
  rintro rfl
  rw [utf8_one, decodeChar_encode_append] at h
  cases h

/-! ### Exact Quoted-Printable -/

theorem hexDigit_hexChar (n : Nat) (h : n < 16) : hexDigit n = hexChar n := by
  have : ∀ n : Fin 16, hexDigit n = hexChar n := by decide
  exact this ⟨n, h⟩

theorem qpByte_hexChar (b : UInt8) :
    qpByte b = ['=', hexChar (b.toNat / 16), hexChar (b.toNat % 16)] := by
  have := b.toNat_lt
  rw [← hexDigit_hexChar _ (by omega), ← hexDigit_hexChar _ (by omega)]
  rfl

variable {lit : Char → Prop}

theorem qpWritten_further (x r : Bytes) (t : Str) (hx : ∀ b ∈ x, 128 ≤ b.toNat ∧ b.toNat < 192)
    (h : QpWritten lit r t) : QpWritten lit (x ++ r) (x.flatMap qpByte ++ t) := by
  induction x with
  | nil => exact h
  | cons b x ih =>
    have hb := hx b (by simp)
    rw [List.flatMap_cons, qpByte_hexChar]
    refine .hex b _ _ ?_ (ih fun d hd => hx d (by simp [hd]))
    intro c rest _ e
    obtain ⟨b', r', e1, h1, _⟩ := encodeChar_shape c
    rw [utf8_one, e1] at e
    simp only [List.cons_append, List.cons.injEq] at e
    rw [e.1] at hb
    omega

theorem qpWritten_char_hex (c : Char) (hc : ¬ lit c) (r : Bytes) (t : Str) (h : QpWritten lit r t) :
    QpWritten lit (utf8 [c] ++ r) ((String.utf8EncodeChar c).flatMap qpByte ++ t) := by
  obtain ⟨b, x, e, _, hx⟩ := encodeChar_shape c
  have h1 := qpWritten_further x r t hx h
  have h2 : QpWritten lit (b :: (x ++ r)) (qpByte b ++ (x.flatMap qpByte ++ t)) := by
    rw [qpByte_hexChar]
    refine .hex b _ _ ?_ h1
    intro d rest hd e2
    have e3 : String.utf8EncodeChar c ++ r = String.utf8EncodeChar d ++ rest := by
      rw [e, ← utf8_one d]; exact e2
    rw [(encodeChar_append_inj e3).1] at hc
    exact hc hd
  rw [utf8_one, e]
  simpa using h2

theorem qpWritten_unique {bs : Bytes} {s t : Str} (hs : QpWritten lit bs s) (ht : QpWritten lit bs t) : s = t := by
  induction hs generalizing t with
  | nil =>
    generalize e : ([] : Bytes) = bs at ht
    cases ht with
    | nil => rfl
    | char c bs t hc h => rw [utf8_one] at e; exact absurd (List.append_eq_nil_iff.1 e.symm).1 (encodeChar_ne_nil c)
    | hex b bs t hb h => cases e
  | char c bs s hc _ ih =>
    generalize e : utf8 [c] ++ bs = x at ht
    cases ht with
    | nil => rw [utf8_one] at e; exact absurd (List.append_eq_nil_iff.1 e).1 (encodeChar_ne_nil c)
    | char d bs' t hd h =>
      rw [utf8_one, utf8_one] at e
      obtain ⟨rfl, rfl⟩ := encodeChar_append_inj e
      rw [ih h]
    | hex b bs' t hb h => exact absurd e.symm (hb c bs hc)
  | hex b bs s hb _ ih =>
    generalize e : b :: bs = x at ht
    cases ht with
    | nil => cases e
    | char d bs' t hd h => exact absurd e (hb d bs' hd)
    | hex b' bs' t hb' h =>
      injection e with e1 e2
      subst e1 e2
      rw [ih h]

theorem qpSafe_iff (special : Option Char) (a : Bool) (c : Char) : qpSafe special a c = true ↔
    dkimSafe c ∧ special ≠ some c ∧ (a = true → c.toNat < 128) := by
  constructor
  · intro h
    obtain ⟨h1, h2, h3⟩ := qpSafe_safe h
    exact ⟨(dkimSafe_iff c).1 h1, h2, h3⟩
  · rintro ⟨h1, h2, h3⟩
    have h1 := (dkimSafe_iff c).2 h1
    simp only [qpSafe, Bool.and_eq_true, bne_iff_ne, ne_eq, h2, not_false_eq_true, and_true]
    cases a with
    | false => exact h1
    | true =>
      rw [isDkimSafe_iff] at h1
      have := h3 rfl
      rcases h1 with h1 | h1
      · exact (isDkimSafeAscii_iff c).2 h1
      · omega

theorem qpChars_written (special : Option Char) (a : Bool) (s : Str) (r : Bytes) (t : Str)
    (hl : ∀ c, lit c ↔ qpSafe special a c = true) (h : QpWritten lit r t) :
    QpWritten lit (utf8 s ++ r) (s.flatMap (qpChar special a) ++ t) := by
  induction s with
  | nil => exact h
  | cons c s ih =>
    rw [utf8_cons, ← utf8_one, List.append_assoc, List.flatMap_cons, List.append_assoc]
    unfold qpChar
    split
    · next hc => exact .char c _ _ ((hl c).2 hc) ih
    · next hc => exact qpWritten_char_hex c (fun h => hc ((hl c).1 h)) _ _ ih

theorem qpEncodeLoop_written (special : Option Char) (a : Bool) (hl : ∀ c, lit c ↔ qpSafe special a c = true)
    (n : Nat) (bs : Bytes) (hn : bs.length ≤ n) : QpWritten lit bs (qpEncodeLoop special a n bs) := by
  induction n using Nat.strongRecOn generalizing bs with
  | _ n ih =>
  cases bs with
  | nil => cases n <;> exact .nil
  | cons b r =>
    obtain ⟨n, rfl⟩ : ∃ m, n = m + 1 := ⟨n - 1, by simp at hn; omega⟩
    rw [qpEncodeLoop]
    have hs := utf8Prefix_spec (b :: r)
    cases hp : utf8Prefix (b :: r) with
    | mk chunk rest =>
      rw [hp] at hs
      simp only at hs
      cases chunk with
      | nil =>
        simp only
        have hd : decodeChar (b :: r) = none := by
          simp only [utf8Prefix, List.length_cons, utf8PrefixAux] at hp
          cases hd : decodeChar (b :: r) with
          | none => rfl
          | some p => rw [hd] at hp; simp at hp
        rw [qpByte_hexChar]
        exact .hex b _ _ (fun c rest _ => decodeChar_none_no hd c rest) (ih n (by omega) r (by simp at hn; omega))
      | cons c chunk =>
        simp only
        have hlen : rest.length ≤ n := by
          have h1 := congrArg List.length hs
          have h2 := utf8_length_ge (c :: chunk)
          simp only [List.length_append, List.length_cons] at h1 h2 hn
          omega
        have := qpChars_written special a (c :: chunk) rest _ hl (ih n (by omega) rest hlen)
        rwa [hs] at this

theorem qpEncode_written (bs : Bytes) (special : Option Char) (a : Bool) :
    QpWritten (fun c => dkimSafe c ∧ special ≠ some c ∧ (a = true → c.toNat < 128)) bs (qpEncode bs special a) :=
  qpEncodeLoop_written special a (fun c => (qpSafe_iff special a c).symm) _ _ (Nat.le_refl _)

theorem QpWritten.mono {l1 l2 : Char → Prop} (h : ∀ c, l1 c ↔ l2 c) : QpWritten l1 = QpWritten l2 := by
  have : l1 = l2 := funext fun c => propext (h c)
  rw [this]

/-! ### Folding removed -/

theorem withoutFws_append (a b : Str) : withoutFws (a ++ b) = withoutFws a ++ withoutFws b := by
  simp [withoutFws]

theorem notFws_iff (c : Char) : (c ≠ ' ' ∧ c ≠ '\t' ∧ c ≠ '\r' ∧ c ≠ '\n') ↔ ¬ fwsChar c := by
  simp only [fwsChar, not_or, ne_eq]

theorem withoutFws_clean {s : Str} (h : Clean s) : withoutFws s = s := by
  rw [withoutFws, List.filter_eq_self]
  intro c hc
  exact decide_eq_true ((notFws_iff c).2 (h c hc))

theorem withoutFws_fws {s : Str} (h : OptFws s) : withoutFws s = [] := by
  rcases h with rfl | h
  · rfl
  · rw [withoutFws, List.filter_eq_nil_iff]
    intro c hc hd
    exact (notFws_iff c).1 (of_decide_eq_true hd) (fws_chars h c hc)

theorem withoutFws_folded {brk s t : Str} (hbrk : Fws brk) (h : Folded brk s t) (hs : Clean s) :
    withoutFws t = s := by
  induction h with
  | nil => rfl
  | keep c s t _ ih =>
    rw [show c :: t = [c] ++ t from rfl, withoutFws_append, ih hs.tail,
      withoutFws_clean (fun d hd => hs d (by simp at hd; simp [hd]))]
    rfl
  | fold c s t _ ih =>
    rw [show brk ++ c :: t = brk ++ ([c] ++ t) from rfl, withoutFws_append, withoutFws_append, ih hs.tail,
      withoutFws_fws (.inr hbrk), withoutFws_clean (fun d hd => hs d (by simp at hd; simp [hd]))]
    rfl

theorem withoutFws_brk {brk br : Str} (hbrk : Fws brk) (h : br = [] ∨ br = brk) : withoutFws br = [] := by
  rcases h with rfl | rfl
  · rfl
  · exact withoutFws_fws (.inr hbrk)

theorem validName_clean {n : Str} (h : ValidName n) : Clean n := by
  intro c hc hf
  have := h.2 c hc
  rcases hf with rfl | rfl | rfl | rfl <;> revert this <;> decide

/-! ### The values -/

theorem hRest_without {brk : Str} (hbrk : Fws brk) {ns : List Str} {t : Str} (h : HRest brk ns t)
    (hn : ∀ n ∈ ns, Clean n) : withoutFws t = ns.flatMap (':' :: ·) := by
  have colon : withoutFws [':'] = [':'] := rfl
  induction h with
  | nil => rfl
  | plain n ns t _ ih =>
    rw [show ':' :: n ++ t = [':'] ++ (n ++ t) from rfl, withoutFws_append, withoutFws_append,
      ih (fun m hm => hn m (by simp [hm])), withoutFws_clean (hn n (by simp)), colon]
    simp
  | fold n ns t _ ih =>
    rw [show ':' :: brk ++ n ++ t = [':'] ++ (brk ++ (n ++ t)) by simp, withoutFws_append, withoutFws_append,
      withoutFws_append, ih (fun m hm => hn m (by simp [hm])), withoutFws_fws (.inr hbrk), colon,
      withoutFws_clean (hn n (by simp))]
    simp

theorem intercalate_flatMap (sep n : Str) (ns : List Str) :
    List.intercalate sep (n :: ns) = n ++ ns.flatMap (sep ++ ·) := by
  induction ns generalizing n with
  | nil => simp [List.intercalate]
  | cons m ns ih =>
    rw [List.flatMap_cons, List.append_assoc, ← ih]
    simp [List.intercalate]

theorem hText_without {brk : Str} (hbrk : Fws brk) {ns : List Str} {t : Str} (h : HText brk ns t)
    (hn : ∀ n ∈ ns, Clean n) : withoutFws t = List.intercalate [':'] ns := by
  cases h with
  | mk n ns t ht =>
    rw [withoutFws_append, withoutFws_clean (hn n (by simp)), hRest_without hbrk ht (fun m hm => hn m (by simp [hm])),
      intercalate_flatMap]
    rfl

theorem encodeCopied_written (ascii : Bool) (v : Bytes) :
    QpWritten (fun c => dkimSafe c ∧ c ≠ '|' ∧ (ascii = true → c.toNat < 128)) v (encodeCopied ascii v) := by
  have := qpEncode_written v (some '|') ascii
  rwa [QpWritten.mono (l2 := fun c => dkimSafe c ∧ c ≠ '|' ∧ (ascii = true → c.toNat < 128)) (by
    intro c
    simp only [ne_eq, Option.some.injEq, eq_comm])] at this

theorem encodeCopied_clean' (ascii : Bool) (v : Bytes) : Clean (encodeCopied ascii v) :=
  (qpRef_text (fun _ hc => (qpSafe_safe hc).1) (qpEncode_text v (some '|') ascii)).2

theorem zPiece_without {brk : Str} (hbrk : Fws brk) {ascii : Bool} {h : Str × Bytes} {t : Str}
    (hz : ZPiece brk ascii h t) (hn : Clean h.1) : withoutFws t = h.1 ++ ':' :: encodeCopied ascii h.2 := by
  cases hz with
  | mk n v t ht =>
    rw [show n ++ ':' :: t = n ++ ([':'] ++ t) from rfl, withoutFws_append, withoutFws_append, withoutFws_clean hn,
      withoutFws_folded hbrk ht (encodeCopied_clean' ascii v)]
    rfl

theorem zRest_without {brk : Str} (hbrk : Fws brk) {ascii : Bool} {hs : List (Str × Bytes)} {t : Str}
    (h : ZRest brk ascii hs t) (n : Str) (v : Bytes) (hn : ∀ h ∈ hs, Clean h.1) :
    CopiedWritten ascii ((n, v) :: hs) (n ++ ':' :: encodeCopied ascii v ++ withoutFws t) := by
  induction h generalizing n v with
  | nil =>
    have := CopiedWritten.last (ascii := ascii) n v _ (encodeCopied_written ascii v)
    simpa [withoutFws] using this
  | cons br br2 h hs p t h1 h2 hp _ ih =>
    have hc := hn h (by simp)
    have := CopiedWritten.more (ascii := ascii) n v _ _ _ (encodeCopied_written ascii v)
      (ih h.1 h.2 (fun m hm => hn m (by simp [hm])))
    rw [show br ++ '|' :: br2 ++ p ++ t = br ++ (['|'] ++ (br2 ++ (p ++ t))) by simp, withoutFws_append,
      withoutFws_append, withoutFws_append, withoutFws_append, withoutFws_brk hbrk h1, withoutFws_brk hbrk h2,
      zPiece_without hbrk hp hc]
    have bar : withoutFws ['|'] = ['|'] := rfl
    rw [bar]
    simpa using this

theorem zText_without {brk : Str} (hbrk : Fws brk) {ascii : Bool} {hs : List (Str × Bytes)} {t : Str}
    (h : ZText brk ascii hs t) (hn : ∀ h ∈ hs, Clean h.1) : CopiedWritten ascii hs (withoutFws t) := by
  cases h with
  | mk h hs p t hp ht =>
    rw [withoutFws_append, zPiece_without hbrk hp (hn h (by simp))]
    exact zRest_without hbrk ht h.1 h.2 (fun m hm => hn m (by simp [hm]))

theorem natToStr_toString (n : Nat) : natToStr n = (toString n).toList := by
  simp [natToStr, toString, Nat.repr]

theorem origin_written {ix : Idna} {u : UnsignedSig} (hf : SigFine ix u) {ascii : Bool} {brk bText n v : Str} {sig : Bytes}
    (hbrk : Fws brk) (hb : Folded brk (encodeBase64 sig) bText) (h : Origin ix u ascii brk bText (n, v)) :
    WrittenTag ix ascii (withSignature u sig) n v := by
  obtain ⟨f, t, h1, h2, h3, h4⟩ := h
  simp only at h2 h3 h4
  have drop : withoutFws t = withoutFws v := by
    rw [h2, withoutFws_append, withoutFws_fws h1]
    rfl
  have same : n ≠ c!"b" → n ≠ c!"bh" → t = v := by
    intro g1 g2
    rw [h2, h4 g1 g2]
    rfl
  cases h3 with
  | a =>
    rw [← same (by decide) (by decide)]
    have : u.algorithm.canonicalStr = algorithmName u.algorithm := by cases u.algorithm <;> rfl
    rw [this]
    exact .a
  | b =>
    refine .b v ?_
    rw [← drop, withoutFws_folded hbrk hb (base64_clean _)]
    exact C20_base64_rfc4648 _
  | bh t ht =>
    refine .bh v ?_
    rw [← drop, withoutFws_folded hbrk ht (base64_clean _)]
    exact C20_base64_rfc4648 _
  | c hc =>
    rw [← same (by decide) (by decide)]
    have : canonStr u.canonicalization = canonPairName u.canonicalization := by
      revert hc
      generalize u.canonicalization = c
      obtain ⟨a, b⟩ := c
      cases a <;> cases b <;> intro hc <;> first | exact absurd rfl hc | rfl
    rw [this]
    exact .c
  | d t ht =>
    rw [← same (by decide) (by decide), domainForm_written ht]
    exact .d
  | h t ht =>
    refine .h v ?_
    rw [← drop, hText_without hbrk ht (fun m hm => validName_clean (hf.headers m hm).1)]
    rfl
  | i id t hi ht =>
    rw [← same (by decide) (by decide)]
    unfold identityForm at ht
    cases e : domainForm ix ascii id.domain with
    | none => rw [e] at ht; cases ht
    | some d =>
      rw [e] at ht
      simp only [Option.some.injEq] at ht
      rw [← ht, domainForm_written e]
      refine .i id _ hi ?_
      have key : ∀ x, QpWritten (fun c => dkimSafe c ∧ (ascii = true → c.toNat < 128)) x (qpEncode x none ascii) := by
        intro x
        have := qpEncode_written x none ascii
        rwa [QpWritten.mono (l2 := fun c => dkimSafe c ∧ (ascii = true → c.toNat < 128)) (by
          intro c
          simp)] at this
      cases hl : id.localPart with
      | none => exact .nil
      | some l => exact key _
  | l k hk =>
    rw [← same (by decide) (by decide), natToStr_toString]
    exact .l k hk
  | s t ht =>
    rw [← same (by decide) (by decide), domainForm_written ht]
    exact .s
  | t k hk =>
    rw [← same (by decide) (by decide), natToStr_toString]
    exact .t k hk
  | v =>
    rw [← same (by decide) (by decide)]
    exact .v
  | x k hk =>
    rw [← same (by decide) (by decide), natToStr_toString]
    exact .x k hk
  | z t ht =>
    refine .z v ?_
    rw [← drop]
    exact zText_without hbrk ht (fun m hm => validName_clean (hf.copied m hm).1)
  | ext n w hn hm =>
    have g1 : n ≠ c!"b" := by rintro rfl; cases hn
    have g2 : n ≠ c!"bh" := by rintro rfl; cases hn
    rw [← same g1 g2]
    refine .ext n t ?_ hm
    intro hmem
    unfold isOutputTag at hn
    rw [List.contains_eq_mem, decide_eq_false_iff_not] at hn
    exact hn hmem

theorem copiedWritten_unique {ascii : Bool} {hs : List (Str × Bytes)} {v w : Str} (hv : CopiedWritten ascii hs v)
    (hw : CopiedWritten ascii hs w) : v = w := by
  induction hv generalizing w with
  | last n b t ht =>
    cases hw with
    | last _ _ t' ht' => rw [qpWritten_unique ht ht']
    | more _ _ _ _ _ _ h => cases h
  | more n b t rest r ht hr ih =>
    cases hw with
    | last => cases hr
    | more _ _ t' _ r' ht' hr' => rw [qpWritten_unique ht ht', ih hr']

theorem nodup_fst_unique {l : List (Str × Str)} (h : (l.map (·.1)).Nodup) {n v w : Str} (hv : (n, v) ∈ l)
    (hw : (n, w) ∈ l) : v = w := by
  induction l with
  | nil => cases hv
  | cons x l ih =>
    rw [List.map_cons, List.nodup_cons] at h
    rcases List.mem_cons.1 hv with e | hv' <;> rcases List.mem_cons.1 hw with e' | hw'
    · rw [← e'] at e; injection e
    · exact absurd (List.mem_map.2 ⟨_, hw', by rw [← e]⟩) h.1
    · exact absurd (List.mem_map.2 ⟨_, hv', by rw [← e']⟩) h.1
    · exact ih h.2 hv' hw'

end Dkim
