import Verif.Proofs.FieldText
import Verif.Props.Signer

/-!
# The characters and line breaks of formatted text: helper lemmas for C65 and C71
-/

namespace Dkim

open Spec

/-- Neither CR nor LF, and ASCII if `ascii` is set. -/
def plainChar (ascii : Bool) (c : Char) : Prop := c ≠ '\r' ∧ c ≠ '\n' ∧ (ascii = true → c.toNat < 128)

/-- Plain characters, line breaks in front of a visible character, and extension tags. -/
inductive Arranged (ascii : Bool) (brk : Str) (ext : List (Str × Str)) : Str → Prop
  | nil : Arranged ascii brk ext []
  | char (c : Char) (t : Str) : plainChar ascii c → Arranged ascii brk ext t → Arranged ascii brk ext (c :: t)
  | brk (c : Char) (t : Str) : valChar c → plainChar ascii c → Arranged ascii brk ext t →
      Arranged ascii brk ext (brk ++ c :: t)
  | ext (br n v t : Str) : (br = [] ∨ br = brk) → (n, v) ∈ ext → n ≠ [] →
      (∀ c ∈ n, valChar c ∧ plainChar ascii c) → Arranged ascii brk ext t →
      Arranged ascii brk ext (br ++ n ++ '=' :: v ++ t)

variable {ascii : Bool} {brk : Str} {ext : List (Str × Str)}

theorem Arranged.append {s t : Str} (h : Arranged ascii brk ext s) (h' : Arranged ascii brk ext t) :
    Arranged ascii brk ext (s ++ t) := by
  induction h with
  | nil => exact h'
  | char c s hc _ ih => exact .char c _ hc ih
  | brk c s hc hp _ ih => simpa using Arranged.brk c _ hc hp ih
  | ext br n v s hbr hm hne hn _ ih => simpa using Arranged.ext br n v _ hbr hm hne hn ih

theorem Arranged.plain {s : Str} (h : ∀ c ∈ s, plainChar ascii c) : Arranged ascii brk ext s := by
  induction s with
  | nil => exact .nil
  | cons c s ih => exact .char c _ (h c (by simp)) (ih (fun c hc => h c (List.mem_cons_of_mem _ hc)))

theorem Arranged.broken {s t : Str} (hne : s ≠ []) (hv : ∀ c ∈ s, valChar c) (h : ∀ c ∈ s, plainChar ascii c)
    (ht : Arranged ascii brk ext t) : Arranged ascii brk ext (brk ++ (s ++ t)) := by
  cases s with
  | nil => exact absurd rfl hne
  | cons c s =>
    exact .brk c _ (hv c (by simp)) (h c (by simp))
      ((Arranged.plain fun c hc => h c (List.mem_cons_of_mem _ hc)).append ht)

theorem Arranged.maybe {s t br : Str} (hbr : br = [] ∨ br = brk) (hne : s ≠ []) (hv : ∀ c ∈ s, valChar c)
    (h : ∀ c ∈ s, plainChar ascii c) (ht : Arranged ascii brk ext t) : Arranged ascii brk ext (br ++ (s ++ t)) := by
  rcases hbr with rfl | rfl
  · exact (Arranged.plain h).append ht
  · exact ht.broken hne hv h

theorem valChar_plain {c : Char} (h : valChar c) (ha : ascii = true → c.toNat < 128) : plainChar ascii c := by
  refine ⟨?_, ?_, ha⟩
  · rintro rfl
    revert h
    unfold valChar
    decide
  · rintro rfl
    revert h
    unfold valChar
    decide

theorem folded_lay {s t : Str} (h : Folded brk s t) (hs : ∀ c ∈ s, valChar c ∧ plainChar ascii c) :
    Arranged ascii brk ext t := by
  induction h with
  | nil => exact .nil
  | keep c s t _ ih =>
    exact .char c _ (hs c (by simp)).2 (ih (fun c hc => hs c (List.mem_cons_of_mem _ hc)))
  | fold c s t _ ih =>
    exact .brk c _ (hs c (by simp)).1 (hs c (by simp)).2
      (ih (fun c hc => hs c (List.mem_cons_of_mem _ hc)))

theorem validName_plain {n : Str} (h : ValidName n) (hs : ';' ∉ n) : ∀ c ∈ n, plainChar ascii c := by
  intro c hc
  exact valChar_plain (validName_valChars h hs c hc) (fun _ => by have := h.2 c hc; omega)

theorem hRest_lay {t : Str} {ns : List Str} (h : HRest brk ns t) (hn : ∀ n ∈ ns, ValidName n ∧ ';' ∉ n) :
    Arranged ascii brk ext t := by
  have colon : plainChar ascii ':' := valChar_plain colon_valChar (fun _ => by decide)
  induction h with
  | nil => exact .nil
  | plain n ns t _ ih =>
    have h1 := hn n (by simp)
    have h2 := ih (fun m hm => hn m (List.mem_cons_of_mem _ hm))
    exact .char _ _ colon ((Arranged.plain (validName_plain h1.1 h1.2)).append h2)
  | fold n ns t _ ih =>
    have h1 := hn n (by simp)
    have h2 := ih (fun m hm => hn m (List.mem_cons_of_mem _ hm))
    have := Arranged.char _ _ colon (h2.broken h1.1.1 (validName_valChars h1.1 h1.2) (validName_plain h1.1 h1.2))
    simpa using this

theorem hText_lay {t : Str} {ns : List Str} (h : HText brk ns t) (hn : ∀ n ∈ ns, ValidName n ∧ ';' ∉ n) :
    Arranged ascii brk ext t := by
  cases h with
  | mk n ns t h =>
    have h1 := hn n (by simp)
    exact (Arranged.plain (validName_plain h1.1 h1.2)).append
      (hRest_lay h (fun m hm => hn m (List.mem_cons_of_mem _ hm)))

theorem qpText_ascii {safe : Char → Bool} (hsafe : ∀ c, safe c = true → c.toNat < 128) {s : Str}
    {bs : Bytes} (h : QpText safe s bs) : ∀ c ∈ s, c.toNat < 128 := by
  have hhex : ∀ n, n < 16 → (hexDigit n).toNat < 128 := by
    have : ∀ n : Fin 16, (hexDigit n).toNat < 128 := by decide
    intro n hn
    exact this ⟨n, hn⟩
  induction h with
  | nil => simp
  | char c s bs hc _ ih =>
    intro d hd
    rcases List.mem_cons.1 hd with rfl | hd
    · exact hsafe d hc
    · exact ih d hd
  | hex b s bs _ ih =>
    intro d hd
    have hb := b.toNat_lt
    simp only [List.mem_cons] at hd
    rcases hd with rfl | rfl | rfl | hd
    · decide
    · exact hhex _ (by omega)
    · exact hhex _ (by omega)
    · exact ih d hd

theorem qpEncode_plain (bs : Bytes) (special : Option Char) (ascii : Bool) :
    ∀ c ∈ qpEncode bs special ascii, valChar c ∧ plainChar ascii c := by
  intro c hc
  have h1 := qpText_valChars (fun c h => (qpSafe_safe h).1) (qpEncode_text bs special ascii) c hc
  refine ⟨h1, valChar_plain h1 ?_⟩
  rintro rfl
  exact qpText_ascii (fun c h => (qpSafe_safe h).2.2 rfl) (qpEncode_text bs special true) c hc

theorem zPiece_lay {h : Str × Bytes} {p t br : Str} (hp : ZPiece brk ascii h p) (hn : ValidName h.1 ∧ ';' ∉ h.1)
    (hbr : br = [] ∨ br = brk) (ht : Arranged ascii brk ext t) : Arranged ascii brk ext (br ++ (p ++ t)) := by
  cases hp with
  | mk n v q hq =>
    have h2 : Arranged ascii brk ext (':' :: q ++ t) :=
      .char _ _ (valChar_plain colon_valChar (fun _ => by decide))
        ((folded_lay hq (qpEncode_plain v (some '|') ascii)).append ht)
    have := h2.maybe hbr hn.1.1 (validName_valChars hn.1 hn.2) (validName_plain hn.1 hn.2)
    simpa using this

theorem zRest_lay {t : Str} {hs : List (Str × Bytes)} (h : ZRest brk ascii hs t)
    (hn : ∀ h ∈ hs, ValidName h.1 ∧ ';' ∉ h.1) : Arranged ascii brk ext t := by
  induction h with
  | nil => exact .nil
  | cons br br2 h hs p t h1 h2 hp _ ih =>
    have h3 := zPiece_lay hp (hn h (by simp)) h2 (ih (fun m hm => hn m (List.mem_cons_of_mem _ hm)))
    have := Arranged.maybe (s := ['|']) h1 (by simp) (by simpa using bar_valChar)
      (by simpa using valChar_plain bar_valChar (fun _ => by decide)) h3
    simpa using this

theorem zText_lay {t : Str} {hs : List (Str × Bytes)} (h : ZText brk ascii hs t)
    (hn : ∀ h ∈ hs, ValidName h.1 ∧ ';' ∉ h.1) : Arranged ascii brk ext t := by
  cases h with
  | mk h hs p t hp hr =>
    exact zPiece_lay hp (hn h (by simp)) (.inl rfl) (zRest_lay hr (fun m hm => hn m (List.mem_cons_of_mem _ hm)))

variable {ix : Idna} {u : UnsignedSig}

theorem toLower_ascii {c d : Char} (h : c.toLower = d.toLower) (hd : d.toNat < 128) : c.toNat < 128 := by
  have h1 := toLower_toNat c
  have h2 := toLower_toNat d
  rw [h] at h1
  split at h1 <;> split at h2 <;> omega

theorem domainForm_plain (law : IdnaLaw ix) {b : Bool} {d t : Str} (h : ValidDomain b ix d)
    (ht : domainForm ix ascii d = some t) : ∀ c ∈ t, plainChar ascii c := by
  obtain ⟨p, h1, _, _, h4⟩ := domainForm_fine law h ascii
  rw [ht] at h1
  injection h1 with h1
  subst h1
  intro c hc
  refine valChar_plain (domainChar_valChar (h4 c hc)).1 ?_
  rintro rfl
  obtain ⟨a, g1, _, g3⟩ := h
  have hch : ∀ c ∈ a, c.toNat < 128 := by
    exact fun c hc => dnsChar_ascii (g3.chars c hc)
  simp only [domainForm, if_true, g1, selectStrForm] at ht
  injection ht with ht
  rcases ite_eq_cases ht with ⟨e, ht⟩ | ⟨_, ht⟩
  · subst ht
    rw [eqIgnoreCase_eq, sameName_iff] at e
    have : c.toLower ∈ lower a := e ▸ List.mem_map_of_mem hc
    obtain ⟨x, hx, e⟩ := List.mem_map.1 this
    exact toLower_ascii e.symm (hch x hx)
  · subst ht
    exact hch c hc

theorem identityForm_plain (law : IdnaLaw ix) {i : Identity} {t : Str} (h : ValidDomain true ix i.domain)
    (ht : identityForm ix ascii i = some t) : ∀ c ∈ t, plainChar ascii c := by
  unfold identityForm at ht
  obtain ⟨p, h1, _⟩ := domainForm_fine law h ascii
  have hp := domainForm_plain law h h1
  rw [h1] at ht
  injection ht with ht
  subst ht
  intro c hc
  rcases List.mem_append.1 hc with hc | hc
  · cases e : i.localPart with
    | none => rw [e] at hc; cases hc
    | some l => rw [e] at hc; exact (qpEncode_plain _ _ _ c hc).2
  · rcases List.mem_cons.1 hc with rfl | hc
    · exact valChar_plain at_valChar (fun _ => by decide)
    · exact hp c hc

theorem base64_ascii (bs : Bytes) : ∀ c ∈ encodeBase64 bs, c.toNat < 128 := by
  intro c hc
  have hf : ∀ n : Fin 64, (b64Char n).toNat < 128 := by decide
  rcases encodeBase64_chars bs c hc with rfl | ⟨n, hn, rfl⟩
  · decide
  · exact hf ⟨n, hn⟩

theorem base64_plain (bs : Bytes) : ∀ c ∈ encodeBase64 bs, valChar c ∧ plainChar ascii c := by
  intro c hc
  have h1 := base64_valChars bs c hc
  exact ⟨h1, valChar_plain h1 (fun _ => base64_ascii bs c hc)⟩

theorem tagName_chars {n : Str} (h : TagName n) : n ≠ [] ∧ ∀ c ∈ n, valChar c ∧ c.toNat < 128 := by
  obtain ⟨c, r, rfl, h1, h2⟩ := h
  have e : ∀ x : Char, x ≠ ';' ↔ x.toNat ≠ 59 := fun x => not_congr (char_eq_iff x ';')
  have e2 : ∀ x : Char, x = '_' ↔ x.toNat = 95 := fun x => char_eq_iff x '_'
  refine ⟨by simp, ?_⟩
  intro x hx
  unfold valChar
  rw [e]
  rcases List.mem_cons.1 hx with rfl | hx
  · omega
  · have := h2 x hx
    rw [e2] at this
    omega

theorem tagName_plain {n : Str} (h : TagName n) : ∀ c ∈ n, plainChar ascii c :=
  fun c hc => valChar_plain ((tagName_chars h).2 c hc).1 (fun _ => ((tagName_chars h).2 c hc).2)

theorem tagText_lay (law : IdnaLaw ix) (hf : SigFine ix u) {bText : Str} (hb : Arranged ascii brk u.extTags bText)
    {n t br : Str} (hbr : br = [] ∨ br = brk) (h : TagText ix u ascii brk bText n t) :
    Arranged ascii brk u.extTags (br ++ (n ++ '=' :: t)) := by
  have lay : ∀ {n t : Str}, n ≠ [] → (∀ c ∈ n, (33 ≤ c.toNat ∧ c.toNat ≤ 126 ∧ c ≠ ';')) →
      Arranged ascii brk u.extTags t → Arranged ascii brk u.extTags (br ++ (n ++ '=' :: t)) := by
    intro n t hne h1 h2
    exact Arranged.maybe hbr hne (fun c hc => .inl (h1 c hc))
      (fun c hc => valChar_plain (.inl (h1 c hc)) (fun _ => by have := h1 c hc; omega))
      (.char _ _ ⟨by decide, by decide, fun _ => by decide⟩ h2)
  have num : ∀ k, Arranged ascii brk u.extTags (natToStr k) := fun k => .plain fun c hc => by
    have h1 := (natToStr_digits k).2 c hc
    exact valChar_plain (digit_valChar h1) (fun _ => by unfold digit at h1; omega)
  have lit : ∀ s : Str, (∀ c ∈ s, c ≠ '\r' ∧ c ≠ '\n' ∧ c.toNat < 128) → Arranged ascii brk u.extTags s :=
    fun s h => .plain fun c hc => ⟨(h c hc).1, (h c hc).2.1, fun _ => (h c hc).2.2⟩
  cases h with
  | a =>
    refine lay (n := c!"a") (by simp) (by decide) (lit _ ?_)
    cases u.algorithm with
    | rsaSha1 => decide
    | rsaSha256 => decide
    | ed25519Sha256 => decide
  | b => exact lay (n := c!"b") (by simp) (by decide) hb
  | bh t ht => exact lay (n := c!"bh") (by simp) (by decide) (folded_lay ht (base64_plain _))
  | c hc =>
    refine lay (n := c!"c") (by simp) (by decide) (lit _ ?_)
    generalize u.canonicalization = c
    obtain ⟨hd, bd⟩ := c
    cases hd <;> cases bd <;> (simp only [canonStr]; decide)
  | d t ht => exact lay (n := c!"d") (by simp) (by decide) (.plain (domainForm_plain law hf.domain ht))
  | h t ht => exact lay (n := c!"h") (by simp) (by decide) (hText_lay ht hf.headers)
  | i i t hi ht => exact lay (n := c!"i") (by simp) (by decide) (.plain (identityForm_plain law (hf.identity i hi) ht))
  | l k _ => exact lay (n := c!"l") (by simp) (by decide) (num k)
  | s t ht => exact lay (n := c!"s") (by simp) (by decide) (.plain (domainForm_plain law hf.selector ht))
  | t k _ => exact lay (n := c!"t") (by simp) (by decide) (num k)
  | v => exact lay (n := c!"v") (by simp) (by decide) (lit _ (by decide))
  | x k _ => exact lay (n := c!"x") (by simp) (by decide) (num k)
  | z t ht => exact lay (n := c!"z") (by simp) (by decide) (zText_lay ht hf.copied)
  | ext n v hn hm =>
    have h1 := tagName_chars (hf.ext _ hm).1
    have := Arranged.ext (ascii := ascii) (brk := brk) br _ _ [] hbr hm h1.1
      (fun c hc => ⟨(h1.2 c hc).1, valChar_plain (h1.2 c hc).1 (fun _ => (h1.2 c hc).2)⟩) .nil
    simpa using this

theorem piece_lay (law : IdnaLaw ix) (hf : SigFine ix u) {bText : Str} (hb : Arranged ascii brk u.extTags bText)
    {n p : Str} (h : Piece ix u ascii brk bText n p) : Arranged ascii brk u.extTags p := by
  cases h with
  | mk lead t hl ht =>
    rcases hl with rfl | rfl
    · have := Arranged.char ' ' _ ⟨by decide, by decide, fun _ => by decide⟩ (tagText_lay law hf hb (.inl rfl) ht)
      simpa using this
    · have := tagText_lay law hf hb (.inr rfl) ht
      simpa using this

theorem formatted_lay (law : IdnaLaw ix) (hf : SigFine ix u) {bText : Str} (hb : Arranged ascii brk u.extTags bText)
    {names ns1 ns2 : List Str} {t1 lead t2 : Str}
    (h : Formatted (Piece ix u ascii brk bText) brk names ns1 ns2 t1 lead t2) :
    Arranged ascii brk u.extTags (t1 ++ lead ++ c!"b=" ++ bText ++ t2) := by
  have semi : plainChar ascii ';' := ⟨by decide, by decide, fun _ => by decide⟩
  have h1 : ∀ ns t, Closed (Piece ix u ascii brk bText) ns t → Arranged ascii brk u.extTags t := by
    intro ns t h
    induction h with
    | nil => exact .nil
    | cons n p ns t hp _ ih => exact (piece_lay law hf hb hp).append (.char _ _ semi ih)
  have h2 : ∀ ns t, Tail (Piece ix u ascii brk bText) ns t → Arranged ascii brk u.extTags t := by
    intro ns t h
    induction h with
    | nil => exact .nil
    | cons n p ns t hp _ ih => exact .char _ _ semi ((piece_lay law hf hb hp).append ih)
  have h3 : Arranged ascii brk u.extTags (lead ++ c!"b" ++ '=' :: bText) :=
    piece_lay law hf hb (.mk _ _ _ h.lead_ok .b)
  have := ((h1 _ _ h.before).append h3).append (h2 _ _ h.after)
  simpa using this

/-! ## What follows from the layout -/

theorem Arranged.chars {w : Str} (h : Arranged true brk ext w) (hbrk : ∀ c ∈ brk, c.toNat < 128) :
    ∀ c ∈ w, c.toNat < 128 ∨ ∃ t ∈ ext, c ∈ t.2 := by
  induction h with
  | nil => simp
  | char c t hc _ ih =>
    intro d hd
    rcases List.mem_cons.1 hd with rfl | hd
    · exact .inl (hc.2.2 rfl)
    · exact ih d hd
  | brk c t _ hc _ ih =>
    intro d hd
    rcases List.mem_append.1 hd with hd | hd
    · exact .inl (hbrk d hd)
    rcases List.mem_cons.1 hd with rfl | hd
    · exact .inl (hc.2.2 rfl)
    · exact ih d hd
  | ext br n v t hbr hm hne hn _ ih =>
    intro d hd
    simp only [List.mem_append, List.mem_cons] at hd
    rcases hd with ((hd | hd) | hd | hd) | hd
    · rcases hbr with rfl | rfl
      · cases hd
      · exact .inl (hbrk d hd)
    · exact .inl ((hn d hd).2.2.2 rfl)
    · subst hd; exact .inl (by decide)
    · exact .inr ⟨_, hm, hd⟩
    · exact ih d hd

/-- CRLF after text without CR. -/
theorem crlf_after {s t a b : Str} (hs : '\r' ∉ s) (e : s ++ t = a ++ '\r' :: '\n' :: b) :
    ∃ a', a = s ++ a' ∧ t = a' ++ '\r' :: '\n' :: b := by
  induction s generalizing a with
  | nil => exact ⟨a, rfl, e⟩
  | cons c s ih =>
    simp only [List.mem_cons, not_or] at hs
    cases a with
    | nil =>
      injection e with e1 e2
      exact absurd e1.symm hs.1
    | cons d a =>
      injection e with e1 e2
      obtain ⟨a', h1, h2⟩ := ih hs.2 e2
      exact ⟨a', by rw [e1, h1]; rfl, h2⟩

/-- CRLF in or after text that does not end with CR. -/
theorem crlf_in {s t a b : Str} (hs : ∀ x, s ≠ x ++ ['\r']) (e : s ++ t = a ++ '\r' :: '\n' :: b) :
    (∃ y, s = a ++ '\r' :: '\n' :: y ∧ b = y ++ t) ∨ ∃ a', a = s ++ a' ∧ t = a' ++ '\r' :: '\n' :: b := by
  rcases List.append_eq_append_iff.1 e with ⟨x, h1, h2⟩ | ⟨x, h1, h2⟩
  · exact .inr ⟨x, h1, h2⟩
  · match x, h1, h2 with
    | [], h1, h2 =>
      simp only [List.append_nil] at h1
      exact .inr ⟨[], by simp [h1], h2.symm⟩
    | [c], h1, h2 =>
      injection h2 with e1 _
      subst e1
      exact absurd h1 (hs _)
    | c :: d :: x, h1, h2 =>
      injection h2 with e1 h2
      injection h2 with e2 h2
      subst e1 e2
      exact .inl ⟨x, h1, h2⟩

theorem Arranged.breaks {indent w : Str} (h : Arranged ascii ('\r' :: '\n' :: indent) ext w) (hi : ∀ c ∈ indent, wsp c)
    (hext : ∀ t ∈ ext, ∀ x, t.2 ≠ x ++ ['\r']) {a b : Str} (e : w = a ++ '\r' :: '\n' :: b) :
    (∃ c r, b = indent ++ c :: r ∧ valChar c) ∨
      ∃ t ∈ ext, ∃ x y a1 b1, t.2 = x ++ '\r' :: '\n' :: y ∧ a = a1 ++ t.1 ++ '=' :: x ∧ b = y ++ b1 := by
  have hno : '\r' ∉ indent := by
    intro hm
    have := hi _ hm
    revert this
    unfold wsp
    decide
  induction h generalizing a with
  | nil => exact absurd e (by simp)
  | char c t hc _ ih =>
    obtain ⟨a', h0, e'⟩ := crlf_after (s := [c]) (by simpa using fun e => hc.1 e.symm) e
    subst h0
    rcases ih e' with h | ⟨t, ht, x, y, a1, b1, g1, g2, g3⟩
    · exact .inl h
    · exact .inr ⟨t, ht, x, y, c :: a1, b1, g1, by rw [g2]; simp, g3⟩
  | brk c t hc hp _ ih =>
    cases a with
    | nil =>
      injection e with _ e
      injection e with _ e
      exact .inl ⟨c, t, e.symm, hc⟩
    | cons d a =>
      injection e with e1 e
      have hs : '\r' ∉ '\n' :: indent ++ [c] := by
        simp only [List.mem_append, List.mem_cons, List.not_mem_nil, or_false, not_or]
        exact ⟨⟨by decide, hno⟩, fun e => hp.1 e.symm⟩
      obtain ⟨a', h0, e'⟩ := crlf_after (t := t) hs (by simpa using e)
      subst h0
      rcases ih e' with h | ⟨t, ht, x, y, a1, b1, g1, g2, g3⟩
      · exact .inl h
      · exact .inr ⟨t, ht, x, y, d :: '\n' :: indent ++ [c] ++ a1, b1, g1, by rw [g2]; simp, g3⟩
  | ext br n v t hbr hm hne hn _ ih =>
    have hnr : '\r' ∉ n ++ ['='] := by
      simp only [List.mem_append, List.mem_cons, List.not_mem_nil, or_false, not_or]
      exact ⟨fun h => (hn _ h).2.1 rfl, by decide⟩
    have key : ∀ a0 a', v ++ t = a' ++ '\r' :: '\n' :: b → a = a0 ++ (n ++ ['='] ++ a') →
        ((∃ c r, b = indent ++ c :: r ∧ valChar c) ∨
          ∃ t ∈ ext, ∃ x y a1 b1, t.2 = x ++ '\r' :: '\n' :: y ∧ a = a1 ++ t.1 ++ '=' :: x ∧ b = y ++ b1) := by
      intro a0 a' e1 h0
      rcases crlf_in (hext _ hm) e1 with ⟨y, h1, h2⟩ | ⟨a2, h1, e2⟩
      · exact .inr ⟨_, hm, a', y, a0, t, h1, by simp [h0], h2⟩
      · rcases ih e2 with h | ⟨t, ht, x, y, a1, b1, g1, g2, g3⟩
        · exact .inl h
        · exact .inr ⟨t, ht, x, y, a0 ++ (n ++ ['='] ++ (v ++ a1)), b1, g1, by rw [h0, h1, g2]; simp, g3⟩
    rcases hbr with rfl | rfl
    · obtain ⟨a', h1, e⟩ := crlf_after (t := v ++ t) hnr (by simpa using e)
      exact key [] a' e (by simpa using h1)
    · cases a with
      | nil =>
        injection e with _ e
        injection e with _ e
        cases n with
        | nil => exact absurd rfl hne
        | cons c n => exact .inl ⟨c, n ++ '=' :: v ++ t, by rw [← e]; simp, (hn c (by simp)).1⟩
      | cons d a =>
        injection e with e1 e
        have hs : '\r' ∉ '\n' :: indent ++ (n ++ ['=']) := by
          intro h
          rcases List.mem_append.1 h with h | h
          · rcases List.mem_cons.1 h with h | h
            · exact absurd h (by decide)
            · exact hno h
          · exact hnr h
        obtain ⟨a', h1, e⟩ := crlf_after (t := v ++ t) hs (by simpa using e)
        exact key (d :: '\n' :: indent) a' e (by rw [h1]; simp)

/-- A tag value does not end with CR. -/
theorem someValue_no_cr {v : Str} (h : SomeValue v) : ∀ x, v ≠ x ++ ['\r'] := by
  have hcr : ¬ valChar '\r' := by unfold valChar; decide
  have key : ∀ {v : Str}, Tval v → ∀ x, v ≠ x ++ ['\r'] := by
    intro v hv x e
    exact hcr (hv.2 _ (by rw [e]; simp))
  induction h with
  | one v hv => exact key hv
  | more v f r hv hf hr ih =>
    intro x e
    have hr0 : r ≠ [] := by
      rintro rfl
      obtain ⟨t, r', ht, e⟩ := someValue_head hr
      exact absurd (List.append_eq_nil_iff.1 e.symm).1 ht.1
    rcases List.append_eq_append_iff.1 e with ⟨y, h1, h2⟩ | ⟨y, h1, h2⟩
    · exact ih y h2
    · cases y with
      | nil => exact ih [] h2.symm
      | cons c y =>
        injection h2 with _ h2
        exact hr0 (List.append_eq_nil_iff.1 h2.symm).2

/-- The text of an extension tag is its value. -/
theorem tagText_ext (hf : SigFine ix u) {bText : Str} {x : Str × Str} (hx : x ∈ u.extTags) {t : Str}
    (h : TagText ix u ascii brk bText x.1 t) : t = x.2 := by
  have hno := (hf.ext x hx).2.2
  obtain ⟨n, v⟩ := x
  simp only at h hno
  cases h with
  | ext n v' _ hm =>
    have := hf.ext_nodup
    clear hno hf
    generalize u.extTags = l at *
    induction l with
    | nil => cases hm
    | cons y l ih =>
      simp only [List.map_cons, List.nodup_cons, List.mem_map, not_exists, not_and] at this
      rcases List.mem_cons.1 hx with e1 | hx1
      · subst e1
        rcases List.mem_cons.1 hm with e | hm
        · injection e
        · exact absurd rfl (this.1 (n, t) hm)
      · rcases List.mem_cons.1 hm with e1 | hm
        · subst e1
          exact absurd rfl (this.1 (n, v) hx1)
        · exact ih hx1 hm this.2
  | _ => exact absurd hno (by decide)

/-- Every tag that is written occurs in the text. -/
theorem formatted_occurs {P : Str → Str → Prop} {brk2 : Str} {names ns1 ns2 : List Str} {t1 lead t2 : Str}
    (h : Formatted P brk2 names ns1 ns2 t1 lead t2) {n : Str} (hn : n ∈ names) (hb : n ≠ c!"b") :
    ∃ p, P n p ∧ (p ⊆ t1 ∨ p ⊆ t2) := by
  have h1 : ∀ ns t, Closed P ns t → n ∈ ns → ∃ p, P n p ∧ p ⊆ t := by
    intro ns t h hm
    induction h with
    | nil => cases hm
    | cons m p ns t hp _ ih =>
      rcases List.mem_cons.1 hm with rfl | hm
      · exact ⟨p, hp, fun c hc => by simp [hc]⟩
      · obtain ⟨q, g1, g2⟩ := ih hm
        exact ⟨q, g1, fun c hc => by simp [g2 hc]⟩
  have h2 : ∀ ns t, Tail P ns t → n ∈ ns → ∃ p, P n p ∧ p ⊆ t := by
    intro ns t h hm
    induction h with
    | nil => cases hm
    | cons m p ns t hp _ ih =>
      rcases List.mem_cons.1 hm with rfl | hm
      · exact ⟨p, hp, fun c hc => by simp [hc]⟩
      · obtain ⟨q, g1, g2⟩ := ih hm
        exact ⟨q, g1, fun c hc => by simp [g2 hc]⟩
  rw [h.names_eq] at hn
  rcases List.mem_append.1 hn with hn | hn
  · obtain ⟨p, g1, g2⟩ := h1 _ _ h.before hn
    exact ⟨p, g1, .inl g2⟩
  · rcases List.mem_cons.1 hn with hn | hn
    · exact absurd hn hb
    · obtain ⟨p, g1, g2⟩ := h2 _ _ h.after hn
      exact ⟨p, g1, .inr g2⟩

end Dkim
