import Verif.Proofs.Format
import Verif.Props.Encode
import Verif.Spec.Laws

/-!
# The formatted text as a tag list
-/

namespace Dkim

open Spec

/-- What the signer guarantees of the data of a signature. -/
structure SigFine (ix : Idna) (u : UnsignedSig) : Prop where
  domain : ValidDomain true ix u.domain
  selector : ValidDomain false ix u.selector
  identity : ∀ i, u.identity = some i → ValidDomain true ix i.domain
  headers_ne : u.signedHeaders ≠ []
  headers : ∀ h ∈ u.signedHeaders, ValidName h ∧ ';' ∉ h
  copied : ∀ h ∈ u.copiedHeaders, ValidName h.1 ∧ ';' ∉ h.1
  ext_nodup : (u.extTags.map (·.1)).Nodup
  ext : ∀ t ∈ u.extTags, TagName t.1 ∧ IsValue t.2 ∧ isOutputTag t.1 = false

/-! ## Names -/

/-- The names without extension tags. -/
def fixedNames (u : UnsignedSig) : List Str :=
  [c!"v", c!"d"] ++ whenB u.identity.isSome c!"i" ++ [c!"s", c!"a"] ++
    whenB (u.canonicalization ≠ ⟨.simple, .simple⟩) c!"c" ++
    whenB u.bodyLength.isSome c!"l" ++ whenB u.timestamp.isSome c!"t" ++
    whenB u.expiration.isSome c!"x" ++ [c!"h", c!"bh", c!"b"] ++
    whenB (!u.copiedHeaders.isEmpty) c!"z"

theorem whenB_sublist (b : Bool) (x : Str) : (whenB b x).Sublist [x] := by
  cases b
  · exact List.nil_sublist _
  · exact List.Sublist.refl _

theorem fixedNames_sublist (u : UnsignedSig) : (fixedNames u).Sublist
    [c!"v", c!"d", c!"i", c!"s", c!"a", c!"c", c!"l", c!"t", c!"x", c!"h", c!"bh", c!"b", c!"z"] := by
  unfold fixedNames
  have r : ∀ l : List Str, l.Sublist l := List.Sublist.refl
  exact ((((((((((r [c!"v", c!"d"]).append (whenB_sublist _ c!"i")).append (r [c!"s", c!"a"])).append
    (whenB_sublist _ c!"c")).append (whenB_sublist _ c!"l")).append (whenB_sublist _ c!"t")).append
    (whenB_sublist _ c!"x")).append (r [c!"h", c!"bh", c!"b"])).append (whenB_sublist _ c!"z")))

theorem fixedNames_output (u : UnsignedSig) : ∀ n ∈ fixedNames u, isOutputTag n = true := by
  intro n hn
  have := (fixedNames_sublist u).subset hn
  revert n
  intro n _ h
  simp only [List.mem_cons, List.not_mem_nil, or_false] at h
  rcases h with rfl | rfl | rfl | rfl | rfl | rfl | rfl | rfl | rfl | rfl | rfl | rfl | rfl <;> rfl

theorem tagNamesUnsorted_eq (u : UnsignedSig) :
    tagNamesUnsorted u = fixedNames u ++ u.extTags.map (·.1) := rfl

variable {ix : Idna} {u : UnsignedSig}

theorem tagNames_nodup (hf : SigFine ix u) : (tagNamesUnsorted u).Nodup := by
  rw [tagNamesUnsorted_eq, List.nodup_append]
  refine ⟨(fixedNames_sublist u).nodup (by decide), hf.ext_nodup, ?_⟩
  intro a ha b hb e
  subst e
  obtain ⟨t, ht, rfl⟩ := List.mem_map.1 hb
  have := (hf.ext t ht).2.2
  rw [fixedNames_output u _ ha] at this
  cases this

theorem computeTagNames_perm {sortBy : Comparator → List Str → List Str} (hs : SortLaw sortBy)
    (u : UnsignedSig) (o : Option Comparator) : (computeTagNames sortBy u o).Perm (tagNamesUnsorted u) := by
  cases o with
  | none => exact List.Perm.refl _
  | some cmp => exact hs cmp _

theorem mem_whenB {b : Bool} {x y : Str} : y ∈ whenB b x ↔ b = true ∧ y = x := by
  cases b <;> simp [whenB]

theorem mem_fixedNames (n : Str) : n ∈ fixedNames u ↔
    n = c!"v" ∨ n = c!"d" ∨ (u.identity.isSome = true ∧ n = c!"i") ∨ n = c!"s" ∨ n = c!"a" ∨
    (u.canonicalization ≠ ⟨.simple, .simple⟩ ∧ n = c!"c") ∨ (u.bodyLength.isSome = true ∧ n = c!"l") ∨
    (u.timestamp.isSome = true ∧ n = c!"t") ∨ (u.expiration.isSome = true ∧ n = c!"x") ∨
    n = c!"h" ∨ n = c!"bh" ∨ n = c!"b" ∨ (u.copiedHeaders ≠ [] ∧ n = c!"z") := by
  unfold fixedNames
  simp only [List.mem_append, mem_whenB, List.mem_cons, List.not_mem_nil, or_false, decide_eq_true_eq,
    Bool.not_eq_true', List.isEmpty_eq_false_iff, or_assoc]

/-! ## Domains -/

theorem validDomain_ne_nil {b : Bool} {d : Str} (law : IdnaLaw ix) (h : ValidDomain b ix d) : d ≠ [] := by
  rintro rfl
  obtain ⟨a, h1, _, h3⟩ := h
  rw [law.empty] at h1
  injection h1 with h1
  exact h3.ne_nil h1.symm

theorem toLower_domainChar {c d : Char} (h : c.toLower = d.toLower) (hd : domainChar d) : domainChar c := by
  have h1 := toLower_toNat c
  have h2 := toLower_toNat d
  rw [h] at h1
  unfold domainChar letter digit at *
  have e : ∀ x : Char, (x = '-' ↔ x.toNat = 45) ∧ (x = '_' ↔ x.toNat = 95) ∧ (x = '.' ↔ x.toNat = 46) :=
    fun x => ⟨char_eq_iff x '-', char_eq_iff x '_', char_eq_iff x '.'⟩
  rw [(e c).1, (e c).2.1, (e c).2.2]
  rw [(e d).1, (e d).2.1, (e d).2.2] at hd
  split at h1 <;> split at h2 <;> omega

theorem lower_domainChars {a b : Str} (h : lower a = lower b) (hb : ∀ c ∈ b, domainChar c) :
    ∀ c ∈ a, domainChar c := by
  intro c hc
  have : c.toLower ∈ lower b := h ▸ List.mem_map_of_mem hc
  obtain ⟨d, hd, e⟩ := List.mem_map.1 this
  exact toLower_domainChar e.symm (hb d hd)

theorem domainForm_written {ix : Idna} {ascii : Bool} {d t : Str} (h : domainForm ix ascii d = some t) :
    t = writtenName ix ascii d := by
  have key : ∀ x, selectStrForm d x = if lower d = lower x then d else x := by
    intro x
    unfold selectStrForm
    rw [eqIgnoreCase_eq]
    by_cases e : lower d = lower x
    · rw [if_pos ((sameName_iff _ _).2 e), if_pos e]
    · rw [if_neg (fun h => e ((sameName_iff _ _).1 h)), if_neg e]
  unfold domainForm at h
  unfold writtenName
  cases ascii with
  | false =>
    simp only [Bool.false_eq_true, if_false, Option.some.injEq] at h ⊢
    rw [← h, key]
  | true =>
    simp only [if_true] at h ⊢
    cases e : ix.toAscii d with
    | none => rw [e] at h; cases h
    | some x =>
      rw [e] at h
      simp only [Option.some.injEq, Option.getD_some] at h ⊢
      rw [← h, key]

/-- What is written for a valid domain name. -/
theorem domainForm_fine (law : IdnaLaw ix) {b : Bool} {d : Str} (h : ValidDomain b ix d) (ascii : Bool) :
    ∃ p, domainForm ix ascii d = some p ∧ p = writtenName ix ascii d ∧ p ≠ [] ∧ ∀ c ∈ p, domainChar c := by
  have hd := h
  obtain ⟨a, h1, h2, h3⟩ := h
  have hch : ∀ c ∈ a, domainChar c := by
    intro c hc
    have := h3.chars c hc
    unfold dnsChar at this
    unfold domainChar
    rcases this with h | h | h | h | h <;> simp [h]
  obtain ⟨p, hp⟩ : ∃ p, domainForm ix ascii d = some p := by
    unfold domainForm
    cases ascii <;> simp [h1]
  refine ⟨p, hp, domainForm_written hp, ?_⟩
  unfold domainForm at hp
  cases ascii with
  | true =>
    simp only [if_true, h1, selectStrForm] at hp
    injection hp with hp
    rcases ite_eq_cases hp with ⟨e, hp⟩ | ⟨_, hp⟩
    · subst hp
      rw [eqIgnoreCase_eq, sameName_iff] at e
      exact ⟨validDomain_ne_nil law hd, lower_domainChars e hch⟩
    · subst hp
      exact ⟨h3.ne_nil, hch⟩
  | false =>
    simp only [Bool.false_eq_true, if_false, selectStrForm] at hp
    injection hp with hp
    obtain ⟨u1, u2⟩ := law.unicode_chars _ _ hd
    rcases ite_eq_cases hp with ⟨e, hp⟩ | ⟨_, hp⟩
    · subst hp
      rw [eqIgnoreCase_eq, sameName_iff] at e
      exact ⟨validDomain_ne_nil law hd, lower_domainChars e u2⟩
    · subst hp
      exact ⟨u1, u2⟩

/-- A name that is kept is valid in its written form. -/
theorem Spec.KeptName.valid {b ascii : Bool} {d : Str} (h : ValidDomain b ix d) (hk : KeptName ix ascii d) :
    ValidDomain b ix (writtenName ix ascii d) := by
  obtain ⟨a, h1, _, h3⟩ := h
  exact ⟨a, hk.1.trans h1, hk.2, h3⟩

/-- A name of which the forms are consistent is kept. -/
theorem Spec.Consistent.kept {b : Bool} {d : Str} (h : ValidDomain b ix d) (hc : Consistent ix d) (ascii : Bool) :
    KeptName ix ascii d := by
  obtain ⟨a, h1, h2, _⟩ := h
  unfold KeptName writtenName
  cases ascii with
  | true =>
    simp only [if_true, h1, Option.getD_some]
    split
    · exact ⟨h1, h2⟩
    · exact hc.ascii_form a h1
  | false =>
    simp only [Bool.false_eq_true, if_false]
    split
    · exact ⟨rfl, h2⟩
    · exact hc.unicode_form

/-- A name that is given in the form that is to be written is kept. -/
theorem kept_of_form {b : Bool} {d form : Str} (h : ValidDomain b ix d) {ascii : Bool}
    (hform : if ascii then ix.toAscii d = some form else (ix.toUnicode d).1 = form) (he : lower d = lower form) :
    KeptName ix ascii d := by
  obtain ⟨a, h1, h2, _⟩ := h
  have : writtenName ix ascii d = d := by
    unfold writtenName
    cases ascii <;> simp at hform <;> simp [hform, he]
  rw [KeptName, this]
  exact ⟨rfl, h2⟩

theorem domainChar_valChar {c : Char} (h : domainChar c) : valChar c ∧ dkimSafe c ∧ c ≠ '@' := by
  unfold domainChar letter digit at h
  unfold valChar dkimSafe
  have e1 : c = '-' ↔ c.toNat = 45 := char_eq_iff c '-'
  have e2 : c = '_' ↔ c.toNat = 95 := char_eq_iff c '_'
  have e3 : c = '.' ↔ c.toNat = 46 := char_eq_iff c '.'
  have e4 : c ≠ ';' ↔ c.toNat ≠ 59 := not_congr (char_eq_iff c ';')
  have e5 : c ≠ '=' ↔ c.toNat ≠ 61 := not_congr (char_eq_iff c '=')
  have e6 : c ≠ '@' ↔ c.toNat ≠ 64 := not_congr (char_eq_iff c '@')
  rw [e1, e2, e3] at h
  rw [e4, e5, e6]
  omega

/-! ## Values -/

/-- Text that may follow an equals sign: possibly empty, or possibly FWS and a value. -/
def ValueText (t : Str) : Prop := t = [] ∨ ∃ f v, OptFws f ∧ SomeValue v ∧ t = f ++ v

theorem someValue_cons {c : Char} {v : Str} (hc : valChar c) (h : SomeValue v) : SomeValue (c :: v) := by
  cases h with
  | one v hv => exact .one _ ⟨by simp, by simpa using ⟨hc, hv.2⟩⟩
  | more v f r hv hf hr =>
    exact .more (c :: v) f r ⟨by simp, by simpa using ⟨hc, hv.2⟩⟩ hf hr

theorem ValueText.cons {c : Char} {t : Str} (h : ValueText t) (hc : valChar c) : SomeValue (c :: t) := by
  have h1 : Tval [c] := ⟨by simp, by simpa using hc⟩
  rcases h with rfl | ⟨f, v, hf, hv, rfl⟩
  · exact .one _ h1
  · rcases hf with rfl | hf
    · exact someValue_cons hc hv
    · exact .more [c] f v h1 hf hv

theorem ValueText.append {s t : Str} (h : ValueText t) (hs : ∀ c ∈ s, valChar c) (hne : s ≠ []) :
    SomeValue (s ++ t) := by
  induction s with
  | nil => exact absurd rfl hne
  | cons c s ih =>
    cases s with
    | nil => exact h.cons (hs c (by simp))
    | cons d s =>
      exact someValue_cons (hs c (by simp)) (ih (fun c hc => hs c (List.mem_cons_of_mem _ hc)) (by simp))

theorem ValueText.of_some {v : Str} (h : SomeValue v) : ValueText v := .inr ⟨[], v, .inl rfl, h, rfl⟩

theorem ValueText.fold {f v : Str} (hf : Fws f) (h : SomeValue v) : ValueText (f ++ v) :=
  .inr ⟨f, v, .inr hf, h, rfl⟩

theorem ValueText.optFold {f v : Str} (hf : OptFws f) (h : SomeValue v) : ValueText (f ++ v) :=
  .inr ⟨f, v, hf, h, rfl⟩

theorem folded_value {brk s t : Str} (hbrk : Fws brk) (h : Folded brk s t) (hs : ∀ c ∈ s, valChar c) :
    ValueText t := by
  induction h with
  | nil => exact .inl rfl
  | keep c s t _ ih =>
    exact .of_some ((ih (fun c hc => hs c (List.mem_cons_of_mem _ hc))).cons (hs c (by simp)))
  | fold c s t _ ih =>
    exact .fold hbrk ((ih (fun c hc => hs c (List.mem_cons_of_mem _ hc))).cons (hs c (by simp)))

/-- A folded text behind some text. -/
theorem folded_behind {brk s t p r : Str} (hbrk : Fws brk) (h : Folded brk s t)
    (hs : ∀ c ∈ s, valChar c) (hp : ∀ c ∈ p, valChar c) (hne : p ≠ []) (hr : ValueText r) :
    SomeValue (p ++ t ++ r) := by
  have key : ValueText (t ++ r) := by
    clear hp hne
    induction h with
    | nil => exact hr
    | keep c s t _ ih =>
      exact .of_some ((ih (fun c hc => hs c (List.mem_cons_of_mem _ hc))).cons (hs c (by simp)))
    | fold c s t _ ih =>
      have := ValueText.fold hbrk
        ((ih (fun c hc => hs c (List.mem_cons_of_mem _ hc))).cons (hs c (by simp)))
      simpa using this
  rw [List.append_assoc]
  exact key.append hp hne

theorem validName_valChars {n : Str} (h : ValidName n) (hs : ';' ∉ n) : ∀ c ∈ n, valChar c := by
  intro c hc
  have := h.2 c hc
  exact .inl ⟨this.1, this.2.1, fun e => hs (e ▸ hc)⟩

theorem colon_valChar : valChar ':' := .inl ⟨by decide, by decide, by decide⟩
theorem bar_valChar : valChar '|' := .inl ⟨by decide, by decide, by decide⟩
theorem at_valChar : valChar '@' := .inl ⟨by decide, by decide, by decide⟩

theorem hRest_value {brk t : Str} {ns : List Str} (hbrk : Fws brk) (h : HRest brk ns t)
    (hn : ∀ n ∈ ns, ValidName n ∧ ';' ∉ n) : ValueText t := by
  induction h with
  | nil => exact .inl rfl
  | plain n ns t _ ih =>
    have h1 := hn n (by simp)
    have h2 := ih (fun m hm => hn m (List.mem_cons_of_mem _ hm))
    exact .of_some ((ValueText.of_some
      (h2.append (validName_valChars h1.1 h1.2) h1.1.1)).cons colon_valChar)
  | fold n ns t _ ih =>
    have h1 := hn n (by simp)
    have h2 := ih (fun m hm => hn m (List.mem_cons_of_mem _ hm))
    have h3 := (ValueText.fold hbrk
      (h2.append (validName_valChars h1.1 h1.2) h1.1.1)).cons colon_valChar
    exact .of_some (by simpa using h3)

theorem hText_value {brk t : Str} {ns : List Str} (hbrk : Fws brk) (h : HText brk ns t)
    (hn : ∀ n ∈ ns, ValidName n ∧ ';' ∉ n) : SomeValue t := by
  cases h with
  | mk n ns t h =>
    have h1 := hn n (by simp)
    exact (hRest_value hbrk h (fun m hm => hn m (List.mem_cons_of_mem _ hm))).append
      (validName_valChars h1.1 h1.2) h1.1.1

theorem qpText_valChars {safe : Char → Bool} (hsafe : ∀ c, safe c = true → isDkimSafe c = true) {s : Str}
    {bs : Bytes} (h : QpText safe s bs) : ∀ c ∈ s, valChar c := by
  have hhex : ∀ n, n < 16 → valChar (hexDigit n) := by
    have : ∀ n : Fin 16, valChar (hexDigit n) := by
      unfold valChar; decide
    intro n hn
    exact this ⟨n, hn⟩
  induction h with
  | nil => simp
  | char c s bs hc _ ih =>
    intro d hd
    rcases List.mem_cons.1 hd with rfl | hd
    · have := (isDkimSafe_iff d).1 (hsafe d hc)
      rcases this with h | h
      · exact .inl ⟨h.1, h.2.1, h.2.2.1⟩
      · exact .inr h
    · exact ih d hd
  | hex b s bs _ ih =>
    intro d hd
    have hb := b.toNat_lt
    simp only [List.mem_cons] at hd
    rcases hd with rfl | rfl | rfl | hd
    · exact .inl ⟨by decide, by decide, by decide⟩
    · exact hhex _ (by omega)
    · exact hhex _ (by omega)
    · exact ih d hd

theorem qpEncode_valChars (bs : Bytes) (special : Option Char) (a : Bool) :
    ∀ c ∈ qpEncode bs special a, valChar c :=
  qpText_valChars (fun _ h => (qpSafe_safe h).1) (qpEncode_text bs special a)

theorem zPiece_behind {brk p r : Str} {ascii : Bool} {h : Str × Bytes} (hbrk : Fws brk)
    (hp : ZPiece brk ascii h p) (hn : ValidName h.1 ∧ ';' ∉ h.1) (hr : ValueText r) : SomeValue (p ++ r) := by
  cases hp with
  | mk n v t ht =>
    have := folded_behind (p := n ++ [':']) hbrk ht (qpEncode_valChars _ _ _) (by
      intro c hc
      rcases List.mem_append.1 hc with hc | hc
      · exact validName_valChars hn.1 hn.2 c hc
      · simp at hc; subst hc; exact colon_valChar) (by simp) hr
    simpa using this

theorem zRest_value {brk t : Str} {ascii : Bool} {hs : List (Str × Bytes)} (hbrk : Fws brk)
    (h : ZRest brk ascii hs t) (hn : ∀ h ∈ hs, ValidName h.1 ∧ ';' ∉ h.1) : ValueText t := by
  have opt : ∀ br, br = [] ∨ br = brk → OptFws br := by
    rintro br (rfl | rfl)
    · exact .inl rfl
    · exact .inr hbrk
  induction h with
  | nil => exact .inl rfl
  | cons br br2 h hs p t h1 h2 hp _ ih =>
    have h3 := zPiece_behind hbrk hp (hn h (by simp)) (ih (fun m hm => hn m (List.mem_cons_of_mem _ hm)))
    have h4 := ValueText.optFold (opt br h1) ((ValueText.optFold (opt br2 h2) h3).cons bar_valChar)
    simpa using h4

theorem zText_value {brk t : Str} {ascii : Bool} {hs : List (Str × Bytes)} (hbrk : Fws brk)
    (h : ZText brk ascii hs t) (hn : ∀ h ∈ hs, ValidName h.1 ∧ ';' ∉ h.1) : SomeValue t := by
  cases h with
  | mk h hs p t hp ht =>
    exact zPiece_behind hbrk hp (hn h (by simp))
      (zRest_value hbrk ht (fun m hm => hn m (List.mem_cons_of_mem _ hm)))

theorem base64_valChars (bs : Bytes) : ∀ c ∈ encodeBase64 bs, valChar c := by
  intro c hc
  have hf : ∀ n : Fin 64, valChar (b64Char n) := by
    unfold valChar; decide
  rcases encodeBase64_chars bs c hc with rfl | ⟨n, hn, rfl⟩
  · exact .inl ⟨by decide, by decide, by decide⟩
  · exact hf ⟨n, hn⟩

theorem natToStr_digits (n : Nat) : natToStr n ≠ [] ∧ ∀ c ∈ natToStr n, digit c := by
  unfold natToStr
  refine ⟨?_, ?_⟩
  · have := @Nat.length_toDigits_pos 10 n
    intro e
    rw [e] at this
    simp at this
  · intro c hc
    have := Nat.isDigit_of_mem_toDigits (b := 10) (n := n) (by decide) (by decide) hc
    simp only [Char.isDigit, Bool.and_eq_true, decide_eq_true_eq, ge_iff_le] at this
    exact this

theorem digit_valChar {c : Char} (h : digit c) : valChar c := by
  unfold digit at h
  refine .inl ⟨by omega, by omega, ?_⟩
  rintro rfl
  revert h
  decide

theorem someValue_of_chars {v : Str} (hne : v ≠ []) (h : ∀ c ∈ v, valChar c) : SomeValue v :=
  .one _ ⟨hne, h⟩

/-- What may be inserted as the value of `b=`. -/
def BText (bText : Str) : Prop := ValueText bText

theorem identityForm_value (law : IdnaLaw ix) {ascii : Bool} {i : Identity} {t : Str}
    (hi : ValidDomain true ix i.domain) (h : identityForm ix ascii i = some t) : SomeValue t := by
  obtain ⟨p, h1, h2, h3, h4⟩ := domainForm_fine law hi ascii
  unfold identityForm at h
  rw [h1] at h
  injection h with h
  subst h
  refine someValue_of_chars (by simp) ?_
  intro c hc
  rcases List.mem_append.1 hc with hc | hc
  · cases hl : i.localPart with
    | none => rw [hl] at hc; cases hc
    | some l => rw [hl] at hc; exact qpEncode_valChars _ _ _ c hc
  · rcases List.mem_cons.1 hc with rfl | hc
    · exact at_valChar
    · exact (domainChar_valChar (h4 c hc)).1

theorem domainForm_value (law : IdnaLaw ix) {ascii b : Bool} {d t : Str} (hd : ValidDomain b ix d)
    (h : domainForm ix ascii d = some t) : SomeValue t := by
  obtain ⟨p, h1, h2, h3, h4⟩ := domainForm_fine law hd ascii
  rw [h1] at h
  injection h with h
  subst h
  exact someValue_of_chars h3 (fun c hc => (domainChar_valChar (h4 c hc)).1)

/-- The text of a tag is a value, for `b` and `bh` possibly after FWS. -/
theorem tagText_value (law : IdnaLaw ix) (hf : SigFine ix u) {ascii : Bool} {brk bText : Str} (hbrk : Fws brk)
    (hb : ValueText bText) {n t : Str} (h : TagText ix u ascii brk bText n t) :
    TagName n ∧ ∃ f v, OptFws f ∧ IsValue v ∧ t = f ++ v ∧ (v = [] → f = []) ∧
      (n ≠ c!"b" → n ≠ c!"bh" → f = []) := by
  have name : ∀ c : Char, (65 ≤ c.toNat ∧ c.toNat ≤ 90 ∨ 97 ≤ c.toNat ∧ c.toNat ≤ 122) → TagName [c] :=
    fun c hc => ⟨c, [], rfl, hc, by simp⟩
  have plain : ∀ {n t : Str}, SomeValue t →
      ∃ f v, OptFws f ∧ IsValue v ∧ t = f ++ v ∧ (v = [] → f = []) ∧ (n ≠ c!"b" → n ≠ c!"bh" → f = []) :=
    fun h => ⟨[], _, .inl rfl, .inr h, rfl, fun _ => rfl, fun _ _ => rfl⟩
  have num : ∀ k, SomeValue (natToStr k) := fun k =>
    someValue_of_chars (natToStr_digits k).1 (fun c hc => digit_valChar ((natToStr_digits k).2 c hc))
  have chunk : ∀ {n t : Str}, (n = c!"b" ∨ n = c!"bh") → ValueText t →
      ∃ f v, OptFws f ∧ IsValue v ∧ t = f ++ v ∧ (v = [] → f = []) ∧ (n ≠ c!"b" → n ≠ c!"bh" → f = []) := by
    intro n t hn ht
    rcases ht with rfl | ⟨f, v, h1, h2, h3⟩
    · exact ⟨[], [], .inl rfl, .inl rfl, rfl, fun _ => rfl, fun _ _ => rfl⟩
    · refine ⟨f, v, h1, .inr h2, h3, ?_, ?_⟩
      · rintro rfl
        obtain ⟨t, r, ht, e⟩ := someValue_head h2
        exact absurd (List.append_eq_nil_iff.1 e.symm).1 ht.1
      intro a b
      rcases hn with e | e
      · exact absurd e a
      · exact absurd e b
  cases h with
  | a => exact ⟨name 'a' (by decide), plain (by
      cases u.algorithm <;> exact someValue_of_chars (by simp [SigAlg.canonicalStr])
        (by unfold SigAlg.canonicalStr valChar; decide))⟩
  | b => exact ⟨name 'b' (by decide), chunk (.inl rfl) hb⟩
  | bh t ht => exact ⟨⟨'b', ['h'], rfl, by decide, by decide⟩,
      chunk (.inr rfl) (folded_value hbrk ht (base64_valChars _))⟩
  | c hc =>
    refine ⟨name 'c' (by decide), plain ?_⟩
    revert hc
    generalize u.canonicalization = c
    obtain ⟨hd, bd⟩ := c
    cases hd <;> cases bd <;> intro hne
    · exact absurd rfl hne
    all_goals
      refine someValue_of_chars (by simp [canonStr]) ?_
      unfold canonStr valChar
      decide
  | d t ht => exact ⟨name 'd' (by decide), plain (domainForm_value law hf.domain ht)⟩
  | h t ht => exact ⟨name 'h' (by decide), plain (hText_value hbrk ht hf.headers)⟩
  | i i t hi ht => exact ⟨name 'i' (by decide), plain (identityForm_value law (hf.identity i hi) ht)⟩
  | l k _ => exact ⟨name 'l' (by decide), plain (num k)⟩
  | s t ht => exact ⟨name 's' (by decide), plain (domainForm_value law hf.selector ht)⟩
  | t k _ => exact ⟨name 't' (by decide), plain (num k)⟩
  | v => exact ⟨name 'v' (by decide), plain (someValue_of_chars (by simp) (by unfold valChar; decide))⟩
  | x k _ => exact ⟨name 'x' (by decide), plain (num k)⟩
  | z t ht => exact ⟨name 'z' (by decide), plain (zText_value hbrk ht hf.copied)⟩
  | ext n v hn hm =>
    obtain ⟨h1, h2, h3⟩ := hf.ext _ hm
    exact ⟨h1, [], _, .inl rfl, h2, rfl, fun _ => rfl, fun _ _ => rfl⟩

theorem lead_optFws {brk lead : Str} (hbrk : Fws brk) (h : Lead brk lead) : Fws lead := by
  rcases h with rfl | rfl
  · exact .plain _ (by simp) (by simp [wsp])
  · exact hbrk

theorem specText_of {lead n f v : Str} (hl : Fws lead) (hn : TagName n) (hf : OptFws f) (hv : IsValue v) :
    SpecText n v (lead ++ n ++ '=' :: (f ++ v)) := by
  rcases hv with rfl | hv
  · simpa using SpecText.empty lead n [] f (.inr hl) hn (.inl rfl) hf
  · simpa using SpecText.value lead n [] f v [] (.inr hl) hn (.inl rfl) hf hv (.inl rfl)

end Dkim
