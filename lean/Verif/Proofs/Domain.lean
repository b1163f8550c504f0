import Verif.Spec.Domain
import Verif.Proofs.HeaderBlock
import Verif.Proofs.TagList

/-! Helper lemmas about domain names and identities. -/

namespace Dkim

open Spec

/-! ### Splitting -/

theorem splitOn_ne_nil {α : Type} [DecidableEq α] (sep : α) (s : List α) : splitOn sep s ≠ [] := by
  cases s with
  | nil => simp [splitOn]
  | cons c r =>
    rw [splitOn]
    split
    · simp
    · cases splitOn sep r <;> simp

theorem splitOn_not_mem {α : Type} [DecidableEq α] (sep : α) (s : List α) :
    ∀ p ∈ splitOn sep s, sep ∉ p := by
  induction s with
  | nil => simp [splitOn]
  | cons c r ih =>
    rw [splitOn]
    split
    · intro p hp
      rcases List.mem_cons.1 hp with rfl | hp
      · simp
      · exact ih p hp
    · next hc =>
      cases h : splitOn sep r with
      | nil => exact absurd h (splitOn_ne_nil sep r)
      | cons q qs =>
        rw [h] at ih
        intro p hp
        rcases List.mem_cons.1 hp with rfl | hp
        · intro hm
          rcases List.mem_cons.1 hm with rfl | hm
          · exact hc rfl
          · exact ih q (by simp) hm
        · exact ih p (by simp [hp])

theorem splitOn_single {α : Type} [DecidableEq α] (sep : α) (p : List α) (h : sep ∉ p) :
    splitOn sep p = [p] := by
  induction p with
  | nil => rfl
  | cons c r ih =>
    have hc : c ≠ sep := fun e => h (by simp [e])
    rw [splitOn, if_neg hc, ih (fun hm => h (by simp [hm]))]

theorem splitOn_cons {α : Type} [DecidableEq α] (sep : α) (p s : List α) (h : sep ∉ p) :
    splitOn sep (p ++ sep :: s) = p :: splitOn sep s := by
  induction p with
  | nil => simp [splitOn]
  | cons c r ih =>
    have hc : c ≠ sep := fun e => h (by simp [e])
    rw [List.cons_append, splitOn, if_neg hc, ih (fun hm => h (by simp [hm]))]

theorem joinDots_cons (l : Str) (ls : List Str) (h : ls ≠ []) :
    joinDots (l :: ls) = l ++ '.' :: joinDots ls := by
  cases ls with
  | nil => exact absurd rfl h
  | cons m ms => rfl

theorem splitOn_joinDots (ls : List Str) (hne : ls ≠ []) (h : ∀ l ∈ ls, '.' ∉ l) :
    splitOn '.' (joinDots ls) = ls := by
  induction ls with
  | nil => exact absurd rfl hne
  | cons l ls ih =>
    cases ls with
    | nil => exact splitOn_single '.' l (h l (by simp))
    | cons m ms =>
      rw [joinDots_cons _ _ (by simp), splitOn_cons _ _ _ (h l (by simp)),
        ih (by simp) (fun x hx => h x (by simp [hx]))]

theorem joinDots_splitOn (s : Str) : joinDots (splitOn '.' s) = s := by
  induction s with
  | nil => rfl
  | cons c r ih =>
    rw [splitOn]
    split
    · next hc => rw [joinDots_cons _ _ (splitOn_ne_nil _ _), ih, hc]; rfl
    · cases h : splitOn '.' r with
      | nil => exact absurd h (splitOn_ne_nil '.' r)
      | cons q qs =>
        rw [h] at ih
        simp only
        cases qs with
        | nil => simp only [joinDots] at *; rw [ih]
        | cons q2 qs =>
          rw [joinDots_cons _ _ (by simp)] at *
          rw [List.cons_append, ih]

theorem joinDots_append (a b : List Str) (ha : a ≠ []) (hb : b ≠ []) :
    joinDots (a ++ b) = joinDots a ++ '.' :: joinDots b := by
  induction a with
  | nil => exact absurd rfl ha
  | cons l ls ih =>
    cases ls with
    | nil => simp only [List.cons_append, List.nil_append]; rw [joinDots_cons _ _ hb]; rfl
    | cons m ms =>
      rw [List.cons_append, joinDots_cons _ _ (by simp), ih (by simp), joinDots_cons l (m :: ms) (by simp)]
      simp

/-! ### Labels -/

theorem labelChar_iff (c : Char) : (isAsciiAlnum c || c == '-' || c == '_') = true ↔
    letter c ∨ digit c ∨ c = '-' ∨ c = '_' := by
  simp [isAsciiAlnum, isAsciiAlpha, isAsciiUpper, isAsciiLower, isAsciiDigit, letter, digit, or_assoc]

theorem labelChar_ascii {c : Char} (h : letter c ∨ digit c ∨ c = '-' ∨ c = '_') : c.toNat < 128 := by
  rcases h with h | h | rfl | rfl
  · unfold letter at h; omega
  · unfold digit at h; omega
  · decide
  · decide

theorem byteLen_ascii (s : Str) (h : ∀ c ∈ s, c.toNat < 128) : byteLen s = s.length := by
  rw [← utf8_length, utf8_ascii s h, List.length_map]

theorem byteLen_pos (s : Str) : 1 ≤ byteLen s ↔ s ≠ [] := by
  rw [← utf8_length]
  have := utf8_length_ge s
  cases s with
  | nil => simp [utf8]
  | cons c r => simp at *; omega

theorem isLabel_iff (l : Str) : isLabel l = true ↔ Label l := by
  unfold isLabel Label hasValidLabelLen
  simp only [Bool.and_eq_true, decide_eq_true_eq, List.all_eq_true, labelChar_iff, bne_iff_ne, ne_eq]
  have e1 : l.head? = some '-' ↔ ∃ r, l = '-' :: r := by
    cases l with
    | nil => simp
    | cons c r => simp
  have e2 : l.getLast? = some '-' ↔ ∃ r, l = r ++ ['-'] := by
    rw [List.getLast?_eq_some_iff]
  rw [e1, e2]
  simp only [not_exists]
  constructor
  · rintro ⟨⟨⟨⟨h1, h2⟩, h3⟩, h4⟩, h5⟩
    have := byteLen_ascii l (fun c hc => labelChar_ascii (h5 c hc))
    exact ⟨by omega, by omega, h5, h3, h4⟩
  · rintro ⟨h1, h2, h5, h3, h4⟩
    have := byteLen_ascii l (fun c hc => labelChar_ascii (h5 c hc))
    exact ⟨⟨⟨⟨by omega, by omega⟩, h3⟩, h4⟩, h5⟩

theorem dot_noLabel : ¬ (letter '.' ∨ digit '.' ∨ '.' = '-' ∨ '.' = '_') := by
  unfold letter digit; decide

theorem Spec.Label.noDot {l : Str} (h : Label l) : '.' ∉ l := fun hm => dot_noLabel (h.2.2.1 _ hm)

theorem joinDots_chars (ls : List Str) : ∀ c ∈ joinDots ls, c = '.' ∨ ∃ l ∈ ls, c ∈ l := by
  induction ls with
  | nil => simp [joinDots]
  | cons l ls ih =>
    cases ls with
    | nil => intro c hc; right; exact ⟨l, by simp, hc⟩
    | cons m ms =>
      rw [joinDots_cons _ _ (by simp)]
      intro c hc
      rw [List.mem_append, List.mem_cons] at hc
      rcases hc with hc | hc | hc
      · right; exact ⟨l, by simp, hc⟩
      · left; exact hc
      · rcases ih c hc with h | ⟨x, hx, h⟩
        · left; exact h
        · right; exact ⟨x, by simp [hx], h⟩

/-- The characters of DNS names. -/
def dnsChar (c : Char) : Prop := c = '.' ∨ letter c ∨ digit c ∨ c = '-' ∨ c = '_'

theorem dnsChar_ascii {c : Char} (h : dnsChar c) : c.toNat < 128 := by
  rcases h with rfl | h
  · decide
  · exact labelChar_ascii h

theorem Spec.DnsName.chars {b : Bool} {s : Str} (h : DnsName b s) : ∀ c ∈ s, dnsChar c := by
  obtain ⟨_, _, ls, last, rfl, h1, h2, _⟩ := h
  intro c hc
  rcases joinDots_chars _ c hc with rfl | ⟨l, hl, hcl⟩
  · exact Or.inl rfl
  · have : Label l := by
      rcases List.mem_append.1 hl with hl | hl
      · exact h1 l hl
      · rw [List.mem_singleton.1 hl]; exact h2
    exact Or.inr (this.2.2.1 c hcl)

theorem Spec.DnsName.ne_nil {b : Bool} {s : Str} (h : DnsName b s) : s ≠ [] := by
  intro e; have := h.1; rw [e] at this; simp at this

theorem isValidDnsName_iff (s : Str) (b : Bool) : isValidDnsName s b = true ↔ DnsName b s := by
  constructor
  · intro h
    unfold isValidDnsName at h
    split at h
    · simp at h
    next h0 =>
    split at h
    · simp at h
    next fin labels e =>
    split at h
    · simp at h
    next h2 =>
    simp only [List.all_eq_true, isLabel_iff] at h
    rw [Bool.not_eq_true, Bool.or_eq_false_iff, Bool.not_eq_false', isLabel_iff] at h2
    have es : splitOn '.' s = labels.reverse ++ [fin] := by
      rw [← List.reverse_reverse (splitOn '.' s), e]; simp
    have hs : s = joinDots (labels.reverse ++ [fin]) := by rw [← es, joinDots_splitOn]
    have hascii : ∀ c ∈ s, c.toNat < 128 := by
      intro c hc
      rw [hs] at hc
      rcases joinDots_chars _ c hc with rfl | ⟨l, hl, hcl⟩
      · decide
      · have : Label l := by
          rcases List.mem_append.1 hl with hl | hl
          · exact h l (List.mem_reverse.1 hl)
          · rw [List.mem_singleton.1 hl]; exact h2.1
        exact labelChar_ascii (this.2.2.1 c hcl)
    simp only [hasValidDomainLen, byteLen_ascii s hascii, Bool.not_eq_true, Bool.not_eq_false',
      Bool.and_eq_true, decide_eq_true_eq] at h0
    refine ⟨h0.1, h0.2, labels.reverse, fin, hs, fun l hl => h l (List.mem_reverse.1 hl), h2.1, ?_⟩
    intro hb
    have h3 := h2.2
    rw [hb, Bool.true_and] at h3
    rw [List.all_eq_false] at h3
    obtain ⟨c, hc, hd⟩ := h3
    refine ⟨c, hc, ?_⟩
    simpa [isAsciiDigit, digit] using hd
  · intro h
    have hascii := fun c hc => dnsChar_ascii (h.chars c hc)
    obtain ⟨h1, h2, ls, last, hs, h3, h4, h5⟩ := h
    unfold isValidDnsName
    have hl : hasValidDomainLen s = true := by
      simp [hasValidDomainLen, byteLen_ascii s hascii, h1, h2]
    have hsp : splitOn '.' s = ls ++ [last] := by
      rw [hs]
      apply splitOn_joinDots _ (by simp)
      intro l hl
      rcases List.mem_append.1 hl with hl | hl
      · exact (h3 l hl).noDot
      · rw [List.mem_singleton.1 hl]; exact h4.noDot
    rw [hl, hsp]
    simp only [Bool.not_true, Bool.false_eq_true, if_false, List.reverse_append, List.reverse_cons,
      List.reverse_nil, List.nil_append, List.singleton_append]
    rw [(isLabel_iff last).2 h4]
    have : (b && last.all isAsciiDigit) = false := by
      cases hb : b with
      | false => rfl
      | true =>
        rw [Bool.true_and, List.all_eq_false]
        obtain ⟨c, hc, hd⟩ := h5 hb
        refine ⟨c, hc, ?_⟩
        simpa [isAsciiDigit, digit] using hd
    rw [this]
    simp only [Bool.not_true, Bool.or_self, Bool.false_eq_true, if_false, List.all_eq_true, isLabel_iff]
    intro l hl
    exact h3 l (List.mem_reverse.1 hl)

theorem isValidDomainString_iff (ix : Idna) (s : Str) (b : Bool) :
    isValidDomainString ix s b = true ↔ ValidDomain b ix s := by
  unfold isValidDomainString ValidDomain
  cases h : ix.toAscii s with
  | none => simp
  | some a =>
    simp only [Bool.and_eq_true, isValidDnsName_iff, Option.some.injEq]
    constructor
    · rintro ⟨h1, h2⟩; exact ⟨a, rfl, h2, h1⟩
    · rintro ⟨_, rfl, h2, h1⟩; exact ⟨h1, h2⟩

/-! ### Subdomains -/

theorem lower_append (a b : Str) : lower (a ++ b) = lower a ++ lower b := by simp [lower]

theorem lower_length (a : Str) : (lower a).length = a.length := by simp [lower]

theorem toLower_dot (c : Char) : c.toLower = '.' ↔ c = '.' := by
  constructor
  · intro h
    have h2 := toLower_toNat c
    rw [h] at h2
    apply char_ext_toNat
    have : ('.').toNat = 46 := rfl
    rw [this] at h2 ⊢
    split at h2 <;> omega
  · rintro rfl; decide

theorem splitAtByte_ascii (n : Nat) (s : Str) (h : ∀ c ∈ s, c.toNat < 128) (hn : n ≤ s.length) :
    splitAtByte n s = some (s.take n, s.drop n) := by
  induction s generalizing n with
  | nil =>
    have : n = 0 := by simp at hn; exact hn
    subst this; simp [splitAtByte]
  | cons c r ih =>
    cases n with
    | zero => simp [splitAtByte]
    | succ n =>
      have h1 : c.utf8Size = 1 := by
        have := encodeChar_ascii c (h c (by simp))
        have h2 := String.length_utf8EncodeChar c
        rw [this] at h2; simpa using h2.symm
      rw [splitAtByte, h1, if_pos (by omega), Nat.add_sub_cancel,
        ih n (fun d hd => h d (by simp [hd])) (by simp at hn; omega)]
      rfl

theorem getLast_isDot (s : Str) : (s.getLast? == some '.') = true ↔ ∃ r, s = r ++ ['.'] := by
  rw [beq_iff_eq, List.getLast?_eq_some_iff]

theorem dotless_of_split {s : Str} {ls : List Str} (h : splitOn '.' s = ls) : ∀ l ∈ ls, '.' ∉ l := by
  subst h; exact splitOn_not_mem '.' s

/-- The byte-level test of the code agrees with the label-level specification. -/
theorem suffix_iff (a b : Str) :
    (∃ left right, a = left ++ right ∧ lower right = lower b ∧ (left = [] ∨ ∃ r, left = r ++ ['.'])) ↔
      ∃ more ls : List Str, ls ≠ [] ∧ (∀ l ∈ more ++ ls, '.' ∉ l) ∧ lower a = joinDots (more ++ ls) ∧
        lower b = joinDots ls := by
  constructor
  · rintro ⟨left, right, rfl, hr, hl⟩
    have hb : lower b = joinDots (splitOn '.' (lower b)) := (joinDots_splitOn _).symm
    rcases hl with rfl | ⟨r, rfl⟩
    · refine ⟨[], splitOn '.' (lower b), splitOn_ne_nil _ _, ?_, ?_, hb⟩
      · simpa using splitOn_not_mem '.' (lower b)
      · rw [List.nil_append, List.nil_append, ← hb, hr]
    · refine ⟨splitOn '.' (lower r), splitOn '.' (lower b), splitOn_ne_nil _ _, ?_, ?_, hb⟩
      · intro l hl
        rcases List.mem_append.1 hl with hl | hl
        · exact splitOn_not_mem _ _ l hl
        · exact splitOn_not_mem _ _ l hl
      · rw [joinDots_append _ _ (splitOn_ne_nil _ _) (splitOn_ne_nil _ _), joinDots_splitOn, ← hb,
          ← hr, lower_append, lower_append]
        have : lower ['.'] = ['.'] := by decide
        rw [this]; simp
  · rintro ⟨more, ls, hls, hd, ha, hb⟩
    cases hm : more with
    | nil =>
      subst hm
      exact ⟨[], a, rfl, by rw [ha, hb]; rfl, Or.inl rfl⟩
    | cons m ms =>
      rw [hm, joinDots_append _ _ (by simp) hls, ← hb] at ha
      generalize joinDots (m :: ms) = x at ha
      have hlen : a.length = x.length + 1 + b.length := by
        rw [← lower_length a, ha]; simp [lower_length]; omega
      have ea : a = a.take (x.length + 1) ++ a.drop (x.length + 1) := by simp
      have h2 : lower a = lower (a.take (x.length + 1)) ++ lower (a.drop (x.length + 1)) := by
        rw [← lower_append, ← ea]
      have h3 : lower (a.take (x.length + 1)) = x ++ ['.'] ∧ lower (a.drop (x.length + 1)) = lower b := by
        rw [ha] at h2
        have h4 : (x ++ ['.']) ++ lower b = lower (a.take (x.length + 1)) ++ lower (a.drop (x.length + 1)) := by
          rw [← h2]; simp
        have := List.append_inj h4 (by simp [lower_length]; omega)
        exact ⟨this.1.symm, this.2.symm⟩
      refine ⟨a.take (x.length + 1), a.drop (x.length + 1), ea, h3.2, Or.inr ?_⟩
      have hne : a.take (x.length + 1) ≠ [] := by
        intro e; rw [e] at h3; simp [lower] at h3
      refine ⟨(a.take (x.length + 1)).dropLast, ?_⟩
      conv => lhs; rw [← List.dropLast_concat_getLast hne]
      congr 2
      have h5 := h3.1
      have : (lower (a.take (x.length + 1))).getLast? = some '.' := by rw [h5]; simp
      rw [lower, List.getLast?_map, List.getLast?_eq_some_getLast hne] at this
      simpa [toLower_dot] using this

theorem eqOrSubdomainOf_ascii {ix : Idna} {d e a b : Str} (ha : ix.toAscii d = some a)
    (hb : ix.toAscii e = some b) (hasciia : ∀ c ∈ a, c.toNat < 128) (hasciib : ∀ c ∈ b, c.toNat < 128)
    (hne : domainEq d e = false) :
    ∃ r, eqOrSubdomainOf ix d e = some r ∧ (r = true ↔
      ∃ left right, a = left ++ right ∧ lower right = lower b ∧ (left = [] ∨ ∃ r, left = r ++ ['.'])) := by
  unfold eqOrSubdomainOf
  rw [hne, ha, hb]
  simp only [Bool.false_eq_true, if_false]
  rw [byteLen_ascii a hasciia, byteLen_ascii b hasciib]
  split
  · next hge =>
    rw [splitAtByte_ascii _ a hasciia (by omega)]
    simp only
    refine ⟨_, rfl, ?_⟩
    rw [Bool.and_eq_true, eqIgnoreCase_eq, sameName_iff, Bool.or_eq_true, getLast_isDot,
      List.isEmpty_iff]
    constructor
    · rintro ⟨h1, h2⟩
      exact ⟨_, _, (List.take_append_drop _ _).symm, h1, h2⟩
    · rintro ⟨left, right, e1, e2, h2⟩
      have hlen : right.length = b.length := by
        rw [← lower_length right, e2, lower_length]
      have hk : a.length - b.length = left.length := by rw [e1, ← hlen]; simp
      rw [hk, e1]
      simp only [List.take_left, List.drop_left]
      exact ⟨e2, h2⟩
  · next hlt =>
    refine ⟨false, rfl, ?_⟩
    simp only [Bool.false_eq_true, false_iff]
    rintro ⟨left, right, e1, e2, _⟩
    have hlen : right.length = b.length := by
      rw [← lower_length right, e2, lower_length]
    rw [e1] at hlt; simp at hlt; omega

theorem eqOrSubdomainOf_spec {ix : Idna} (law : CaseLaw ix) {d e : Str} {x y : Bool}
    (hd : ValidDomain x ix d) (he : ValidDomain y ix e) :
    ∃ r, eqOrSubdomainOf ix d e = some r ∧ (r = true ↔ UnderDomain ix d e) := by
  obtain ⟨a, ha, _, hda⟩ := hd
  obtain ⟨b, hb, _, hdb⟩ := he
  have hasciia := fun c hc => dnsChar_ascii (hda.chars c hc)
  have hasciib := fun c hc => dnsChar_ascii (hdb.chars c hc)
  have hunder : UnderDomain ix d e ↔
      ∃ left right, a = left ++ right ∧ lower right = lower b ∧ (left = [] ∨ ∃ r, left = r ++ ['.']) := by
    rw [suffix_iff]
    constructor
    · rintro ⟨more, ls, a', b', ha', hb', h⟩
      rw [ha] at ha'; rw [hb] at hb'
      simp only [Option.some.injEq] at ha' hb'
      subst ha'; subst hb'
      exact ⟨more, ls, h⟩
    · rintro ⟨more, ls, h⟩; exact ⟨more, ls, a, b, ha, hb, h⟩
  cases hne : domainEq d e with
  | false =>
    obtain ⟨r, h1, h2⟩ := eqOrSubdomainOf_ascii ha hb hasciia hasciib hne
    exact ⟨r, h1, h2.trans hunder.symm⟩
  | true =>
    refine ⟨true, by simp [eqOrSubdomainOf, hne], ?_⟩
    rw [hunder]
    simp only [true_iff]
    rw [domainEq, eqIgnoreCase_eq, sameName_iff] at hne
    have := law.case_ignored d e hne
    rw [ha, hb] at this
    simp only [Option.some.injEq] at this
    subst this
    exact ⟨[], a, rfl, rfl, Or.inl rfl⟩

/-- No panic, without any law. -/
theorem eqOrSubdomainOf_some {ix : Idna} {d e : Str} {x y : Bool}
    (hd : ValidDomain x ix d) (he : ValidDomain y ix e) : ∃ r, eqOrSubdomainOf ix d e = some r := by
  obtain ⟨a, ha, _, hda⟩ := hd
  obtain ⟨b, hb, _, hdb⟩ := he
  cases hne : domainEq d e with
  | false =>
    obtain ⟨r, h1, _⟩ := eqOrSubdomainOf_ascii ha hb (fun c hc => dnsChar_ascii (hda.chars c hc))
      (fun c hc => dnsChar_ascii (hdb.chars c hc)) hne
    exact ⟨r, h1⟩
  | true => exact ⟨true, by simp [eqOrSubdomainOf, hne]⟩

/-! ### Identities -/

theorem isAtext_iff (c : Char) : isAtext c = true ↔ Atext c := by
  unfold isAtext Atext
  simp only [Bool.or_eq_true, List.contains_eq_mem, decide_eq_true_eq, isAscii, Bool.not_eq_true',
    decide_eq_false_iff_not, Nat.not_lt]
  have : isAsciiAlnum c = true ↔ letter c ∨ digit c := by
    simp [isAsciiAlnum, isAsciiAlpha, isAsciiUpper, isAsciiLower, isAsciiDigit, letter, digit]
  rw [this]
  simp only [or_assoc]

theorem atext_ne_dot {c : Char} (h : Atext c) : c ≠ '.' := by
  rintro rfl
  revert h
  unfold Atext letter digit
  decide

/-- What the dot-string loop accepts. -/
theorem dotStringLoop_iff (s : Str) :
    (dotStringLoop true s = true ↔
      ∃ atoms : List Str, atoms ≠ [] ∧ s = joinDots atoms ∧ ∀ a ∈ atoms, a ≠ [] ∧ ∀ c ∈ a, Atext c) ∧
    (dotStringLoop false s = true ↔
      ∃ (first : Str) (atoms : List Str), s = joinDots (first :: atoms) ∧ (∀ c ∈ first, Atext c) ∧
        ∀ a ∈ atoms, a ≠ [] ∧ ∀ c ∈ a, Atext c) := by
  induction s with
  | nil =>
    constructor
    · simp only [dotStringLoop, Bool.not_true, Bool.false_eq_true, ne_eq, false_iff, not_exists, not_and]
      intro atoms hne e hall
      cases atoms with
      | nil => exact hne rfl
      | cons a as =>
        have ha := (hall a (by simp)).1
        cases as with
        | nil => exact ha e.symm
        | cons b bs => rw [joinDots_cons _ _ (by simp)] at e; simp at e
    · simp only [dotStringLoop, Bool.not_false, true_iff]
      exact ⟨[], [], rfl, by simp, by simp⟩
  | cons c r ih =>
    constructor
    · rw [dotStringLoop]
      split
      · next hc =>
        rw [isAtext_iff] at hc
        rw [ih.2]
        constructor
        · rintro ⟨first, atoms, rfl, h1, h2⟩
          refine ⟨(c :: first) :: atoms, by simp, ?_, ?_⟩
          · cases atoms with
            | nil => rfl
            | cons b bs => rfl
          · intro a ha
            rcases List.mem_cons.1 ha with rfl | ha
            · refine ⟨by simp, fun d hd => ?_⟩
              rcases List.mem_cons.1 hd with rfl | hd
              · exact hc
              · exact h1 d hd
            · exact h2 a ha
        · rintro ⟨atoms, hne, e, h⟩
          cases atoms with
          | nil => exact absurd rfl hne
          | cons a as =>
            obtain ⟨ha1, ha2⟩ := h a (by simp)
            cases a with
            | nil => exact absurd rfl ha1
            | cons d a' =>
              refine ⟨a', as, ?_, fun x hx => ha2 x (by simp [hx]), fun x hx => h x (by simp [hx])⟩
              cases as with
              | nil => exact (List.cons.inj e).2
              | cons b bs =>
                rw [joinDots_cons _ _ (by simp)] at e ⊢
                exact (List.cons.inj e).2
      · next hc =>
        simp only [Bool.false_eq_true, ne_eq, false_iff, not_exists, not_and]
        intro atoms hne e h
        cases atoms with
        | nil => exact absurd rfl hne
        | cons a as =>
          obtain ⟨ha1, ha2⟩ := h a (by simp)
          cases a with
          | nil => exact absurd rfl ha1
          | cons d a' =>
            have : c = d := by
              cases as with
              | nil => exact (List.cons.inj e).1
              | cons b bs => rw [joinDots_cons _ _ (by simp)] at e; exact (List.cons.inj e).1
            subst this
            exact hc ((isAtext_iff c).2 (ha2 c (by simp)))
    · rw [dotStringLoop]
      split
      · next hc =>
        have hc : c = '.' := by simpa using hc
        subst hc
        rw [ih.1]
        constructor
        · rintro ⟨atoms, hne, rfl, h⟩
          refine ⟨[], atoms, ?_, by simp, h⟩
          rw [joinDots_cons _ _ hne]; rfl
        · rintro ⟨first, atoms, e, h1, h2⟩
          cases first with
          | nil =>
            cases atoms with
            | nil => simp [joinDots] at e
            | cons b bs =>
              rw [joinDots_cons _ _ (by simp)] at e
              exact ⟨b :: bs, by simp, (List.cons.inj e).2, h2⟩
          | cons d f =>
            have : '.' = d := by
              cases atoms with
              | nil => exact (List.cons.inj e).1
              | cons b bs => rw [joinDots_cons _ _ (by simp)] at e; exact (List.cons.inj e).1
            exact absurd this.symm (atext_ne_dot (h1 d (by simp)))
      · next hc =>
        have hcd : c ≠ '.' := by simpa using hc
        split
        · next hat =>
          simp only [Bool.false_eq_true, false_iff, not_exists, not_and]
          intro first atoms e h1 h2
          cases first with
          | nil =>
            cases atoms with
            | nil => simp [joinDots] at e
            | cons b bs =>
              rw [joinDots_cons _ _ (by simp)] at e
              exact hcd (List.cons.inj e).1
          | cons d f =>
            have : c = d := by
              cases atoms with
              | nil => exact (List.cons.inj e).1
              | cons b bs => rw [joinDots_cons _ _ (by simp)] at e; exact (List.cons.inj e).1
            subst this
            rw [(isAtext_iff c).2 (h1 c (by simp))] at hat
            simp at hat
        · next hat =>
          have hat : Atext c := by rw [← isAtext_iff]; simpa using hat
          rw [ih.2]
          constructor
          · rintro ⟨first, atoms, rfl, h1, h2⟩
            refine ⟨c :: first, atoms, ?_, ?_, h2⟩
            · cases atoms with
              | nil => rfl
              | cons b bs => rfl
            · intro d hd
              rcases List.mem_cons.1 hd with rfl | hd
              · exact hat
              · exact h1 d hd
          · rintro ⟨first, atoms, e, h1, h2⟩
            cases first with
            | nil =>
              cases atoms with
              | nil => simp [joinDots] at e
              | cons b bs =>
                rw [joinDots_cons _ _ (by simp)] at e
                exact absurd (List.cons.inj e).1 hcd
            | cons d f =>
              refine ⟨f, atoms, ?_, fun x hx => h1 x (by simp [hx]), h2⟩
              cases atoms with
              | nil => exact (List.cons.inj e).2
              | cons b bs =>
                rw [joinDots_cons _ _ (by simp)] at e ⊢
                exact (List.cons.inj e).2

theorem isDotString_iff (s : Str) : isDotString s = true ↔ DotString s := (dotStringLoop_iff s).1

theorem isAsciiGraphic_iff (c : Char) : isAsciiGraphic c = true ↔ 33 ≤ c.toNat ∧ c.toNat ≤ 126 := by
  simp [isAsciiGraphic]

theorem space_or_graphic (c : Char) : (c == ' ' || isAsciiGraphic c) = true ↔
    32 ≤ c.toNat ∧ c.toNat ≤ 126 := by
  rw [Bool.or_eq_true, isAsciiGraphic_iff, beq_iff_eq, char_eq_iff]
  have : (' ').toNat = 32 := rfl
  rw [this]; omega

theorem isQtextSmtp_iff (c : Char) : isQtextSmtp c = true ↔
    (32 ≤ c.toNat ∧ c.toNat ≤ 126 ∧ c ≠ '"' ∧ c ≠ '\\') ∨ 128 ≤ c.toNat := by
  unfold isQtextSmtp
  simp only [Bool.or_eq_true, Bool.and_eq_true, isAsciiGraphic_iff, beq_iff_eq, Bool.not_eq_true',
    Bool.or_eq_false_iff, beq_eq_false_iff_ne, ne_eq, isAscii, decide_eq_false_iff_not, Nat.not_lt,
    char_eq_iff]
  have h1 : (' ').toNat = 32 := rfl
  have h2 : ('"').toNat = 34 := rfl
  have h3 : ('\\').toNat = 92 := rfl
  rw [h1, h2, h3]; omega

theorem quotedStringLoop_iff (s : Str) :
    (quotedStringLoop false s = true ↔ Qcontent s) ∧
    (quotedStringLoop true s = true ↔
      ∃ c r, s = c :: r ∧ 32 ≤ c.toNat ∧ c.toNat ≤ 126 ∧ Qcontent r) := by
  induction s with
  | nil =>
    refine ⟨?_, ?_⟩
    · simp only [quotedStringLoop, Bool.not_false, true_iff]; exact .nil
    · simp [quotedStringLoop]
  | cons c r ih =>
    refine ⟨?_, ?_⟩
    · rw [quotedStringLoop]
      split
      · next hc =>
        have hc : c = '\\' := by simpa using hc
        subst hc
        rw [ih.2]
        constructor
        · rintro ⟨c, r', rfl, h1, h2, h3⟩; exact .pair c r' h1 h2 h3
        · intro h
          cases h with
          | text _ _ h _ =>
            rcases h with h | h
            · exact absurd rfl h.2.2.2
            · exact absurd h (by decide)
          | pair c r' h1 h2 h3 => exact ⟨c, r', rfl, h1, h2, h3⟩
      · next hc =>
        have hc : c ≠ '\\' := by simpa using hc
        split
        · next hq =>
          simp only [Bool.false_eq_true, false_iff]
          intro h
          cases h with
          | text _ _ h _ =>
            rw [(isQtextSmtp_iff c).2 h] at hq
            simp at hq
          | pair _ _ _ _ _ => exact hc rfl
        · next hq =>
          rw [ih.1]
          constructor
          · intro h
            exact .text c r ((isQtextSmtp_iff c).1 (by simpa using hq)) h
          · intro h
            cases h with
            | text _ _ _ h => exact h
            | pair _ _ _ _ _ => exact absurd rfl hc
    · rw [quotedStringLoop]
      split
      · next hc =>
        rw [ih.1]
        have hc := (space_or_graphic c).1 hc
        constructor
        · intro h; exact ⟨c, r, rfl, hc.1, hc.2, h⟩
        · rintro ⟨d, r', e, _, _, h⟩
          obtain ⟨rfl, rfl⟩ := List.cons.inj e
          exact h
      · next hc =>
        simp only [Bool.false_eq_true, false_iff, not_exists, not_and]
        intro d r' e h1 h2
        obtain ⟨rfl, rfl⟩ := List.cons.inj e
        exact absurd ((space_or_graphic c).2 ⟨h1, h2⟩) hc

theorem isQuotedString_iff (s : Str) :
    isQuotedString s = true ↔ ∃ q, Qcontent q ∧ s = '"' :: q ++ ['"'] := by
  unfold isQuotedString
  split
  · next r =>
    split
    · next m e =>
      rw [(quotedStringLoop_iff _).1]
      have e2 : r = m.reverse ++ ['"'] := by rw [← List.reverse_reverse r, e]; simp
      constructor
      · intro h; exact ⟨_, h, by rw [e2]; rfl⟩
      · rintro ⟨q, hq, e3⟩
        have e4 := (List.cons.inj e3).2
        rw [e2] at e4
        have := List.append_inj_left' e4 rfl
        rw [this]; exact hq
    · next hne =>
      simp only [Bool.false_eq_true, false_iff, not_exists, not_and]
      intro q _ e
      have e := (List.cons.inj e).2
      exact hne q.reverse (by rw [e]; simp)
  · next hne =>
    simp only [Bool.false_eq_true, false_iff, not_exists, not_and]
    intro q _ e
    exact hne _ e

theorem dotString_head {s : Str} (h : DotString s) : ∃ c r, s = c :: r ∧ Atext c := by
  obtain ⟨atoms, hne, rfl, hall⟩ := h
  cases atoms with
  | nil => exact absurd rfl hne
  | cons a as =>
    obtain ⟨h1, h2⟩ := hall a (by simp)
    cases a with
    | nil => exact absurd rfl h1
    | cons c r =>
      cases as with
      | nil => exact ⟨c, r, rfl, h2 c (by simp)⟩
      | cons b bs =>
        rw [joinDots_cons _ _ (by simp)]
        exact ⟨c, _, rfl, h2 c (by simp)⟩

theorem isLocalPart_iff (s : Str) : isLocalPart s = true ↔ LocalPart s := by
  unfold isLocalPart LocalPart
  rw [utf8_length]
  split
  · next h =>
    simp only [Bool.false_eq_true, false_iff, not_and]
    intro h2; omega
  · next h =>
    have hle : byteLen s ≤ 64 := by omega
    simp only [hle, true_and]
    split
    · next hq =>
      rw [isQuotedString_iff]
      constructor
      · exact Or.inr
      · rintro (h | h)
        · obtain ⟨c, r, rfl, hc⟩ := dotString_head h
          simp at hq
          subst hq
          exact absurd hc (by unfold Atext letter digit; decide)
        · exact h
    · next hq =>
      rw [isDotString_iff]
      constructor
      · exact Or.inl
      · rintro (h | ⟨q, _, rfl⟩)
        · exact h
        · simp at hq

theorem localPart_ne_nil {s : Str} (h : LocalPart s) : s ≠ [] := by
  rcases h.2 with h | ⟨q, _, rfl⟩
  · obtain ⟨c, r, rfl, _⟩ := dotString_head h; simp
  · simp

theorem rsplitOnce_some {s a b : Str} (h : rsplitOnce '@' s = some (a, b)) :
    s = a ++ '@' :: b ∧ '@' ∉ b := by
  unfold rsplitOnce at h
  split at h
  · simp at h
  · next x y e =>
    simp only [Option.some.injEq, Prod.mk.injEq] at h
    obtain ⟨rfl, rfl⟩ := h
    obtain ⟨h1, h2⟩ := splitOnce_some e
    refine ⟨?_, by simpa using h2⟩
    rw [← List.reverse_reverse s, h1]; simp

theorem rsplitOnce_append (a b : Str) (h : '@' ∉ b) : rsplitOnce '@' (a ++ '@' :: b) = some (a, b) := by
  unfold rsplitOnce
  have : (a ++ '@' :: b).reverse = b.reverse ++ '@' :: a.reverse := by simp
  rw [this, splitOnce_not_mem _ _ _ (by simpa using h)]
  simp

theorem identityNew_iff (ix : Idna) (s : Str) (i : Identity) :
    Identity.new ix s = some i ↔ ValidIdentity ix i ∧ s = identityText i := by
  constructor
  · intro h
    unfold Identity.new at h
    split at h
    · simp at h
    next l d e =>
    obtain ⟨rfl, hd⟩ := rsplitOnce_some e
    split at h
    · next hl =>
      split at h
      · next hv =>
        simp at h; subst h
        refine ⟨⟨by simp, (isValidDomainString_iff _ _ _).1 hv, hd⟩, ?_⟩
        simp [identityText, List.isEmpty_iff.1 hl]
      · simp at h
    · next hl =>
      split at h
      · simp at h
      next hlp =>
      split at h
      · next hv =>
        simp at h; subst h
        refine ⟨⟨?_, (isValidDomainString_iff _ _ _).1 hv, hd⟩, rfl⟩
        intro l' e; simp at e; subst e
        exact (isLocalPart_iff _).1 (by simpa using hlp)
      · simp at h
  · rintro ⟨⟨h1, h2, h3⟩, rfl⟩
    obtain ⟨lp, d⟩ := i
    have hv : isValidDomainName ix d = true := (isValidDomainString_iff _ _ _).2 h2
    unfold Identity.new identityText
    rw [rsplitOnce_append _ _ h3]
    cases lp with
    | none => simp [hv]
    | some l =>
      have hl := h1 l rfl
      simp [hv, localPart_ne_nil hl, (isLocalPart_iff l).2 hl]

end Dkim
