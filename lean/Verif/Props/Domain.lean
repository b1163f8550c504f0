import Verif.Proofs.Domain
import Verif.Proofs.Instances
import Verif.Spec.Signature

/-!
# Properties C25 to C28 and C51: domain names, identities, algorithm names
-/

namespace Dkim

open Spec

/-! ## C25 -/

/-- C25: domain names and selectors are equal exactly if they agree after mapping
`A`-`Z` to `a`-`z`. -/
theorem C25_domain_eq (a b : Str) : domainEq a b = true ↔ a.map Char.toLower = b.map Char.toLower := by
  rw [domainEq, eqIgnoreCase_eq, sameName_iff]; rfl

/-- C25: an equivalence relation. -/
theorem C25_domain_equivalence : Equivalence fun a b => domainEq a b = true := by
  constructor
  · intro a; rw [C25_domain_eq]
  · intro a b h; rw [C25_domain_eq] at *; exact h.symm
  · intro a b c h h'; rw [C25_domain_eq] at *; exact h.trans h'

/-- C25: equal domain names or selectors feed the same data to the hasher, and only
those. -/
theorem C25_domain_hash (a b : Str) : domainEq a b = true ↔ domainHashKey a = domainHashKey b := by
  rw [C25_domain_eq, domainHashKey, domainHashKey, strLower_eq, strLower_eq]; rfl

/-! ## C26 -/

/-- C26: for valid domain names, the test does not panic and tells exactly whether
the labels of the first end with the labels of the second. -/
theorem C26_subdomain_exact (ix : Idna) (law : CaseLaw ix) (d e : Str)
    (hd : ValidDomain true ix d) (he : ValidDomain true ix e) :
    ∃ r, eqOrSubdomainOf ix d e = some r ∧ (r = true ↔ UnderDomain ix d e) :=
  eqOrSubdomainOf_spec law hd he

/-- C26: the test never panics for valid domain names, whatever the conversion
functions do. -/
theorem C26_no_panic (ix : Idna) (d e : Str) (hd : ValidDomain true ix d) (he : ValidDomain true ix e) :
    eqOrSubdomainOf ix d e ≠ none := by
  obtain ⟨r, h⟩ := eqOrSubdomainOf_some hd he
  rw [h]; simp

/-- C26: reflexive. -/
theorem C26_reflexive (ix : Idna) (d : Str) : eqOrSubdomainOf ix d d = some true := by
  have : domainEq d d = true := by rw [C25_domain_eq]
  simp [eqOrSubdomainOf, this]

/-- C26: transitive. -/
theorem C26_transitive (ix : Idna) (law : CaseLaw ix) (d e f : Str) (hd : ValidDomain true ix d)
    (he : ValidDomain true ix e) (hf : ValidDomain true ix f)
    (h1 : eqOrSubdomainOf ix d e = some true) (h2 : eqOrSubdomainOf ix e f = some true) :
    eqOrSubdomainOf ix d f = some true := by
  have to : ∀ {d e}, ValidDomain true ix d → ValidDomain true ix e →
      (eqOrSubdomainOf ix d e = some true ↔ UnderDomain ix d e) := by
    intro d e hd he
    obtain ⟨r, h, hr⟩ := eqOrSubdomainOf_spec law hd he
    rw [h, ← hr]; simp
  rw [to hd he] at h1
  rw [to he hf] at h2
  rw [to hd hf]
  obtain ⟨m1, l1, a, b, ha, hb, hl1, hd1, ea, eb⟩ := h1
  obtain ⟨m2, l2, b', c, hb', hc, hl2, hd2, eb', ec⟩ := h2
  rw [hb] at hb'
  simp only [Option.some.injEq] at hb'
  subst hb'
  have e : l1 = m2 ++ l2 := by
    have h1 := splitOn_joinDots l1 hl1 (fun l hl => hd1 l (by simp [hl]))
    have h2 := splitOn_joinDots (m2 ++ l2) (by simp [hl2]) hd2
    rw [← eb] at h1; rw [← eb'] at h2
    rw [← h1, h2]
  refine ⟨m1 ++ m2, l2, a, c, ha, hc, hl2, ?_, ?_, ec⟩
  · rw [List.append_assoc, ← e]; exact hd1
  · rw [List.append_assoc, ← e]; exact ea

/-- C26: in particular a domain that only ends with the characters of another is
not below it (concrete instance). -/
example : eqOrSubdomainOf asciiIdna c!"notexample.com" c!"example.com" = some false ∧
    eqOrSubdomainOf asciiIdna c!"Mail.example.COM" c!"eXample.com" = some true := by decide

theorem dnsName_example : ValidDomain true asciiIdna c!"Mail.example.COM" := by
  rw [← isValidDomainString_iff]; decide

/-- Non-vacuity of the hypotheses of C26. -/
example : CaseLaw asciiIdna ∧ ValidDomain true asciiIdna c!"Mail.example.COM" :=
  ⟨asciiIdna_caseLaw, dnsName_example⟩

/-! ## C27 -/

/-- C27: domain names. -/
theorem C27_domain_exact (ix : Idna) (s : Str) :
    isValidDomainName ix s = true ↔
      ∃ a, ix.toAscii s = some a ∧ (ix.toUnicode s).2 = true ∧ DnsName true a :=
  isValidDomainString_iff ix s true

/-- C27: selectors; the last label may be all digits. -/
theorem C27_selector_exact (ix : Idna) (s : Str) :
    isValidSelector ix s = true ↔
      ∃ a, ix.toAscii s = some a ∧ (ix.toUnicode s).2 = true ∧ DnsName false a :=
  isValidDomainString_iff ix s false

/-- C27: every domain name is valid as a selector. -/
theorem C27_domain_is_selector (ix : Idna) (s : Str) (h : isValidDomainName ix s = true) :
    isValidSelector ix s = true := by
  rw [C27_domain_exact] at h
  rw [C27_selector_exact]
  obtain ⟨a, h1, h2, h3, h4, ls, last, h5, h6, h7, _⟩ := h
  exact ⟨a, h1, h2, h3, h4, ls, last, h5, h6, h7, by simp⟩

example : isValidDomainName asciiIdna c!"a_b.example.1com" = true ∧
    isValidDomainName asciiIdna c!"example.123" = false ∧ isValidSelector asciiIdna c!"2023" = true ∧
    isValidSelector asciiIdna c!"a..b" = false ∧ isValidSelector asciiIdna c!"-a" = false := by decide

/-! ## C28 -/

/-- C28: a string is accepted, with a given identity as result, exactly if it is an
optional local part, an at sign and a valid domain (without another at sign), and
the identity consists of these parts. -/
theorem C28_identity_exact (ix : Idna) (s : Str) (i : Identity) :
    Identity.new ix s = some i ↔ ValidIdentity ix i ∧ s = identityText i := identityNew_iff ix s i

/-- C28: printing an accepted identity gives back the text. -/
theorem C28_print_parsed (ix : Idna) (s : Str) (i : Identity) (h : Identity.new ix s = some i) :
    i.display = s := by
  rw [identityNew_iff] at h
  rw [h.2]
  obtain ⟨l, d⟩ := i
  cases l <;> rfl

/-- C28: parsing a printed identity gives back the identity. -/
theorem C28_parse_printed (ix : Idna) (i : Identity) (h : ValidIdentity ix i) :
    Identity.new ix i.display = some i := by
  rw [identityNew_iff]
  refine ⟨h, ?_⟩
  obtain ⟨l, d⟩ := i
  cases l <;> rfl

/-- C28: the text of an identity determines the identity. -/
theorem C28_text_determines (ix : Idna) (i j : Identity) (hi : ValidIdentity ix i)
    (hj : ValidIdentity ix j) (h : i.display = j.display) : i = j := by
  have h1 := C28_parse_printed ix i hi
  rw [h, C28_parse_printed ix j hj] at h1
  exact (Option.some.inj h1).symm

/-- Non-vacuity: quoted local part with an at sign and a semicolon. -/
example : Identity.new asciiIdna c!"\"a@ ;\\\"b\"@Example.com" =
    some ⟨some c!"\"a@ ;\\\"b\"", c!"Example.com"⟩ ∧
    Identity.new asciiIdna c!"a..b@example.com" = none ∧
    Identity.new asciiIdna c!"@example.com" = some ⟨none, c!"example.com"⟩ := by decide

/-! ## C51 -/

/-- C51: the canonical name of a signing algorithm parses as it (SHA-1 only with the
feature). -/
theorem C51_signing_algorithm_round_trip (pre : Bool) (a : SigAlg) (h : a = .rsaSha1 → pre = true) :
    SigAlg.parse pre a.canonicalStr = some a := by
  cases a with
  | rsaSha256 => rfl
  | ed25519Sha256 => rfl
  | rsaSha1 => rw [h rfl]; rfl

/-- C51: names are accepted exactly up to letter case. -/
theorem C51_signing_algorithm_exact (pre : Bool) (s : Str) (a : SigAlg) :
    SigAlg.parse pre s = some a ↔
      (lower s = c!"rsa-sha256" ∧ a = .rsaSha256) ∨
      (lower s = c!"ed25519-sha256" ∧ a = .ed25519Sha256) ∨
      (pre = true ∧ lower s = c!"rsa-sha1" ∧ a = .rsaSha1) := by
  unfold SigAlg.parse
  have e : ∀ t, eqIgnoreCase s t = true ↔ lower s = lower t := by
    intro t; rw [eqIgnoreCase_eq, sameName_iff]
  have l1 : lower c!"rsa-sha256" = c!"rsa-sha256" := by decide
  have l2 : lower c!"ed25519-sha256" = c!"ed25519-sha256" := by decide
  have l3 : lower c!"rsa-sha1" = c!"rsa-sha1" := by decide
  simp only [Bool.and_eq_true, e, l1, l2, l3]
  split
  · next h => rw [h]; cases a <;> simp
  · next h1 =>
    split
    · next h => rw [h]; cases a <;> simp
    · next h2 =>
      split
      · next h => rw [h.2, h.1]; cases a <;> simp
      · next h3 =>
        simp only [reduceCtorEq, false_iff, not_or, not_and]
        exact ⟨fun h => absurd h h1, fun h => absurd h h2, fun h h' => absurd ⟨h, h'⟩ h3⟩

/-- C51: a signing algorithm is determined by its parts, and has those parts. -/
theorem C51_signing_algorithm_parts (pre : Bool) (k : KeyType) (h : HashAlg) (a : SigAlg) :
    SigAlg.fromParts pre k h = some a ↔
      a.keyType = k ∧ a.hashAlg = h ∧ (a = .rsaSha1 → pre = true) := by
  cases k <;> cases h <;> cases a <;> cases pre <;> decide

/-- C51: canonicalization algorithm names. -/
theorem C51_canon_algorithm_exact (s : Str) (a : CanonAlg) :
    CanonAlg.parse s = some a ↔
      (lower s = c!"simple" ∧ a = .simple) ∨ (lower s = c!"relaxed" ∧ a = .relaxed) := by
  unfold CanonAlg.parse
  have e : ∀ t, eqIgnoreCase s t = true ↔ lower s = lower t := by
    intro t; rw [eqIgnoreCase_eq, sameName_iff]
  have l1 : lower c!"simple" = c!"simple" := by decide
  have l2 : lower c!"relaxed" = c!"relaxed" := by decide
  simp only [e, l1, l2]
  split
  · next h => rw [h]; cases a <;> simp
  · next h1 =>
    split
    · next h => rw [h]; cases a <;> simp
    · next h2 =>
      simp only [reduceCtorEq, false_iff, not_or, not_and]
      exact ⟨fun h => absurd h h1, fun h => absurd h h2⟩

/-- C51: canonicalization algorithm names round-trip. -/
theorem C51_canon_algorithm_round_trip (a : CanonAlg) : CanonAlg.parse a.canonicalStr = some a := by
  cases a <;> rfl

/-- C51: the text of a pair round-trips. -/
theorem C51_canonicalization_round_trip (c : Canonicalization) :
    Canonicalization.parse c.canonicalStr = some c := by
  obtain ⟨h, b⟩ := c
  cases h <;> cases b <;> rfl

theorem lower_slash {s : Str} (h : '/' ∈ s) : '/' ∈ lower s := by
  rw [lower, List.mem_map]; exact ⟨'/', h, by decide⟩

theorem splitOnce_none {α : Type} [DecidableEq α] {sep : α} {s : List α} :
    splitOnce sep s = none ↔ sep ∉ s := by
  induction s with
  | nil => simp [splitOnce]
  | cons c r ih =>
    rw [splitOnce]
    split
    · next hc => simp [hc]
    · next hc =>
      have : splitOnce sep r = none ↔ sep ∉ c :: r := by
        rw [ih, List.mem_cons, not_or]
        exact ⟨fun h => ⟨fun e => hc e.symm, h⟩, fun h => h.2⟩
      rw [← this]
      cases splitOnce sep r <;> simp

/-- C51: a pair is two names with a slash, or one name, which means that header
algorithm and simple body; nothing else is accepted. -/
theorem C51_canonicalization_exact (s : Str) (c : Canonicalization) :
    Canonicalization.parse s = some c ↔
      lower s = canonName c.header ++ '/' :: canonName c.body ∨
      (lower s = canonName c.header ∧ c.body = .simple) := by
  have key : ∀ s a, CanonAlg.parse s = some a ↔ lower s = canonName a := by
    intro s a
    rw [C51_canon_algorithm_exact]
    cases a <;> simp [canonName]
  have noSlash : ∀ a, '/' ∉ canonName a := by intro a; cases a <;> decide
  obtain ⟨h, b⟩ := c
  unfold Canonicalization.parse
  cases hs : splitOnce '/' s with
  | none =>
    simp only
    have hn := splitOnce_none.1 hs
    have hn2 : ∀ a b, lower s ≠ canonName a ++ '/' :: canonName b := by
      intro a b e
      have : '/' ∈ lower s := by rw [e]; simp
      rw [lower, List.mem_map] at this
      obtain ⟨d, hd, e2⟩ := this
      have h2 := toLower_toNat d
      rw [e2] at h2
      have h3 : d = '/' := by
        apply char_ext_toNat
        have : ('/').toNat = 47 := rfl
        rw [this] at h2 ⊢
        split at h2 <;> omega
      exact hn (h3 ▸ hd)
    cases hp : CanonAlg.parse s with
    | none =>
      simp only [reduceCtorEq, false_iff, not_or, not_and]
      refine ⟨hn2 h b, fun e => ?_⟩
      rw [← key, hp] at e; simp at e
    | some a =>
      have ha := (key s a).1 hp
      simp only [Option.some.injEq, Canonicalization.mk.injEq]
      constructor
      · rintro ⟨rfl, rfl⟩; exact Or.inr ⟨ha, rfl⟩
      · rintro (e | ⟨e, rfl⟩)
        · exact absurd e (hn2 h b)
        · have := (key s h).2 e
          rw [hp] at this
          exact ⟨Option.some.inj this, rfl⟩
  | some p =>
    obtain ⟨x, y⟩ := p
    obtain ⟨rfl, hx⟩ := splitOnce_some hs
    have hl : lower (x ++ '/' :: y) = lower x ++ '/' :: lower y := by simp [lower]
    have hlx : '/' ∉ lower x := by
      intro hm
      rw [lower, List.mem_map] at hm
      obtain ⟨d, hd, e2⟩ := hm
      have h2 := toLower_toNat d
      rw [e2] at h2
      have h3 : d = '/' := by
        apply char_ext_toNat
        have : ('/').toNat = 47 := rfl
        rw [this] at h2 ⊢
        split at h2 <;> omega
      exact hx (h3 ▸ hd)
    have hone : ∀ a, lower (x ++ '/' :: y) ≠ canonName a := by
      intro a e
      have : '/' ∈ canonName a := by rw [← e, hl]; simp
      exact noSlash a this
    have htwo : lower (x ++ '/' :: y) = canonName h ++ '/' :: canonName b ↔
        lower x = canonName h ∧ lower y = canonName b := by
      rw [hl]
      constructor
      · intro e
        have h1 := splitOnce_not_mem '/' (lower x) (lower y) hlx
        rw [e, splitOnce_not_mem _ _ _ (noSlash h)] at h1
        simp only [Option.some.injEq, Prod.mk.injEq] at h1
        exact ⟨h1.1.symm, h1.2.symm⟩
      · rintro ⟨e1, e2⟩; rw [e1, e2]
    simp only [htwo, hone, false_and, or_false, ← key]
    cases CanonAlg.parse x <;> cases CanonAlg.parse y <;> simp

example : Canonicalization.parse c!"Relaxed" = some ⟨.relaxed, .simple⟩ ∧
    Canonicalization.parse c!"simple/RELAXED" = some ⟨.simple, .relaxed⟩ ∧
    Canonicalization.parse c!"simple/" = none := by decide

end Dkim
