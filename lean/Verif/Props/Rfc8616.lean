import Verif.Proofs.Rfc8616
import Verif.Props.RfcWritten

/-!
# Property C105: signatures in internationalized messages

`Spec.Rfc8616.Signature` is the grammar of RFC 6376, section 3.5, as changed by RFC 8616.
-/

namespace Dkim

open Spec

/-- C105: every text that is a signature by the grammar, and is within the limits, is read, and with
the content that the RFCs give it. `SingleFws` is the exception of C22. -/
theorem C105_reads_rfc (ix : Idna) (law : CaseLaw ix) (pre : Bool) (txt : Str) (tags : List (Str × Str))
    (s : DkimSignature) (ht : RfcListText tags txt) (hn : (tags.map (·.1)).Nodup) (hw : SingleFws txt)
    (h : Rfc8616.Signature ix pre tags s) (l : Rfc8616.Limits ix s) : sigFromStr ix pre txt = .ok s := by
  have ht' := rfcListText_single ht hw
  exact (C30_parse_exact ix law pre txt s).2 ⟨tags, ht', hn, intlSignature (fun t h => listText_values ht' t h) h l⟩

/-- C105: conversely, a text that the library reads is in the grammar, with the meaning that the
library gives it, exactly if its domain names are those of the RFCs, the encoded texts in `i=` and
`z=` and the methods in `q=` are written according to the RFCs, and the numbers are without a plus
sign and not too long. -/
theorem C105_read_exactly (ix : Idna) (law : CaseLaw ix) (pre : Bool) (txt : Str) (s : DkimSignature)
    (h : sigFromStr ix pre txt = .ok s) (tags : List (Str × Str)) (ht : ListText tags txt) :
    Rfc8616.Signature ix pre tags s ↔ Rfc8616.Strict ix tags s := by
  obtain ⟨tags', h1, h2, h3⟩ := (C30_parse_exact ix law pre txt s).1 h
  have e := listText_unique h1 ht
  subst e
  exact intlSignature_iff (fun n v _ hm => listText_values ht _ hm) h2 h3

theorem labels_nameChar {ls : List Str} (h : ∀ l ∈ ls, Rfc.SubDomain l) : ∀ c ∈ joinDots ls, Rfc8616.NameChar c := by
  intro c hc
  rcases joinDots_chars ls _ hc with h' | ⟨l, hl, hm⟩
  · exact .inr (.inr (.inl h'))
  · rcases subDomain_chars (h l hl) _ hm with h' | h' | h'
    · exact .inl (.inl h')
    · exact .inl (.inr h')
    · exact .inr (.inl h')

theorem subDomain_lower {l : Str} (h : Rfc.SubDomain l) : Rfc.SubDomain (lower l) := by
  have ld : ∀ c, Rfc.LetDig c → Rfc.LetDig c.toLower := by
    intro c h
    unfold Rfc.LetDig
    rw [lower_letter, lower_digit]
    exact h
  cases h with
  | one c hc => exact .one _ (ld c hc)
  | more c m d hc hm hd =>
    have : lower (c :: (m ++ [d])) = c.toLower :: (lower m ++ [d.toLower]) := by simp [lower]
    rw [this]
    refine .more _ _ _ (ld c hc) ?_ (ld d hd)
    intro x hx
    obtain ⟨y, hy, rfl⟩ := List.mem_map.1 hx
    rcases hm y hy with h | rfl
    · exact .inl (ld y h)
    · exact .inr (by decide)

theorem intlDomain_of {ix : Idna} {d : Str} (h : Rfc.DomainName d) (ha : Rfc.AsciiForm ix d) :
    Rfc8616.DomainName ix d := by
  obtain ⟨ls, h1, h2, rfl⟩ := h
  refine ⟨_, ⟨labels_nameChar h2, ha.1, ha.2⟩, ls.map lower, by simpa using h1, ?_, lower_joinDots ls⟩
  intro l hl
  obtain ⟨m, hm, rfl⟩ := List.mem_map.1 hl
  exact subDomain_lower (h2 m hm)

theorem intlSelector_of {ix : Idna} {d : Str} (h : Rfc.Selector d) (ha : Rfc.AsciiForm ix d) :
    Rfc8616.Selector ix d := by
  obtain ⟨ls, h1, h2, rfl⟩ := h
  refine ⟨_, ⟨labels_nameChar h2, ha.1, ha.2⟩, ls.map lower, by simpa using h1, ?_, lower_joinDots ls⟩
  intro l hl
  obtain ⟨m, hm, rfl⟩ := List.mem_map.1 hl
  exact subDomain_lower (h2 m hm)

/-- C105: RFC 8616 only adds signatures to those of RFC 6376, and leaves the meaning of those as it
is. -/
theorem C105_extends (ix : Idna) (pre : Bool) (tags : List (Str × Str)) (s : DkimSignature)
    (h : Rfc.Signature pre tags s) (hd : Rfc.AsciiForm ix s.domain) (hsel : Rfc.AsciiForm ix s.selector)
    (hi : ∀ i, s.identity = some i → Rfc.AsciiForm ix i.domain) : Rfc8616.Signature ix pre tags s :=
  { h with
    domain := required_imp h.domain fun v _ h1 => ⟨h1.1, intlDomain_of h1.2 (h1.1 ▸ hd)⟩
    selector := required_imp h.selector fun v _ h1 => ⟨h1.1, intlSelector_of h1.2 (h1.1 ▸ hsel)⟩
    identity := optional_imp h.identity fun v i hi' _ h1 => ⟨h1.1, intlDomain_of h1.2.1 (hi i hi'), intlQp_of h1.2.2⟩
    identityUnderDomain := fun i hi' => intlUnder.2 (rfcUnder (h.identityUnderDomain i hi') (hi i hi').1 hd.1)
    queryMethods := fun v hv => by
      obtain ⟨ms, h1, h2⟩ := h.queryMethods v hv
      exact ⟨ms, intlQuery_of h1, h2⟩
    copiedHeaders := defaulting_imp h.copiedHeaders fun v _ h1 => intlCopied_of h1 }

/-! ### Produced signatures -/

variable {E : Env}

theorem intlQp_written {lit : Char → Prop} (hl : ∀ c, lit c → dkimSafe c) {bs : Bytes} {t : Str}
    (h : QpWritten lit bs t) : ∀ {s : Str} {cs : Bytes}, Rfc8616.QuotedPrintable s cs →
      Rfc8616.QuotedPrintable (t ++ s) (bs ++ cs) := by
  induction h with
  | nil => exact fun h => h
  | char c bs t hc _ ih =>
    intro s cs hs
    rw [List.append_assoc]
    rcases hl c hc with h | h
    · rw [utf8_ascii [c] (by intro d hd; simp at hd; subst hd; omega)]
      exact .safe c _ _ h.1 h.2.1 h.2.2.1 h.2.2.2 (ih hs)
    · exact .other c _ _ h (ih hs)
  | hex b bs t _ _ ih =>
    intro s cs hs
    have hb := b.toNat_lt
    have := Rfc8616.QuotedPrintable.octet _ _ _ _ _ _ (hexChar_val (n := b.toNat / 16) (by omega))
      (hexChar_val (n := b.toNat % 16) (by omega)) (ih hs)
    rw [show b.toNat / 16 * 16 + b.toNat % 16 = b.toNat by omega] at this
    simpa using this

theorem intlQp_plain {s : Str} (h : ∀ c ∈ s, dkimSafe c) : ∃ bytes, Rfc8616.QuotedPrintable s bytes := by
  induction s with
  | nil => exact ⟨_, .nil⟩
  | cons c s ih =>
    obtain ⟨bs, hs⟩ := ih fun d hd => h d (by simp [hd])
    rcases h c (by simp) with h | h
    · exact ⟨_, .safe c s bs h.1 h.2.1 h.2.2.1 h.2.2.2 hs⟩
    · exact ⟨_, .other c s bs h hs⟩

/-- C105: the header value that is produced, whatever the format, is in the grammar of the RFCs with
the signature `s` that the library reads from it as its meaning exactly if this is so of `z=`, if the
domain names in it are those of the RFCs, the times have at most twelve digits, and an extension tag
`q` is according to the RFCs. -/
theorem C105_produced_exactly (law : IdnaLaw E.idna) (hs : SortLaw E.sortBy) (hset : SetLaw E.keySet)
    (headers : List Field) (requests : List (SignRequest E)) (hh : TypedHeaders headers)
    (ht : ∀ r ∈ requests, TypedRequest r) (chunks : List Bytes) (clock : Nat → Nat)
    (out : List (Except SigningError SigningOutput)) (h : Signed headers requests chunks clock out)
    (hlen : ∀ k, (codeBody k chunks.flatten).length < 2 ^ 64) (i : Nat) (r : SignRequest E)
    (hr : requests[i]? = some r) (o : SigningOutput) (ho : out[i]? = some (.ok o))
    (s : DkimSignature) (hp : sigFromStr E.idna E.pre o.headerValue = .ok s)
    (hd : Rfc8616.DomainName E.idna s.domain) (hsel : Rfc8616.Selector E.idna s.selector)
    (hi : ∀ j, s.identity = some j → Rfc8616.DomainName E.idna j.domain)
    (hq : ∀ v, (c!"q", v) ∈ r.extTags → ∃ ms, Rfc8616.QueryMethods ms v ∧ ∃ m ∈ ms, lower m = c!"dns/txt")
    (htime : ∀ t, o.signature.timestamp = some t ∨ o.signature.expiration = some t → t < 10 ^ 12)
    (tags : List (Str × Str)) (hl : ListText tags o.headerValue) :
    Rfc8616.Signature E.idna E.pre tags s ↔ ∀ v, (c!"z", v) ∈ tags → Rfc8616.CopiedFields v s.copiedHeaders := by
  rw [C105_read_exactly E.idna law.toCaseLaw E.pre _ s hp tags hl]
  refine ⟨fun h => h.copiedHeaders, fun hz => ?_⟩
  obtain ⟨tags1, h1, h2, h3⟩ := C92_values law hs hset headers requests hh ht chunks clock out h hlen i r hr o ho
  obtain rfl := (h1 tags).1 hl
  obtain ⟨⟨_, _, _, _, k5, k6⟩, _⟩ :=
    C36_fields law hs hset headers requests hh ht chunks clock out h hlen i r hr o ho
  obtain ⟨tags1, h4, h5, h6⟩ := (C30_parse_exact E.idna law.toCaseLaw E.pre _ s).1 hp
  have e := listText_unique h4 hl
  subst e
  have htr := ht r (List.mem_of_getElem? hr)
  have number : ∀ n v, (n, v) ∈ tags1 → n ∈ [c!"l", c!"t", c!"x"] → ∃ x, v = (toString x).toList ∧
      (n = c!"l" → o.signature.bodyLength = some x) ∧ (n = c!"t" → o.signature.timestamp = some x) ∧
      (n = c!"x" → o.signature.expiration = some x) := fun n v hm hn => writtenTag_number (h3 _ hm) hn
  have query : ∀ v, (c!"q", v) ∈ tags1 → (c!"q", v) ∈ r.extTags := by
    intro v hm
    have := h3 _ hm
    rw [← k6]
    simp only at this
    generalize e : c!"q" = n at this
    cases this <;> first
      | exact absurd e (by decide)
      | (subst e; assumption)
  refine ⟨hd, hsel, ?_, ?_, ?_, ?_, fun v hm => hq v (query v hm), hz⟩
  · intro j hj
    refine ⟨hi j hj, fun v hm => ?_⟩
    obtain ⟨id, l, g1, g2, rfl⟩ := writtenTag_i (h3 _ hm)
    obtain ⟨p, _, rfl, _, g3⟩ := domainForm_fine law (htr.identity id (by rw [← k5, g1])) r.format.asciiOnly
    obtain ⟨bs, g4⟩ := intlQp_plain fun c hc => (domainChar_valChar (g3 c hc)).2.1
    exact ⟨_, intlQp_written (fun c hc => hc.1) g2
      (.safe '@' _ _ (by decide) (by decide) (by decide) (by decide) g4)⟩
  · intro v hm
    obtain ⟨x, rfl, g1, _⟩ := number _ _ hm (by simp)
    refine ⟨?_, toString_digits x⟩
    have g2 := h6.bodyLength
    cases hb : s.bodyLength with
    | none => rw [hb] at g2; exact absurd hm (g2 _)
    | some y =>
      rw [hb] at g2
      obtain ⟨w, hw, g3⟩ := g2
      cases nodup_fst h5 hm hw
      rw [← natToStr_toString, natToStr_plusDecimal] at g3
      exact toString_length (by decide) (by
        have : (2 : Nat) ^ 64 < 10 ^ 76 := by decide
        omega)
  · intro v hm
    obtain ⟨x, rfl, _, g1, _⟩ := number _ _ hm (by simp)
    exact ⟨toString_length (by decide) (htime x (.inl (g1 rfl))), toString_digits x⟩
  · intro v hm
    obtain ⟨x, rfl, _, _, g1⟩ := number _ _ hm (by simp)
    exact ⟨toString_length (by decide) (htime x (.inr (g1 rfl))), toString_digits x⟩

/-- C105: in particular, it is in the grammar if there are no copied header fields. -/
theorem C105_produced_plain (law : IdnaLaw E.idna) (hs : SortLaw E.sortBy) (hset : SetLaw E.keySet)
    (headers : List Field) (requests : List (SignRequest E)) (hh : TypedHeaders headers)
    (ht : ∀ r ∈ requests, TypedRequest r) (chunks : List Bytes) (clock : Nat → Nat)
    (out : List (Except SigningError SigningOutput)) (h : Signed headers requests chunks clock out)
    (hlen : ∀ k, (codeBody k chunks.flatten).length < 2 ^ 64) (i : Nat) (r : SignRequest E)
    (hr : requests[i]? = some r) (hc : r.copyHeaders = false) (o : SigningOutput) (ho : out[i]? = some (.ok o))
    (s : DkimSignature) (hp : sigFromStr E.idna E.pre o.headerValue = .ok s)
    (hd : Rfc8616.DomainName E.idna s.domain) (hsel : Rfc8616.Selector E.idna s.selector)
    (hi : ∀ j, s.identity = some j → Rfc8616.DomainName E.idna j.domain)
    (hq : ∀ v, (c!"q", v) ∈ r.extTags → ∃ ms, Rfc8616.QueryMethods ms v ∧ ∃ m ∈ ms, lower m = c!"dns/txt")
    (htime : ∀ t, o.signature.timestamp = some t ∨ o.signature.expiration = some t → t < 10 ^ 12)
    (tags : List (Str × Str)) (hl : ListText tags o.headerValue) : Rfc8616.Signature E.idna E.pre tags s := by
  refine (C105_produced_exactly law hs hset headers requests hh ht chunks clock out h hlen i r hr o ho s hp hd hsel hi hq
    htime tags hl).2 fun v hm => ?_
  obtain ⟨tags1, h1, h2, h3⟩ := C92_values law hs hset headers requests hh ht chunks clock out h hlen i r hr o ho
  obtain rfl := (h1 tags).1 hl
  obtain ⟨_, _, _, _, _, _, _, _, k7, _⟩ :=
    C36_fields law hs hset headers requests hh ht chunks clock out h hlen i r hr o ho
  have h4 := writtenTag_z (h3 _ hm)
  rw [k7 hc] at h4
  cases h4

/-! ### Examples -/

/-- IDNA conversion that knows one U-label: "bücher" is "xn--bcher-kva". -/
def bookIdna : Idna where
  toAscii s := if lower s = c!"bücher.example" then some c!"xn--bcher-kva.example" else asciiIdna.toAscii s
  toUnicode s := if lower s = c!"xn--bcher-kva.example" then (c!"bücher.example", true) else asciiIdna.toUnicode s

theorem bookIdna_law : IdnaLaw bookIdna where
  case_ignored s t h := by
    simp only [bookIdna, h, asciiIdna_caseLaw.case_ignored s t h]
  empty := rfl
  unicode_chars b d h := by
    obtain ⟨a, h1, h2, h3⟩ := h
    simp only [bookIdna] at h1 ⊢
    split
    · refine ⟨by simp, ?_⟩
      unfold domainChar letter digit
      decide
    · split at h1
      · next _ e =>
        simp only [asciiIdna, e]
        refine ⟨by simp, ?_⟩
        unfold domainChar letter digit
        decide
      · exact asciiIdna_idnaLaw.unicode_chars b d ⟨a, h1, rfl, h3⟩

theorem book_domain : Rfc8616.DomainName bookIdna c!"Bücher.example" := by
  refine ⟨c!"xn--bcher-kva.example", ⟨?_, rfl, rfl⟩, [c!"xn--bcher-kva", c!"example"], by simp, ?_, rfl⟩
  · unfold Rfc8616.NameChar Rfc.LetDig letter digit
    decide
  · intro l hl
    simp at hl
    rcases hl with rfl | rfl
    · refine .more 'x' c!"n--bcher-kv" 'a' ?_ ?_ ?_ <;> unfold Rfc.LetDig letter digit <;> decide
    · refine .more 'e' c!"xampl" 'e' ?_ ?_ ?_ <;> unfold Rfc.LetDig letter digit <;> decide

theorem book_selector : Rfc8616.Selector bookIdna c!"sel" := by
  refine ⟨c!"sel", ⟨?_, rfl, rfl⟩, [c!"sel"], by simp, ?_, rfl⟩
  · unfold Rfc8616.NameChar Rfc.LetDig letter digit
    decide
  · intro l hl
    simp at hl
    subst hl
    refine .more 's' c!"e" 'l' ?_ ?_ ?_ <;> unfold Rfc.LetDig letter digit <;> decide

/-- A signature with a U-label, and other characters outside of ASCII. -/
def bookSig : Str :=
  c!"v=1; a=ed25519-sha256; d=Bücher.example; s=sel; i=jü=2Dn@xn--bcher-kva.example; h=from:x; z=x:=20ü|y:; bh=AAAA; b=BBBB"

def bookTags : List (Str × Str) :=
  [(c!"v", c!"1"), (c!"a", c!"ed25519-sha256"), (c!"d", c!"Bücher.example"), (c!"s", c!"sel"),
    (c!"i", c!"jü=2Dn@xn--bcher-kva.example"), (c!"h", c!"from:x"), (c!"z", c!"x:=20ü|y:"), (c!"bh", c!"AAAA"),
    (c!"b", c!"BBBB")]

/-- What it stands for. -/
def bookMeaning : DkimSignature where
  algorithm := .ed25519Sha256
  signatureData := [4, 16, 65]
  bodyHash := [0, 0, 0]
  canonicalization := ⟨.simple, .simple⟩
  domain := c!"Bücher.example"
  signedHeaders := [c!"from", c!"x"]
  identity := some ⟨some c!"jü-n", c!"xn--bcher-kva.example"⟩
  bodyLength := none
  selector := c!"sel"
  timestamp := none
  expiration := none
  copiedHeaders := [(c!"x", (utf8 c!" ü")), (c!"y", [])]
  extTags := []

theorem book_qp : Rfc8616.QuotedPrintable c!"jü=2Dn@xn--bcher-kva.example" (utf8 c!"jü-n@xn--bcher-kva.example") := by
  have safe : ∀ {c : Char} {s : Str} {bs : Bytes}, 33 ≤ c.toNat ∧ c.toNat ≤ 126 ∧ c ≠ ';' ∧ c ≠ '=' →
    Rfc8616.QuotedPrintable s bs → Rfc8616.QuotedPrintable (c :: s) (UInt8.ofNat c.toNat :: bs) :=
    fun h => .safe _ _ _ h.1 h.2.1 h.2.2.1 h.2.2.2
  refine safe (c := 'j') (by decide) (.other 'ü' _ _ (by decide) ?_)
  refine .octet '2' 'D' 2 13 _ _ (by unfold HexVal; decide) (by unfold HexVal; decide) ?_
  repeat first | exact .nil | refine safe (by decide) ?_

theorem book_copies : Rfc8616.CopiedFields c!"x:=20ü|y:" [(c!"x", (utf8 c!" ü")), (c!"y", [])] := by
  refine .more c!"x" (utf8 c!" ü") c!"x:=20ü" [] c!"y:" _ ?_ (.inl rfl) (.one _ _ _ ?_)
  · exact .mk c!"x" [] c!"=20ü" _ ⟨by simp, by decide⟩ (.inl rfl) (.octet '2' '0' 2 0 _ _ (by unfold HexVal; decide)
      (by unfold HexVal; decide) (.other 'ü' _ _ (by decide) .nil)) (by decide)
  · exact .mk c!"y" [] [] _ ⟨by simp, by decide⟩ (.inl rfl) .nil (by simp)

theorem book_domain' : Rfc8616.DomainName bookIdna c!"xn--bcher-kva.example" := by
  obtain ⟨a, ⟨_, h1, _⟩, h2⟩ := book_domain
  cases h1
  refine ⟨c!"xn--bcher-kva.example", ⟨?_, rfl, rfl⟩, h2⟩
  unfold Rfc8616.NameChar Rfc.LetDig letter digit
  decide

/-- It is in the grammar. -/
theorem book_signature : Rfc8616.Signature bookIdna false bookTags bookMeaning where
  version := by simp [bookTags]
  algorithm := ⟨c!"ed25519-sha256", by simp [bookTags], .ed25519Sha256 _ (by decide)⟩
  signatureData := ⟨c!"BBBB", by simp [bookTags], ⟨'B', c!"BBB", by simp [Rfc.AlphaDigitPs, letter],
    .char [] 'B' _ (.inl rfl) (by simp [Rfc.AlphaDigitPs, letter])
      (.char [] 'B' _ (.inl rfl) (by simp [Rfc.AlphaDigitPs, letter])
        (.char [] 'B' _ (.inl rfl) (by simp [Rfc.AlphaDigitPs, letter]) .nil)), rfl⟩, by rfl⟩
  bodyHash := ⟨c!"AAAA", by simp [bookTags], ⟨'A', c!"AAA", by simp [Rfc.AlphaDigitPs, letter],
    .char [] 'A' _ (.inl rfl) (by simp [Rfc.AlphaDigitPs, letter])
      (.char [] 'A' _ (.inl rfl) (by simp [Rfc.AlphaDigitPs, letter])
        (.char [] 'A' _ (.inl rfl) (by simp [Rfc.AlphaDigitPs, letter]) .nil)), rfl⟩, by rfl⟩
  canonicalization := .inr ⟨by simp [bookTags], rfl⟩
  domain := ⟨c!"Bücher.example", by simp [bookTags], rfl, book_domain⟩
  signedHeaders := ⟨c!"from:x", by simp [bookTags],
    .more c!"from" [] [] _ c!"x" ⟨by simp, by decide⟩ (.inl rfl) (.inl rfl) (.one c!"x" ⟨by simp, by decide⟩)⟩
  fromSigned := ⟨c!"from", by simp [bookMeaning], by decide⟩
  identity := by
    refine ⟨c!"jü=2Dn@xn--bcher-kva.example", by simp [bookTags], ?_, book_domain', book_qp⟩
    intro l hl
    injection hl with hl
    subst hl
    exact ⟨by decide, .inl ⟨[c!"jü-n"], by simp, rfl, by unfold Atext letter digit; decide⟩⟩
  identityUnderDomain := by
    intro i hi
    injection hi with hi
    subst hi
    exact ⟨c!"xn--bcher-kva.example", c!"xn--bcher-kva.example", rfl, rfl, [], [c!"xn--bcher-kva", c!"example"], by simp,
      by decide, rfl, rfl⟩
  bodyLength := by simp [Optional, bookTags, bookMeaning]
  queryMethods := by simp [bookTags]
  selector := ⟨c!"sel", by simp [bookTags], rfl, book_selector⟩
  timestamp := by simp [Optional, bookTags, bookMeaning]
  expiration := by simp [Optional, bookTags, bookMeaning]
  expirationAfter := nofun
  copiedHeaders := .inl ⟨_, by simp [bookTags], book_copies⟩
  others := by rfl

theorem book_limits : Rfc8616.Limits bookIdna bookMeaning where
  domain := by
    rintro a ⟨⟩
    exact ⟨fitsDns_short (by decide),
      notNumeric_of (before := c!"xn--bcher-kva") (last := c!"example") (by decide) ⟨'e', by decide, by unfold digit; decide⟩⟩
  selector := by
    rintro a ⟨⟩
    exact fitsDns_short (by decide)
  identity := by
    rintro i a ⟨⟩ ⟨⟩
    exact ⟨fitsDns_short (by decide),
      notNumeric_of (before := c!"xn--bcher-kva") (last := c!"example") (by decide) ⟨'e', by decide, by unfold digit; decide⟩⟩
  bodyLength := nofun
  copiedNames := by decide

set_option maxRecDepth 8000 in
/-- Non-vacuity: the signature is read; it is not one of RFC 6376 alone. -/
example : sigFromStr bookIdna false bookSig = .ok bookMeaning ∧ ¬ Rfc.Signature false bookTags bookMeaning := by
  have hp : parseTagList bookSig = .ok (ofPairs bookTags) := by rfl
  obtain ⟨h1, h2, h3⟩ := (C22_rfc_exactly _ _).1 hp
  refine ⟨C105_reads_rfc bookIdna bookIdna_law.toCaseLaw false _ _ _ h1 h2 h3 book_signature book_limits, ?_⟩
  intro h
  obtain ⟨v, hv, rfl, hd⟩ := h.domain
  have := domainName_safe hd 'ü' (by simp [bookMeaning])
  exact absurd this.2.1 (by decide)

/-! A request for such a signature. -/

def bookEnv : Env := { testEnv with idna := bookIdna }

def bookRequest : SignRequest bookEnv :=
  { SignRequest.new (E := bookEnv) c!"Bücher.example" c!"sel" .ed25519Sha256 (.ed25519 ()) with
    identity := some ⟨some c!"jü=n", c!"xn--bcher-kva.example"⟩
    bodyLength := .messageContent
    timestamp := .exact 1000
    copyHeaders := false
    extTags := [(c!"r", c!"y ü")] }

end Dkim
