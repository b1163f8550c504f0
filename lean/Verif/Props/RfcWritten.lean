import Verif.Proofs.RfcProduced
import Verif.Props.Rfc
import Verif.Props.Written
import Verif.Props.RereadCases

/-!
# Property C102: produced headers and the grammar of the RFC
-/

namespace Dkim

open Spec

/-- C102: a text that the library reads is in the grammar of the RFC, with the meaning that the
library gives it, exactly if its domain names are those of the RFC, the encoded texts in `i=` and
`z=` and the methods in `q=` are written according to the RFC, and the numbers are without a plus
sign and not too long. Nothing else that the RFC does not permit is accepted. -/
theorem C102_read_exactly (ix : Idna) (law : CaseLaw ix) (pre : Bool) (txt : Str) (s : DkimSignature)
    (h : sigFromStr ix pre txt = .ok s) (hd : Rfc.AsciiForm ix s.domain)
    (hi : ∀ i, s.identity = some i → Rfc.AsciiForm ix i.domain) (tags : List (Str × Str)) (ht : ListText tags txt) :
    Rfc.Signature pre tags s ↔ Rfc.Strict tags s := by
  obtain ⟨tags', h1, h2, h3⟩ := (C30_parse_exact ix law pre txt s).1 h
  have e := listText_unique h1 ht
  subst e
  exact rfcSignature_iff (fun n v _ hm => listText_values ht _ hm) h2 h3 hd hi

variable {E : Env}

theorem dnsChar_of_lower {c : Char} (h : dnsChar c.toLower) : dnsChar c := by
  unfold dnsChar at h ⊢
  rw [lower_letter, lower_digit, lower_char (by simp [letter]), lower_char (by simp [letter]),
    lower_char (by simp [letter])] at h
  exact h

theorem dnsChar_safe {c : Char} (h : dnsChar c) : 33 ≤ c.toNat ∧ c.toNat ≤ 126 ∧ c ≠ ';' ∧ c ≠ '=' := by
  have : 33 ≤ c.toNat ∧ c.toNat ≤ 126 := by
    rcases h with rfl | h | h | rfl | rfl
    · decide
    · unfold letter at h; omega
    · unfold digit at h; omega
    · decide
    · decide
  refine ⟨this.1, this.2, ?_, ?_⟩
  · rintro rfl
    simp [dnsChar, letter, digit] at h
  · rintro rfl
    simp [dnsChar, letter, digit] at h

theorem writtenName_chars {ix : Idna} {d : Str} (h : ValidDomain true ix d) :
    ∀ c ∈ writtenName ix true d, dnsChar c := by
  obtain ⟨a, h1, _, h3⟩ := h
  have ha := h3.chars
  intro c hc
  simp only [writtenName, if_true, h1, Option.getD_some] at hc
  split at hc
  · next e =>
    have : c.toLower ∈ lower a := by rw [← e]; exact List.mem_map.2 ⟨c, hc, rfl⟩
    obtain ⟨b, hb, e'⟩ := List.mem_map.1 this
    have hb' := ha b hb
    apply dnsChar_of_lower
    rw [← e']
    unfold dnsChar at hb' ⊢
    rw [lower_letter, lower_digit, lower_char (by simp [letter]), lower_char (by simp [letter]),
      lower_char (by simp [letter])]
    exact hb'
  · exact ha c hc

theorem produced_strict (law : IdnaLaw E.idna) (hs : SortLaw E.sortBy) (hset : SetLaw E.keySet)
    (headers : List Field) (requests : List (SignRequest E)) (hh : TypedHeaders headers)
    (ht : ∀ r ∈ requests, TypedRequest r) (chunks : List Bytes) (clock : Nat → Nat)
    (out : List (Except SigningError SigningOutput)) (h : Signed headers requests chunks clock out)
    (hlen : ∀ k, (codeBody k chunks.flatten).length < 2 ^ 64) (i : Nat) (r : SignRequest E)
    (hr : requests[i]? = some r) (o : SigningOutput) (ho : out[i]? = some (.ok o)) (ha : r.format.asciiOnly = true)
    (s : DkimSignature) (hp : sigFromStr E.idna E.pre o.headerValue = .ok s)
    (hd : Rfc.DomainName s.domain ∧ Rfc.AsciiForm E.idna s.domain) (hsel : Rfc.Selector s.selector)
    (hi : ∀ j, s.identity = some j → Rfc.DomainName j.domain ∧ Rfc.AsciiForm E.idna j.domain)
    (hq : ∀ v, (c!"q", v) ∈ r.extTags → ∃ ms, Rfc.QueryMethods ms v ∧ ∃ m ∈ ms, lower m = c!"dns/txt")
    (htime : ∀ t, o.signature.timestamp = some t ∨ o.signature.expiration = some t → t < 10 ^ 12)
    (tags : List (Str × Str)) (hl : ListText tags o.headerValue) (tags' : List (Str × Str))
    (hsub : ∀ n v, n ≠ c!"z" → (n, v) ∈ tags' → (n, v) ∈ tags)
    (hz : ∀ v, (c!"z", v) ∈ tags' → Rfc.CopiedFields v s.copiedHeaders) : Rfc.Strict tags' s := by
  obtain ⟨tags1, h1, h2, h3⟩ := C92_values law hs hset headers requests hh ht chunks clock out h hlen i r hr o ho
  obtain rfl := (h1 tags).1 hl
  obtain ⟨⟨_, _, _, _, k5, k6⟩, _, _, _, _, _, _, _, k7, k8⟩ :=
    C36_fields law hs hset headers requests hh ht chunks clock out h hlen i r hr o ho
  obtain ⟨tags1, h4, h5, h6⟩ := (C30_parse_exact E.idna law.toCaseLaw E.pre _ s).1 hp
  have e := listText_unique h4 hl
  subst e
  rw [ha] at h3
  have htr := ht r (List.mem_of_getElem? hr)
  have number : ∀ n v, (n, v) ∈ tags1 → n ∈ [c!"l", c!"t", c!"x"] → ∃ x, v = (toString x).toList ∧
      (n = c!"l" → o.signature.bodyLength = some x) ∧ (n = c!"t" → o.signature.timestamp = some x) ∧
      (n = c!"x" → o.signature.expiration = some x) := fun n v hm hn => writtenTag_number (h3 _ hm) hn
  have query : ∀ v, (c!"q", v) ∈ tags1 → (c!"q", v) ∈ r.extTags := by
    intro v hm
    have := h3 _ hm
    rw [← k6]
    simp only at this
    generalize e : c!"q" = n at this
    cases this <;> first
      | exact absurd e (by decide)
      | (subst e; assumption)
  refine ⟨hd.1, hsel, ?_, ?_, ?_, ?_, ?_, hz⟩
  · intro j hj
    refine ⟨(hi j hj).1, fun v hm => ?_⟩
    obtain ⟨id, l, g1, g2, rfl⟩ := writtenTag_i (h3 _ (hsub _ _ (by decide) hm))
    have g3 := writtenName_chars (htr.identity id (by rw [← k5, g1]))
    exact ⟨_, qp_written (fun c hc => ⟨hc.1, hc.2 rfl⟩) g2
      (.safe '@' _ _ (by decide) (by decide) (by decide) (by decide) (qp_plain fun c hc => dnsChar_safe (g3 c hc)))⟩
  · intro v hm
    replace hm := hsub _ _ (by decide) hm
    obtain ⟨x, rfl, g1, _⟩ := number _ _ hm (by simp)
    refine ⟨?_, toString_digits x⟩
    have g2 := h6.bodyLength
    cases hb : s.bodyLength with
    | none => rw [hb] at g2; exact absurd hm (g2 _)
    | some y =>
      rw [hb] at g2
      obtain ⟨w, hw, g3⟩ := g2
      cases nodup_fst h5 hm hw
      rw [← natToStr_toString, natToStr_plusDecimal] at g3
      exact toString_length (by decide) (by
        have : (2 : Nat) ^ 64 < 10 ^ 76 := by decide
        omega)
  · intro v hm
    replace hm := hsub _ _ (by decide) hm
    obtain ⟨x, rfl, _, g1, _⟩ := number _ _ hm (by simp)
    exact ⟨toString_length (by decide) (htime x (.inl (g1 rfl))), toString_digits x⟩
  · intro v hm
    replace hm := hsub _ _ (by decide) hm
    obtain ⟨x, rfl, _, _, g1⟩ := number _ _ hm (by simp)
    exact ⟨toString_length (by decide) (htime x (.inr (g1 rfl))), toString_digits x⟩
  · intro v hm
    replace hm := hsub _ _ (by decide) hm
    exact hq v (query v hm)

/-- C102: the header value that is produced with `asciiOnly` is in the grammar of the RFC with the
signature `s` that the library reads from it as its meaning exactly if this is so of `z=`, if the
domain names in it are those of the RFC, the times have at most twelve digits, and an extension tag
`q` is according to the RFC. -/
theorem C102_produced_exactly (law : IdnaLaw E.idna) (hs : SortLaw E.sortBy) (hset : SetLaw E.keySet)
    (headers : List Field) (requests : List (SignRequest E)) (hh : TypedHeaders headers)
    (ht : ∀ r ∈ requests, TypedRequest r) (chunks : List Bytes) (clock : Nat → Nat)
    (out : List (Except SigningError SigningOutput)) (h : Signed headers requests chunks clock out)
    (hlen : ∀ k, (codeBody k chunks.flatten).length < 2 ^ 64) (i : Nat) (r : SignRequest E)
    (hr : requests[i]? = some r) (o : SigningOutput) (ho : out[i]? = some (.ok o)) (ha : r.format.asciiOnly = true)
    (s : DkimSignature) (hp : sigFromStr E.idna E.pre o.headerValue = .ok s)
    (hd : Rfc.DomainName s.domain ∧ Rfc.AsciiForm E.idna s.domain) (hsel : Rfc.Selector s.selector)
    (hi : ∀ j, s.identity = some j → Rfc.DomainName j.domain ∧ Rfc.AsciiForm E.idna j.domain)
    (hq : ∀ v, (c!"q", v) ∈ r.extTags → ∃ ms, Rfc.QueryMethods ms v ∧ ∃ m ∈ ms, lower m = c!"dns/txt")
    (htime : ∀ t, o.signature.timestamp = some t ∨ o.signature.expiration = some t → t < 10 ^ 12)
    (tags : List (Str × Str)) (hl : ListText tags o.headerValue) :
    Rfc.Signature E.pre tags s ↔ ∀ v, (c!"z", v) ∈ tags → Rfc.CopiedFields v s.copiedHeaders := by
  rw [C102_read_exactly E.idna law.toCaseLaw E.pre _ s hp hd.2 (fun j hj => (hi j hj).2) tags hl]
  exact ⟨fun h => h.copiedHeaders, produced_strict law hs hset headers requests hh ht chunks clock out h hlen i r hr o ho
    ha s hp hd hsel hi hq htime tags hl tags fun _ _ _ h => h⟩

/-- C102: apart from where `z=` is folded, the header value that is produced with `asciiOnly` is in
the grammar of the RFC, and its meaning there is the signature `s` that the library reads from it
(see C37), if the domain names in it are those of the RFC, the times have at most twelve digits, an
extension tag `q` is according to the RFC, and the names of copied header fields are without equals
signs and bars. Missing: that `z=` is folded according to the RFC; this is not so
(`C102_violation`). -/
theorem C102_produced_partial (law : IdnaLaw E.idna) (hs : SortLaw E.sortBy) (hset : SetLaw E.keySet)
    (headers : List Field) (requests : List (SignRequest E)) (hh : TypedHeaders headers)
    (ht : ∀ r ∈ requests, TypedRequest r) (chunks : List Bytes) (clock : Nat → Nat)
    (out : List (Except SigningError SigningOutput)) (h : Signed headers requests chunks clock out)
    (hlen : ∀ k, (codeBody k chunks.flatten).length < 2 ^ 64) (i : Nat) (r : SignRequest E)
    (hr : requests[i]? = some r) (o : SigningOutput) (ho : out[i]? = some (.ok o)) (ha : r.format.asciiOnly = true)
    (s : DkimSignature) (hp : sigFromStr E.idna E.pre o.headerValue = .ok s)
    (hd : Rfc.DomainName s.domain ∧ Rfc.AsciiForm E.idna s.domain) (hsel : Rfc.Selector s.selector)
    (hi : ∀ j, s.identity = some j → Rfc.DomainName j.domain ∧ Rfc.AsciiForm E.idna j.domain)
    (hq : ∀ v, (c!"q", v) ∈ r.extTags → ∃ ms, Rfc.QueryMethods ms v ∧ ∃ m ∈ ms, lower m = c!"dns/txt")
    (htime : ∀ t, o.signature.timestamp = some t ∨ o.signature.expiration = some t → t < 10 ^ 12)
    (hz : ∀ f ∈ o.signature.copiedHeaders, '=' ∉ f.1 ∧ '|' ∉ f.1)
    (tags : List (Str × Str)) (hl : ListText tags o.headerValue) :
    Rfc.Signature E.pre (Rfc.unfolded tags) s ∧ (r.copyHeaders = false → Rfc.Signature E.pre tags s) := by
  obtain ⟨tags', h1, h2, h3⟩ := C92_values law hs hset headers requests hh ht chunks clock out h hlen i r hr o ho
  obtain rfl := (h1 tags).1 hl
  obtain ⟨⟨_, _, _, _, k5, k6⟩, _, _, _, _, _, _, _, k7, k8⟩ :=
    C36_fields law hs hset headers requests hh ht chunks clock out h hlen i r hr o ho
  obtain ⟨tags', h4, h5, h6⟩ := (C30_parse_exact E.idna law.toCaseLaw E.pre _ s).1 hp
  have e := listText_unique h4 hl
  subst e
  have hv := listText_values hl
  rw [ha] at h3
  have hval : ∀ f ∈ o.signature.copiedHeaders, ValidName f.1 := by
    intro f hf
    cases hc : r.copyHeaders with
    | false => rw [k7 hc] at hf; cases hf
    | true =>
      rw [k8 hc] at hf
      obtain ⟨g, hg, rfl⟩ := List.mem_map.1 hf
      exact (hh g (List.mem_filter.1 hg).1).1
  have copied : ∀ v, (c!"z", v) ∈ tags' → Rfc.CopiedFields (withoutFws v) s.copiedHeaders := by
    intro v hm
    have h7 := copied_written (writtenTag_z (h3 _ hm)) hval
    rcases h6.copiedHeaders with ⟨w, hw, h8⟩ | ⟨h8, _⟩
    · cases nodup_fst h5 hm hw
      have h9 := rfcCopied h7 hz (by
        rw [withoutFws_eq]
        intro hm'
        unfold unfws at hm'
        exact isValue_noSemicolon (hv _ hm) (List.mem_filter.1 hm').1) [] (.inl rfl)
      rw [List.nil_append, withoutFws_eq, copied_unfws] at h9
      rw [← h9.unique h8]
      exact h7
    · exact absurd hm (h8 v)
  have base : Rfc.Strict (Rfc.unfolded tags') s := by
    refine produced_strict law hs hset headers requests hh ht chunks clock out h hlen i r hr o ho ha s hp hd hsel hi hq
      htime tags' hl _ (fun _ _ hn hm => (unfolded_other hn).1 hm) ?_
    intro w hw
    obtain ⟨v, hm, rfl⟩ := unfolded_z.1 hw
    exact copied v hm
  have full : Rfc.Signature E.pre (Rfc.unfolded tags') s :=
    (rfcSignature_iff (fun n v hn hm => hv _ ((unfolded_other hn).1 hm)) (by rw [unfolded_names]; exact h5)
      (signatureOf_unfolded h6) hd.2 (fun j hj => (hi j hj).2)).2 base
  refine ⟨full, fun hc => ?_⟩
  have : Rfc.unfolded tags' = tags' := by
    unfold Rfc.unfolded
    conv => rhs; rw [← List.map_id tags']
    apply List.map_congr_left
    intro t hm
    split
    · next e =>
      have h7 := h3 t hm
      rw [e] at h7
      have h8 := writtenTag_z h7
      rw [k7 hc] at h8
      cases h8
    · rfl
  rwa [this] at full

/-! ### The violation -/

theorem qp_drop {p s : Str} {bytes : Bytes} (hp : ∀ c ∈ p, c ≠ '=' ∧ c ∉ [' ', '\t', '\r', '\n'])
    (h : Rfc.QuotedPrintable (p ++ s) bytes) : ∃ bytes', Rfc.QuotedPrintable s bytes' := by
  induction p generalizing bytes with
  | nil => exact ⟨_, h⟩
  | cons c p ih =>
    have hc := hp c (by simp)
    rw [List.cons_append] at h
    generalize e : c :: (p ++ s) = t at h
    cases h with
    | nil => cases e
    | fws f r b hf hr =>
      exfalso
      obtain ⟨d, f', rfl, hd⟩ := fws_head hf
      injection e with e _
      subst e
      apply hc.2
      rcases hd with h | rfl
      · simp only [isWspChar, Bool.or_eq_true, beq_iff_eq] at h
        rcases h with rfl | rfl <;> simp
      · simp
    | octet a b x y r bs h1 h2 h3 =>
      injection e with e _
      exact absurd e hc.1
    | safe d r bs h1 h2 h3 h4 h5 =>
      injection e with _ e
      subst e
      exact ih (fun c hc => hp c (by simp [hc])) h5

/-- An octet that is split by a line break is not an encoded one. -/
theorem qp_split {s : Str} {bytes : Bytes} : ¬ Rfc.QuotedPrintable ('=' :: '2' :: '\r' :: s) bytes := by
  intro h
  generalize e : '=' :: '2' :: '\r' :: s = t at h
  cases h with
  | nil => cases e
  | fws f r b hf hr =>
    obtain ⟨d, f', rfl, hd⟩ := fws_head hf
    injection e with e _
    subst e
    exact absurd hd (by decide)
  | octet a b x y r bs h1 h2 h3 =>
    injection e with _ e
    injection e with _ e
    injection e with e _
    subst e
    rcases h2 with h | h
    · simp [digit] at h
    · simp at h
  | safe d r bs h1 h2 h3 h4 h5 =>
    injection e with e _
    exact h4 e.symm

theorem copied_first {n w : Str} {fields : List (Str × Bytes)} (hn : ∀ c ∈ n, c ≠ ':')
    (h : Rfc.CopiedFields (n ++ ':' :: w) fields) :
    ∃ v rest bytes, w = v ++ rest ∧ (rest = [] ∨ ∃ r, rest = '|' :: r) ∧ Rfc.QuotedPrintable v bytes ∧ '|' ∉ v := by
  have one : ∀ {m : Str} {bytes : Bytes} {s rest : Str}, Rfc.CopiedField m bytes s → n ++ ':' :: w = s ++ rest →
      ∃ v, w = v ++ rest ∧ Rfc.QuotedPrintable v bytes ∧ '|' ∉ v := by
    intro m bytes s rest h e
    cases h with
    | mk f v h1 h2 h3 h4 =>
      rw [List.append_assoc, List.cons_append] at e
      have hc : ∀ c ∈ m ++ f, c ≠ ':' := by
        rintro c hc rfl
        rcases List.mem_append.1 hc with hc | hc
        · rcases h2.2 _ hc with h | h <;> simp at h
        · exact absurd (optFws_fws h3 _ hc) (by simp [fwsChar])
      exact ⟨v, (split_unique (P := (· = ':')) rfl e hn rfl hc rfl).2.2, h4, by assumption⟩
  generalize e : n ++ ':' :: w = t at h
  cases h with
  | one m bytes s h =>
    obtain ⟨v, h1, h2, h3⟩ := one (rest := []) h (by simpa using e)
    exact ⟨v, [], bytes, h1, .inl rfl, h2, h3⟩
  | more m bytes s f r rest h hf hr =>
    obtain ⟨v, h1, h2, h3⟩ := one h e
    exact ⟨v, _, bytes, h1, .inr ⟨_, rfl⟩, h2, h3⟩

theorem subDomain_alnum {s : Str} (hne : s ≠ []) (h : ∀ c ∈ s, Rfc.LetDig c) : Rfc.SubDomain s := by
  cases s with
  | nil => exact absurd rfl hne
  | cons c s =>
    rcases List.eq_nil_or_concat s with rfl | ⟨m, d, rfl⟩
    · exact .one c (h c (by simp))
    · rw [List.concat_eq_append] at h ⊢
      exact .more c m d (h c (by simp)) (fun x hx => .inl (h x (by simp [hx]))) (h d (by simp))

instance letDigDec (c : Char) : Decidable (Rfc.LetDig c) := by
  unfold Rfc.LetDig letter digit
  infer_instance

theorem name_example : Rfc.DomainName c!"Example.com" ∧ Rfc.DomainName c!"mail.example.com" ∧ Rfc.Selector c!"sel" :=
  ⟨⟨[c!"Example", c!"com"], by decide, by
      intro l hl
      simp only [List.mem_cons, List.not_mem_nil, or_false] at hl
      rcases hl with rfl | rfl <;> exact subDomain_alnum (by decide) (by decide), rfl⟩,
    ⟨[c!"mail", c!"example", c!"com"], by decide, by
      intro l hl
      simp only [List.mem_cons, List.not_mem_nil, or_false] at hl
      rcases hl with rfl | rfl | rfl <;> exact subDomain_alnum (by decide) (by decide), rfl⟩,
    ⟨[c!"sel"], by decide, by
      intro l hl
      simp only [List.mem_cons, List.not_mem_nil, or_false] at hl
      rcases hl with rfl
      exact subDomain_alnum (by decide) (by decide), rfl⟩⟩

/-- ASCII output, otherwise as in the other examples: lines of 78 characters. -/
def asciiRequest : SignRequest testEnv := { testRequest with format := { testRequest.format with asciiOnly := true } }

/-- A header field in whose copy the encoded space is at the end of a line. -/
def longFrom : List Field :=
  [⟨c!"from", b!" \"aaaaaaaaaaaaaaaaaaaaaaaaaaaaaaaaaaaaaaaaaaaaaaaaaaaaaaaa\" <me@example.com>"⟩]

theorem longFrom_typed : TypedHeaders longFrom := by
  intro f hf
  rw [← fieldNameOk_iff, ← fieldBodyOk_iff]
  revert f
  decide

/-- The copy, and the part behind the name. -/
def splitCopy : Str := c!"=20\"aaaaaaaaaaaaaaaaaaaaaaaaaaaaaaaaaaaaaaaaaaaaaaaaaaaaaaaa\"=2\r\n\t0<me@example.com>"

theorem splitCopy_not (fields : List (Str × Bytes)) : ¬ Rfc.CopiedFields (c!"from:" ++ splitCopy) fields := by
  intro h
  obtain ⟨v, rest, bytes, h1, h2, h3, h4⟩ := copied_first (n := c!"from") (w := splitCopy) (by decide) h
  have : rest = [] := by
    rcases h2 with h | ⟨r, rfl⟩
    · exact h
    · exact absurd (show '|' ∈ splitCopy by rw [h1]; simp) (by decide)
  subst this
  rw [List.append_nil] at h1
  subst h1
  have h5 : ∃ b, Rfc.QuotedPrintable (splitCopy.drop 3) b := by
    generalize e : splitCopy = t at h3
    cases h3 with
    | nil => exact absurd e (by decide)
    | fws f r b hf hr =>
      obtain ⟨d, f', rfl, hd⟩ := fws_head hf
      injection e with e _
      subst e
      exact absurd hd (by decide)
    | octet a b x y r bs h1 h2 h3 =>
      injection e with _ e
      injection e with _ e
      injection e with _ e
      subst e
      exact ⟨_, h3⟩
    | safe d r bs h1 h2 h3 h4 h5 =>
      injection e with e _
      exact absurd e.symm h4
  obtain ⟨b, h5⟩ := h5
  obtain ⟨b', h6⟩ := qp_drop (p := (splitCopy.drop 3).take 58) (s := splitCopy.drop 61) (by decide) h5
  exact qp_split h6

set_option maxRecDepth 20000 in
/-- C102 is violated: the `z=` tag is folded inside an encoded character, so that a header value
that meets all conditions of `C102_produced_partial` is not in the grammar of the RFC, whatever its
meaning. -/
theorem C102_violation : ∃ o s, TestRun longFrom asciiRequest o ∧ asciiRequest.format.lineWidth = 78 ∧
    sigFromStr testEnv.idna testEnv.pre o.headerValue = .ok s ∧
    Rfc.DomainName s.domain ∧ Rfc.Selector s.selector ∧
    (∀ j, s.identity = some j → Rfc.DomainName j.domain) ∧
    (∀ t, o.signature.timestamp = some t ∨ o.signature.expiration = some t → t < 10 ^ 12) ∧
    (∀ f ∈ o.signature.copiedHeaders, '=' ∉ f.1 ∧ '|' ∉ f.1) ∧
    ∃ tags, ListText tags o.headerValue ∧ ∀ s', ¬ Rfc.Signature testEnv.pre tags s' := by
  have run : ∃ o s tags, TestRun longFrom asciiRequest o ∧ sigFromStr testEnv.idna testEnv.pre o.headerValue = .ok s ∧
      parseTagList o.headerValue = .ok tags ∧
      (s.domain = c!"Example.com" ∧ s.selector = c!"sel" ∧
        s.identity.map (·.domain) = some c!"mail.example.com" ∧ o.signature.timestamp = some 1000 ∧
        o.signature.expiration = some 433000 ∧ (∀ f ∈ o.signature.copiedHeaders, '=' ∉ f.1 ∧ '|' ∉ f.1)) ∧
      (c!"z", c!"from:" ++ splitCopy) ∈ tags.map fun t => (t.name, t.value) :=
    ⟨_, _, _, ⟨longFrom_typed, typed_of_check (by decide), _, _, _, rfl, rfl, rfl⟩, rfl, rfl,
      by decide, by decide⟩
  obtain ⟨o, s, tags, h1, h2, h3, ⟨h4, h5, h6, h7, h8, h9⟩, h10⟩ := run
  obtain ⟨h11, h12⟩ := (C22_tag_list_exact _ _).1 h3
  refine ⟨o, s, h1, rfl, h2, h4 ▸ name_example.1, h5 ▸ name_example.2.2, ?_, ?_, h9, _, h11, ?_⟩
  · intro j hj
    rw [hj] at h6
    injection h6 with h6
    have h6 : j.domain = c!"mail.example.com" := h6
    rw [h6]
    exact name_example.2.1
  · intro t ht
    rw [h7, h8] at ht
    rcases ht with ht | ht <;> injection ht with ht <;> omega
  · intro s' h
    rcases h.copiedHeaders with ⟨v, hv, hc⟩ | ⟨hc, _⟩
    · have := nodup_fst (by rwa [List.map_map]) hv h10
      subst this
      exact splitCopy_not _ hc
    · exact hc _ h10

set_option maxRecDepth 20000 in
/-- Non-vacuity: runs with and without copies that meet the conditions. -/
example : (∃ o s, TestRun testHeaders asciiRequest o ∧ sigFromStr testEnv.idna testEnv.pre o.headerValue = .ok s ∧
      (s.domain = c!"Example.com" ∧ s.selector = c!"sel" ∧ s.identity.map (·.domain) = some c!"mail.example.com" ∧
        o.signature.timestamp = some 1000 ∧ o.signature.expiration = some 433000 ∧
        (∀ f ∈ o.signature.copiedHeaders, '=' ∉ f.1 ∧ '|' ∉ f.1) ∧ o.signature.copiedHeaders ≠ [])) ∧
    (∃ o s, TestRun testHeaders { asciiRequest with copyHeaders := false } o ∧
      sigFromStr testEnv.idna testEnv.pre o.headerValue = .ok s ∧
      (s.domain = c!"Example.com" ∧ s.selector = c!"sel" ∧ s.identity.map (·.domain) = some c!"mail.example.com" ∧
        o.signature.timestamp = some 1000 ∧ o.signature.expiration = some 433000)) ∧
    Rfc.AsciiForm asciiIdna c!"Example.com" ∧ Rfc.AsciiForm asciiIdna c!"mail.example.com" :=
  ⟨⟨_, _, ⟨testHeaders_typed, typed_of_check (by decide), _, _, _, rfl, rfl, rfl⟩, rfl, by decide⟩,
    ⟨_, _, ⟨testHeaders_typed, typed_of_check (by decide), _, _, _, rfl, rfl, rfl⟩, rfl, by decide⟩,
    asciiForm_plain name_example.1, asciiForm_plain name_example.2.1⟩

/-- The copies in the run with copies are according to the RFC, so that the header value is too, by
`C102_produced_exactly`. -/
theorem copies_example : Rfc.CopiedFields c!"from:=20me|Subject:=20a=3B=0D=0A=20b"
    [(c!"from", b!" me"), (c!"Subject", b!" a;\r\n b")] := by
  refine .more c!"from" b!" me" c!"from:=20me" [] c!"Subject:=20a=3B=0D=0A=20b" _ ?_ (.inl rfl) (.one _ _ _ ?_)
  · exact .mk c!"from" [] c!"=20me" _ ⟨by simp, by decide⟩ (.inl rfl) (.octet '2' '0' 2 0 _ _ (by unfold HexVal; decide) (by unfold HexVal; decide)
      (.safe 'm' _ _ (by decide) (by decide) (by decide) (by decide)
        (.safe 'e' _ _ (by decide) (by decide) (by decide) (by decide) .nil))) (by decide)
  · exact .mk c!"Subject" [] c!"=20a=3B=0D=0A=20b" _ ⟨by simp, by decide⟩ (.inl rfl)
      (.octet '2' '0' 2 0 _ _ (by unfold HexVal; decide) (by unfold HexVal; decide) (.safe 'a' _ _ (by decide) (by decide) (by decide) (by decide)
        (.octet '3' 'B' 3 11 _ _ (by unfold HexVal; decide) (by unfold HexVal; decide) (.octet '0' 'D' 0 13 _ _ (by unfold HexVal; decide) (by unfold HexVal; decide)
          (.octet '0' 'A' 0 10 _ _ (by unfold HexVal; decide) (by unfold HexVal; decide) (.octet '2' '0' 2 0 _ _ (by unfold HexVal; decide) (by unfold HexVal; decide)
            (.safe 'b' _ _ (by decide) (by decide) (by decide) (by decide) .nil))))))) (by decide)

set_option maxRecDepth 20000 in
theorem test_copies : ∃ o s, TestRun testHeaders asciiRequest o ∧ sigFromStr testEnv.idna testEnv.pre o.headerValue = .ok s ∧
    s.copiedHeaders ≠ [] ∧ ∀ tags v, ListText tags o.headerValue → (c!"z", v) ∈ tags →
      Rfc.CopiedFields v s.copiedHeaders := by
  have run : ∃ o s tags, TestRun testHeaders asciiRequest o ∧ sigFromStr testEnv.idna testEnv.pre o.headerValue = .ok s ∧
      parseTagList o.headerValue = .ok tags ∧
      s.copiedHeaders = [(c!"from", b!" me"), (c!"Subject", b!" a;\r\n b")] ∧
      ∀ t ∈ tags.map (fun t => (t.name, t.value)), t.1 = c!"z" → t.2 = c!"from:=20me|Subject:=20a=3B=0D=0A=20b" :=
    ⟨_, _, _, ⟨testHeaders_typed, typed_of_check (by decide), _, _, _, rfl, rfl, rfl⟩, rfl, rfl, rfl, by decide⟩
  obtain ⟨o, s, tags, h1, h2, h3, h4, h5⟩ := run
  refine ⟨o, s, h1, h2, by rw [h4]; simp, ?_⟩
  intro tags' v hl hv
  obtain rfl := listText_unique hl ((C22_tag_list_exact _ _).1 h3).1
  have e : v = _ := h5 _ hv rfl
  rw [h4, e]
  exact copies_example

end Dkim
