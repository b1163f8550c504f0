import Verif.Proofs.RfcFolding
import Verif.Props.RfcWritten
import Verif.Props.Rfc8616

/-!
# Properties C102 and C105: where `z=` is folded
-/

namespace Dkim

open Spec

variable {E : Env}

/-- The value of `z=` in a header value that is produced and can be read. -/
theorem produced_copies (law : IdnaLaw E.idna) (hs : SortLaw E.sortBy) (hset : SetLaw E.keySet)
    (headers : List Field) (requests : List (SignRequest E)) (hh : TypedHeaders headers)
    (ht : ∀ r ∈ requests, TypedRequest r) (chunks : List Bytes) (clock : Nat → Nat)
    (out : List (Except SigningError SigningOutput)) (h : Signed headers requests chunks clock out)
    (hlen : ∀ k, (codeBody k chunks.flatten).length < 2 ^ 64) (i : Nat) (r : SignRequest E)
    (hr : requests[i]? = some r) (o : SigningOutput) (ho : out[i]? = some (.ok o))
    (s : DkimSignature) (hp : sigFromStr E.idna E.pre o.headerValue = .ok s)
    (hz : ∀ f ∈ o.signature.copiedHeaders, '=' ∉ f.1 ∧ '|' ∉ f.1)
    (tags : List (Str × Str)) (hl : ListText tags o.headerValue) (v : Str) (hv : (c!"z", v) ∈ tags) :
    (r.format.asciiOnly = true → (Rfc.CopiedFields v s.copiedHeaders ↔ Rfc.OctetsWhole v)) ∧
    (Rfc8616.CopiedFields v s.copiedHeaders ↔ Rfc.OctetsWhole v) := by
  obtain ⟨g1, g2, g3, part, sig, bText, tags', _, g5, _, _, _, g9, g10, g11⟩ := output_tags law hs hset hh ht h hlen hr ho
  obtain rfl := listText_unique hl g10
  have hb := GoodIndent.fws g2.indent
  have hcv := copied_valid g1 g2 hh g3 part (clock i)
  have e : o.signature.copiedHeaders = (sigData r headers part (clock i)).copiedHeaders := by rw [g5]; rfl
  rw [← e] at hcv
  have hz' : ZText ('\r' :: '\n' :: r.format.indentation) r.format.asciiOnly o.signature.copiedHeaders v := by
    obtain ⟨f, t, _, k2, k3, k4⟩ := g11.origin _ hv
    have := k4 (by simp) (by simp)
    subst this
    simp only [List.nil_append] at k2
    subst k2
    rw [e]
    generalize e' : c!"z" = n at k3
    cases k3 <;> first
      | exact absurd e' (by decide)
      | assumption
      | (subst e'; rename_i hn _; exact absurd hn (by simp only []; decide))
  have same : s.copiedHeaders = o.signature.copiedHeaders := by
    obtain ⟨tags1, h4, h5, h6⟩ := (C30_parse_exact E.idna law.toCaseLaw E.pre _ s).1 hp
    obtain rfl := listText_unique h4 hl
    rcases h6.copiedHeaders with ⟨w, hw, h8⟩ | ⟨h8, _⟩
    · cases nodup_fst h5 hv hw
      exact ((zText_iff hb hz' hcv).1 h8).unique ((readCopies_same hcv).2 hz)
    · exact absurd hv (h8 v)
  rw [same]
  have whole := fun h => intlCopies_whole (v := v) h fun f hf => (hz f hf).1
  have rfc : r.format.asciiOnly = true → Rfc.OctetsWhole v → Rfc.CopiedFields v o.signature.copiedHeaders := by
    intro ha hw
    rw [ha] at hz'
    exact copies_rfc (zText_copies rfc_kind hb hz' (fun f hf => (hcv f hf).1) hw)
  refine ⟨fun ha => ⟨fun h => whole (intlCopied_of h), rfc ha⟩, whole, fun hw => ?_⟩
  cases ha : r.format.asciiOnly with
  | true => exact intlCopied_of (rfc ha hw)
  | false =>
    rw [ha] at hz'
    exact copies_intl (zText_copies intl_kind hb hz' (fun f hf => (hcv f hf).1) hw)

theorem copyable_produced (law : IdnaLaw E.idna) (hs : SortLaw E.sortBy) (hset : SetLaw E.keySet)
    {headers : List Field} {requests : List (SignRequest E)} (hh : TypedHeaders headers)
    (ht : ∀ r ∈ requests, TypedRequest r) {chunks : List Bytes} {clock : Nat → Nat}
    {out : List (Except SigningError SigningOutput)} (h : Signed headers requests chunks clock out)
    (hlen : ∀ k, (codeBody k chunks.flatten).length < 2 ^ 64) {i : Nat} {r : SignRequest E}
    (hr : requests[i]? = some r) {o : SigningOutput} (ho : out[i]? = some (.ok o)) (hn : CopyableNames r headers) :
    ∀ f ∈ o.signature.copiedHeaders, '=' ∉ f.1 ∧ '|' ∉ f.1 := by
  obtain ⟨g1, g2, g3, part, sig, bText, tags', _, g5, _⟩ := output_tags law hs hset hh ht h hlen hr ho
  rw [g5]
  exact (copied_names part (clock i) (fun n => '=' ∉ n ∧ '|' ∉ n)).2 hn

theorem copying_produced (law : IdnaLaw E.idna) (hs : SortLaw E.sortBy) (hset : SetLaw E.keySet)
    {headers : List Field} {requests : List (SignRequest E)} (hh : TypedHeaders headers)
    (ht : ∀ r ∈ requests, TypedRequest r) {chunks : List Bytes} {clock : Nat → Nat}
    {out : List (Except SigningError SigningOutput)} (h : Signed headers requests chunks clock out)
    (hlen : ∀ k, (codeBody k chunks.flatten).length < 2 ^ 64) {i : Nat} {r : SignRequest E}
    (hr : requests[i]? = some r) {o : SigningOutput} (ho : out[i]? = some (.ok o)) {tags : List (Str × Str)}
    (hl : ListText tags o.headerValue) {v : Str} (hm : (c!"z", v) ∈ tags) : r.copyHeaders = true := by
  obtain ⟨tags1, h1, h2, h3⟩ := C92_values law hs hset headers requests hh ht chunks clock out h hlen i r hr o ho
  obtain rfl := (h1 tags).1 hl
  obtain ⟨_, _, _, _, _, _, _, _, k7, _⟩ :=
    C36_fields law hs hset headers requests hh ht chunks clock out h hlen i r hr o ho
  cases hc : r.copyHeaders with
  | true => rfl
  | false =>
    have h4 := writtenTag_z (h3 _ hm)
    rw [k7 hc] at h4
    cases h4

/-- C102, exactly: the header value that is produced with `asciiOnly` is in the grammar of the RFC with
the signature `s` that the library reads from it as its meaning exactly if the line breaks in `z=` are
not inside encoded octets; with the conditions of `C102_produced_partial`. -/
theorem C102_folding_exactly (law : IdnaLaw E.idna) (hs : SortLaw E.sortBy) (hset : SetLaw E.keySet)
    (headers : List Field) (requests : List (SignRequest E)) (hh : TypedHeaders headers)
    (ht : ∀ r ∈ requests, TypedRequest r) (chunks : List Bytes) (clock : Nat → Nat)
    (out : List (Except SigningError SigningOutput)) (h : Signed headers requests chunks clock out)
    (hlen : ∀ k, (codeBody k chunks.flatten).length < 2 ^ 64) (i : Nat) (r : SignRequest E)
    (hr : requests[i]? = some r) (o : SigningOutput) (ho : out[i]? = some (.ok o)) (ha : r.format.asciiOnly = true)
    (s : DkimSignature) (hp : sigFromStr E.idna E.pre o.headerValue = .ok s)
    (hd : Rfc.DomainName s.domain ∧ Rfc.AsciiForm E.idna s.domain) (hsel : Rfc.Selector s.selector)
    (hi : ∀ j, s.identity = some j → Rfc.DomainName j.domain ∧ Rfc.AsciiForm E.idna j.domain)
    (hq : ∀ v, (c!"q", v) ∈ r.extTags → ∃ ms, Rfc.QueryMethods ms v ∧ ∃ m ∈ ms, lower m = c!"dns/txt")
    (htime : ∀ t, o.signature.timestamp = some t ∨ o.signature.expiration = some t → t < 10 ^ 12)
    (hz : ∀ f ∈ o.signature.copiedHeaders, '=' ∉ f.1 ∧ '|' ∉ f.1)
    (tags : List (Str × Str)) (hl : ListText tags o.headerValue) :
    Rfc.Signature E.pre tags s ↔ ∀ v, (c!"z", v) ∈ tags → Rfc.OctetsWhole v := by
  rw [C102_produced_exactly law hs hset headers requests hh ht chunks clock out h hlen i r hr o ho ha s hp hd hsel hi hq
    htime tags hl]
  exact forall_congr' fun v => forall_congr' fun hv =>
    (produced_copies law hs hset headers requests hh ht chunks clock out h hlen i r hr o ho s hp hz tags hl v hv).1 ha

/-- C105, exactly: the same for the grammar with RFC 8616, whatever the format. -/
theorem C105_folding_exactly (law : IdnaLaw E.idna) (hs : SortLaw E.sortBy) (hset : SetLaw E.keySet)
    (headers : List Field) (requests : List (SignRequest E)) (hh : TypedHeaders headers)
    (ht : ∀ r ∈ requests, TypedRequest r) (chunks : List Bytes) (clock : Nat → Nat)
    (out : List (Except SigningError SigningOutput)) (h : Signed headers requests chunks clock out)
    (hlen : ∀ k, (codeBody k chunks.flatten).length < 2 ^ 64) (i : Nat) (r : SignRequest E)
    (hr : requests[i]? = some r) (o : SigningOutput) (ho : out[i]? = some (.ok o))
    (s : DkimSignature) (hp : sigFromStr E.idna E.pre o.headerValue = .ok s)
    (hd : Rfc8616.DomainName E.idna s.domain) (hsel : Rfc8616.Selector E.idna s.selector)
    (hi : ∀ j, s.identity = some j → Rfc8616.DomainName E.idna j.domain)
    (hq : ∀ v, (c!"q", v) ∈ r.extTags → ∃ ms, Rfc8616.QueryMethods ms v ∧ ∃ m ∈ ms, lower m = c!"dns/txt")
    (htime : ∀ t, o.signature.timestamp = some t ∨ o.signature.expiration = some t → t < 10 ^ 12)
    (hz : ∀ f ∈ o.signature.copiedHeaders, '=' ∉ f.1 ∧ '|' ∉ f.1)
    (tags : List (Str × Str)) (hl : ListText tags o.headerValue) :
    Rfc8616.Signature E.idna E.pre tags s ↔ ∀ v, (c!"z", v) ∈ tags → Rfc.OctetsWhole v := by
  rw [C105_produced_exactly law hs hset headers requests hh ht chunks clock out h hlen i r hr o ho s hp hd hsel hi hq
    htime tags hl]
  exact forall_congr' fun v => forall_congr' fun hv =>
    (produced_copies law hs hset headers requests hh ht chunks clock out h hlen i r hr o ho s hp hz tags hl v hv).2

/-- A value in one line has no split octets. -/
theorem octetsWhole_line {v : Str} (h : '\r' ∉ v) : Rfc.OctetsWhole v := by
  intro a b
  refine ⟨?_, ?_⟩
  · rintro rfl
    exact h (by simp)
  · rintro c rfl
    exact h (by simp)

set_option maxRecDepth 20000 in
/-- Non-vacuity: with the test message no octet is split; with a longer value of From one is split
(`C102_violation`). Both runs meet the conditions. -/
example :
    (∃ o s tags v, TestRun testHeaders asciiRequest o ∧ sigFromStr testEnv.idna testEnv.pre o.headerValue = .ok s ∧
      ListText tags o.headerValue ∧ (c!"z", v) ∈ tags ∧ Rfc.OctetsWhole v) ∧
    (∃ o s tags v, TestRun longFrom asciiRequest o ∧ sigFromStr testEnv.idna testEnv.pre o.headerValue = .ok s ∧
      ListText tags o.headerValue ∧ (c!"z", v) ∈ tags ∧ ¬ Rfc.OctetsWhole v) := by
  constructor
  · have run : ∃ o s tags, TestRun testHeaders asciiRequest o ∧ sigFromStr testEnv.idna testEnv.pre o.headerValue = .ok s ∧
        parseTagList o.headerValue = .ok tags ∧
        (c!"z", c!"from:=20me|Subject:=20a=3B=0D=0A=20b") ∈ tags.map fun t => (t.name, t.value) :=
      ⟨_, _, _, ⟨testHeaders_typed, typed_of_check (by decide), _, _, _, rfl, rfl, rfl⟩, rfl, rfl, by decide⟩
    obtain ⟨o, s, tags, h1, h2, h3, h4⟩ := run
    exact ⟨o, s, _, _, h1, h2, ((C22_tag_list_exact _ _).1 h3).1, h4, octetsWhole_line (by decide)⟩
  · have run : ∃ o s tags, TestRun longFrom asciiRequest o ∧ sigFromStr testEnv.idna testEnv.pre o.headerValue = .ok s ∧
        parseTagList o.headerValue = .ok tags ∧ (c!"z", c!"from:" ++ splitCopy) ∈ tags.map fun t => (t.name, t.value) :=
      ⟨_, _, _, ⟨longFrom_typed, typed_of_check (by decide), _, _, _, rfl, rfl, rfl⟩, rfl, rfl, by decide⟩
    obtain ⟨o, s, tags, h1, h2, h3, h4⟩ := run
    refine ⟨o, s, _, _, h1, h2, ((C22_tag_list_exact _ _).1 h3).1, h4, fun hw => ?_⟩
    have key : ∃ a b : Str, c!"from:" ++ splitCopy = a ++ '=' :: '2' :: '\r' :: b :=
      ⟨(c!"from:" ++ splitCopy).takeWhile (· ≠ '\r') |>.dropLast |>.dropLast,
        (c!"from:" ++ splitCopy).dropWhile (· ≠ '\r') |>.drop 1, by decide⟩
    obtain ⟨a, b, e⟩ := key
    exact (hw a b).2 '2' e

end Dkim
