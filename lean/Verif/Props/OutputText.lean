import Verif.Proofs.Layout
import Verif.Props.RereadCases
import Verif.Props.TagList

/-!
# Properties C64, C65 and C71: order of the tags, ASCII output, continuation lines
-/

namespace Dkim

open Spec

variable {E : Env}

/-- C64: the tags a request asks for, in the default order. -/
def Spec.requestedTags (r : SignRequest E) : List Str :=
  [c!"v", c!"d"] ++
  (if r.identity = none then [] else [c!"i"]) ++
  [c!"s", c!"a"] ++
  (if r.canonicalization.header = .simple ∧ r.canonicalization.body = .simple then [] else [c!"c"]) ++
  (if r.bodyLength = .noLimit then [] else [c!"l"]) ++
  (if r.timestamp = .none then [] else [c!"t"]) ++
  (if r.validDuration = none then [] else [c!"x"]) ++
  [c!"h", c!"bh", c!"b"] ++
  (if r.copyHeaders = true then [c!"z"] else []) ++
  r.extTags.map fun t => t.1

theorem copied_nonempty {r : SignRequest E} {headers : List Field} (ht : TypedRequest r) (ha : Accepted r)
    (hh : TypedHeaders headers) (hf : HasFrom headers) (part : Bytes) (now : Nat) (hc : r.copyHeaders = true) :
    (sigData r headers part now).copiedHeaders ≠ [] := by
  obtain ⟨n, h1, h2⟩ := (namesToSign_fine ht ha hh hf).1
  obtain ⟨f, h3, h4⟩ := hf
  simp only [sigData, hc, if_true]
  refine List.ne_nil_of_mem (List.mem_map.2 ⟨f, List.mem_filter.2 ⟨h3, ?_⟩, rfl⟩)
  exact List.any_eq_true.2 ⟨n, h1, (sameName_iff _ _).2 (by rw [h2, h4])⟩

theorem requestedTags_eq {r : SignRequest E} {headers : List Field} (ht : TypedRequest r) (ha : Accepted r)
    (hh : TypedHeaders headers) (hf : HasFrom headers) (part : Bytes) (now : Nat) :
    tagNamesUnsorted (sigData r headers part now) = requestedTags r := by
  have w : ∀ (b : Bool) (p : Prop) [Decidable p] (x : Str), (b = true ↔ ¬ p) →
      whenB b x = if p then [] else [x] := by
    intro b p _ x h
    unfold whenB
    by_cases hp : p
    · rw [if_pos hp, if_neg (by rw [h]; exact not_not_intro hp)]
    · rw [if_neg hp, if_pos (h.2 hp)]
  have w' : ∀ (b : Bool) (p : Prop) [Decidable p] (x : Str), (b = true ↔ p) →
      whenB b x = if p then [x] else [] := by
    intro b p _ x h
    unfold whenB
    by_cases hp : p
    · rw [if_pos hp, if_pos (h.2 hp)]
    · rw [if_neg hp, if_neg (by rw [h]; exact hp)]
  unfold tagNamesUnsorted requestedTags
  rw [w (sigData r headers part now).identity.isSome (r.identity = none) c!"i" (by
      simp only [sigData]; cases r.identity <;> simp),
    w (decide ((sigData r headers part now).canonicalization ≠ ⟨.simple, .simple⟩))
      (r.canonicalization.header = .simple ∧ r.canonicalization.body = .simple) c!"c" (by
      rw [decide_eq_true_eq]
      have : ∀ c : Canonicalization, c ≠ ⟨.simple, .simple⟩ ↔ ¬ (c.header = .simple ∧ c.body = .simple) := by
        rintro ⟨h, b⟩
        simp
      exact this _),
    w (sigData r headers part now).bodyLength.isSome (r.bodyLength = .noLimit) c!"l" (by
      simp only [sigData]
      by_cases e : r.bodyLength = .noLimit
      · simp [e]
      · simp [e]),
    w (sigData r headers part now).timestamp.isSome (r.timestamp = .none) c!"t" (by
      simp only [sigData]; cases r.timestamp <;> simp),
    w (sigData r headers part now).expiration.isSome (r.validDuration = none) c!"x" (by
      simp only [sigData]; cases r.validDuration <;> simp),
    w' (!(sigData r headers part now).copiedHeaders.isEmpty) (r.copyHeaders = true) c!"z" (by
      by_cases e : r.copyHeaders = true
      · have := copied_nonempty ht ha hh hf part now e
        simp [e, this]
      · simp [sigData, e])]
  rfl

/-- C64: the produced header value is a tag list. Its tags are the requested ones, each
once, in the default order or, with a comparator, in the order in which it sorts them. -/
theorem C64_tags (law : IdnaLaw E.idna) (hs : SortLaw E.sortBy) (hset : SetLaw E.keySet)
    (headers : List Field) (requests : List (SignRequest E)) (hh : TypedHeaders headers)
    (ht : ∀ r ∈ requests, TypedRequest r) (chunks : List Bytes) (clock : Nat → Nat)
    (out : List (Except SigningError SigningOutput)) (h : Signed headers requests chunks clock out)
    (hlen : ∀ k, (codeBody k chunks.flatten).length < 2 ^ 64) (i : Nat) (r : SignRequest E)
    (hr : requests[i]? = some r) (o : SigningOutput) (ho : out[i]? = some (.ok o)) :
    ∃ tags : List (Str × Str), (∀ tags', ListText tags' o.headerValue ↔ tags' = tags) ∧
      (r.format.tagOrder = none → tags.map (·.1) = requestedTags r) ∧
      (∀ cmp, r.format.tagOrder = some cmp → tags.map (·.1) = E.sortBy cmp (requestedTags r)) ∧
      (tags.map (·.1)).Nodup ∧ (tags.map (·.1)).Perm (requestedTags r) ∧
      ∀ t ∈ r.extTags, t ∈ tags := by
  obtain ⟨h1, h2, h3, part, sig, bText, tags, h4, h5, h6, h7, h8, h9, h10, h11⟩ :=
    output_tags law hs hset hh ht h hlen hr ho
  have e := requestedTags_eq h1 h2 hh h3 part (clock i)
  refine ⟨tags, ?_, ?_, ?_, h9, ?_, ?_⟩
  · intro tags'
    exact ⟨fun h => listText_unique h h10, fun h => h ▸ h10⟩
  · intro hn
    rw [h8, hn, ← e]
    rfl
  · intro cmp hn
    rw [h8, hn, ← e]
    rfl
  · rw [h8, ← e]
    exact computeTagNames_perm hs _ _
  · intro t ht
    have hf := sigData_fine h1 h2 hh h3 part (clock i)
    have hm : t.1 ∈ tags.map (·.1) := by
      rw [h8, (computeTagNames_perm hs _ _).mem_iff, tagNamesUnsorted_eq, List.mem_append]
      exact .inr (List.mem_map_of_mem ht)
    obtain ⟨x, hx, e1⟩ := List.mem_map.1 hm
    obtain ⟨f, v, g1, g2, g3, g4⟩ := h11.2 x hx
    have hno : isOutputTag t.1 = false := (hf.ext t ht).2.2
    rw [e1] at g3 g4
    have hb : t.1 ≠ c!"b" := by intro e; rw [e] at hno; cases hno
    have hbh : t.1 ≠ c!"bh" := by intro e; rw [e] at hno; cases hno
    rw [g4 hb hbh, List.nil_append] at g2
    subst g2
    have : x = t := by
      refine Prod.ext e1 ?_
      exact tagText_ext hf ht g3
    exact this ▸ hx

/-- The value of an output in terms of the formatter, with everything known of it. -/
theorem output_formatted (law : IdnaLaw E.idna) (hs : SortLaw E.sortBy) (hset : SetLaw E.keySet)
    {headers : List Field} {requests : List (SignRequest E)} (hh : TypedHeaders headers)
    (ht : ∀ r ∈ requests, TypedRequest r) {chunks : List Bytes} {clock : Nat → Nat}
    {out : List (Except SigningError SigningOutput)} (h : Signed headers requests chunks clock out)
    (hlen : ∀ k, (codeBody k chunks.flatten).length < 2 ^ 64) {i : Nat} {r : SignRequest E}
    (hr : requests[i]? = some r) {o : SigningOutput} (ho : out[i]? = some (.ok o)) :
    Accepted r ∧ ∃ u ns1 ns2 t1 lead t2 sig bText, SigFine E.idna u ∧ u.extTags = r.extTags ∧
      Formatted (Piece E.idna u r.format.asciiOnly ('\r' :: '\n' :: r.format.indentation) bText)
        ('\r' :: '\n' :: r.format.indentation) (computeTagNames E.sortBy u r.format.tagOrder) ns1 ns2 t1 lead t2 ∧
      Folded ('\r' :: '\n' :: r.format.indentation) (encodeBase64 sig) bText ∧
      o.headerValue = t1 ++ lead ++ c!"b=" ++ bText ++ t2 := by
  obtain ⟨h1, h2, h3, part, h4, h5⟩ := signed_output law hs hset hh ht h hlen hr ho
  have hf := sigData_fine h1 h2 hh h3 part (clock i)
  obtain ⟨ns1, ns2, before, after, g1, ⟨t1, lead, g2, g3, g4⟩, hp⟩ := produceSignature_spec law hs hf
    r.signingKey h2.keyType r.format h2.indent headers
  rcases hp with ⟨_, e⟩ | ⟨sig, text, k1, k2, k3, e⟩
  · rw [h5] at e; cases e
  · rw [h5] at e
    injection e with e
    subst e
    exact ⟨h2, _, ns1, ns2, t1, lead, after, sig, text, hf, rfl, g4 text, k3, by rw [g2]⟩

/-- C65: with `ascii_only`, the produced header value is ASCII exactly if the values of
the extension tags are. -/
theorem C65_ascii_iff (law : IdnaLaw E.idna) (hs : SortLaw E.sortBy) (hset : SetLaw E.keySet)
    (headers : List Field) (requests : List (SignRequest E)) (hh : TypedHeaders headers)
    (ht : ∀ r ∈ requests, TypedRequest r) (chunks : List Bytes) (clock : Nat → Nat)
    (out : List (Except SigningError SigningOutput)) (h : Signed headers requests chunks clock out)
    (hlen : ∀ k, (codeBody k chunks.flatten).length < 2 ^ 64) (i : Nat) (r : SignRequest E)
    (hr : requests[i]? = some r) (o : SigningOutput) (ho : out[i]? = some (.ok o))
    (ha : r.format.asciiOnly = true) :
    (∀ c ∈ o.headerValue, c.toNat < 128) ↔ ∀ t ∈ r.extTags, ∀ c ∈ t.2, c.toNat < 128 := by
  obtain ⟨h2, u, ns1, ns2, t1, lead, t2, sig, bText, hf, he, h3, h4, h5⟩ :=
    output_formatted law hs hset hh ht h hlen hr ho
  rw [ha] at h3
  rw [h5, ← he]
  constructor
  · intro h t ht c hc
    have hno : isOutputTag t.1 = false := (hf.ext t ht).2.2
    have hm : t.1 ∈ computeTagNames E.sortBy u r.format.tagOrder := by
      rw [(computeTagNames_perm hs _ _).mem_iff, tagNamesUnsorted_eq, List.mem_append]
      exact .inr (List.mem_map_of_mem ht)
    obtain ⟨p, g1, g2⟩ := formatted_occurs h3 hm (by intro e; rw [e] at hno; cases hno)
    have hcp : c ∈ p := by
      cases g1 with
      | mk lead t' hl hx => rw [tagText_ext hf ht hx]; simp [hc]
    refine h c ?_
    rcases g2 with g2 | g2
    · simp [g2 hcp]
    · simp [g2 hcp]
  · intro h c hc
    have hl := formatted_lay law hf (folded_lay h4 (base64_plain sig)) h3
    rcases hl.chars (by
      intro c hc
      simp only [List.mem_cons] at hc
      rcases hc with rfl | rfl | hc
      · decide
      · decide
      · rcases h2.indent.2 c hc with rfl | rfl <;> decide) c hc with h6 | ⟨t, h6, h7⟩
    · exact h6
    · exact h t h6 c h7

/-- C65, with the condition that extension tag values are ASCII, which the code does not
check (see `C65_violation`). -/
theorem C65_ascii_partial (law : IdnaLaw E.idna) (hs : SortLaw E.sortBy) (hset : SetLaw E.keySet)
    (headers : List Field) (requests : List (SignRequest E)) (hh : TypedHeaders headers)
    (ht : ∀ r ∈ requests, TypedRequest r) (chunks : List Bytes) (clock : Nat → Nat)
    (out : List (Except SigningError SigningOutput)) (h : Signed headers requests chunks clock out)
    (hlen : ∀ k, (codeBody k chunks.flatten).length < 2 ^ 64) (i : Nat) (r : SignRequest E)
    (hr : requests[i]? = some r) (o : SigningOutput) (ho : out[i]? = some (.ok o))
    (ha : r.format.asciiOnly = true) (hext : ∀ t ∈ r.extTags, ∀ c ∈ t.2, c.toNat < 128) :
    ∀ c ∈ o.headerValue, c.toNat < 128 :=
  (C65_ascii_iff law hs hset headers requests hh ht chunks clock out h hlen i r hr o ho ha).2 hext

/-- C71: what follows a CRLF in the produced header value is the indentation and a
character other than whitespace, except inside the value of an extension tag. -/
theorem C71_indentation (law : IdnaLaw E.idna) (hs : SortLaw E.sortBy) (hset : SetLaw E.keySet)
    (headers : List Field) (requests : List (SignRequest E)) (hh : TypedHeaders headers)
    (ht : ∀ r ∈ requests, TypedRequest r) (chunks : List Bytes) (clock : Nat → Nat)
    (out : List (Except SigningError SigningOutput)) (h : Signed headers requests chunks clock out)
    (hlen : ∀ k, (codeBody k chunks.flatten).length < 2 ^ 64) (i : Nat) (r : SignRequest E)
    (hr : requests[i]? = some r) (o : SigningOutput) (ho : out[i]? = some (.ok o))
    (before after : Str) (he : o.headerValue = before ++ c!"\r\n" ++ after) :
    (∃ c rest, after = r.format.indentation ++ c :: rest ∧ c ≠ ' ' ∧ c ≠ '\t' ∧ c ≠ '\r' ∧ c ≠ '\n') ∨
    (∃ name value, (name, value) ∈ r.extTags ∧ ∃ x y before' after',
      value = x ++ c!"\r\n" ++ y ∧ before = before' ++ name ++ '=' :: x ∧ after = y ++ after') := by
  obtain ⟨h2, u, ns1, ns2, t1, lead, t2, sig, bText, hf, hu, h3, h4, h5⟩ :=
    output_formatted law hs hset hh ht h hlen hr ho
  have hl := formatted_lay law hf (folded_lay h4 (base64_plain sig)) h3
  rw [← h5, hu] at hl
  rcases hl.breaks h2.indent.2 (by
    intro t ht x e
    rcases (h2.ext t ht).2.1 with h | h
    · rw [h] at e; simp at e
    · exact someValue_no_cr h x e) (a := before) (b := after) (by rw [he]; simp)
    with ⟨c, rest, g1, g2⟩ | ⟨t, g1, x, y, a1, b1, g2, g3, g4⟩
  · refine .inl ⟨c, rest, g1, ?_, ?_, ?_, ?_⟩ <;> (rintro rfl; revert g2; unfold valChar; decide)
  · exact .inr ⟨t.1, t.2, g1, x, y, a1, b1, by rw [g2]; simp, g3, g4⟩

/-- A comparator and several optional tags. -/
def sortedRequest : SignRequest testEnv :=
  { testRequest with
    validDuration := some 10
    canonicalization := ⟨.simple, .relaxed⟩
    format := { testRequest.format with tagOrder := some fun a b => compare a.length b.length } }

set_option maxRecDepth 20000 in
/-- Non-vacuity of C64, with and without a comparator. -/
example : (∃ o, TestRun testHeaders testRequest o) ∧
    requestedTags testRequest =
      [c!"v", c!"d", c!"i", c!"s", c!"a", c!"c", c!"l", c!"t", c!"x", c!"h", c!"bh", c!"b", c!"z", c!"r"] ∧
    (∃ o, TestRun testHeaders sortedRequest o) ∧ sortedRequest.format.tagOrder ≠ none :=
  ⟨⟨_, testHeaders_typed, typed_of_check (by decide), _, _, _, rfl, rfl, rfl⟩, by decide,
    ⟨_, testHeaders_typed, typed_of_check (by decide), _, _, _, rfl, rfl, rfl⟩, by simp [sortedRequest]⟩

/-- A request for ASCII output that is accepted although an extension tag is not ASCII. -/
def accentRequest : SignRequest testEnv :=
  { testRequest with
    extTags := [(c!"y", c!"é")]
    format := { testRequest.format with asciiOnly := true } }

set_option maxRecDepth 20000 in
/-- C65 is violated: a non-ASCII extension tag value is written as it is. -/
theorem C65_violation : accentRequest.format.asciiOnly = true ∧ ∃ o, TestRun testHeaders accentRequest o ∧
    ∃ c ∈ o.headerValue, ¬ c.toNat < 128 := by
  refine ⟨rfl, ?_⟩
  have h : ∃ o, TestRun testHeaders accentRequest o :=
    ⟨_, testHeaders_typed, typed_of_check (by decide), _, _, _, rfl, rfl, rfl⟩
  obtain ⟨o, h⟩ := h
  refine ⟨o, h, ?_⟩
  have := C65_ascii_iff testEnv_idna testEnv_sort testEnv_set testHeaders [accentRequest] h.1 (by
    simpa using h.2.1) _ _ _ h.2.2 (by intro k; cases k <;> decide) 0 _ rfl o rfl rfl
  have hno : ¬ ∀ c ∈ o.headerValue, c.toNat < 128 := by
    rw [this]
    decide
  simpa using hno

/-- Quoted-Printable and `ascii_only`. -/
def quotedRequest : SignRequest testEnv :=
  { testRequest with
    identity := some ⟨some c!"é", c!"mail.example.com"⟩
    format := { testRequest.format with asciiOnly := true } }

set_option maxRecDepth 20000 in
/-- Non-vacuity of C65: an identity outside ASCII. -/
example : ∃ o, TestRun testHeaders quotedRequest o ∧ quotedRequest.format.asciiOnly = true ∧
    ∀ t ∈ quotedRequest.extTags, ∀ c ∈ t.2, c.toNat < 128 :=
  ⟨_, ⟨testHeaders_typed, typed_of_check (by decide), _, _, _, rfl, rfl, rfl⟩, rfl, by decide⟩

/-- Narrow lines, and an extension tag value with a line break. -/
def indentRequest : SignRequest testEnv :=
  { testRequest with
    extTags := [(c!"y", c!"a\r\n b")]
    format := { testRequest.format with lineWidth := 5, indentation := c!" \t" } }

set_option maxRecDepth 20000 in
/-- Non-vacuity of C71: line breaks of both kinds. -/
example : ∃ o, TestRun testHeaders indentRequest o ∧ o.headerValue.take 14 = c!"\r\n \tv=1;\r\n \td=" ∧
    (o.headerValue.drop 471).take 7 = c!"y=a\r\n b" :=
  ⟨_, ⟨testHeaders_typed, typed_of_check (by decide), _, _, _, rfl, rfl, rfl⟩, by decide, by decide⟩

end Dkim
