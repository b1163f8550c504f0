import Verif.Proofs.LineBound
import Verif.Props.OutputField
import Verif.Props.OutputText

/-!
# Property C49: the line width of the produced header
-/

namespace Dkim

open Spec

variable {E : Env}

theorem fixedNames_b (u : UnsignedSig) : c!"b" ∈ fixedNames u := by
  rw [mem_fixedNames]
  simp

/-- Without a tag order, extension tags are behind `b=`. -/
theorem ext_after_b {ix : Idna} {u : UnsignedSig} (hf : SigFine ix u) {ns1 ns2 : List Str}
    (h : tagNamesUnsorted u = ns1 ++ c!"b" :: ns2) : ∀ t ∈ u.extTags, t.1 ∉ ns1 := by
  intro t ht hm
  have hnd := tagNames_nodup hf
  obtain ⟨a, b, hab⟩ := List.append_of_mem (fixedNames_b u)
  have h2 : a ++ c!"b" :: (b ++ u.extTags.map (·.1)) = ns1 ++ c!"b" :: ns2 := by
    rw [← h, tagNamesUnsorted_eq, hab]
    simp
  have key : ∀ (a c b d : List Str), a ++ c!"b" :: b = c ++ c!"b" :: d → c!"b" ∉ a → c!"b" ∉ c → a = c := by
    intro a
    induction a with
    | nil =>
      intro c b d h _ hc
      cases c with
      | nil => rfl
      | cons x c =>
        simp only [List.nil_append, List.cons_append, List.cons.injEq] at h
        exact absurd (by simp [← h.1]) hc
    | cons x a ih =>
      intro c b d h ha hc
      cases c with
      | nil =>
        simp only [List.nil_append, List.cons_append, List.cons.injEq] at h
        exact absurd (by simp [h.1]) ha
      | cons y c =>
        simp only [List.cons_append, List.cons.injEq] at h
        rw [h.1, ih c b d h.2 (fun hm => ha (by simp [hm])) (fun hm => hc (by simp [hm]))]
  have n1 : c!"b" ∉ ns1 := by
    rw [h] at hnd
    intro hm
    exact (List.nodup_append.1 hnd).2.2 _ hm _ (by simp) rfl
  have n2 : c!"b" ∉ a := by
    have := (fixedNames_sublist u).nodup (by decide)
    rw [hab] at this
    intro hm
    exact (List.nodup_append.1 this).2.2 _ hm _ (by simp) rfl
  have e := key a ns1 _ _ h2 n2 n1
  rw [← e] at hm
  have hmf : t.1 ∈ fixedNames u := by rw [hab]; simp [hm]
  have := (hf.ext t ht).2.2
  rw [fixedNames_output u _ hmf] at this
  cases this

/-- The length of a signature is known before. -/
theorem signWith_length (law : SignLaw E.crypto) {key : SigningKey E.crypto} {h : HashAlg} {d sig : Bytes}
    (hs : signWith key h d = some sig) : sig.length = key.signatureLength := by
  cases key with
  | rsa k => exact law.rsa_length _ _ _ _ hs
  | ed25519 k =>
    injection hs with hs
    subst hs
    exact law.ed_length _ _

/-- The lines of a produced header, if no folded extension tag is formatted before `b`. -/
theorem lines_fit (law : IdnaLaw E.idna) (hs : SortLaw E.sortBy) (hset : SetLaw E.keySet)
    (hsign : SignLaw E.crypto)
    (headers : List Field) (requests : List (SignRequest E)) (hh : TypedHeaders headers)
    (ht : ∀ r ∈ requests, TypedRequest r) (chunks : List Bytes) (clock : Nat → Nat)
    (out : List (Except SigningError SigningOutput))
    (h : Signed headers requests chunks clock out)
    (hlen : ∀ k, (codeBody k chunks.flatten).length < 2 ^ 64) (i : Nat) (r : SignRequest E) (o : SigningOutput)
    (hr : requests[i]? = some r) (ho : out[i]? = some (.ok o))
    (hord : ∀ part, bodyToSign r chunks.flatten = some part → SigFine E.idna (sigData r headers part (clock i)) →
      ∀ ns1 ns2, computeTagNames E.sortBy (sigData r headers part (clock i)) r.format.tagOrder =
        ns1 ++ c!"b" :: ns2 → ∀ t ∈ r.extTags, t.1 ∈ ns1 → '\n' ∉ t.2) :
    ∀ line ∈ lines (o.headerName ++ ':' :: o.headerValue),
      FitsLine r.format.lineWidth r.format.indentation o.headerName o.signature line := by
  obtain ⟨h1, h2, h3, part, h4, h5⟩ := signed_output law hs hset hh ht h hlen hr ho
  have hf := sigData_fine h1 h2 hh h3 part (clock i)
  have hord := hord part h4 hf
  obtain ⟨ns1, ns2, before, after, g1, ⟨t1, lead, g2, g3, g4⟩, hp⟩ := produceSignature_spec law hs hf
    r.signingKey h2.keyType r.format h2.indent headers
  rcases hp with ⟨_, e⟩ | ⟨sig, text, k1, k2, k3, e⟩
  · rw [h5] at e; cases e
  rw [h5] at e
  injection e with e
  subst e
  simp only
  generalize hu : sigData r headers part (clock i) = u at *
  have hext : u.extTags = r.extTags := by rw [← hu]; rfl
  have hlens : (encodeBase64 sig).length = estimateBTagLength r.signingKey.signatureLength := by
    rw [encodeBase64_length, signWith_length hsign k1]; rfl
  have hn : ValidName r.format.headerName := lower_validName h2.headerName
  have hna : byteLen r.format.headerName = r.format.headerName.length :=
    byteLen_ascii _ (fun c hc => by have := (hn.2 c hc).2.1; omega)
  let p : Lay := ⟨r.format.lineWidth, r.format.indentation, r.format.headerName, withSignature u sig⟩
  have ok : p.Ok := by
    refine ⟨fun hm => wsp_noLf (h2.indent.2 _ hm) rfl, byteLen_ascii _ ?_⟩
    intro c hc
    rcases h2.indent.2 c hc with rfl | rfl <;> decide
  have hof : p.Of u := ⟨rfl, rfl, rfl⟩
  unfold formatWithoutSignature at g1
  simp only at g1
  split at g1
  · cases g1
  next st' hloop =>
  split at g1
  · cases g1
  next ins hins =>
  simp only [Option.some.injEq, Prod.mk.injEq] at g1
  rw [← hlens] at hloop
  have hstart : Laid p.good (r.format.headerName ++ [':']) (r.format.headerName ++ [':']) :=
    ⟨[], .single (by
      rw [List.mem_append, not_or]
      exact ⟨validName_noLf hn, by decide⟩), by simp⟩
  have hb : c!"b" ∈ computeTagNames E.sortBy u r.format.tagOrder := by
    rw [(computeTagNames_perm hs u r.format.tagOrder).mem_iff, tagNamesUnsorted_eq]
    exact List.mem_append_left _ (fixedNames_b u)
  obtain ⟨before', after', e1, e2, lastb, l1, last', l2, l3⟩ := formatLoop_lines (p := p) law hf ok hof
    (valChars_noLf (base64_valChars sig)) _ hloop g3 hb (by
      intro ns1 ns2 e t htm htn
      exact hord ns1 ns2 e t (hext ▸ htm) htn) (pre := r.format.headerName ++ [':']) (by simpa using hstart)
      (.inr (.inl rfl)) ⟨by simp [hna, p], fun _ => by simp [hna, p]⟩
  have e3 : before' ++ after' = before ++ after := by rw [← e1, g1.1]
  have e4 : byteLen before' = byteLen before := by
    rw [e2] at hins
    injection hins with hins
    rw [hins, g1.2]
  have e5 : before' = before ∧ after' = after := by
    have a1 := splitAtByte_append before' after'
    have a2 := splitAtByte_append before after
    rw [e3, e4, a2] at a1
    simpa using a1.symm
  obtain ⟨rfl, rfl⟩ := e5
  have hcol := insertion_column (validName_noLf hn) hna (by simpa using l1)
  have htext : text = (formatChunks ⟨p.width, p.indent, false, false⟩ lastb.length (encodeBase64 sig)).1 := by
    have : insertSignatureData (before' ++ after') (byteLen before') r.format.headerName sig r.format.lineWidth
        r.format.indentation = some (before' ++
          (formatChunks ⟨p.width, p.indent, false, false⟩
            (if (lastLine before').2 = true then (lastLine before').1.length
              else byteLen r.format.headerName + (lastLine before').1.length + 1) (encodeBase64 sig)).1 ++ after') := by
      unfold insertSignatureData
      rw [splitAtByte_append]
    rw [k2, hcol] at this
    simpa using this
  rw [← htext] at l2
  intro line hline
  obtain ⟨done, d1, d2⟩ := l2
  have hl : lines (r.format.headerName ++ ':' :: (before' ++ text ++ after')) = done ++ [last'] := by
    rw [← d1.lines]
    simp
  rw [hl] at hline
  rcases List.mem_append.1 hline with hm | hm
  · exact d2 line hm
  · simp only [List.mem_singleton] at hm
    subst hm
    exact l3

/-- C49, in all cases: at most one line of the produced header is too long, namely the line in
which the value of the tag `b` ends. That line, too, is bounded, normally by twice the line width
plus one. (`upto` is the text up to the end of that value, `w` its last line; `l` is the rest of that
line.) -/
theorem C49_one_line (law : IdnaLaw E.idna) (hs : SortLaw E.sortBy) (hset : SetLaw E.keySet)
    (hsign : SignLaw E.crypto)
    (headers : List Field) (requests : List (SignRequest E)) (hh : TypedHeaders headers)
    (ht : ∀ r ∈ requests, TypedRequest r) (chunks : List Bytes) (clock : Nat → Nat)
    (out : List (Except SigningError SigningOutput))
    (h : Signed headers requests chunks clock out)
    (hlen : ∀ k, (codeBody k chunks.flatten).length < 2 ^ 64) (i : Nat) (r : SignRequest E) (o : SigningOutput)
    (hr : requests[i]? = some r) (ho : out[i]? = some (.ok o)) :
    ∃ upto behind, o.headerValue = upto ++ behind ∧ (∃ front b, ListText (front ++ [(c!"b", b)]) upto) ∧
      (behind = [] ∨ ∃ rest, behind = ';' :: rest) ∧
      ∃ ls1 w l ls2, lines (o.headerName ++ ':' :: upto) = ls1 ++ [w] ∧ lines behind = l :: ls2 ∧
        lines (o.headerName ++ ':' :: o.headerValue) = ls1 ++ (w ++ l) :: ls2 ∧
        (∀ line ∈ ls1 ++ ls2,
          FitsLine r.format.lineWidth r.format.indentation o.headerName o.signature line) ∧
        (FitsLine r.format.lineWidth r.format.indentation o.headerName o.signature (w ++ l) ∨
          (w ++ l).length ≤ max r.format.lineWidth (r.format.indentation.length + 2) + r.format.lineWidth + 1) := by
  obtain ⟨h1, h2, h3, part, h4, h5⟩ := signed_output law hs hset hh ht h hlen hr ho
  have hf := sigData_fine h1 h2 hh h3 part (clock i)
  obtain ⟨ns1, ns2, before, after, g1, ⟨t1, lead, g2, g3, g4⟩, hp⟩ := produceSignature_spec law hs hf
    r.signingKey h2.keyType r.format h2.indent headers
  rcases hp with ⟨_, e⟩ | ⟨sig, text, k1, k2, k3, e⟩
  · rw [h5] at e; cases e
  rw [h5] at e
  injection e with e
  subst e
  simp only
  generalize hu : sigData r headers part (clock i) = u at *
  have hext : u.extTags = r.extTags := by rw [← hu]; rfl
  have hlens : (encodeBase64 sig).length = estimateBTagLength r.signingKey.signatureLength := by
    rw [encodeBase64_length, signWith_length hsign k1]; rfl
  have hn : ValidName r.format.headerName := lower_validName h2.headerName
  have hna : byteLen r.format.headerName = r.format.headerName.length :=
    byteLen_ascii _ (fun c hc => by have := (hn.2 c hc).2.1; omega)
  let p : Lay := ⟨r.format.lineWidth, r.format.indentation, r.format.headerName, withSignature u sig⟩
  have ok : p.Ok := by
    refine ⟨fun hm => wsp_noLf (h2.indent.2 _ hm) rfl, byteLen_ascii _ ?_⟩
    intro c hc
    rcases h2.indent.2 c hc with rfl | rfl <;> decide
  have hof : p.Of u := ⟨rfl, rfl, rfl⟩
  unfold formatWithoutSignature at g1
  simp only at g1
  split at g1
  · cases g1
  next st' hloop =>
  split at g1
  · cases g1
  next ins hins =>
  simp only [Option.some.injEq, Prod.mk.injEq] at g1
  rw [← hlens] at hloop
  have hstart : Laid p.good (r.format.headerName ++ [':']) (r.format.headerName ++ [':']) :=
    ⟨[], .single (by
      rw [List.mem_append, not_or]
      exact ⟨validName_noLf hn, by decide⟩), by simp⟩
  have hb : c!"b" ∈ computeTagNames E.sortBy u r.format.tagOrder := by
    rw [(computeTagNames_perm hs u r.format.tagOrder).mem_iff, tagNamesUnsorted_eq]
    exact List.mem_append_left _ (fixedNames_b u)
  obtain ⟨before', after', e1, e2, lastb, l1, l2⟩ := formatLoop_bound (p := p) law hf ok hof h2.indent hn
    (valChars_noLf (base64_valChars sig)) _ hloop g3 hb (pre := r.format.headerName ++ [':']) (by simpa using hstart)
      (.inr (.inl rfl)) ⟨by simp [hna, p], fun e => absurd e (by decide)⟩
  have e3 : before' ++ after' = before ++ after := by rw [← e1, g1.1]
  have e4 : byteLen before' = byteLen before := by
    rw [e2] at hins
    injection hins with hins
    rw [hins, g1.2]
  have e5 : before' = before ∧ after' = after := by
    have a1 := splitAtByte_append before' after'
    have a2 := splitAtByte_append before after
    rw [e3, e4, a2] at a1
    simpa using a1.symm
  obtain ⟨rfl, rfl⟩ := e5
  have hcol := insertion_column (validName_noLf hn) hna (by simpa using l1)
  have htext : text = (formatChunks ⟨p.width, p.indent, false, false⟩ lastb.length (encodeBase64 sig)).1 := by
    have : insertSignatureData (before' ++ after') (byteLen before') r.format.headerName sig r.format.lineWidth
        r.format.indentation = some (before' ++
          (formatChunks ⟨p.width, p.indent, false, false⟩
            (if (lastLine before').2 = true then (lastLine before').1.length
              else byteLen r.format.headerName + (lastLine before').1.length + 1) (encodeBase64 sig)).1 ++ after') := by
      unfold insertSignatureData
      rw [splitAtByte_append]
    rw [k2, hcol] at this
    simpa using this
  rw [← htext] at l2
  obtain ⟨ls1, w, l, ls2, q1, q2, q3, q4, q5⟩ := l2
  have g5 := g4 text
  obtain ⟨tags, m1, m2, _⟩ := formatted_listText law hf (GoodIndent.fws h2.indent)
    (folded_base64_value h2.indent k3) (names := ns1 ++ [c!"b"]) (ns2 := []) (t2 := [])
    ⟨rfl, g5.before, g5.lead_ok, .nil⟩
  refine ⟨before' ++ text, after', rfl, ?_, ?_, ls1, w, l, ls2, by simpa using q1, q2, by simpa using q3, q4, q5⟩
  · obtain ⟨front, rest, e2, e3, e4⟩ := List.map_eq_append_iff.1 m1
    obtain ⟨⟨bn, bv⟩, back, e5, e6, e7⟩ := List.map_eq_cons_iff.1 e4
    simp only at e6
    subst e6
    have : back = [] := by simpa using e7
    subst this
    subst e5
    subst e2
    rw [← g2] at m2
    exact ⟨front, bv, by simpa using m2⟩
  · cases g5.after with
    | nil => exact .inl rfl
    | cons n p ns t _ _ => exact .inr ⟨p ++ t, rfl⟩

/-- C49, in all cases: a line of the produced header that is longer than the line width plus one
and is not a single item is still bounded, normally by twice the line width plus one. -/
theorem C49_bound (law : IdnaLaw E.idna) (hs : SortLaw E.sortBy) (hset : SetLaw E.keySet)
    (hsign : SignLaw E.crypto)
    (headers : List Field) (requests : List (SignRequest E)) (hh : TypedHeaders headers)
    (ht : ∀ r ∈ requests, TypedRequest r) (chunks : List Bytes) (clock : Nat → Nat)
    (out : List (Except SigningError SigningOutput))
    (h : Signed headers requests chunks clock out)
    (hlen : ∀ k, (codeBody k chunks.flatten).length < 2 ^ 64) (i : Nat) (r : SignRequest E) (o : SigningOutput)
    (hr : requests[i]? = some r) (ho : out[i]? = some (.ok o)) :
    ∀ line ∈ lines (o.headerName ++ ':' :: o.headerValue),
      FitsLine r.format.lineWidth r.format.indentation o.headerName o.signature line ∨
        line.length ≤ max r.format.lineWidth (r.format.indentation.length + 2) + r.format.lineWidth + 1 := by
  obtain ⟨_, _, _, _, _, ls1, w, l, ls2, _, _, h3, h4, h5⟩ :=
    C49_one_line law hs hset hsign headers requests hh ht chunks clock out h hlen i r o hr ho
  intro line hline
  rw [h3] at hline
  simp only [List.mem_append, List.mem_cons] at hline
  rcases hline with hm | rfl | hm
  · exact .inl (h4 line (by simp [hm]))
  · exact h5
  · exact .inl (h4 line (by simp [hm]))

/-- C49, part: each line of the produced header is at most one character longer than the
line width, unless it consists of only one item that the signer does not break (and the
indentation), or of the name of the header field. Missing, and not true (see
`C49_violation`): the case that in the produced header an extension tag of which the value
has line breaks is before the tag `b`. -/
theorem C49_line_width_partial (law : IdnaLaw E.idna) (hs : SortLaw E.sortBy) (hset : SetLaw E.keySet)
    (hsign : SignLaw E.crypto)
    (headers : List Field) (requests : List (SignRequest E)) (hh : TypedHeaders headers)
    (ht : ∀ r ∈ requests, TypedRequest r) (chunks : List Bytes) (clock : Nat → Nat)
    (out : List (Except SigningError SigningOutput))
    (h : Signed headers requests chunks clock out)
    (hlen : ∀ k, (codeBody k chunks.flatten).length < 2 ^ 64) (i : Nat) (r : SignRequest E) (o : SigningOutput)
    (hr : requests[i]? = some r) (ho : out[i]? = some (.ok o))
    (hord : ∀ tags front b back, ListText tags o.headerValue → tags = front ++ (c!"b", b) :: back →
      ∀ t ∈ front, t ∈ r.extTags → '\n' ∉ t.2) :
    ∀ line ∈ lines (o.headerName ++ ':' :: o.headerValue),
      FitsLine r.format.lineWidth r.format.indentation o.headerName o.signature line := by
  refine lines_fit law hs hset hsign headers requests hh ht chunks clock out h hlen i r o hr ho ?_
  intro part hpart hf ns1 ns2 e t htm htn
  obtain ⟨_, _, _, part', sig, bText, tags, h4, _, _, _, h8, h9, h10, _⟩ :=
    output_tags law hs hset hh ht h hlen hr ho
  rw [hpart] at h4
  injection h4 with h4
  subst h4
  obtain ⟨tags', k1, _, _, _, _, k2⟩ := C64_tags law hs hset headers requests hh ht chunks clock out h hlen i r hr o ho
  have e1 := (k1 tags).1 h10
  subst e1
  rw [e] at h8
  obtain ⟨front, rest, e2, e3, e4⟩ := List.map_eq_append_iff.1 h8
  obtain ⟨⟨bn, bv⟩, back, e5, e6, e7⟩ := List.map_eq_cons_iff.1 e4
  simp only at e6
  subst e6
  subst e5
  refine hord tags front bv back h10 e2 t ?_ htm
  have hm := k2 t htm
  rw [e2] at hm h9
  rcases List.mem_append.1 hm with hm | hm
  · exact hm
  · rw [List.map_append, e3] at h9
    exact absurd rfl ((List.nodup_append.1 h9).2.2 _ htn _ (List.mem_map_of_mem hm))

/-- C49 for the default order of tags: without exception. -/
theorem C49_default_order (law : IdnaLaw E.idna) (hs : SortLaw E.sortBy) (hset : SetLaw E.keySet)
    (hsign : SignLaw E.crypto)
    (headers : List Field) (requests : List (SignRequest E)) (hh : TypedHeaders headers)
    (ht : ∀ r ∈ requests, TypedRequest r) (chunks : List Bytes) (clock : Nat → Nat)
    (out : List (Except SigningError SigningOutput))
    (h : Signed headers requests chunks clock out)
    (hlen : ∀ k, (codeBody k chunks.flatten).length < 2 ^ 64) (i : Nat) (r : SignRequest E) (o : SigningOutput)
    (hr : requests[i]? = some r) (ho : out[i]? = some (.ok o))
    (hord : r.format.tagOrder = none) :
    ∀ line ∈ lines (o.headerName ++ ':' :: o.headerValue),
      FitsLine r.format.lineWidth r.format.indentation o.headerName o.signature line := by
  refine lines_fit law hs hset hsign headers requests hh ht chunks clock out h hlen i r o hr ho ?_
  intro part _ hf ns1 ns2 e t htm htn
  rw [hord] at e
  exact absurd htn (ext_after_b hf e t htm)

/-! ## Concrete runs -/

/-- Narrow lines, no tag order. -/
def narrowRequest : SignRequest testEnv :=
  { testRequest with
    extTags := [(c!"y", c!"A\r\n B"), (c!"unusual_extension", c!"value")]
    format := { testRequest.format with lineWidth := 14 } }

set_option maxRecDepth 20000 in
/-- Non-vacuity: a run as in `C49_line_width_partial`, with many lines, one of which has
the line width plus one character, and one of which is longer. -/
theorem test_line_width : ∃ o, TestRun testHeaders narrowRequest o ∧ narrowRequest.format.tagOrder = none ∧
    20 < (lines (o.headerName ++ ':' :: o.headerValue)).length ∧
    (∃ line ∈ lines (o.headerName ++ ':' :: o.headerValue), line.length = 15) ∧
    ∃ line ∈ lines (o.headerName ++ ':' :: o.headerValue), 15 < line.length :=
  ⟨_, ⟨testHeaders_typed, typed_of_check (by decide), _, _, _, rfl, rfl, rfl⟩, rfl, by decide, by decide, by decide⟩

/-- A tag order in which a folded extension tag is behind `b`. -/
def orderedBehind : SignRequest testEnv :=
  { narrowRequest with
    format := { narrowRequest.format with
      tagOrder := some fun a b => compare (if a = c!"b" then 0 else 1) (if b = c!"b" then 0 else 1) } }

set_option maxRecDepth 20000 in
/-- Non-vacuity: a run as in `C49_line_width_partial` with a tag order and a folded value. -/
theorem test_line_width_ordered : ∃ o, TestRun testHeaders orderedBehind o ∧
    (∀ tags front b back, ListText tags o.headerValue → tags = front ++ (c!"b", b) :: back →
      ∀ t ∈ front, t ∈ orderedBehind.extTags → '\n' ∉ t.2) ∧
    (∃ t ∈ orderedBehind.extTags, '\n' ∈ t.2) ∧ orderedBehind.format.tagOrder ≠ none := by
  have run : ∃ o, TestRun testHeaders orderedBehind o :=
    ⟨_, ⟨testHeaders_typed, typed_of_check (by decide), _, _, _, rfl, rfl, rfl⟩⟩
  obtain ⟨o, hrun⟩ := run
  refine ⟨o, hrun, ?_, ⟨(c!"y", c!"A\r\n B"), by decide, by decide⟩, nofun⟩
  obtain ⟨h1, h2, h3⟩ := hrun
  obtain ⟨tags, k1, _, k2, k3, _⟩ := C64_tags testEnv_idna testEnv_sort testEnv_set testHeaders [orderedBehind] h1
    (by simpa using h2) _ _ _ h3 (fun k => Nat.lt_of_le_of_lt (m := 4) (by cases k <;> decide) (by decide)) 0
    orderedBehind rfl o rfl
  have k4 := k2 _ rfl
  rintro tags' front b back ht rfl t htf -
  obtain rfl := (k1 _).1 ht
  have hfirst : ∀ l : List Str, l.head? = some c!"b" → l.Nodup →
      ∀ f r, l = f ++ c!"b" :: r → f = [] := by
    intro l hl hn f r e
    cases f with
    | nil => rfl
    | cons x f =>
      subst e
      simp only [List.cons_append, List.head?_cons, Option.some.injEq] at hl
      subst hl
      simp at hn
  have := hfirst _ (by rw [k4]; decide) k3 (front.map (·.1)) (back.map (·.1)) (by simp)
  rw [List.map_eq_nil_iff] at this
  rw [this] at htf
  cases htf

/-- First `y`, then `b`, then the other tags. -/
def rankOf (n : Str) : Nat := if n = c!"y" then 0 else if n = c!"b" then 1 else 2

/-- A tag order, and an extension tag with a line break. -/
def orderedRequest : SignRequest testEnv :=
  { testRequest with
    extTags := [(c!"y", c!"A\r\n B")]
    format := { testRequest.format with
      lineWidth := 100
      tagOrder := some fun a b => compare (rankOf a) (rankOf b) } }

theorem lines_length (s : Str) : ∀ l ∈ lines s, l.length ≤ s.length := by
  fun_induction lines s with
  | case1 => simp
  | case2 r ih =>
    intro l hl
    rcases List.mem_cons.1 hl with rfl | hl
    · simp
    · have := ih l hl
      simp; omega
  | case3 c r h x xs hx ih =>
    rw [hx] at ih
    intro l hl
    rcases List.mem_cons.1 hl with rfl | hl
    · have := ih x (by simp)
      simp; omega
    · have := ih l (by simp [hl])
      simp; omega
  | case4 => simp

/-- A line with more than one tag, and longer than all names, is not (a line of) one item. -/
theorem not_item {sig : DkimSignature} {indent line : Str}
    (hi : '\n' ∉ indent ∧ ';' ∉ indent) (hsemi : ';' ∈ line.dropLast)
    (h1 : indent.length + 10 ≤ line.length)
    (h2 : ∀ n ∈ sig.signedHeaders, indent.length + n.length + 10 ≤ line.length)
    (h3 : ∀ n ∈ sig.copiedHeaders.map (·.1), indent.length + n.length + 10 ≤ line.length)
    (h4 : ∀ t ∈ sig.extTags, indent.length + t.1.length + t.2.length + 10 ≤ line.length) :
    ¬ ∃ item, Item sig item ∧ line ∈ lines (indent ++ item) := by
  rintro ⟨item, hitem, hl⟩
  have hle := lines_length _ _ hl
  have hend : ∀ e, TagEnd e → e.length ≤ 1 := by rintro e (rfl | rfl) <;> decide
  cases hitem with
  | tag n v e hn hv hlf he =>
    have hnn : '\n' ∉ n ∧ ';' ∉ n := by
      clear hl hle
      revert n
      decide
    rw [lines_noLf (by
      simp only [List.mem_append, List.mem_cons, not_or]
      exact ⟨hi.1, ⟨hnn.1, by decide, hlf⟩, tagEnd_noLf he⟩)] at hl
    simp only [List.mem_singleton] at hl
    have hno : ';' ∉ indent ++ (n ++ '=' :: v) := by
      simp only [List.mem_append, List.mem_cons, not_or]
      exact ⟨hi.2, hnn.2, by decide, hv⟩
    rcases he with rfl | rfl
    · rw [hl, List.append_nil] at hsemi
      exact hno (List.dropLast_subset _ hsemi)
    · rw [hl, ← List.append_assoc, List.dropLast_concat] at hsemi
      exact hno hsemi
  | ext n v e hm he =>
    have h5 := h4 _ hm
    have := hend e he
    simp only at h5
    simp only [List.length_append, List.length_cons] at hle this
    omega
  | name q n e hq hm he =>
    have := h2 _ hm
    have a1 : e.length ≤ 1 := by
      rcases he with he | rfl
      · exact hend e he
      · decide
    have a2 : q.length ≤ 2 := by rcases hq with rfl | rfl <;> decide
    simp only [List.length_append, List.length_cons] at hle this
    omega
  | copied q n e hq hm he =>
    have := h3 _ hm
    have := hend e he
    have a2 : q.length ≤ 2 := by rcases hq with rfl | rfl <;> decide
    simp only [List.length_append, List.length_cons] at hle this
    omega
  | start n e hn he =>
    have := hend e he
    have a2 : n.length ≤ 2 := by
      clear hl hle
      revert n
      decide
    simp only [List.length_append, List.length_cons] at hle this
    omega
  | char c e he =>
    have := hend e he
    simp only [List.length_append, List.length_cons] at hle this
    omega

set_option maxRecDepth 20000 in
/-- C49 is violated: the signer computes the column after an extension tag as if its value
had no line breaks, and so expects the value of `b=`, which is inserted later, to be folded
where it is not. -/
theorem C49_violation : ∃ o, TestRun testHeaders orderedRequest o ∧
    ∃ line ∈ lines (o.headerName ++ ':' :: o.headerValue), line.length = 168 ∧
      ¬ FitsLine orderedRequest.format.lineWidth orderedRequest.format.indentation o.headerName o.signature line := by
  have run : ∃ o, TestRun testHeaders orderedRequest o ∧
      ((lines (o.headerName ++ ':' :: o.headerValue))[1]?.map (fun l => (l.length, l.dropLast.contains ';')) = some (168, true) ∧
      o.headerName.length = 14 ∧
      (∀ n ∈ o.signature.signedHeaders, n.length ≤ 20) ∧
      (∀ n ∈ o.signature.copiedHeaders.map (·.1), n.length ≤ 20) ∧
      ∀ t ∈ o.signature.extTags, t.1.length + t.2.length ≤ 20) :=
    ⟨_, ⟨testHeaders_typed, typed_of_check (by decide), _, _, _, rfl, rfl, rfl⟩, by decide⟩
  obtain ⟨o, h1, h2, h3, h4, h5, h6⟩ := run
  obtain ⟨line, hl, e⟩ := Option.map_eq_some_iff.1 h2
  simp only [Prod.mk.injEq, List.contains_iff_mem] at e
  refine ⟨o, h1, line, List.mem_of_getElem? hl, e.1, ?_⟩
  have hw : orderedRequest.format.lineWidth = 100 := rfl
  have hi : orderedRequest.format.indentation = c!"\t" := rfl
  rw [hw, hi]
  rintro (h | h | h)
  · omega
  · have := congrArg List.length h
    simp only [List.length_append, List.length_cons, List.length_nil] at this
    omega
  · refine not_item (by decide) e.2 ?_ ?_ ?_ ?_ h
    · rw [e.1]; decide
    · intro n hn
      have := h4 n hn
      simp only [List.length_cons, List.length_nil]
      omega
    · intro n hn
      have := h5 n hn
      simp only [List.length_cons, List.length_nil]
      omega
    · intro t ht
      have := h6 t ht
      simp only [List.length_cons, List.length_nil]
      omega

end Dkim
