import Verif.Proofs.Flow
import Verif.Props.LineWidth
import Verif.Props.Written

/-!
# Property C93: how the lines of the produced header are filled
-/

namespace Dkim

open Spec

variable {E : Env}

/-- C93: the produced header value is that of the words of its tags, in the requested order, put
into lines one after the other behind the name of the header field: a word goes into the current
line if there is room for it, else into a new line. Excepted is the case that a custom order puts
an extension tag of which the value has line breaks before `b` (see `C49_violation`). -/
theorem C93_layout (law : IdnaLaw E.idna) (hs : SortLaw E.sortBy) (hset : SetLaw E.keySet)
    (hsign : SignLaw E.crypto)
    (headers : List Field) (requests : List (SignRequest E)) (hh : TypedHeaders headers)
    (ht : ∀ r ∈ requests, TypedRequest r) (chunks : List Bytes) (clock : Nat → Nat)
    (out : List (Except SigningError SigningOutput))
    (h : Signed headers requests chunks clock out)
    (hlen : ∀ k, (codeBody k chunks.flatten).length < 2 ^ 64) (i : Nat) (r : SignRequest E) (o : SigningOutput)
    (hr : requests[i]? = some r) (ho : out[i]? = some (.ok o)) :
    ∃ names, (r.format.tagOrder = none → names = requestedTags r) ∧
      (∀ cmp, r.format.tagOrder = some cmp → names = E.sortBy cmp (requestedTags r)) ∧
      ((r.format.tagOrder = none ∨
          ∀ front back, names = front ++ c!"b" :: back → ∀ t ∈ r.extTags, t.1 ∈ front → '\n' ∉ t.2) →
        ∃ words, ListWords E.idna r.format.asciiOnly o.signature names words ∧
          o.headerValue =
            flow r.format.lineWidth r.format.indentation (o.headerName.length + 1) words) := by
  obtain ⟨h1, h2, h3, part, h4, h5⟩ := signed_output law hs hset hh ht h hlen hr ho
  have hf := sigData_fine h1 h2 hh h3 part (clock i)
  have hreq := requestedTags_eq h1 h2 hh h3 part (clock i)
  obtain ⟨ns1, ns2, before, after, g1, ⟨t1, lead, g2, g3, g4⟩, hp⟩ := produceSignature_spec law hs hf
    r.signingKey h2.keyType r.format h2.indent headers
  rcases hp with ⟨_, e⟩ | ⟨sig, text, k1, k2, k3, e⟩
  · rw [h5] at e; cases e
  rw [h5] at e
  injection e with e
  subst e
  simp only
  generalize hu : sigData r headers part (clock i) = u at *
  have hext : u.extTags = r.extTags := by rw [← hu]; rfl
  refine ⟨computeTagNames E.sortBy u r.format.tagOrder, ?_, ?_, ?_⟩
  · intro hn
    rw [hn, ← hreq]
    rfl
  · intro cmp hn
    rw [hn, ← hreq]
    rfl
  intro hord
  have hlens : (encodeBase64 sig).length = estimateBTagLength r.signingKey.signatureLength := by
    rw [encodeBase64_length, signWith_length hsign k1]; rfl
  have hn : ValidName r.format.headerName := lower_validName h2.headerName
  have hna : byteLen r.format.headerName = r.format.headerName.length :=
    byteLen_ascii _ (fun c hc => by have := (hn.2 c hc).2.1; omega)
  let p : Lay := ⟨r.format.lineWidth, r.format.indentation, r.format.headerName, withSignature u sig⟩
  have ok : p.Ok := by
    refine ⟨fun hm => wsp_noLf (h2.indent.2 _ hm) rfl, byteLen_ascii _ ?_⟩
    intro c hc
    rcases h2.indent.2 c hc with rfl | rfl <;> decide
  have hof : p.Of u := ⟨rfl, rfl, rfl⟩
  unfold formatWithoutSignature at g1
  simp only at g1
  split at g1
  · cases g1
  next st' hloop =>
  split at g1
  · cases g1
  next ins hins =>
  simp only [Option.some.injEq, Prod.mk.injEq] at g1
  rw [← hlens] at hloop
  have hstart : Laid p.good (r.format.headerName ++ [':']) (r.format.headerName ++ [':']) :=
    ⟨[], .single (by
      rw [List.mem_append, not_or]
      exact ⟨validName_noLf hn, by decide⟩), by simp⟩
  have hb : c!"b" ∈ computeTagNames E.sortBy u r.format.tagOrder := by
    rw [(computeTagNames_perm hs u r.format.tagOrder).mem_iff, tagNamesUnsorted_eq]
    exact List.mem_append_left _ (fixedNames_b u)
  have hcn : c!"c" ∈ computeTagNames E.sortBy u r.format.tagOrder → u.canonicalization ≠ ⟨.simple, .simple⟩ := by
    intro hm e
    rw [(computeTagNames_perm hs u r.format.tagOrder).mem_iff, tagNamesUnsorted_eq, List.mem_append,
      mem_fixedNames] at hm
    rcases hm with hm | hm
    · revert hm
      rw [e]
      simp
    · obtain ⟨t, ht, e⟩ := List.mem_map.1 hm
      have := (hf.ext t ht).2.2
      rw [e] at this
      cases this
  obtain ⟨b0, after', lastb, ws, e1, e2, l1, l2, l3⟩ := formatLoop_flow (p := p) law hf ok hof sig _ hloop g3 hb hcn (by
      intro ns1 ns2 e t htm htn
      rcases hord with hord | hord
      · rw [hord] at e
        exact absurd htn (ext_after_b hf e t htm)
      · exact hord ns1 ns2 e t (hext ▸ htm) htn) (pre := r.format.headerName ++ [':']) (by simpa using hstart)
      (.inr (.inl rfl)) ⟨by simp [hna, p], fun _ => by simp [hna, p]⟩
  simp only [List.nil_append] at e1 e2 l1
  have e3 : b0 ++ after' = before ++ after := by rw [← e1, g1.1]
  have e4 : byteLen b0 = byteLen before := by
    rw [e2] at hins
    injection hins with hins
    rw [hins, g1.2]
  have e5 : b0 = before ∧ after' = after := by
    have a1 := splitAtByte_append b0 after'
    have a2 := splitAtByte_append before after
    rw [e3, e4, a2] at a1
    simpa using a1.symm
  obtain ⟨rfl, rfl⟩ := e5
  have hcol := insertion_column (validName_noLf hn) hna (by simpa using l1)
  have htext : text = (formatChunks ⟨p.width, p.indent, false, false⟩ lastb.length (encodeBase64 sig)).1 := by
    have : insertSignatureData (b0 ++ after') (byteLen b0) r.format.headerName sig r.format.lineWidth
        r.format.indentation = some (b0 ++
          (formatChunks ⟨p.width, p.indent, false, false⟩
            (if (lastLine b0).2 = true then (lastLine b0).1.length
              else byteLen r.format.headerName + (lastLine b0).1.length + 1) (encodeBase64 sig)).1 ++ after') := by
      unfold insertSignatureData
      rw [splitAtByte_append]
    rw [k2, hcol] at this
    simpa using this
  refine ⟨ws, l2, ?_⟩
  rw [htext, l3]
  show flow r.format.lineWidth r.format.indentation (byteLen r.format.headerName + 1) ws = _
  rw [hna]

/-- C93: only one text is laid out like this, since the words of the tags are determined by their
names and the signature. -/
theorem C93_determined (ix : Idna) (ascii : Bool) (sig : DkimSignature) (hext : (sig.extTags.map (·.1)).Nodup)
    (names : List Str) (a b : List Word) (ha : ListWords ix ascii sig names a)
    (hb : ListWords ix ascii sig names b) : a = b := by
  have copied : ∀ hs a b, CopiedWords ascii hs a → CopiedWords ascii hs b → a = b := by
    intro hs a b h1
    induction h1 generalizing b with
    | nil => intro h2; cases h2; rfl
    | cons n v t rest ws g1 g2 ih =>
      intro h2
      cases h2 with
      | cons _ _ t' _ ws' k1 k2 => rw [qpWritten_unique g1 k1, ih _ k2]
  have tag : ∀ e n a b, TagWords ix ascii sig e n a → TagWords ix ascii sig e n b → a = b := by
    intro e n a b h1 h2
    generalize en : n = m at h2
    cases h1 with
    | whole n v g1 g2 =>
      cases h2 with
      | whole m w k1 k2 =>
        subst en
        rw [(C92_determined ix ascii sig hext n v w g2 k2).2 g1]
      | b => exact absurd (by simp [en]) g1
      | bh => exact absurd (by simp [en]) g1
      | h => exact absurd (by simp [en]) g1
      | z => exact absurd (by simp [en]) g1
    | b =>
      cases h2 with
      | whole m w k1 k2 => exact absurd (by simp [← en]) k1
      | b => rfl
      | bh => exact absurd en (by decide)
      | h => exact absurd en (by decide)
      | z => exact absurd en (by decide)
    | bh =>
      cases h2 with
      | whole m w k1 k2 => exact absurd (by simp [← en]) k1
      | b => exact absurd en (by decide)
      | bh => rfl
      | h => exact absurd en (by decide)
      | z => exact absurd en (by decide)
    | h n ns g =>
      cases h2 with
      | whole m w k1 k2 => exact absurd (by simp [← en]) k1
      | b => exact absurd en (by decide)
      | bh => exact absurd en (by decide)
      | h m ms k =>
        rw [g] at k
        injection k with k1 k2
        rw [k1, k2]
      | z => exact absurd en (by decide)
    | z n v t rest ws g1 g2 g3 =>
      cases h2 with
      | whole m w k1 k2 => exact absurd (by simp [← en]) k1
      | b => exact absurd en (by decide)
      | bh => exact absurd en (by decide)
      | h => exact absurd en (by decide)
      | z m w t' rest' ws' k1 k2 k3 =>
        rw [g1] at k1
        injection k1 with k4 k5
        injection k4 with k6 k7
        subst k5 k6 k7
        rw [qpWritten_unique g2 k2, copied _ _ _ g3 k3]
  induction ha generalizing b with
  | last n ws g =>
    cases hb with
    | last _ ws' k => exact tag _ _ _ _ g k
    | more _ ws' _ rest' k1 k2 => cases k2
  | more n ws ns rest g1 g2 ih =>
    cases hb with
    | last _ ws' k => cases g2
    | more _ ws' _ rest' k1 k2 => rw [tag _ _ _ _ g1 k1, ih _ k2]

/-- C93: if the line width is large enough for all words, the header has only one line. -/
theorem C93_one_line (ix : Idna) (ascii : Bool) (sig : DkimSignature) (names : List Str) (words : List Word)
    (h : ListWords ix ascii sig names words) (width col : Nat) (indent : Str)
    (hw : col + (words.map fun w => w.lead ++ w.text).flatten.length + 1 ≤ width) :
    flow width indent col words = (words.map fun w => w.lead ++ w.text).flatten := by
  have hattach : ∀ e ws, (∀ w ∈ ws, w.need ≤ w.text.length + 1) → ∀ w ∈ attach e ws, w.need ≤ w.text.length + 1 := by
    intro e ws
    induction ws with
    | nil => intro _ w hw; cases hw
    | cons x ws ih =>
      intro hx w hw
      cases ws with
      | nil =>
        simp only [attach, List.mem_singleton] at hw
        subst hw
        have := hx x (by simp)
        simp only [List.length_append]
        omega
      | cons y ws =>
        rw [attach] at hw
        · rcases List.mem_cons.1 hw with rfl | hw
          · exact hx _ (by simp)
          · exact ih (fun v hv => hx v (List.mem_cons_of_mem _ hv)) w hw
        · simp
  have hloose : ∀ s, ∀ w ∈ loose s, w.need ≤ w.text.length + 1 := by
    intro s w hw
    obtain ⟨c, _, rfl⟩ := List.mem_map.1 hw
    simp
  have hcopied : ∀ hs ws, CopiedWords ascii hs ws → ∀ w ∈ ws, w.need ≤ w.text.length + 1 := by
    intro hs ws h
    induction h with
    | nil => intro w hw; cases hw
    | cons n v t rest ws _ _ ih =>
      intro w hw
      simp only [List.cons_append, List.mem_cons, List.mem_append] at hw
      rcases hw with rfl | rfl | hw | hw
      · simp
      · simp
      · exact hloose _ w hw
      · exact ih w hw
  have hnames : ∀ e sp ns, ∀ w ∈ nameWords e sp ns, w.need ≤ w.text.length + 1 := by
    intro e sp ns
    induction ns generalizing sp with
    | nil => intro w hw; cases hw
    | cons n ns ih =>
      intro w hw
      cases ns with
      | nil =>
        simp only [nameWords, List.mem_singleton] at hw
        subst hw
        simp
      | cons m ns =>
        rw [nameWords] at hw
        · rcases List.mem_cons.1 hw with rfl | hw
          · simp
          · exact ih false w hw
        · simp
  have htag : ∀ e n ws, TagWords ix ascii sig e n ws → ∀ w ∈ ws, w.need ≤ w.text.length + 1 := by
    intro e n ws h
    cases h with
    | whole n v _ _ => intro w hw; rw [List.mem_singleton.1 hw]; simp
    | b =>
      refine hattach _ _ ?_
      intro w hw
      rcases List.mem_cons.1 hw with rfl | hw
      · decide
      · exact hloose _ w hw
    | bh =>
      refine hattach _ _ ?_
      intro w hw
      rcases List.mem_cons.1 hw with rfl | hw
      · decide
      · exact hloose _ w hw
    | h n ns _ => exact hnames _ _ _
    | z n v t rest ws _ _ hc =>
      refine hattach _ _ ?_
      intro w hw
      simp only [List.cons_append, List.mem_cons, List.mem_append] at hw
      rcases hw with rfl | hw | hw
      · simp
      · exact hloose _ w hw
      · exact hcopied _ _ hc w hw
  have hall : ∀ w ∈ words, w.need ≤ w.text.length + 1 := by
    clear hw
    induction h with
    | last n ws g => exact htag _ _ _ g
    | more n ws ns rest g _ ih =>
      intro w hw
      rcases List.mem_append.1 hw with hw | hw
      · exact htag _ _ _ g w hw
      · exact ih w hw
  clear h hattach hloose hcopied hnames htag
  induction words generalizing col with
  | nil => rfl
  | cons w ws ih =>
    have h1 := hall w (by simp)
    simp only [List.map_cons, List.flatten_cons, List.length_append] at hw
    rw [flow, if_pos (by omega), ih _ (by omega) (fun v hv => hall v (List.mem_cons_of_mem _ hv))]
    simp

/-! ## Concrete runs -/

set_option maxRecDepth 20000 in
/-- Non-vacuity of `C93_layout`: runs in which the lines are narrow, in which there is a custom order
and a value with line breaks, and in which all tags are present. -/
example : (∃ o, TestRun testHeaders narrowRequest o) ∧ (∃ o, TestRun testHeaders orderedBehind o) ∧
    ∃ o, TestRun testHeaders testRequest o :=
  ⟨⟨_, testHeaders_typed, typed_of_check (by decide), _, _, _, rfl, rfl, rfl⟩,
    ⟨_, testHeaders_typed, typed_of_check (by decide), _, _, _, rfl, rfl, rfl⟩,
    ⟨_, testHeaders_typed, typed_of_check (by decide), _, _, _, rfl, rfl, rfl⟩⟩

/-- How words are put into lines: `b=` must leave room for a character; the last semicolon
needs no room. -/
example :
    flow 12 c!"  " 4 (attach [';'] (⟨true, c!"b=", 3⟩ :: loose c!"abcde") ++ [⟨true, c!"s=x", 3⟩]) =
      c!" b=abcde;\r\n  s=x" ∧
    flow 10 c!"  " 4 (attach [';'] (⟨true, c!"b=", 3⟩ :: loose c!"abcdefghij") ++ nameWords [] true [c!"h=ab", c!"cd"]) =
      c!" b=abc\r\n  defghij;\r\n  h=ab:cd" ∧
    flow 7 c!"  " 5 (⟨true, c!"b=", 3⟩ :: loose c!"abcdefg") = c!"\r\n  b=abc\r\n  defg" := by decide

end Dkim
