import Verif.Proofs.HeaderText

/-!
# Properties C07 to C12: header canonicalization and the data hash input

`Spec.ValidName`, `Spec.ValidBody` say what a valid header field is
(`Verif/Spec/Header.lean`); C23 shows that they are what the code accepts.
-/

namespace Dkim

open Spec

/-! ## C07 -/

/-- C07: for valid header fields the code does exactly the steps of RFC 6376,
section 3.4.2, in order. -/
theorem C07_relaxed_header_steps (n : Str) (v : Bytes) (hv : ValidBody v) :
    canonHeader .relaxed n v = utf8 (lower n) ++ b!":" ++ relaxSteps v := by
  rw [canonHeader_eq, relaxSteps_eq hv.foldsOnly]; rfl

/-- C07: and for arbitrary bytes the value becomes its words joined by single
spaces. -/
theorem C07_relaxed_header_words (n : Str) (v : Bytes) :
    canonHeader .relaxed n v = utf8 (lower n) ++ b!":" ++ joinWords (words v) := canonHeader_eq _ _ _

/-- C07 for simple: the field is unchanged. -/
theorem C07_simple_header (n : Str) (v : Bytes) :
    canonHeader .simple n v = utf8 n ++ b!":" ++ v := rfl

/-- Non-vacuity: a folded valid value, and what becomes of it. -/
example : ValidBody b!" Hello\r\n \t World  " ∧
    canonHeader .relaxed c!"SubJect" b!" Hello\r\n \t World  " = b!"subject:Hello World" := by
  refine ⟨(fieldBodyOk_iff _).1 (by decide), by decide⟩

/-! ## C08 -/

/-- C08: values with the same words, however they are spaced and folded, and names
that differ only in case, have the same relaxed form. -/
theorem C08_refolding_invisible (n n' : Str) (ws : List Bytes) (v v' : Bytes)
    (hn : sameName n n' = true) (h : Spaced ws v) (h' : Spaced ws v') :
    canonHeader .relaxed n v = canonHeader .relaxed n' v' := by
  rw [canonHeader_eq, canonHeader_eq, canonField, canonField, rfcRelaxedValue, rfcRelaxedValue,
    spaced_words h, spaced_words h', (sameName_iff _ _).1 hn]

/-- C08: every value is some words with some spacing, and only one sequence of
words fits, so C08_refolding_invisible covers all values. -/
theorem C08_every_value_has_words (v : Bytes) : ∃ ws, Spaced ws v ∧ ∀ ws', Spaced ws' v → ws' = ws :=
  ⟨words v, words_spaced v, fun _ h => (spaced_words h).symm⟩

/-- C08: distinct word sequences, or names that differ in more than case, give
distinct forms. -/
theorem C08_distinct_words_distinct_forms (n n' : Str) (ws ws' : List Bytes) (v v' : Bytes)
    (hn : ValidName n) (hn' : ValidName n') (h : Spaced ws v) (h' : Spaced ws' v')
    (e : canonHeader .relaxed n v = canonHeader .relaxed n' v') :
    sameName n n' = true ∧ ws = ws' := by
  rw [canonHeader_eq, canonHeader_eq] at e
  have := (canonField_injective .relaxed hn hn' e).2 rfl
  rw [spaced_words h, spaced_words h'] at this
  exact ⟨(sameName_iff _ _).2 this.1, this.2⟩

/-- C08: the form of a value contains no CR and no LF, and is its own form. -/
theorem C08_idempotent (v : Bytes) :
    (∀ b ∈ canonHeaderValueRelaxed v, b ≠ 13 ∧ b ≠ 10) ∧
    canonHeaderValueRelaxed (canonHeaderValueRelaxed v) = canonHeaderValueRelaxed v := by
  simp only [canonHeaderValueRelaxed_eq]
  refine ⟨rfcRelaxedValue_noCrLf v, ?_⟩
  rw [rfcRelaxedValue, rfcRelaxedValue, words_joinWords _ (words_isWord v)]

/-- Non-vacuity: two spacings of the words `a`, `bc`. -/
example : Spaced [b!"a", b!"bc"] b!" a\r\n bc" ∧ Spaced [b!"a", b!"bc"] b!"a\t bc \r\n" := by
  refine ⟨words_spaced b!" a\r\n bc", words_spaced b!"a\t bc \r\n"⟩

/-! ## C09 -/

/-- C09: the canonicalized header data is the concatenation of the selected
fields, each in canonical form and followed by CRLF; `selectedFields` takes for
each mention of a name the next instance from the bottom. -/
theorem C09_selected_from_bottom (alg : CanonAlg) (headers : List Field) (sel : List Str) :
    canonHeaders alg headers sel
      = (selectedFields headers sel).flatMap fun f => canonField alg f.name f.body ++ b!"\r\n" := by
  rw [canonHeaders_eq, pick_eq, selectedFields]
  congr 1
  funext f; rw [canonHeader_eq]; rfl

/-- Non-vacuity: two mentions of a name that occurs three times select the last
and the last but one; a third name is absent. -/
example : selectedFields
    [⟨c!"A", b!"1"⟩, ⟨c!"a", b!"2"⟩, ⟨c!"B", b!"3"⟩, ⟨c!"A", b!"4"⟩] [c!"a", c!"x", c!"A"]
    = [⟨c!"A", b!"4"⟩, ⟨c!"a", b!"2"⟩] := by decide

/-! ## C10 -/

/-- C10: if two headers agree on the fields with listed names, in order, then the
data are the same: adding, removing, reordering unlisted fields has no effect. -/
theorem C10_unlisted_fields (alg : CanonAlg) (h h' : List Field) (sel : List Str)
    (e : (h.filter fun f => sel.any (sameName f.name)) = h'.filter fun f => sel.any (sameName f.name)) :
    canonHeaders alg h sel = canonHeaders alg h' sel := by
  rw [canonHeaders_eq, canonHeaders_eq, pick_congr h h' sel []]
  intro n hn
  have : ∀ (l : List Field), (l.filter fun f => eqIgnoreCase f.name n)
      = (l.filter fun f => sel.any (sameName f.name)).filter fun f => eqIgnoreCase f.name n := by
    intro l
    rw [List.filter_filter]
    apply List.filter_congr
    intro f _
    by_cases hf : eqIgnoreCase f.name n = true
    · have : sel.any (sameName f.name) = true :=
        List.any_eq_true.2 ⟨n, hn, by rw [← eqIgnoreCase_eq]; exact hf⟩
      rw [this]; simp
    · simp [hf]
  rw [this h, this h', e]

/-- C10: a further field on top of the header has no effect if its name is listed
no more often than it already occurs. -/
theorem C10_field_on_top (alg : CanonAlg) (h : List Field) (f : Field) (sel : List Str)
    (hc : mentions sel f.name ≤ occurrences h f.name) :
    canonHeaders alg (f :: h) sel = canonHeaders alg h sel := by
  rw [C09_selected_from_bottom, C09_selected_from_bottom]
  congr 1
  unfold selectedFields
  have key : ∀ (earlier sel : List Str),
      earlier.countP (sameName f.name) + sel.countP (sameName f.name) ≤ occurrences h f.name →
      selectAux (f :: h) earlier sel = selectAux h earlier sel := by
    intro earlier sel
    induction sel generalizing earlier with
    | nil => intro _; rfl
    | cons n ns ih =>
      intro hle
      rw [selectAux, selectAux]
      have hb : fromBottom (f :: h) n = fromBottom h n ++ if sameName f.name n then [f] else [] := by
        simp only [fromBottom, List.reverse_cons, List.filter_append, List.filter_cons,
          List.filter_nil]
      by_cases hn : sameName f.name n = true
      · have hsame : sameName n = sameName f.name := by
          funext c; unfold sameName; rw [(sameName_iff _ _).1 hn]
        rw [List.countP_cons_of_pos hn] at hle
        rw [ih (n :: earlier) (by rw [List.countP_cons_of_pos hn]; omega), hb]
        rw [List.getElem?_append_left]
        have : (fromBottom h n).length = occurrences h f.name := by
          rw [fromBottom, ← List.countP_eq_length_filter, List.countP_reverse, occurrences]
          congr 1
          funext g; rw [sameName_comm, hsame]
        rw [hsame, this]; omega
      · rw [List.countP_cons_of_neg hn] at hle
        rw [ih (n :: earlier) (by rw [List.countP_cons_of_neg hn]; omega), hb, if_neg hn,
          List.append_nil]
  exact key [] sel (by simpa [mentions] using hc)

/-- Non-vacuity for both. -/
example : mentions [c!"from", c!"to"] c!"From" ≤ occurrences [⟨c!"FROM", b!"x"⟩] c!"From" ∧
    (([⟨c!"X", b!"1"⟩, ⟨c!"To", b!"2"⟩] : List Field).filter fun f => [c!"to"].any (sameName f.name))
      = ([⟨c!"To", b!"2"⟩, ⟨c!"Y", b!"3"⟩] : List Field).filter fun f => [c!"to"].any (sameName f.name) := by
  decide

/-! ## C11 -/

/-- C11: if a name is listed more often than it occurs, then inserting another
field with that name, at any place, changes the data. -/
theorem C11_oversigned (alg : CanonAlg) (above below : List Field) (f : Field) (sel : List Str)
    (hc : mentions sel f.name > occurrences (above ++ below) f.name) :
    canonHeaders alg (above ++ [f] ++ below) sel ≠ canonHeaders alg (above ++ below) sel := by
  intro e
  rw [canonHeaders_eq, canonHeaders_eq] at e
  have hl := congrArg List.length e
  rw [totalLen_flatMap, totalLen_flatMap] at hl
  have h1 := pick_len alg (above ++ below) (above ++ [f] ++ below) f.name sel [] (by
    intro m hm
    have : eqIgnoreCase f.name m = false := by rw [eqIgnoreCase_comm]; exact hm
    simp [this])
  rw [hl] at h1
  simp only [List.countP_nil, List.drop_zero, List.filter_reverse] at h1
  have e1 : mentions sel f.name = sel.countP (eqIgnoreCase f.name) := by
    unfold mentions; congr 1; funext c; exact (eqIgnoreCase_eq _ _).symm
  have e2 : ∀ l : List Field, occurrences l f.name = (l.filter fun g => eqIgnoreCase g.name f.name).length := by
    intro l
    rw [occurrences, ← List.countP_eq_length_filter]
    congr 1; funext g; rw [eqIgnoreCase_comm, eqIgnoreCase_eq]
  rw [e1, e2] at hc
  rw [List.take_of_length_le, List.take_of_length_le] at h1
  · have hf : eqIgnoreCase f.name f.name = true := eqIgnoreCase_refl _
    simp only [totalLen, List.map_reverse, List.sum_reverse, List.filter_append, List.map_append,
      List.sum_append, List.filter_cons, hf, if_true, List.filter_nil, List.map_cons, List.sum_cons,
      List.map_nil, List.sum_nil] at h1
    omega
  · rw [List.length_reverse]
    simp only [List.filter_append, List.length_append, List.filter_cons, eqIgnoreCase_refl, if_true,
      List.filter_nil, List.length_cons, List.length_nil] at hc ⊢
    omega
  · rw [List.length_reverse]
    omega

/-- Non-vacuity: `From` listed twice, occurring once. -/
example : mentions [c!"from", c!"From"] c!"FROM" >
    occurrences ([⟨c!"To", b!"x"⟩] ++ [⟨c!"From", b!"y"⟩]) c!"FROM" := by decide

/-! ## C12 -/

/-- What a signature covers of one field: with simple canonicalization the field
itself, with relaxed canonicalization the name up to case and the words. -/
def covered (alg : CanonAlg) (n : Str) (v : Bytes) : Str × Bytes ⊕ Str × List Bytes :=
  match alg with
  | .simple => .inl (n, v)
  | .relaxed => .inr (lower n, words v)

/-- C12: equal hash inputs come from the same covered fields, in the same order,
and the same signature field. -/
theorem C12_hash_input_injective (alg : CanonAlg) (h h' : List Field) (sel sel' : List Str)
    (n n' v v' : Str)
    (hf : ∀ f ∈ h, ValidName f.name ∧ ValidBody f.body)
    (hf' : ∀ f ∈ h', ValidName f.name ∧ ValidBody f.body)
    (hn : ValidName n) (hn' : ValidName n') (hv : FoldsOnly (utf8 v)) (hv' : FoldsOnly (utf8 v'))
    (e : dataHashInput alg h sel n v = dataHashInput alg h' sel' n' v') :
    (selectedFields h sel).map (fun f => covered alg f.name f.body)
      = (selectedFields h' sel').map (fun f => covered alg f.name f.body) ∧
    covered alg n (utf8 v) = covered alg n' (utf8 v') := by
  unfold dataHashInput at e
  rw [C09_selected_from_bottom, C09_selected_from_bottom, canonHeader_eq, canonHeader_eq] at e
  have hm : ∀ f ∈ selectedFields h sel, ValidName f.name ∧ ValidBody f.body :=
    fun f hfm => hf f (selectAux_mem _ _ _ f hfm)
  have hm' : ∀ f ∈ selectedFields h' sel', ValidName f.name ∧ ValidBody f.body :=
    fun f hfm => hf' f (selectAux_mem _ _ _ f hfm)
  generalize selectedFields h sel = fs at e hm
  generalize selectedFields h' sel' = fs' at e hm'
  have inj : ∀ (a a' : Str) (b b' : Bytes), ValidName a → ValidName a' →
      canonField alg a b = canonField alg a' b' → covered alg a b = covered alg a' b' := by
    intro a a' b b' ha ha' hab
    have := canonField_injective alg ha ha' hab
    cases alg with
    | simple => have := this.1 rfl; simp [covered, this]
    | relaxed => have := this.2 rfl; simp [covered, this]
  have hl := lines_injective (fs.map fun f => canonField alg f.name f.body)
    (fs'.map fun f => canonField alg f.name f.body) (canonField alg n (utf8 v))
    (canonField alg n' (utf8 v')) (by
      intro l hl
      simp only [List.mem_append, List.mem_map, List.mem_singleton] at hl
      rcases hl with ⟨f, hfm, rfl⟩ | rfl
      · exact canonField_text alg (hm f hfm).1 (hm f hfm).2.foldsOnly
      · exact canonField_text alg hn hv) (by
      intro l hl
      simp only [List.mem_append, List.mem_map, List.mem_singleton] at hl
      rcases hl with ⟨f, hfm, rfl⟩ | rfl
      · exact canonField_text alg (hm' f hfm).1 (hm' f hfm).2.foldsOnly
      · exact canonField_text alg hn' hv') (by
      rw [List.flatMap_map, List.flatMap_map]
      exact e)
  refine ⟨?_, inj _ _ _ _ hn hn' hl.2⟩
  have hl1 := hl.1
  clear hl e hf hf'
  induction fs generalizing fs' with
  | nil =>
    cases fs' with
    | nil => rfl
    | cons => simp at hl1
  | cons f fs ih =>
    cases fs' with
    | nil => simp at hl1
    | cons f' fs' =>
      simp only [List.map_cons, List.cons.injEq] at hl1 ⊢
      exact ⟨inj _ _ _ _ (hm f (by simp)).1 (hm' f' (by simp)).1 hl1.1,
        ih (fun g hg => hm g (by simp [hg])) fs' (fun g hg => hm' g (by simp [hg])) hl1.2⟩

/-- C12 for simple canonicalization: the selected fields are literally the same,
and so is the signature field. -/
theorem C12_simple_literal (h h' : List Field) (sel sel' : List Str) (n n' v v' : Str)
    (hf : ∀ f ∈ h, ValidName f.name ∧ ValidBody f.body)
    (hf' : ∀ f ∈ h', ValidName f.name ∧ ValidBody f.body)
    (hn : ValidName n) (hn' : ValidName n') (hv : FoldsOnly (utf8 v)) (hv' : FoldsOnly (utf8 v'))
    (e : dataHashInput .simple h sel n v = dataHashInput .simple h' sel' n' v') :
    selectedFields h sel = selectedFields h' sel' ∧ n = n' ∧ v = v' := by
  have := C12_hash_input_injective .simple h h' sel sel' n n' v v' hf hf' hn hn' hv hv' e
  refine ⟨?_, ?_⟩
  · have h1 := this.1
    have hinj : Function.Injective fun f : Field => covered .simple f.name f.body := by
      intro f g hfg
      cases f; cases g
      simpa [covered] using hfg
    exact (List.map_inj_right fun _ _ h => hinj h).1 h1
  · have h2 := this.2
    simp only [covered, Sum.inl.injEq, Prod.mk.injEq] at h2
    exact ⟨h2.1, utf8_injective h2.2⟩

/-- Non-vacuity: a header and a signature value that meet the hypotheses. -/
example : (∀ f ∈ ([⟨c!"From", b!" a\r\n b"⟩, ⟨c!"To", b!" c"⟩] : List Field),
      ValidName f.name ∧ ValidBody f.body) ∧ ValidName c!"DKIM-Signature" ∧
    FoldsOnly (utf8 c!" v=1;\r\n b=") := by
  refine ⟨?_, (fieldNameOk_iff _).1 (by decide), ((fieldBodyOk_iff _).1 (by decide)).foldsOnly⟩
  intro f hf
  have : f.ok = true := by
    simp only [List.mem_cons, List.not_mem_nil, or_false] at hf
    rcases hf with rfl | rfl <;> decide
  simp only [Field.ok, Bool.and_eq_true] at this
  exact ⟨(fieldNameOk_iff _).1 this.1, (fieldBodyOk_iff _).1 this.2⟩

end Dkim
