import Verif.Proofs.BodyHash
import Verif.Spec.BodyHash

/-!
# Properties C01 to C06: body canonicalization and body hashing

`canonBody k chunks` is the model of feeding `chunks` to a new body canonicalizer
of kind `k` and finishing it; `none` stands for a panic.
-/

namespace Dkim

open Spec

/-! ## The specification of lines is adequate -/

/-- Splitting loses nothing: the lines with CRLF, and the rest, give the text. -/
theorem splitLines_complete (b : Bytes) :
    joinLines (splitLines b).1 ++ (splitLines b).2 = b := join_splitLines b

/-- No line contains CRLF. -/
theorem splitLines_no_crlf (b : Bytes) :
    (∀ l ∈ (splitLines b).1, ¬ ([13, 10] <:+: l)) ∧ ¬ ([13, 10] <:+: (splitLines b).2) :=
  ⟨fun l hl => (infix_noCrlf l).1 ((splitLines_noCrlf b).1 l hl),
    (infix_noCrlf _).1 (splitLines_noCrlf b).2⟩

/-! ## C01 -/

/-- C01: for any two ways of cutting the same bytes into chunks the result is the
same. -/
theorem C01_chunk_independent (k : CanonAlg) (chunks chunks' : List Bytes)
    (h : chunks.flatten = chunks'.flatten) : canonBody k chunks = canonBody k chunks' := by
  rw [canonBody_eq_run, canonBody_eq_run, h]

/-- C01: in particular, the result is that of feeding the whole body at once, and
the canonicalizer never panics. -/
theorem C01_chunks_as_whole (k : CanonAlg) (chunks : List Bytes) :
    canonBody k chunks = canonBody k [chunks.flatten] ∧ ∃ out, canonBody k chunks = some out := by
  refine ⟨C01_chunk_independent k _ _ (by simp), ?_⟩
  rw [canonBody_eq_run, BodyCanon.run]
  obtain ⟨c, out, h1, h2, _⟩ := (BodyCanon.new k).chunk_ok chunks.flatten (BodyCanon.new_ok k)
  obtain ⟨o, h3⟩ := c.finish_ok h2
  exact ⟨out ++ o, by simp [h1, h3]⟩

/-- Non-vacuity: two different chunkings that even separate CR from LF. -/
example : ([b!"a \r", b!"\n", b!"\r\n b"] : List Bytes).flatten = ([b!"a \r\n\r\n b"]).flatten ∧
    canonBody .relaxed [b!"a \r", b!"\n", b!"\r\n b"] = some b!"a\r\n\r\n b\r\n" := by decide

/-! ## C02 -/

/-- C02, exact result of simple body canonicalization: it is the one of RFC 6376
except that a non-empty body consisting of empty lines only becomes empty. -/
theorem C02_simple_body_exact (chunks : List Bytes) :
    canonBody .simple chunks = some (codeSimpleBody chunks.flatten) := by
  rw [canonBody_eq_run, simple_run_eq]
  generalize chunks.flatten = body
  congr 1
  unfold codeSimpleBody rfcSimpleBody
  by_cases h1 : body = []
  · subst h1; decide
  · by_cases h2 : dropTrailingEmpty (bodyLines body) = []
    · have := (dropTrailingEmpty_eq_nil _).1 h2
      simp only [h1, h2, if_false, joinLines]
      rw [if_pos ⟨h1, this⟩]
    · have : ¬ (∀ l ∈ bodyLines body, l = []) := fun h => h2 ((dropTrailingEmpty_eq_nil _).2 h)
      rw [if_neg h1, if_neg (by simp only [not_and]; exact fun _ => this)]
      split
      · contradiction
      · rfl

/-- C02 (partial): for an empty body and for every body with a non-empty line the
simple canonical form is that of RFC 6376. Missing from the full claim: bodies
made of CRLFs only, see `C02_violation`. -/
theorem C02_simple_body_partial (chunks : List Bytes)
    (h : chunks.flatten = [] ∨ ∃ l ∈ bodyLines chunks.flatten, l ≠ []) :
    canonBody .simple chunks = some (rfcSimpleBody chunks.flatten) := by
  rw [C02_simple_body_exact]
  unfold codeSimpleBody
  rw [if_neg]
  rintro ⟨h1, h2⟩
  rcases h with h | ⟨l, hl, hne⟩
  · exact h1 h
  · exact hne (h2 l hl)

example : canonBody .simple [b!"a\r\n\r\n b", b!"\r\n\r\n\r\n"] = some b!"a\r\n\r\n b\r\n" ∧
    ∃ l ∈ bodyLines b!"a\r\n\r\n b\r\n\r\n\r\n", l ≠ [] := ⟨by decide, b!"a", by decide⟩

/-- C02: the claim as stated in the property list is false: a body that is a
single CRLF becomes empty instead of a single CRLF, and in general so does every
non-empty body of empty lines. -/
theorem C02_violation :
    canonBody .simple [b!"\r\n"] = some [] ∧ rfcSimpleBody b!"\r\n" = b!"\r\n" ∧
    (∀ body : Bytes, body ≠ [] → (∀ l ∈ bodyLines body, l = []) →
      canonBody .simple [body] = some [] ∧ rfcSimpleBody body = b!"\r\n") := by
  refine ⟨by decide, by decide, ?_⟩
  intro body h1 h2
  rw [C02_simple_body_exact]
  refine ⟨?_, ?_⟩
  · simp only [List.flatten_cons, List.flatten_nil, List.append_nil]
    unfold codeSimpleBody
    rw [if_pos ⟨h1, h2⟩]
  · simp [rfcSimpleBody, (dropTrailingEmpty_eq_nil _).2 h2]

/-- C02, exactly: simple body canonicalization agrees with RFC 6376 if and only if the body is
empty or has a non-empty line. -/
theorem C02_rfc_iff (chunks : List Bytes) :
    canonBody .simple chunks = some (rfcSimpleBody chunks.flatten) ↔
      (chunks.flatten = [] ∨ ∃ l ∈ bodyLines chunks.flatten, l ≠ []) := by
  refine ⟨fun h => ?_, C02_simple_body_partial chunks⟩
  by_cases h1 : chunks.flatten = []
  · exact .inl h1
  refine .inr (Classical.byContradiction fun hno => ?_)
  have h2 : ∀ l ∈ bodyLines chunks.flatten, l = [] := fun l hl =>
    Classical.byContradiction fun hne => hno ⟨l, hl, hne⟩
  obtain ⟨h3, h4⟩ := C02_violation.2.2 _ h1 h2
  rw [(C01_chunks_as_whole .simple chunks).1, h3, h4] at h
  cases h

/-! ## C03 -/

/-- C03, exact result of relaxed body canonicalization: it is the one of RFC 6376,
followed by an additional CRLF if the body ends with whitespace that is alone on
an unterminated last line. -/
theorem C03_relaxed_body_exact (chunks : List Bytes) :
    canonBody .relaxed chunks = some (codeRelaxedBody chunks.flatten) := by
  rw [canonBody_eq_run, relaxed_run_eq]
  unfold codeRelaxedBody
  simp only [relaxLine_eq_nil]
  split <;> simp

/-- C03 (partial): whenever the body ends with CRLF, is empty, or its unterminated
last line contains something other than whitespace, the relaxed canonical form is
that of RFC 6376. Missing from the full claim: see `C03_violation`. -/
theorem C03_relaxed_body_partial (chunks : List Bytes)
    (h : (splitLines chunks.flatten).2 = [] ∨ ∃ b ∈ (splitLines chunks.flatten).2, ¬ isWsp b) :
    canonBody .relaxed chunks = some (rfcRelaxedBody chunks.flatten) := by
  rw [C03_relaxed_body_exact]
  unfold codeRelaxedBody
  rw [if_neg]
  rintro ⟨h1, h2⟩
  rcases h with h | ⟨b, hb, hne⟩
  · exact h1 h
  · exact hne (List.all_eq_true.1 h2 b hb)

example : canonBody .relaxed [b!" a\t \r\n \r\nb  c", b!"\r\n \r\n\r\n"]
      = some b!" a\r\n\r\nb c\r\n" ∧
    (splitLines b!" a\t \r\n \r\nb  c\r\n \r\n\r\n").2 = [] := by decide

/-- C03: the claim as stated is false: trailing whitespace alone on an
unterminated last line yields an extra empty line. -/
theorem C03_violation :
    canonBody .relaxed [b!"a\r\n "] = some b!"a\r\n\r\n" ∧ rfcRelaxedBody b!"a\r\n " = b!"a\r\n" ∧
    canonBody .relaxed [b!" "] = some b!"\r\n" ∧ rfcRelaxedBody b!" " = [] := by decide

/-- C03, exactly: relaxed body canonicalization agrees with RFC 6376 if and only if the body
does not end with whitespace alone on an unterminated last line. -/
theorem C03_rfc_iff (chunks : List Bytes) :
    canonBody .relaxed chunks = some (rfcRelaxedBody chunks.flatten) ↔
      ((splitLines chunks.flatten).2 = [] ∨ ∃ b ∈ (splitLines chunks.flatten).2, ¬ isWsp b) := by
  refine ⟨fun h => ?_, C03_relaxed_body_partial chunks⟩
  by_cases h1 : (splitLines chunks.flatten).2 = []
  · exact .inl h1
  refine .inr (Classical.byContradiction fun hno => ?_)
  have h2 : (splitLines chunks.flatten).2.all isWsp = true := List.all_eq_true.2 fun b hb =>
    Classical.byContradiction fun hne => hno ⟨b, hb, hne⟩
  rw [C03_relaxed_body_exact, codeRelaxedBody, if_pos ⟨h1, h2⟩] at h
  have := congrArg List.length (Option.some.inj h)
  simp at this

/-! ## C04 -/

theorem codeRelaxed_join (ls : List Bytes) (h : ∀ l ∈ ls, NoCrlf l) :
    codeRelaxedBody (joinLines ls) = joinLines (dropTrailingEmpty (ls.map relaxLine)) := by
  have h1 : (splitLines (joinLines ls)).2 = [] := by
    have := splitLines_join ls [] h
    simp [splitLines] at this
    simp [this]
  unfold codeRelaxedBody rfcRelaxedBody
  rw [if_neg (by simp [h1]), bodyLines_join ls h]

theorem dropTrailingEmpty_map_relax (ls : List Bytes) :
    dropTrailingEmpty ((dropTrailingEmpty (ls.map relaxLine)).map relaxLine)
      = dropTrailingEmpty (ls.map relaxLine) := by
  have : (dropTrailingEmpty (ls.map relaxLine)).map relaxLine
      = dropTrailingEmpty (ls.map relaxLine) := by
    have h : ∀ l ∈ dropTrailingEmpty (ls.map relaxLine), relaxLine l = l := by
      intro l hl
      have := dropTrailingEmpty_subset _ l hl
      simp only [List.mem_map] at this
      obtain ⟨a, _, rfl⟩ := this
      exact relaxLine_idem a
    conv => rhs; rw [← List.map_id (dropTrailingEmpty (ls.map relaxLine))]
    exact List.map_congr_left h
  rw [this, dropTrailingEmpty_idem]

theorem relaxed_lines_noCrlf (body : Bytes) :
    ∀ l ∈ dropTrailingEmpty ((bodyLines body).map relaxLine), NoCrlf l := by
  intro l hl
  have := dropTrailingEmpty_subset _ l hl
  simp only [List.mem_map] at this
  obtain ⟨a, ha, rfl⟩ := this
  exact relaxLine_noCrlf a (bodyLines_noCrlf body a ha)

/-- C04, simple: exactly the bodies with some non-empty line have an idempotent
simple canonical form. -/
theorem C04_simple_idempotent_iff (body out : Bytes) (h : canonBody .simple [body] = some out) :
    canonBody .simple [out] = some out ↔ ∃ l ∈ bodyLines body, l ≠ [] := by
  rw [C02_simple_body_exact] at h ⊢
  simp only [List.flatten_cons, List.flatten_nil, List.append_nil, Option.some.injEq] at h ⊢
  by_cases hl : ∃ l ∈ bodyLines body, l ≠ []
  · simp only [hl, iff_true]
    have hE : dropTrailingEmpty (bodyLines body) ≠ [] := by
      intro h'
      obtain ⟨l, h1, h2⟩ := hl
      exact h2 ((dropTrailingEmpty_eq_nil _).1 h' l h1)
    have hout : out = joinLines (dropTrailingEmpty (bodyLines body)) := by
      rw [← h]; unfold codeSimpleBody rfcSimpleBody
      rw [if_neg]
      · split
        · contradiction
        · rfl
      · rintro ⟨_, h2⟩; obtain ⟨l, h3, h4⟩ := hl; exact h4 (h2 l h3)
    have hlines : bodyLines out = dropTrailingEmpty (bodyLines body) := by
      rw [hout, bodyLines_join]
      intro l hl'; exact bodyLines_noCrlf body l (dropTrailingEmpty_subset _ l hl')
    have hne : ¬ ∀ l ∈ bodyLines out, l = [] := by
      intro h2
      rw [hlines] at h2
      have := (dropTrailingEmpty_eq_nil _).2 h2
      rw [dropTrailingEmpty_idem] at this
      exact hE this
    unfold codeSimpleBody rfcSimpleBody
    rw [if_neg (by simp only [not_and]; exact fun _ => hne), hlines, dropTrailingEmpty_idem]
    split
    · contradiction
    · rw [hout]
  · simp only [hl, iff_false]
    have hall : ∀ l ∈ bodyLines body, l = [] := by
      intro l h1; exact Classical.byContradiction fun h2 => hl ⟨l, h1, h2⟩
    by_cases hb : body = []
    · subst hb
      have : out = [13, 10] := by rw [← h]; decide
      subst this; decide
    · have : out = [] := by rw [← h]; unfold codeSimpleBody; rw [if_pos ⟨hb, hall⟩]
      subst this; decide

/-- C04, relaxed: exactly the bodies that do not end in whitespace alone on an
unterminated last line have an idempotent relaxed canonical form. -/
theorem C04_relaxed_idempotent_iff (body out : Bytes)
    (h : canonBody .relaxed [body] = some out) :
    canonBody .relaxed [out] = some out ↔
      ((splitLines body).2 = [] ∨ ∃ b ∈ (splitLines body).2, ¬ isWsp b) := by
  rw [C03_relaxed_body_exact] at h ⊢
  simp only [List.flatten_cons, List.flatten_nil, List.append_nil, Option.some.injEq] at h ⊢
  by_cases hbad : (splitLines body).2 ≠ [] ∧ (splitLines body).2.all isWsp = true
  · have hout : out = joinLines (dropTrailingEmpty ((bodyLines body).map relaxLine) ++ [[]]) := by
      rw [← h]; unfold codeRelaxedBody; rw [if_pos hbad]
      simp [rfcRelaxedBody, joinLines_append, joinLines]
    have hno : ¬ ((splitLines body).2 = [] ∨ ∃ b ∈ (splitLines body).2, ¬ isWsp b = true) := by
      rintro (h1 | ⟨b, h1, h2⟩)
      · exact hbad.1 h1
      · exact h2 (List.all_eq_true.1 hbad.2 b h1)
    simp only [hno, iff_false]
    rw [hout, codeRelaxed_join]
    · rw [List.map_append]
      have : ([[]] : List Bytes).map relaxLine = [[]] := by decide
      rw [this, dropTrailingEmpty_append_nil, dropTrailingEmpty_map_relax, joinLines_append]
      intro h'
      have := congrArg List.length h'
      simp [joinLines] at this
    · intro l hl
      rw [List.mem_append] at hl
      rcases hl with hl | hl
      · exact relaxed_lines_noCrlf body l hl
      · simp at hl; subst hl; exact noCrlf_nil
  · have hok : (splitLines body).2 = [] ∨ ∃ b ∈ (splitLines body).2, ¬ isWsp b = true := by
      by_cases h1 : (splitLines body).2 = []
      · exact Or.inl h1
      · right
        have : ¬ (splitLines body).2.all isWsp = true := fun h2 => hbad ⟨h1, h2⟩
        simp only [List.all_eq_true] at this
        exact Classical.byContradiction fun h3 => this fun b hb =>
          Classical.byContradiction fun h4 => h3 ⟨b, hb, h4⟩
    simp only [hok, iff_true]
    have hout : out = joinLines (dropTrailingEmpty ((bodyLines body).map relaxLine)) := by
      rw [← h]; unfold codeRelaxedBody; rw [if_neg hbad]; rfl
    rw [hout, codeRelaxed_join _ (relaxed_lines_noCrlf body), dropTrailingEmpty_map_relax]

/-- C04 (partial): canonicalization is idempotent on simple bodies with a
non-empty line and on relaxed bodies that do not end with whitespace alone on an
unterminated last line. Missing from the full claim: the other bodies, for which
it is false (`C04_violation`, and the two exact characterisations above). -/
theorem C04_idempotent_partial (k : CanonAlg) (body out : Bytes)
    (hs : k = .simple → ∃ l ∈ bodyLines body, l ≠ [])
    (hr : k = .relaxed → (splitLines body).2 = [] ∨ ∃ b ∈ (splitLines body).2, ¬ isWsp b)
    (h : canonBody k [body] = some out) : canonBody k [out] = some out := by
  cases k
  · exact (C04_simple_idempotent_iff body out h).2 (hs rfl)
  · exact (C04_relaxed_idempotent_iff body out h).2 (hr rfl)

example : canonBody .relaxed [b!"a \r\n\r\n b\t\r\n\r\n"] = some b!"a\r\n\r\n b\r\n" ∧
    canonBody .relaxed [b!"a\r\n\r\n b\r\n"] = some b!"a\r\n\r\n b\r\n" := by decide

/-- C04: the unrestricted claim is false. -/
theorem C04_violation :
    (∃ body out, canonBody .simple [body] = some out ∧ canonBody .simple [out] ≠ some out) ∧
    (∃ body out, canonBody .relaxed [body] = some out ∧ canonBody .relaxed [out] ≠ some out) :=
  ⟨⟨[], b!"\r\n", by decide, by decide⟩, ⟨b!"a\r\n ", b!"a\r\n\r\n", by decide, by decide⟩⟩

/-! ## C05 -/

theorem canonBody_codeBody (k : CanonAlg) (chunks : List Bytes) :
    canonBody k chunks = some (codeBody k chunks.flatten) := by
  cases k
  · exact C02_simple_body_exact chunks
  · exact C03_relaxed_body_exact chunks

/-- C05: for every set of registered keys and every sequence of chunks, hashing
does not panic, and the result for a key is the specified one applied to the
canonicalized body; a key that was not registered has no result. -/
theorem C05_body_hash_results (hash : HashFn) (fail : Bool) (keys : List BodyHasherKey)
    (chunks : List Bytes) :
    ∃ bh stances results,
      (BodyHasher.build fail keys).hashChunks chunks = some (bh, stances) ∧
      bh.finish hash = some results ∧
      ∀ key, results.get key =
        if key ∈ keys then
          some (bodyHashResult hash fail key (codeBody key.2.2 chunks.flatten))
        else none := by
  obtain ⟨bh, ss, h1, h2⟩ := hashChunks_inv fail keys chunks [] _ (hasherInv_build fail keys)
  simp only [List.nil_append] at h2
  have hone : ∀ e ∈ bh.hashers, bh.finishOne hash e
      = some (bodyHashResult hash fail e.1 (codeBody e.1.2.2 chunks.flatten)) := by
    intro e he
    have hrun := canonBody_codeBody e.1.2.2 chunks
    rw [canonBody_eq_run] at hrun
    rw [finishOne_spec hash fail keys _ bh h2 e he _ hrun]
    rcases e with ⟨⟨_ | n, a, c⟩, h, tr⟩ <;> rfl
  refine ⟨bh, ss, _, h1, finishLoop_spec hash bh bh.hashers
    (fun key => bodyHashResult hash fail key (codeBody key.2.2 chunks.flatten)) hone, ?_⟩
  intro key
  have := get_map keys
    (fun key => bodyHashResult hash fail key (codeBody key.2.2 chunks.flatten)) key
  rw [← this, ← h2.keys_eq, List.map_map]
  rfl

example : bodyHashResult (fun _ b => b) true (some 3, .sha256, .relaxed)
      (codeBody .relaxed b!"a  b\r\n") = .error .inputTruncated ∧
    bodyHashResult (fun _ b => b) false (some 3, .sha256, .relaxed)
      (codeBody .relaxed b!"a  b\r\n") = .ok (b!"a b", 3) ∧
    bodyHashResult (fun _ b => b) true (some 6, .sha256, .relaxed)
      (codeBody .relaxed b!"a  b\r\n") = .error .insufficientInput ∧
    bodyHashResult (fun _ b => b) true (none, .sha256, .simple)
      (codeBody .simple b!"a  b") = .ok (b!"a  b\r\n", 6) := by
  refine ⟨rfl, rfl, rfl, rfl⟩

/-! ## C06 -/

/-- C06: once `Done` has been reported, after any earlier chunks, any further
chunks report `Done` and leave all results as they are. -/
theorem C06_done_is_done (hash : HashFn) (fail : Bool) (keys : List BodyHasherKey)
    (before : List Bytes) (chunk : Bytes) (bh bh' : BodyHasher) (ss : List Stance)
    (h1 : (BodyHasher.build fail keys).hashChunks before = some (bh, ss))
    (h2 : bh.hashChunk chunk = some (bh', .done)) (more : List Bytes) :
    ∃ bh'' ss', bh'.hashChunks more = some (bh'', ss') ∧ (∀ s ∈ ss', s = .done) ∧
      ss'.length = more.length ∧ bh''.finish hash = bh'.finish hash := by
  obtain ⟨b1, s1, h3, h4⟩ := hashChunks_inv fail keys before [] _ (hasherInv_build fail keys)
  rw [h1] at h3; simp only [Option.some.injEq, Prod.mk.injEq] at h3
  rw [← h3.1] at h4
  obtain ⟨b2, s2, h5, h6, h7⟩ := hashChunk_inv fail keys _ chunk bh h4
  rw [h2] at h5; simp only [Option.some.injEq, Prod.mk.injEq] at h5
  have hin := h7.1 h5.2.symm
  rw [← h5.1] at hin h6
  refine ⟨bh', _, hashChunks_inactive bh' (by rw [h6.fail_eq]; exact hin) more, ?_, ?_, rfl⟩
  · intro s hs; exact List.eq_of_mem_replicate hs
  · simp

/-- C06: a client that stops feeding after `Done` gets, for every key, the
specified result for the whole body, including any part never fed. -/
theorem C06_stop_early (hash : HashFn) (fail : Bool) (keys : List BodyHasherKey)
    (before : List Bytes) (chunk : Bytes) (bh bh' : BodyHasher) (ss : List Stance)
    (h1 : (BodyHasher.build fail keys).hashChunks before = some (bh, ss))
    (h2 : bh.hashChunk chunk = some (bh', .done)) (unfed : Bytes) :
    ∃ results, bh'.finish hash = some results ∧
      ∀ key ∈ keys, results.get key =
        some (bodyHashResult hash fail key
          (codeBody key.2.2 (before.flatten ++ chunk ++ unfed))) := by
  obtain ⟨bh2, ss2, res, h3, h4, h5⟩ :=
    C05_body_hash_results hash fail keys (before ++ [chunk, unfed])
  obtain ⟨bh3, ss3, h6, _, _, h7⟩ :=
    C06_done_is_done hash fail keys before chunk bh bh' ss h1 h2 [unfed]
  have happ : ∀ (l : List Bytes) (b : BodyHasher) (b1 : BodyHasher) (s1 : List Stance) (l2 : List Bytes),
      b.hashChunks l = some (b1, s1) →
      b.hashChunks (l ++ l2) = (b1.hashChunks l2).map fun r => (r.1, s1 ++ r.2) := by
    intro l
    induction l with
    | nil =>
      intro b b1 s1 l2 h
      simp [BodyHasher.hashChunks] at h
      rw [← h.1, h.2]; simp
    | cons c l ih =>
      intro b b1 s1 l2 h
      simp only [BodyHasher.hashChunks] at h
      cases hc : b.hashChunk c with
      | none => rw [hc] at h; simp at h
      | some r =>
        obtain ⟨r1, r2⟩ := r
        rw [hc] at h
        simp only at h
        cases hc2 : r1.hashChunks l with
        | none => rw [hc2] at h; simp at h
        | some q =>
          obtain ⟨q1, q2⟩ := q
          rw [hc2] at h
          simp only [Option.some.injEq, Prod.mk.injEq] at h
          rw [List.cons_append, BodyHasher.hashChunks, hc]
          simp only
          rw [ih _ _ _ l2 hc2, ← h.1, ← h.2]
          cases q1.hashChunks l2 <;> simp
  have h8 := happ before _ bh ss [chunk, unfed] h1
  rw [h3] at h8
  have h9 : bh.hashChunks [chunk, unfed] = some (bh3, .done :: ss3) := by
    rw [BodyHasher.hashChunks, h2]
    simp only [h6]
  rw [h9] at h8
  simp only [Option.map_some, Option.some.injEq, Prod.mk.injEq] at h8
  rw [h8.1] at h4
  refine ⟨res, by rw [← h7]; exact h4, ?_⟩
  intro key hk
  rw [h5 key, if_pos hk]
  simp

/-- Non-vacuity: with a limit of two bytes, `Done` is reported in the middle of
the body. -/
example : ((BodyHasher.build false [(some 2, .sha256, .simple)]).hashChunk b!"abc").map (·.2)
      = some .done ∧
    ((BodyHasher.build true [(some 3, .sha256, .simple)]).hashChunk b!"abc").map (·.2)
      = some .interested := by decide

end Dkim
