import Verif.Proofs.Sharing
import Verif.Props.Body
import Verif.Props.VerifierCases

/-!
# Property C114: the canonicalized body is shared, and left out where it is not needed

The body of a message is canonicalized at most once with each algorithm, for any number of signatures, and
each chunk only with the algorithms of signatures whose hash is still open.
-/

namespace Dkim

open Spec

variable {E : Env}

/-- C114: the results are those of the functions that the other properties are about; the final pieces
are shared, and `unwrap` finds them. -/
theorem C114_same (hash : HashFn) (bh : BodyHasher) (chunks : List Bytes) :
    (bh.hashChunksC chunks).map (fun r => (r.1, r.2.1)) = bh.hashChunks chunks ∧
    (bh.finishC hash).map (·.1) = bh.finish hash :=
  ⟨(hashChunksC_same chunks bh).symm, finishLoopC_same hash bh _ (shared_start bh)⟩

theorem hashChunksC_inv {fail : Bool} {keys : List BodyHasherKey} {before : List Bytes} {bh : BodyHasher}
    {ss : List Stance} {calls : List (List CanonAlg)}
    (h : (BodyHasher.build fail keys).hashChunksC before = some (bh, ss, calls)) :
    HasherInv fail keys before.flatten bh := by
  obtain ⟨b1, s1, h3, h4⟩ := hashChunks_inv fail keys before [] _ (hasherInv_build fail keys)
  rw [hashChunksC_same, h] at h3
  cases h3
  exact h4

/-- C114: a chunk is canonicalized with an algorithm if and only if one of the requested hashes
with this algorithm needs more than the canonicalizer has given so far; and then once. -/
theorem C114_chunk (fail : Bool) (keys : List BodyHasherKey) (before : List Bytes) {bh : BodyHasher}
    {ss : List Stance} {calls : List (List CanonAlg)}
    (h : (BodyHasher.build fail keys).hashChunksC before = some (bh, ss, calls)) (chunk : Bytes) :
    ∃ bh' s now, bh.hashChunkC chunk = some (bh', s, now) ∧ now.Nodup ∧
      ∀ k c given, (BodyCanon.new k).chunk before.flatten = some (c, given) →
        (k ∈ now ↔ ∃ key ∈ keys, key.2.2 = k ∧ NeedsMore fail key.1 given.length) := by
  have hi := hashChunksC_inv h
  obtain ⟨bh', s, h1, _⟩ := hashChunk_inv fail keys _ chunk bh hi
  rw [hashChunkC_same] at h1
  cases h2 : bh.hashChunkC chunk with
  | none => rw [h2] at h1; cases h1
  | some r =>
    obtain ⟨b, s', now⟩ := r
    obtain ⟨h3, h4⟩ := hashChunkC_calls h2
    refine ⟨b, s', now, rfl, h3, ?_⟩
    intro k c given hg
    rw [h4, hi.fail_eq]
    exact anyActive_iff hi hg

/-- C114: the same for the end of the body. -/
theorem C114_end (hash : HashFn) (fail : Bool) (keys : List BodyHasherKey) (chunks : List Bytes) {bh : BodyHasher}
    {ss : List Stance} {calls : List (List CanonAlg)}
    (h : (BodyHasher.build fail keys).hashChunksC chunks = some (bh, ss, calls)) :
    ∃ results now, bh.finishC hash = some (results, now) ∧ now.Nodup ∧
      ∀ k c given, (BodyCanon.new k).chunk chunks.flatten = some (c, given) →
        (k ∈ now ↔ ∃ key ∈ keys, key.2.2 = k ∧ NeedsMore fail key.1 given.length) := by
  have hi := hashChunksC_inv h
  obtain ⟨bh1, ss1, results, h1, h2, _⟩ := C05_body_hash_results hash fail keys chunks
  rw [hashChunksC_same, h] at h1
  cases h1
  rw [← (C114_same hash bh []).2] at h2
  cases h3 : bh.finishC hash with
  | none => rw [h3] at h2; cases h2
  | some r =>
    obtain ⟨rs, now⟩ := r
    obtain ⟨h4, h5⟩ := finishLoopC_calls _ (shared_start bh) h3
    refine ⟨rs, now, rfl, h4, ?_⟩
    intro k c given hg
    rw [h5, hi.fail_eq]
    have : FinishLoop.fresh ⟨true, true, none, none⟩ k = true := by cases k <;> rfl
    simp only [this, true_and]
    exact anyActive_iff hi hg

theorem length_le_two {l : List CanonAlg} (h : l.Nodup) : l.length ≤ 2 := by
  match l, h with
  | [], _ => exact Nat.zero_le _
  | [_], _ => exact Nat.le_succ _
  | [_, _], _ => exact Nat.le_refl _
  | a :: b :: c :: l, h =>
    exfalso
    cases a <;> cases b <;> cases c <;> simp at h

theorem hashChunksC_bound (chunks : List Bytes) : ∀ {bh bh' : BodyHasher} {ss : List Stance}
    {calls : List (List CanonAlg)}, bh.hashChunksC chunks = some (bh', ss, calls) →
    calls.length = chunks.length ∧ ∀ c ∈ calls, c.Nodup := by
  induction chunks with
  | nil => intro bh bh' ss calls h; cases h; exact ⟨rfl, fun _ h => (List.not_mem_nil h).elim⟩
  | cons c chunks ih =>
    intro bh bh' ss calls h
    rw [BodyHasher.hashChunksC] at h
    cases h1 : bh.hashChunkC c with
    | none => rw [h1] at h; cases h
    | some r =>
      obtain ⟨b, s, now⟩ := r
      rw [h1] at h
      simp only at h
      cases h2 : b.hashChunksC chunks with
      | none => rw [h2] at h; cases h
      | some q =>
        obtain ⟨b2, s2, calls2⟩ := q
        rw [h2] at h
        cases h
        obtain ⟨i1, i2⟩ := ih h2
        refine ⟨by rw [List.length_cons, List.length_cons, i1], ?_⟩
        intro x hx
        rcases List.mem_cons.1 hx with rfl | hx
        · exact (hashChunkC_calls h1).1
        · exact i2 x hx

/-- C114: each chunk is canonicalized at most once with each of the two algorithms, for any number of hashes. -/
theorem C114_bound {bh bh' : BodyHasher} {chunks : List Bytes} {ss : List Stance} {calls : List (List CanonAlg)}
    (h : bh.hashChunksC chunks = some (bh', ss, calls)) :
    calls.length = chunks.length ∧ ∀ now ∈ calls, now.Nodup ∧ now.length ≤ 2 := by
  obtain ⟨h1, h2⟩ := hashChunksC_bound chunks h
  exact ⟨h1, fun now hn => ⟨h2 now hn, length_le_two (h2 now hn)⟩⟩

theorem idle {bh : BodyHasher} (h : ∀ e ∈ bh.hashers, hasherActive bh.failOnTruncate e.2.1 e.2.2 = false) (k : CanonAlg) :
    anyActive bh.failOnTruncate k bh.hashers = false := by
  rw [anyActive, List.any_eq_false]
  intro e he
  simp [h e he]

theorem idle_chunks (more : List Bytes) : ∀ {bh : BodyHasher},
    (∀ e ∈ bh.hashers, hasherActive bh.failOnTruncate e.2.1 e.2.2 = false) →
    bh.hashChunksC more = some (bh, List.replicate more.length .done, List.replicate more.length []) := by
  induction more with
  | nil => intro bh _; rfl
  | cons c more ih =>
    intro bh h
    have h1 := hashChunks_inactive bh h [c]
    rw [BodyHasher.hashChunks, hashChunkC_same] at h1
    rw [BodyHasher.hashChunksC]
    cases h2 : bh.hashChunkC c with
    | none => rw [h2] at h1; cases h1
    | some r =>
      obtain ⟨b, s, now⟩ := r
      rw [h2] at h1
      cases h1
      have : now = [] := by
        have := (hashChunkC_calls h2).2
        cases now with
        | nil => rfl
        | cons k l =>
          have h5 := (this k).1 (List.mem_cons_self ..)
          rw [idle h] at h5
          cases h5
      simp only
      rw [ih h, this]
      rfl

theorem idle_finish (hash : HashFn) {bh : BodyHasher}
    (h : ∀ e ∈ bh.hashers, hasherActive bh.failOnTruncate e.2.1 e.2.2 = false)
    {results : BodyHashResults} {now : List CanonAlg} (hf : bh.finishC hash = some (results, now)) : now = [] := by
  obtain ⟨_, h5⟩ := finishLoopC_calls _ (shared_start bh) hf
  cases now with
  | nil => rfl
  | cons k l =>
    have h6 := ((h5 k).1 (List.mem_cons_self ..)).2
    rw [idle h] at h6
    cases h6

/-- C114: once `Done` has been reported, nothing is canonicalized any more. -/
theorem C114_done (hash : HashFn) (fail : Bool) (keys : List BodyHasherKey) (before : List Bytes) {bh bh' : BodyHasher}
    {ss : List Stance} {calls : List (List CanonAlg)} {chunk : Bytes} {now : List CanonAlg}
    (h : (BodyHasher.build fail keys).hashChunksC before = some (bh, ss, calls))
    (hd : bh.hashChunkC chunk = some (bh', .done, now)) (more : List Bytes) :
    (∃ bh'' ss', bh'.hashChunksC more = some (bh'', ss', List.replicate more.length []) ∧
      ∀ results last, bh''.finishC hash = some (results, last) → last = []) := by
  have hi := hashChunksC_inv h
  obtain ⟨b, s, h1, h2, h3⟩ := hashChunk_inv fail keys _ chunk bh hi
  rw [hashChunkC_same, hd] at h1
  cases h1
  have hin := h3.1 rfl
  rw [← h2.fail_eq] at hin
  exact ⟨_, _, idle_chunks more hin, fun results last hf => idle_finish hash hin hf⟩

/-- C114: a verifier canonicalizes a chunk with an algorithm if and only if a signature with this algorithm is
verified so far (except for its body hash), and needs more than the canonicalizer has given. -/
theorem C114_verifier (S : SetLaw E.keySet) {resolver : Resolver} {headers : List Field} {cfg : Config}
    {clock : Nat → Int} {v : Verifier} {asked : List Str}
    (hv : verifyHeader E resolver headers cfg clock = some (some v, asked)) (before : List Bytes) {bh : BodyHasher}
    {ss : List Stance} {calls : List (List CanonAlg)}
    (h : v.bodyHasher.hashChunksC before = some (bh, ss, calls)) (chunk : Bytes) :
    ∃ bh' s now, bh.hashChunkC chunk = some (bh', s, now) ∧ now.Nodup ∧
      ∀ k c given, (BodyCanon.new k).chunk before.flatten = some (c, given) →
        (k ∈ now ↔ ∃ r ∈ v.tasks, r.status = .success ∧ ∃ sig, r.signature = some sig ∧
          sig.canonicalization.body = k ∧ NeedsMore cfg.forbidUnsignedContent sig.bodyLength given.length) := by
  obtain ⟨keys, e, hk⟩ := verifyHeader_hasher hv
  rw [e] at h
  obtain ⟨bh', s, now, h1, h2, h3⟩ := C114_chunk _ _ before h chunk
  refine ⟨bh', s, now, h1, h2, ?_⟩
  intro k c given hg
  rw [h3 k c given hg]
  constructor
  · rintro ⟨key, hm, hc, hn⟩
    obtain ⟨r, hr, hs, sig, hsig, rfl⟩ := (hk key).1 (((S keys).2 key).1 hm)
    exact ⟨r, hr, hs, sig, hsig, hc, hn⟩
  · rintro ⟨r, hr, hs, sig, hsig, hc, hn⟩
    exact ⟨_, ((S keys).2 _).2 ((hk _).2 ⟨r, hr, hs, sig, hsig, rfl⟩), hc, hn⟩

/-- C114: if no signature is verified so far, nothing of the body is canonicalized, and the verifier says from the
first chunk that it is done. -/
theorem C114_unverified (S : SetLaw E.keySet) {resolver : Resolver} {headers : List Field} {cfg : Config}
    {clock : Nat → Int} {v : Verifier} {asked : List Str}
    (hv : verifyHeader E resolver headers cfg clock = some (some v, asked))
    (hf : ∀ r ∈ v.tasks, r.status ≠ .success) (chunks : List Bytes) :
    ∃ bh, v.bodyHasher.hashChunksC chunks =
      some (bh, List.replicate chunks.length .done, List.replicate chunks.length []) ∧
      ∀ results last, bh.finishC E.hash = some (results, last) → last = [] := by
  obtain ⟨keys, e, hk⟩ := verifyHeader_hasher hv
  have hne : E.keySet keys = [] := by
    rw [List.eq_nil_iff_forall_not_mem]
    intro key hm
    obtain ⟨r, hr, hs, _⟩ := (hk key).1 (((S keys).2 key).1 hm)
    exact hf r hr hs
  have hin : ∀ e ∈ v.bodyHasher.hashers, hasherActive v.bodyHasher.failOnTruncate e.2.1 e.2.2 = false := by
    rw [e, hne]
    intro e he
    cases he
  exact ⟨_, idle_chunks chunks hin, fun results last hf => idle_finish E.hash hin hf⟩

/-- Four hashes, two of them limited: the calls for each chunk, and at the end. -/
example : ((BodyHasher.build false [(none, .sha256, .relaxed), (some 3, .sha256, .simple), (some 4, .sha256, .simple),
      (some 9, .sha256, .relaxed)]).hashChunksC [b!"ab", b!"cd", b!"ef"]).map (·.2.2) =
    some [[.relaxed, .simple], [.relaxed, .simple], [.relaxed]] ∧
  ((BodyHasher.build true [(some 4, .sha256, .simple)]).hashChunksC [b!"ab", b!"cd", b!"ef", b!"gh"]).map (·.2) =
    some ([.interested, .interested, .done, .done], [[.simple], [.simple], [.simple], []]) := by
  exact ⟨rfl, rfl⟩

set_option maxRecDepth 100000 in
/-- A verifier with two signatures, both with simple canonicalization of the body, one of two bytes only; and one
without keys. -/
example : (∃ v asked, verifyHeader testEnv testResolver testMessage .default (fun _ => 1500) = some (some v, asked) ∧
      v.tasks.map (·.status) = [.success, .success] ∧
      (v.bodyHasher.hashChunksC testBody).map (·.2.2) = some [[.simple], [.simple]]) ∧
    ∃ v asked, verifyHeader testEnv (fun _ => ⟨0, .error .notFound⟩) testMessage .default (fun _ => 1500) =
        some (some v, asked) ∧ ∀ r ∈ v.tasks, r.status ≠ .success := by
  refine ⟨⟨_, _, rfl, rfl, rfl⟩, _, _, rfl, ?_⟩
  decide

end Dkim
