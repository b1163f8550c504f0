import Verif.Model.Sharing
import Verif.Spec.Sharing
import Verif.Proofs.BodyHash

/-!
# Which pieces of the body are canonicalized (lemmas for C114)
-/

namespace Dkim

open Spec

/-! ## Same results -/

theorem getC_get (st : ChunkLoop) (k : CanonAlg) (chunk : Bytes) :
    st.get k chunk = (st.getC k chunk).map fun r => (r.1, r.2.1) := by
  cases k
  · simp only [ChunkLoop.get, ChunkLoop.getC]
    cases st.chunkSimple with
    | some out => rfl
    | none => cases st.canonSimple.chunk chunk <;> rfl
  · simp only [ChunkLoop.get, ChunkLoop.getC]
    cases st.chunkRelaxed with
    | some out => rfl
    | none => cases st.canonRelaxed.chunk chunk <;> rfl

theorem hashChunkLoopC_same (fail : Bool) (chunk : Bytes) (es : List HEntry) : ∀ st : ChunkLoop,
    hashChunkLoop fail chunk st es = (hashChunkLoopC fail chunk st es).map fun r => (r.1, r.2.1) := by
  induction es with
  | nil => intro st; rfl
  | cons e es ih =>
    obtain ⟨key, h, tr⟩ := e
    intro st
    rw [hashChunkLoop, hashChunkLoopC]
    by_cases ha : hasherActive fail h tr = true
    · rw [if_pos ha, if_pos ha, getC_get]
      cases st.getC key.2.2 chunk with
      | none => rfl
      | some r =>
        obtain ⟨st1, out, calls⟩ := r
        simp only [Option.map_some]
        cases hu : h.update out with
        | none => rfl
        | some q =>
          obtain ⟨h', _ | _⟩ := q
          · simp only
            rw [ih]
            cases hashChunkLoopC fail chunk _ es <;> rfl
          · simp only
            rw [ih]
            cases hashChunkLoopC fail chunk _ es <;> rfl
    · rw [if_neg ha, if_neg ha, ih]
      cases hashChunkLoopC fail chunk _ es <;> rfl

theorem hashChunkC_same (bh : BodyHasher) (chunk : Bytes) :
    bh.hashChunk chunk = (bh.hashChunkC chunk).map fun r => (r.1, r.2.1) := by
  rw [BodyHasher.hashChunk, BodyHasher.hashChunkC, hashChunkLoopC_same]
  cases hashChunkLoopC bh.failOnTruncate chunk _ bh.hashers <;> rfl

theorem hashChunksC_same (chunks : List Bytes) : ∀ bh : BodyHasher,
    bh.hashChunks chunks = (bh.hashChunksC chunks).map fun r => (r.1, r.2.1) := by
  induction chunks with
  | nil => intro bh; rfl
  | cons c chunks ih =>
    intro bh
    rw [BodyHasher.hashChunks, BodyHasher.hashChunksC, hashChunkC_same]
    cases bh.hashChunkC c with
    | none => rfl
    | some r =>
      simp only [Option.map_some]
      rw [ih]
      cases BodyHasher.hashChunksC r.1 chunks <;> rfl

/-! ## The calls for a chunk -/

/-- The canonicalized chunk of a kind, if there already. -/
def ChunkLoop.memo (st : ChunkLoop) : CanonAlg → Option Bytes
  | .simple => st.chunkSimple
  | .relaxed => st.chunkRelaxed

theorem getC_calls {st st1 : ChunkLoop} {k0 : CanonAlg} {chunk out : Bytes} {calls : List CanonAlg}
    (h : st.getC k0 chunk = some (st1, out, calls)) :
    (st.memo k0 ≠ none ∧ st1 = st ∧ calls = []) ∨
    (st.memo k0 = none ∧ calls = [k0] ∧ st1.memo k0 ≠ none ∧ ∀ k, k ≠ k0 → st1.memo k = st.memo k) := by
  cases k0
  · simp only [ChunkLoop.getC] at h
    cases hm : st.chunkSimple with
    | some o => rw [hm] at h; cases h; exact .inl ⟨by simp [ChunkLoop.memo, hm], rfl, rfl⟩
    | none =>
      rw [hm] at h
      simp only at h
      cases hc : st.canonSimple.chunk chunk with
      | none => rw [hc] at h; cases h
      | some r =>
        rw [hc] at h
        cases h
        refine .inr ⟨hm, rfl, by simp [ChunkLoop.memo], ?_⟩
        intro k hk
        cases k
        · exact absurd rfl hk
        · rfl
  · simp only [ChunkLoop.getC] at h
    cases hm : st.chunkRelaxed with
    | some o => rw [hm] at h; cases h; exact .inl ⟨by simp [ChunkLoop.memo, hm], rfl, rfl⟩
    | none =>
      rw [hm] at h
      simp only at h
      cases hc : st.canonRelaxed.chunk chunk with
      | none => rw [hc] at h; cases h
      | some r =>
        rw [hc] at h
        cases h
        refine .inr ⟨hm, rfl, by simp [ChunkLoop.memo], ?_⟩
        intro k hk
        cases k
        · rfl
        · exact absurd rfl hk

/-- Calls for the first entry, and those for the others. -/
theorem calls_cons {fail : Bool} {key : BodyHasherKey} {h : CountingHasher} {tr : Bool} {es : List HEntry}
    {fresh fresh' : CanonAlg → Prop} {calls calls' : List CanonAlg}
    (ha : hasherActive fail h tr = true)
    (hg : (¬ fresh key.2.2 ∧ (∀ k, fresh' k ↔ fresh k) ∧ calls = []) ∨
      (fresh key.2.2 ∧ calls = [key.2.2] ∧ ¬ fresh' key.2.2 ∧ ∀ k, k ≠ key.2.2 → (fresh' k ↔ fresh k)))
    (hr : calls'.Nodup ∧ ∀ k, k ∈ calls' ↔ fresh' k ∧ anyActive fail k es = true) :
    (calls ++ calls').Nodup ∧
      ∀ k, k ∈ calls ++ calls' ↔ fresh k ∧ anyActive fail k ((key, h, tr) :: es) = true := by
  rcases hg with ⟨g1, g2, rfl⟩ | ⟨g1, rfl, g2, g3⟩
  · refine ⟨hr.1, ?_⟩
    intro k
    rw [List.nil_append, hr.2, anyActive_cons, g2]
    by_cases hk : k = key.2.2
    · subst hk; simp [g1]
    · have : (key.2.2 == k) = false := by simpa using fun h => hk h.symm
      simp only [this, Bool.false_and, Bool.false_or]
  · refine ⟨?_, ?_⟩
    · rw [List.singleton_append, List.nodup_cons]
      exact ⟨fun hm => g2 ((hr.2 _).1 hm).1, hr.1⟩
    · intro k
      rw [List.singleton_append, List.mem_cons, hr.2, anyActive_cons]
      by_cases hk : k = key.2.2
      · subst hk; simp [g1, ha]
      · have : (key.2.2 == k) = false := by simpa using fun h => hk h.symm
        simp only [this, Bool.false_and, Bool.false_or, hk, false_or, g3 k hk]

theorem hashChunkLoopC_calls {fail : Bool} {chunk : Bytes} (es : List HEntry) :
    ∀ {st st' : ChunkLoop} {es' : List HEntry} {calls : List CanonAlg},
    hashChunkLoopC fail chunk st es = some (st', es', calls) →
    calls.Nodup ∧ ∀ k, k ∈ calls ↔ st.memo k = none ∧ anyActive fail k es = true := by
  induction es with
  | nil =>
    intro st st' es' calls h
    cases h
    exact ⟨List.nodup_nil, fun k => ⟨fun h => (List.not_mem_nil h).elim, fun h => by cases h.2⟩⟩
  | cons e es ih =>
    obtain ⟨key, h, tr⟩ := e
    intro st st' es' calls hl
    rw [hashChunkLoopC] at hl
    by_cases ha : hasherActive fail h tr = true
    · rw [if_pos ha] at hl
      cases hg : st.getC key.2.2 chunk with
      | none => rw [hg] at hl; cases hl
      | some r =>
        obtain ⟨st1, out, calls1⟩ := r
        rw [hg] at hl
        simp only at hl
        have hc := getC_calls hg
        have hc' : (¬ st.memo key.2.2 = none ∧ (∀ k, st1.memo k = none ↔ st.memo k = none) ∧ calls1 = []) ∨
            (st.memo key.2.2 = none ∧ calls1 = [key.2.2] ∧ ¬ st1.memo key.2.2 = none ∧
              ∀ k, k ≠ key.2.2 → (st1.memo k = none ↔ st.memo k = none)) := by
          rcases hc with ⟨c1, c2, c3⟩ | ⟨c1, c2, c3, c4⟩
          · exact .inl ⟨c1, fun k => by rw [c2], c3⟩
          · exact .inr ⟨c1, c2, c3, fun k hk => by rw [c4 k hk]⟩
        cases hu : h.update out with
        | none => rw [hu] at hl; cases hl
        | some q =>
          obtain ⟨h', s⟩ := q
          rw [hu] at hl
          cases s with
          | allConsumed =>
            simp only at hl
            cases hr : hashChunkLoopC fail chunk
                (if (fail || !h'.isDone) = true then { st1 with allDone := false } else st1) es with
            | none => rw [hr] at hl; cases hl
            | some r =>
              obtain ⟨st2, es2, calls2⟩ := r
              rw [hr] at hl
              cases hl
              have hi := ih hr
              have hm : ∀ k, (if (fail || !h'.isDone) = true then
                  ({ st1 with allDone := false } : ChunkLoop) else st1).memo k = st1.memo k := by
                intro k
                split
                · cases k <;> rfl
                · rfl
              refine calls_cons ha hc' ⟨hi.1, fun k => ?_⟩
              rw [hi.2, hm]
          | truncated =>
            simp only at hl
            cases hr : hashChunkLoopC fail chunk st1 es with
            | none => rw [hr] at hl; cases hl
            | some r =>
              obtain ⟨st2, es2, calls2⟩ := r
              rw [hr] at hl
              cases hl
              exact calls_cons ha hc' (ih hr)
    · rw [if_neg ha] at hl
      cases hr : hashChunkLoopC fail chunk st es with
      | none => rw [hr] at hl; cases hl
      | some r =>
        obtain ⟨st2, es2, calls2⟩ := r
        rw [hr] at hl
        cases hl
        have hi := ih hr
        refine ⟨hi.1, fun k => ?_⟩
        rw [hi.2, anyActive_cons]
        simp [ha]

theorem hashChunkC_calls {bh bh' : BodyHasher} {chunk : Bytes} {s : Stance} {calls : List CanonAlg}
    (h : bh.hashChunkC chunk = some (bh', s, calls)) :
    calls.Nodup ∧ ∀ k, k ∈ calls ↔ anyActive bh.failOnTruncate k bh.hashers = true := by
  rw [BodyHasher.hashChunkC] at h
  cases hl : hashChunkLoopC bh.failOnTruncate chunk
      { canonSimple := bh.canonSimple, canonRelaxed := bh.canonRelaxed,
        chunkSimple := none, chunkRelaxed := none, allDone := true } bh.hashers with
  | none => rw [hl] at h; cases h
  | some r =>
    rw [hl] at h
    cases h
    have := hashChunkLoopC_calls _ hl
    refine ⟨this.1, fun k => ?_⟩
    rw [this.2]
    cases k <;> exact ⟨fun h => h.2, fun h => ⟨rfl, h⟩⟩

/-! ## The end -/

/-- The closure of a kind is still there. -/
def FinishLoop.fresh (st : FinishLoop) : CanonAlg → Bool
  | .simple => st.finishSimple
  | .relaxed => st.finishRelaxed

/-- The final piece of a kind, if there already. -/
def FinishLoop.memo (st : FinishLoop) : CanonAlg → Option Bytes
  | .simple => st.chunkSimple
  | .relaxed => st.chunkRelaxed

/-- Where the closure is gone, there is the final piece. -/
def FinishLoop.Shared (bh : BodyHasher) (st : FinishLoop) : Prop :=
  ∀ k, st.fresh k = false → ∃ out, st.memo k = some out ∧ bh.finishCanon k = some out

theorem getFinalC_same {bh : BodyHasher} {st : FinishLoop} (hs : st.Shared bh) (k : CanonAlg) :
    (bh.getFinalC st k).map (fun r => r.2.1) = bh.finishCanon k := by
  cases hf : st.fresh k with
  | true =>
    cases k
    · simp only [FinishLoop.fresh] at hf
      simp only [BodyHasher.getFinalC, hf, if_true, BodyHasher.finishCanon]
      cases bh.canonSimple.finish <;> rfl
    · simp only [FinishLoop.fresh] at hf
      simp only [BodyHasher.getFinalC, hf, if_true, BodyHasher.finishCanon]
      cases bh.canonRelaxed.finish <;> rfl
  | false =>
    obtain ⟨out, h1, h2⟩ := hs k hf
    rw [h2]
    cases k
    · simp only [FinishLoop.fresh, FinishLoop.memo] at hf h1
      simp [BodyHasher.getFinalC, hf, h1]
    · simp only [FinishLoop.fresh, FinishLoop.memo] at hf h1
      simp [BodyHasher.getFinalC, hf, h1]

theorem getFinalC_calls {bh : BodyHasher} {st st1 : FinishLoop} (hs : st.Shared bh) {k0 : CanonAlg} {out : Bytes}
    {calls : List CanonAlg} (h : bh.getFinalC st k0 = some (st1, out, calls)) :
    st1.Shared bh ∧
    ((¬ st.fresh k0 = true ∧ (∀ k, st1.fresh k = true ↔ st.fresh k = true) ∧ calls = []) ∨
    (st.fresh k0 = true ∧ calls = [k0] ∧ ¬ st1.fresh k0 = true ∧
      ∀ k, k ≠ k0 → (st1.fresh k = true ↔ st.fresh k = true))) := by
  cases hf : st.fresh k0 with
  | true =>
    cases k0
    · simp only [FinishLoop.fresh] at hf
      simp only [BodyHasher.getFinalC, hf, if_true] at h
      cases hc : bh.canonSimple.finish with
      | none => rw [hc] at h; cases h
      | some o =>
        rw [hc] at h
        cases h
        refine ⟨?_, .inr ⟨rfl, rfl, by simp [FinishLoop.fresh], ?_⟩⟩
        · intro k hk
          cases k
          · exact ⟨out, rfl, hc⟩
          · exact hs .relaxed hk
        · intro k hk
          cases k
          · exact absurd rfl hk
          · rfl
    · simp only [FinishLoop.fresh] at hf
      simp only [BodyHasher.getFinalC, hf, if_true] at h
      cases hc : bh.canonRelaxed.finish with
      | none => rw [hc] at h; cases h
      | some o =>
        rw [hc] at h
        cases h
        refine ⟨?_, .inr ⟨rfl, rfl, by simp [FinishLoop.fresh], ?_⟩⟩
        · intro k hk
          cases k
          · exact hs .simple hk
          · exact ⟨out, rfl, hc⟩
        · intro k hk
          cases k
          · rfl
          · exact absurd rfl hk
  | false =>
    have : st1 = st ∧ calls = [] := by
      cases k0
      · simp only [FinishLoop.fresh] at hf
        simp only [BodyHasher.getFinalC, hf] at h
        cases hm : st.chunkSimple with
        | none => rw [hm] at h; cases h
        | some o => rw [hm] at h; cases h; exact ⟨rfl, rfl⟩
      · simp only [FinishLoop.fresh] at hf
        simp only [BodyHasher.getFinalC, hf] at h
        cases hm : st.chunkRelaxed with
        | none => rw [hm] at h; cases h
        | some o => rw [hm] at h; cases h; exact ⟨rfl, rfl⟩
    obtain ⟨rfl, rfl⟩ := this
    exact ⟨hs, .inl ⟨Bool.false_ne_true, fun _ => Iff.rfl, rfl⟩⟩

theorem finishLoopC_same (hash : HashFn) (bh : BodyHasher) (es : List HEntry) :
    ∀ {st : FinishLoop}, st.Shared bh →
    (bh.finishLoopC hash st es).map (·.1) = bh.finishLoop hash es := by
  induction es with
  | nil => intro st _; rfl
  | cons e es ih =>
    obtain ⟨key, h, tr⟩ := e
    intro st hs
    rw [BodyHasher.finishLoopC, BodyHasher.finishLoop, BodyHasher.finishOne]
    by_cases ha : hasherActive bh.failOnTruncate h tr = true
    · simp only [if_pos ha]
      rw [← getFinalC_same hs]
      cases hg : bh.getFinalC st key.2.2 with
      | none => rfl
      | some r =>
        obtain ⟨st1, out, calls⟩ := r
        simp only [Option.map_some]
        cases hu : h.update out with
        | none => rfl
        | some q =>
          obtain ⟨h', s⟩ := q
          cases s <;>
          · simp only
            rw [← ih (getFinalC_calls hs hg).1]
            cases bh.finishLoopC hash st1 es with
            | none => simp only [Option.map_none]; split <;> rfl
            | some r =>
              simp only [Option.map_some, resultOf]
              split
              · simp only [*, Option.map_some]
              · cases h'.finish hash <;> simp only [*, Option.map_some]
    · simp only [if_neg ha]
      rw [← ih hs]
      cases bh.finishLoopC hash st es with
      | none => simp only [Option.map_none]; split <;> rfl
      | some r =>
        simp only [Option.map_some, resultOf]
        split
        · simp only [*, Option.map_some]
        · cases h.finish hash <;> simp only [*, Option.map_some]

theorem finishLoopC_calls {hash : HashFn} {bh : BodyHasher} (es : List HEntry) :
    ∀ {st : FinishLoop} {rs : BodyHashResults} {calls : List CanonAlg}, st.Shared bh →
    bh.finishLoopC hash st es = some (rs, calls) →
    calls.Nodup ∧ ∀ k, k ∈ calls ↔ st.fresh k = true ∧ anyActive bh.failOnTruncate k es = true := by
  induction es with
  | nil =>
    intro st rs calls _ h
    cases h
    exact ⟨List.nodup_nil, fun k => ⟨fun h => (List.not_mem_nil h).elim, fun h => by cases h.2⟩⟩
  | cons e es ih =>
    obtain ⟨key, h, tr⟩ := e
    intro st rs calls hs hl
    rw [BodyHasher.finishLoopC] at hl
    by_cases ha : hasherActive bh.failOnTruncate h tr = true
    · rw [if_pos ha] at hl
      cases hg : bh.getFinalC st key.2.2 with
      | none => rw [hg] at hl; cases hl
      | some r =>
        obtain ⟨st1, out, calls1⟩ := r
        rw [hg] at hl
        simp only at hl
        obtain ⟨hs1, hc⟩ := getFinalC_calls hs hg
        cases hu : h.update out with
        | none => rw [hu] at hl; cases hl
        | some q =>
          obtain ⟨h', s⟩ := q
          rw [hu] at hl
          simp only at hl
          cases hr : bh.finishLoopC hash st1 es with
          | none => rw [hr] at hl; cases hl
          | some r =>
            obtain ⟨rs2, calls2⟩ := r
            rw [hr] at hl
            cases hl
            exact calls_cons ha hc (ih hs1 hr)
    · rw [if_neg ha] at hl
      cases hr : bh.finishLoopC hash st es with
      | none => rw [hr] at hl; cases hl
      | some r =>
        obtain ⟨rs2, calls2⟩ := r
        rw [hr] at hl
        cases hl
        have hi := ih hs hr
        refine ⟨hi.1, fun k => ?_⟩
        rw [hi.2, anyActive_cons]
        simp [ha]

theorem shared_start (bh : BodyHasher) : FinishLoop.Shared bh ⟨true, true, none, none⟩ := by
  intro k h
  cases k <;> cases h

/-! ## What is needed -/

theorem active_iff {fail : Bool} {p : Bytes} {e : HEntry} (h : EntryInv fail p e) :
    hasherActive fail e.2.1 e.2.2 = true ↔ NeedsMore fail e.1.1 p.length := by
  rcases e with ⟨⟨len, a, c⟩, ⟨ha', habs, hlen, hbw⟩, tr⟩
  simp only [EntryInv] at h
  obtain ⟨h1, h2, h3, h4⟩ := h
  subst h1 h2 h3
  cases hlen with
  | none => simp [hasherActive, CountingHasher.isDone, NeedsMore]
  | some n =>
    simp only at h4
    obtain ⟨h4, h5, h6⟩ := h4
    have hlen : habs.length = min n p.length := by rw [h4]; simp
    simp only [hasherActive, CountingHasher.isDone, NeedsMore]
    cases fail with
    | false => simp; omega
    | true => simp [h5 rfl]; omega

theorem anyActive_iff {fail : Bool} {keys : List BodyHasherKey} {b p : Bytes} {bh : BodyHasher} {k : CanonAlg}
    {c : BodyCanon} (h : HasherInv fail keys b bh) (hi : ideal k b c p) :
    anyActive fail k bh.hashers = true ↔ ∃ key ∈ keys, key.2.2 = k ∧ NeedsMore fail key.1 p.length := by
  obtain ⟨s0, sp, hs, _⟩ := ideal_exists .simple b
  obtain ⟨r0, rp, hr, _⟩ := ideal_exists .relaxed b
  have hent := h.entries _ _ _ _ hs hr
  have ho : ∀ e : HEntry, e.1.2.2 = k → outFor sp rp e = p := by
    intro e he
    cases k
    · unfold ideal at hi hs; rw [hs] at hi; cases hi; rw [outFor, he]
    · unfold ideal at hi hr; rw [hr] at hi; cases hi; rw [outFor, he]
  simp only [anyActive, List.any_eq_true, Bool.and_eq_true, beq_iff_eq]
  constructor
  · rintro ⟨e, he, hk, ha⟩
    refine ⟨e.1, by rw [← h.keys_eq]; exact List.mem_map_of_mem he, hk, ?_⟩
    rw [← ho e hk]
    exact (active_iff (hent e he)).1 ha
  · rintro ⟨key, hm, hk, hn⟩
    rw [← h.keys_eq, List.mem_map] at hm
    obtain ⟨e, he, rfl⟩ := hm
    refine ⟨e, he, hk, (active_iff (hent e he)).2 ?_⟩
    rw [ho e hk]
    exact hn

theorem bodyHasherKey_parts {E : Env} {sig : DkimSignature} {key : BodyHasherKey} (h : bodyHasherKey E sig = some key) :
    key = (sig.bodyLength, sig.algorithm.hashAlg, sig.canonicalization.body) := by
  unfold bodyHasherKey at h
  cases hl : sig.bodyLength with
  | none => rw [hl] at h; cases h; rfl
  | some n =>
    rw [hl] at h
    simp only [Env.toUsize] at h
    split at h
    · cases h; rfl
    · cases h

/-- The keys that are registered are those of the signatures that are verified so far. -/
theorem collectTasks_keys {E : Env} (ts : List VerifyTask) :
    ∀ {rs : List VerificationResult} {keys : List BodyHasherKey}, collectTasks E ts = some (rs, keys) →
    ∀ key, key ∈ keys ↔ ∃ r ∈ rs, r.status = .success ∧ ∃ sig, r.signature = some sig ∧
      key = (sig.bodyLength, sig.algorithm.hashAlg, sig.canonicalization.body) := by
  induction ts with
  | nil => intro rs keys h key; cases h; simp
  | cons t ts ih =>
    intro rs keys h key
    rw [collectTasks] at h
    cases hs : t.status with
    | inProgress => rw [hs] at h; cases h
    | failed e =>
      rw [hs] at h
      simp only at h
      cases hc : collectTasks E ts with
      | none => rw [hc] at h; cases h
      | some q =>
        obtain ⟨rs', keys'⟩ := q
        rw [hc] at h
        cases h
        rw [ih hc]
        simp
    | successful =>
      rw [hs] at h
      simp only at h
      cases hsig : t.signature with
      | none => rw [hsig] at h; cases h
      | some sig =>
        rw [hsig] at h
        simp only at h
        cases hk : bodyHasherKey E sig with
        | none => rw [hk] at h; cases h
        | some key' =>
          rw [hk] at h
          simp only at h
          cases hc : collectTasks E ts with
          | none => rw [hc] at h; cases h
          | some q =>
            obtain ⟨rs', keys'⟩ := q
            rw [hc] at h
            cases h
            rw [List.mem_cons, ih hc, bodyHasherKey_parts hk]
            simp

theorem verifyHeader_hasher {E : Env} {resolver : Resolver} {headers : List Field} {cfg : Config}
    {clock : Nat → Int} {v : Verifier} {asked : List Str}
    (h : verifyHeader E resolver headers cfg clock = some (some v, asked)) :
    ∃ keys, v.bodyHasher = BodyHasher.build cfg.forbidUnsignedContent (E.keySet keys) ∧
      ∀ key, key ∈ keys ↔ ∃ r ∈ v.tasks, r.status = .success ∧ ∃ sig, r.signature = some sig ∧
        key = (sig.bodyLength, sig.algorithm.hashAlg, sig.canonicalization.body) := by
  unfold verifyHeader at h
  cases h1 : findSignatures E headers cfg clock with
  | none => rw [h1] at h; cases h
  | some tasks =>
    rw [h1] at h
    simp only at h
    split at h
    · cases h
    · cases h2 : verifyAll E resolver headers cfg tasks with
      | none => rw [h2] at h; cases h
      | some q =>
        rw [h2] at h
        simp only at h
        cases h3 : collectTasks E q.1 with
        | none => rw [h3] at h; cases h
        | some p =>
          rw [h3] at h
          cases h
          exact ⟨_, rfl, collectTasks_keys _ h3⟩

end Dkim
