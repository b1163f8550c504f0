import Verif.Model.Machine
import Verif.Proofs.Memory

/-!
# Counters of the size of the machine (helpers for C112)
-/

namespace Dkim

open Spec

variable {M : Machine}

theorem add_fits {a b : Nat} (h : a + b ≤ M.max) : M.add a b = some (a + b) := if_pos h

theorem add_checked (hm : M.checked = true) {a b n : Nat} (h : M.add a b = some n) : n = a + b := by
  unfold Machine.add at h
  rw [hm] at h
  split at h
  · exact (Option.some.inj h).symm
  · cases h

theorem add_wraps (hm : M.checked = false) (n : Nat) :
    M.add (n % (M.max + 1)) 1 = some ((n + 1) % (M.max + 1)) := by
  have h := Nat.mod_lt n (Nat.succ_pos M.max)
  rw [Nat.add_mod n 1]
  unfold Machine.add
  by_cases hle : n % (M.max + 1) + 1 ≤ M.max
  · rw [if_pos hle]
    have h1 : 1 % (M.max + 1) = 1 := Nat.mod_eq_of_lt (by omega)
    rw [h1, Nat.mod_eq_of_lt (by omega : n % (M.max + 1) + 1 < M.max + 1)]
  · rw [if_neg hle, if_neg (by rw [hm]; decide)]
    rw [Nat.add_mod (n % (M.max + 1)) 1, Nat.mod_mod]

/-! ## Nothing overflows if the body is small enough -/

theorem emptyLines_le (c : BodyCanon) : c.emptyLines ≤ c.pending := by
  unfold BodyCanon.pending
  split <;> omega

theorem countLine_eq {c : BodyCanon} (h : c.pending + 1 ≤ M.max) :
    c.countLine M = some ({ c with emptyLines := c.emptyLines + 1, state := .crlf }, []) := by
  unfold BodyCanon.countLine
  rw [add_fits (Nat.le_trans (Nat.succ_le_succ (emptyLines_le c)) h)]
  rfl

theorem stepM_eq {c : BodyCanon} (h : c.pending + 1 ≤ M.max) (b : UInt8) : c.stepM M b = c.step b := by
  unfold BodyCanon.stepM BodyCanon.step
  cases c.kind with
  | simple =>
    simp only
    unfold BodyCanon.stepSimpleM BodyCanon.stepSimple
    rw [countLine_eq h]
    cases c.state <;> rfl
  | relaxed =>
    simp only
    unfold BodyCanon.stepRelaxedM BodyCanon.stepRelaxed
    rw [countLine_eq h]
    cases c.state <;> simp only
    all_goals repeat' split
    all_goals rfl

theorem chunkM_eq {c : BodyCanon} {bs : Bytes} (h : c.pending + bs.length ≤ M.max) :
    c.chunkM M bs = c.chunk bs := by
  induction bs generalizing c with
  | nil => rfl
  | cons b bs ih =>
    rw [List.length_cons] at h
    rw [BodyCanon.chunkM, BodyCanon.chunk, stepM_eq (by omega)]
    cases h1 : c.step b with
    | none => rfl
    | some p =>
      obtain ⟨c1, o1⟩ := p
      have := step_size h1
      simp only
      rw [ih (by omega)]
      cases c1.chunk bs <;> rfl

theorem updateM_eq {h : CountingHasher} {bytes : Bytes} (hm : h.bytesWritten + bytes.length ≤ M.max) :
    h.updateM M bytes = h.update bytes := by
  unfold CountingHasher.updateM CountingHasher.update
  cases h.length with
  | none => simp only; rw [add_fits hm]; rfl
  | some len =>
    simp only
    have : h.bytesWritten + (bytes.take (len - h.bytesWritten)).length ≤ M.max := by
      rw [List.length_take]; omega
    rw [add_fits hm, add_fits this]
    rfl

theorem update_count {h h' : CountingHasher} {bytes : Bytes} {s : HashStatus}
    (hu : h.update bytes = some (h', s)) : h'.bytesWritten ≤ h.bytesWritten + bytes.length := by
  unfold CountingHasher.update at hu
  simp only at hu
  repeat' (split at hu)
  all_goals
    first
    | (cases hu; done)
    | (simp only [Option.some.injEq, Prod.mk.injEq] at hu
       obtain ⟨rfl, _⟩ := hu
       simp only [List.length_take]
       omega)

/-- The canonicalizer of a kind. -/
def ChunkLoop.canonOf (st : ChunkLoop) : CanonAlg → BodyCanon
  | .simple => st.canonSimple
  | .relaxed => st.canonRelaxed

/-- The canonicalized chunk of a kind. -/
def ChunkLoop.chunkOf (st : ChunkLoop) : CanonAlg → Option Bytes
  | .simple => st.chunkSimple
  | .relaxed => st.chunkRelaxed

/-- The canonicalizers are as at the beginning of the loop, or have read the chunk. -/
def LoopInv (start : CanonAlg → BodyCanon) (chunk : Bytes) (st : ChunkLoop) : Prop :=
  ∀ k, (st.chunkOf k = none ∧ st.canonOf k = start k) ∨
    ∃ out, st.chunkOf k = some out ∧ (start k).chunk chunk = some (st.canonOf k, out)

theorem getM_eq {start : CanonAlg → BodyCanon} {chunk : Bytes} {st : ChunkLoop} (hi : LoopInv start chunk st)
    (hm : ∀ k, (start k).pending + chunk.length ≤ M.max) (k : CanonAlg) :
    st.getM M k chunk = st.get k chunk := by
  have h := hi k
  unfold ChunkLoop.getM ChunkLoop.get
  cases k with
  | simple =>
    simp only [ChunkLoop.chunkOf, ChunkLoop.canonOf] at h ⊢
    rcases h with ⟨h1, h2⟩ | ⟨out, h1, _⟩
    · rw [h1, h2]
      simp only
      rw [chunkM_eq (hm .simple)]
      cases (start .simple).chunk chunk <;> rfl
    · rw [h1]
  | relaxed =>
    simp only [ChunkLoop.chunkOf, ChunkLoop.canonOf] at h ⊢
    rcases h with ⟨h1, h2⟩ | ⟨out, h1, _⟩
    · rw [h1, h2]
      simp only
      rw [chunkM_eq (hm .relaxed)]
      cases (start .relaxed).chunk chunk <;> rfl
    · rw [h1]

theorem get_inv {start : CanonAlg → BodyCanon} {chunk out : Bytes} {st st' : ChunkLoop}
    (hi : LoopInv start chunk st) {k : CanonAlg} (h : st.get k chunk = some (st', out)) :
    LoopInv start chunk st' ∧ st'.chunkOf k = some out ∧
      ∀ k' o, st.chunkOf k' = some o → st'.chunkOf k' = some o := by
  have h0 := hi k
  unfold ChunkLoop.get at h
  cases k with
  | simple =>
    simp only [ChunkLoop.chunkOf, ChunkLoop.canonOf] at h0 h
    rcases h0 with ⟨h1, h2⟩ | ⟨o, h1, h2⟩
    · rw [h1] at h
      simp only at h
      cases hc : st.canonSimple.chunk chunk with
      | none => rw [hc] at h; cases h
      | some p =>
        obtain ⟨c, o⟩ := p
        rw [hc] at h
        cases h
        refine ⟨?_, rfl, ?_⟩
        · intro k
          cases k with
          | simple => exact .inr ⟨_, rfl, by rw [← h2]; exact hc⟩
          | relaxed => exact hi .relaxed
        · intro k o ho
          cases k with
          | simple => simp [ChunkLoop.chunkOf, h1] at ho
          | relaxed => exact ho
    · rw [h1] at h
      cases h
      exact ⟨hi, h1, fun _ _ h => h⟩
  | relaxed =>
    simp only [ChunkLoop.chunkOf, ChunkLoop.canonOf] at h0 h
    rcases h0 with ⟨h1, h2⟩ | ⟨o, h1, h2⟩
    · rw [h1] at h
      simp only at h
      cases hc : st.canonRelaxed.chunk chunk with
      | none => rw [hc] at h; cases h
      | some p =>
        obtain ⟨c, o⟩ := p
        rw [hc] at h
        cases h
        refine ⟨?_, rfl, ?_⟩
        · intro k
          cases k with
          | simple => exact hi .simple
          | relaxed => exact .inr ⟨_, rfl, by rw [← h2]; exact hc⟩
        · intro k o ho
          cases k with
          | simple => exact ho
          | relaxed => simp [ChunkLoop.chunkOf, h1] at ho
    · rw [h1] at h
      cases h
      exact ⟨hi, h1, fun _ _ h => h⟩

/-- Setting `all_done` changes nothing else. -/
theorem loopInv_allDone {start : CanonAlg → BodyCanon} {chunk : Bytes} {st : ChunkLoop} (b : Bool)
    (hi : LoopInv start chunk st) : LoopInv start chunk (if b then { st with allDone := false } else st) := by
  cases b
  · exact hi
  · intro k; cases k
    · exact hi .simple
    · exact hi .relaxed

theorem chunkOf_allDone (st : ChunkLoop) (b : Bool) (k : CanonAlg) :
    (if b then { st with allDone := false } else st : ChunkLoop).chunkOf k = st.chunkOf k := by
  cases b <;> cases k <;> rfl

theorem hashChunkLoopM_eq {start : CanonAlg → BodyCanon} {chunk : Bytes} {n : Nat} (fail : Bool)
    (hm : n + chunk.length ≤ M.max) (hs : ∀ k, (start k).pending ≤ n) :
    ∀ (l : List (BodyHasherKey × CountingHasher × Bool)) (st : ChunkLoop), LoopInv start chunk st →
    (∀ e ∈ l, e.2.1.bytesWritten + (start e.1.2.2).pending ≤ n) →
    hashChunkLoopM M fail chunk st l = hashChunkLoop fail chunk st l ∧
    ∀ st' l', hashChunkLoop fail chunk st l = some (st', l') → LoopInv start chunk st' ∧
      (∀ k o, st.chunkOf k = some o → st'.chunkOf k = some o) ∧
      ∀ e ∈ l', e.2.1.bytesWritten + (st'.canonOf e.1.2.2).pending ≤ n + chunk.length := by
  have hp : ∀ k, (start k).pending + chunk.length ≤ M.max := fun k => Nat.le_trans (Nat.add_le_add_right (hs k) _) hm
  have after : ∀ {st : ChunkLoop}, LoopInv start chunk st → ∀ k,
      (st.canonOf k).pending ≤ (start k).pending + chunk.length := by
    intro st hi k
    rcases hi k with ⟨_, h⟩ | ⟨o, _, h⟩
    · rw [h]; omega
    · have := chunk_size h; omega
  intro l
  induction l with
  | nil =>
    intro st hi _
    refine ⟨rfl, ?_⟩
    intro st' l' h
    cases h
    exact ⟨hi, fun _ _ h => h, by simp⟩
  | cons e l ih =>
    obtain ⟨key, h, tr⟩ := e
    intro st hi hl
    have he := hl _ (List.mem_cons_self ..)
    have hl' := fun e h => hl e (List.mem_cons_of_mem _ h)
    simp only at he
    rw [hashChunkLoopM, hashChunkLoop]
    cases ha : hasherActive fail h tr with
    | false =>
      simp only [Bool.false_eq_true, if_false]
      obtain ⟨i1, i2⟩ := ih st hi hl'
      rw [i1]
      refine ⟨by cases hashChunkLoop fail chunk st l <;> rfl, ?_⟩
      intro st' l' hr
      cases hh : hashChunkLoop fail chunk st l with
      | none => rw [hh] at hr; cases hr
      | some p =>
        obtain ⟨st1, l1⟩ := p
        rw [hh] at hr
        cases hr
        obtain ⟨j1, j2, j3⟩ := i2 _ _ hh
        refine ⟨j1, j2, ?_⟩
        intro e he'
        rcases List.mem_cons.1 he' with rfl | he'
        · have := after j1 key.2.2
          simp only
          omega
        · exact j3 e he'
    | true =>
      simp only [if_true]
      rw [getM_eq hi hp]
      cases hg : st.get key.2.2 chunk with
      | none => exact ⟨rfl, fun _ _ h => by cases h⟩
      | some p =>
        obtain ⟨st1, out⟩ := p
        obtain ⟨g1, g2, g3⟩ := get_inv hi hg
        have hout : ∀ {st' : ChunkLoop}, LoopInv start chunk st' → st'.chunkOf key.2.2 = some out →
            out.length + (st'.canonOf key.2.2).pending ≤ (start key.2.2).pending + chunk.length := by
          intro st' hi' hc
          rcases hi' key.2.2 with ⟨h1, _⟩ | ⟨o, h1, h2⟩
          · rw [hc] at h1; cases h1
          · rw [hc] at h1; cases h1; exact chunk_size h2
        have hb := hout g1 g2
        simp only
        rw [updateM_eq (by omega)]
        cases hu : h.update out with
        | none => exact ⟨rfl, fun _ _ h => by cases h⟩
        | some p =>
          obtain ⟨h', s⟩ := p
          have hcnt := update_count hu
          cases s with
          | allConsumed =>
            simp only
            obtain ⟨i1, i2⟩ := ih _ (loopInv_allDone (fail || !h'.isDone) g1) hl'
            rw [i1]
            refine ⟨by cases hashChunkLoop fail chunk _ l <;> rfl, ?_⟩
            intro st' l' hr
            cases hh : hashChunkLoop fail chunk
                (if (fail || !h'.isDone) then { st1 with allDone := false } else st1) l with
            | none => rw [hh] at hr; cases hr
            | some p =>
              obtain ⟨st2, l2⟩ := p
              rw [hh] at hr
              cases hr
              obtain ⟨j1, j2, j3⟩ := i2 _ _ hh
              refine ⟨j1, ?_, ?_⟩
              · intro k o hk
                exact j2 k o (by rw [chunkOf_allDone]; exact g3 k o hk)
              · intro e he'
                rcases List.mem_cons.1 he' with rfl | he'
                · have := hout j1 (j2 _ _ (by rw [chunkOf_allDone]; exact g2))
                  simp only
                  omega
                · exact j3 e he'
          | truncated =>
            simp only
            obtain ⟨i1, i2⟩ := ih _ g1 hl'
            rw [i1]
            refine ⟨by cases hashChunkLoop fail chunk _ l <;> rfl, ?_⟩
            intro st' l' hr
            cases hh : hashChunkLoop fail chunk st1 l with
            | none => rw [hh] at hr; cases hr
            | some p =>
              obtain ⟨st2, l2⟩ := p
              rw [hh] at hr
              cases hr
              obtain ⟨j1, j2, j3⟩ := i2 _ _ hh
              refine ⟨j1, fun k o hk => j2 k o (g3 k o hk), ?_⟩
              intro e he'
              rcases List.mem_cons.1 he' with rfl | he'
              · have := hout j1 (j2 _ _ g2)
                simp only
                omega
              · exact j3 e he'

/-- The canonicalizer of a kind. -/
def BodyHasher.canonOf (bh : BodyHasher) : CanonAlg → BodyCanon
  | .simple => bh.canonSimple
  | .relaxed => bh.canonRelaxed

/-- All counters are at most `n`, also after what is still pending. -/
def BodyHasher.Within (bh : BodyHasher) (n : Nat) : Prop :=
  (∀ k, (bh.canonOf k).pending ≤ n) ∧ ∀ e ∈ bh.hashers, e.2.1.bytesWritten + (bh.canonOf e.1.2.2).pending ≤ n

theorem hashChunkM_eq {bh : BodyHasher} {n : Nat} {chunk : Bytes} (hw : bh.Within n)
    (hm : n + chunk.length ≤ M.max) :
    bh.hashChunkM M chunk = bh.hashChunk chunk ∧
      ∀ bh' s, bh.hashChunk chunk = some (bh', s) → bh'.Within (n + chunk.length) := by
  have hinv : LoopInv bh.canonOf chunk ⟨bh.canonSimple, bh.canonRelaxed, none, none, true⟩ := by
    intro k; cases k <;> exact .inl ⟨rfl, rfl⟩
  obtain ⟨h1, h2⟩ := hashChunkLoopM_eq (M := M) bh.failOnTruncate hm hw.1 bh.hashers _ hinv hw.2
  unfold BodyHasher.hashChunkM BodyHasher.hashChunk
  rw [h1]
  cases hh : hashChunkLoop bh.failOnTruncate chunk ⟨bh.canonSimple, bh.canonRelaxed, none, none, true⟩ bh.hashers with
  | none => exact ⟨rfl, fun _ _ h => by cases h⟩
  | some p =>
    obtain ⟨st, l⟩ := p
    refine ⟨rfl, ?_⟩
    intro bh' s h
    cases h
    obtain ⟨j1, _, j3⟩ := h2 _ _ hh
    have hcan : ∀ k, BodyHasher.canonOf { bh with hashers := l, canonSimple := st.canonSimple, canonRelaxed := st.canonRelaxed } k
        = st.canonOf k := by intro k; cases k <;> rfl
    refine ⟨?_, ?_⟩
    · intro k
      rw [hcan]
      have := hw.1 k
      rcases j1 k with ⟨_, h⟩ | ⟨o, _, h⟩
      · rw [h]; omega
      · have := chunk_size h; omega
    · intro e he
      rw [hcan]
      exact j3 e he

theorem hashChunksM_eq {chunks : List Bytes} : ∀ {bh : BodyHasher} {n : Nat}, bh.Within n →
    n + chunks.flatten.length ≤ M.max →
    bh.hashChunksM M chunks = bh.hashChunks chunks ∧
      ∀ bh' s, bh.hashChunks chunks = some (bh', s) → bh'.Within (n + chunks.flatten.length) := by
  induction chunks with
  | nil =>
    intro bh n hw _
    refine ⟨rfl, fun _ _ h => ?_⟩
    cases h
    exact hw
  | cons ch chs ih =>
    intro bh n hw hm
    rw [List.flatten_cons, List.length_append] at hm
    obtain ⟨h1, h2⟩ := hashChunkM_eq (M := M) (chunk := ch) hw (by omega)
    rw [BodyHasher.hashChunksM, BodyHasher.hashChunks, h1]
    cases hc : bh.hashChunk ch with
    | none => exact ⟨rfl, fun _ _ h => by cases h⟩
    | some p =>
      obtain ⟨bh1, s1⟩ := p
      obtain ⟨h3, h4⟩ := ih (h2 _ _ hc) (by omega)
      simp only
      rw [h3]
      cases hr : bh1.hashChunks chs with
      | none => exact ⟨rfl, fun _ _ h => by cases h⟩
      | some q =>
        obtain ⟨bh2, s2⟩ := q
        refine ⟨rfl, fun _ _ h => ?_⟩
        cases h
        have := h4 _ _ hr
        rw [List.flatten_cons, List.length_append]
        rwa [Nat.add_assoc] at this

theorem build_within (fail : Bool) (keys : List BodyHasherKey) : (BodyHasher.build fail keys).Within 0 := by
  refine ⟨fun k => by cases k <;> exact Nat.le_refl _, ?_⟩
  intro e he
  unfold BodyHasher.build at he
  simp only [List.mem_map] at he
  obtain ⟨key, _, rfl⟩ := he
  generalize key.2.2 = k
  cases k <;> exact Nat.le_refl _

theorem finishM_eq {bh : BodyHasher} {n : Nat} (hw : bh.Within n) (hm : n + 2 ≤ M.max) (hash : HashFn) :
    bh.finishM M hash = bh.finish hash := by
  unfold BodyHasher.finishM BodyHasher.finish
  have one : ∀ e ∈ bh.hashers, bh.finishOneM M hash e = bh.finishOne hash e := by
    intro e he
    have hb := hw.2 e he
    obtain ⟨key, h, tr⟩ := e
    unfold BodyHasher.finishOneM BodyHasher.finishOne
    simp only at hb ⊢
    have hf : bh.finishCanon key.2.2 = (bh.canonOf key.2.2).finish := by
      generalize key.2.2 = k; cases k <;> rfl
    rw [hf]
    cases hc : (bh.canonOf key.2.2).finish with
    | none => rfl
    | some out =>
      have := finish_size hc
      simp only
      rw [updateM_eq (by omega)]
      cases h.update out <;> rfl
  generalize bh.hashers = l at one
  induction l with
  | nil => rfl
  | cons e l ih =>
    rw [BodyHasher.finishLoopM, BodyHasher.finishLoop, one e (List.mem_cons_self ..)]
    cases bh.finishOne hash e with
    | none => rfl
    | some r =>
      simp only
      rw [ih fun e he => one e (List.mem_cons_of_mem _ he)]
      cases bh.finishLoop hash l <;> rfl

/-! ## In a checked build, what does not panic is right -/

theorem countLine_checked (hm : M.checked = true) {c : BodyCanon} {r : BodyCanon × Bytes}
    (h : c.countLine M = some r) : r = ({ c with emptyLines := c.emptyLines + 1, state := .crlf }, []) := by
  unfold BodyCanon.countLine at h
  rw [Option.map_eq_some_iff] at h
  obtain ⟨n, h1, h2⟩ := h
  rw [add_checked hm h1] at h2
  exact h2.symm

theorem stepM_checked (hm : M.checked = true) {c : BodyCanon} {b : UInt8} {r : BodyCanon × Bytes}
    (h : c.stepM M b = some r) : c.step b = some r := by
  unfold BodyCanon.stepM at h
  unfold BodyCanon.step
  cases hl : c.countLine M with
  | some p =>
    have hp := countLine_checked hm hl
    cases hk : c.kind with
    | simple =>
      rw [hk] at h
      simp only at h ⊢
      rw [← h]
      unfold BodyCanon.stepSimpleM BodyCanon.stepSimple
      rw [hl, hp]
      cases c.state <;> rfl
    | relaxed =>
      rw [hk] at h
      simp only at h ⊢
      rw [← h]
      unfold BodyCanon.stepRelaxedM BodyCanon.stepRelaxed
      rw [hl, hp]
      cases c.state <;> simp only
      all_goals repeat' split
      all_goals rfl
  | none =>
    cases hk : c.kind with
    | simple =>
      rw [hk] at h
      simp only at h ⊢
      unfold BodyCanon.stepSimpleM at h
      unfold BodyCanon.stepSimple
      rw [hl] at h
      cases hs : c.state <;> rw [hs] at h <;> simp only at h ⊢
      all_goals
        repeat' split at h
        all_goals first
          | (cases h; done)
          | (simp only [*, if_true, if_false]; exact h)
          | simp_all
    | relaxed =>
      rw [hk] at h
      simp only at h ⊢
      unfold BodyCanon.stepRelaxedM at h
      unfold BodyCanon.stepRelaxed
      rw [hl] at h
      cases hs : c.state <;> rw [hs] at h <;> simp only at h ⊢
      all_goals
        repeat' split at h
        all_goals first
          | (cases h; done)
          | (simp only [*, if_true, if_false]; exact h)
          | simp_all

theorem chunkM_checked (hm : M.checked = true) {bs : Bytes} : ∀ {c : BodyCanon} {r : BodyCanon × Bytes},
    c.chunkM M bs = some r → c.chunk bs = some r := by
  induction bs with
  | nil => intro c r h; exact h
  | cons b bs ih =>
    intro c r h
    rw [BodyCanon.chunkM] at h
    rw [BodyCanon.chunk]
    cases h1 : c.stepM M b with
    | none => rw [h1] at h; cases h
    | some p =>
      obtain ⟨c1, o1⟩ := p
      rw [h1] at h
      rw [stepM_checked hm h1]
      simp only at h ⊢
      cases h2 : c1.chunkM M bs with
      | none => rw [h2] at h; cases h
      | some q =>
        obtain ⟨c2, o2⟩ := q
        rw [h2] at h
        rw [ih h2]
        exact h

theorem updateM_checked (hm : M.checked = true) {h : CountingHasher} {bytes : Bytes}
    {r : CountingHasher × HashStatus} (hu : h.updateM M bytes = some r) : h.update bytes = some r := by
  unfold CountingHasher.updateM at hu
  unfold CountingHasher.update
  cases hl : h.length with
  | none =>
    rw [hl] at hu
    simp only [Option.map_eq_some_iff] at hu ⊢
    obtain ⟨n, h1, h2⟩ := hu
    rw [add_checked hm h1] at h2
    rw [← h2]
  | some len =>
    rw [hl] at hu
    simp only at hu ⊢
    repeat' split at hu
    all_goals first
      | (cases hu; done)
      | (simp only [Option.map_eq_some_iff] at hu
         obtain ⟨n, h1, h2⟩ := hu
         rw [add_checked hm h1] at h2
         rw [← h2]
         simp [*])

theorem getM_checked (hm : M.checked = true) {st : ChunkLoop} {k : CanonAlg} {chunk : Bytes}
    {r : ChunkLoop × Bytes} (h : st.getM M k chunk = some r) : st.get k chunk = some r := by
  unfold ChunkLoop.getM at h
  unfold ChunkLoop.get
  cases k with
  | simple =>
    simp only at h ⊢
    cases h1 : st.chunkSimple with
    | some out => rw [h1] at h; exact h
    | none =>
      rw [h1] at h
      simp only at h ⊢
      cases h2 : st.canonSimple.chunkM M chunk with
      | none => rw [h2] at h; cases h
      | some p => rw [h2] at h; rw [chunkM_checked hm h2]; exact h
  | relaxed =>
    simp only at h ⊢
    cases h1 : st.chunkRelaxed with
    | some out => rw [h1] at h; exact h
    | none =>
      rw [h1] at h
      simp only at h ⊢
      cases h2 : st.canonRelaxed.chunkM M chunk with
      | none => rw [h2] at h; cases h
      | some p => rw [h2] at h; rw [chunkM_checked hm h2]; exact h

theorem hashChunkLoopM_checked (hm : M.checked = true) {fail : Bool} {chunk : Bytes}
    {l : List (BodyHasherKey × CountingHasher × Bool)} : ∀ {st : ChunkLoop}
    {r : ChunkLoop × List (BodyHasherKey × CountingHasher × Bool)},
    hashChunkLoopM M fail chunk st l = some r → hashChunkLoop fail chunk st l = some r := by
  induction l with
  | nil => intro st r h; exact h
  | cons e l ih =>
    obtain ⟨key, h, tr⟩ := e
    intro st r hr
    rw [hashChunkLoopM] at hr
    rw [hashChunkLoop]
    cases ha : hasherActive fail h tr with
    | false =>
      rw [ha] at hr
      simp only [Bool.false_eq_true, if_false] at hr ⊢
      cases h1 : hashChunkLoopM M fail chunk st l with
      | none => rw [h1] at hr; cases hr
      | some p => rw [h1] at hr; rw [ih h1]; exact hr
    | true =>
      rw [ha] at hr
      simp only [if_true] at hr ⊢
      cases hg : st.getM M key.2.2 chunk with
      | none => rw [hg] at hr; cases hr
      | some p =>
        obtain ⟨st1, out⟩ := p
        rw [hg] at hr
        rw [getM_checked hm hg]
        simp only at hr ⊢
        cases hu : h.updateM M out with
        | none => rw [hu] at hr; cases hr
        | some q =>
          obtain ⟨h', s⟩ := q
          rw [hu] at hr
          rw [updateM_checked hm hu]
          cases s with
          | allConsumed =>
            simp only at hr ⊢
            cases h1 : hashChunkLoopM M fail chunk
                (if (fail || !h'.isDone) then { st1 with allDone := false } else st1) l with
            | none => rw [h1] at hr; cases hr
            | some p => rw [h1] at hr; rw [ih h1]; exact hr
          | truncated =>
            simp only at hr ⊢
            cases h1 : hashChunkLoopM M fail chunk st1 l with
            | none => rw [h1] at hr; cases hr
            | some p => rw [h1] at hr; rw [ih h1]; exact hr

theorem hashChunkM_checked (hm : M.checked = true) {bh : BodyHasher} {chunk : Bytes}
    {r : BodyHasher × Stance} (h : bh.hashChunkM M chunk = some r) : bh.hashChunk chunk = some r := by
  unfold BodyHasher.hashChunkM at h
  unfold BodyHasher.hashChunk
  cases h1 : hashChunkLoopM M bh.failOnTruncate chunk
      ⟨bh.canonSimple, bh.canonRelaxed, none, none, true⟩ bh.hashers with
  | none => rw [h1] at h; cases h
  | some p => rw [h1] at h; rw [hashChunkLoopM_checked hm h1]; exact h

theorem hashChunksM_checked (hm : M.checked = true) {chunks : List Bytes} : ∀ {bh : BodyHasher}
    {r : BodyHasher × List Stance}, bh.hashChunksM M chunks = some r → bh.hashChunks chunks = some r := by
  induction chunks with
  | nil => intro bh r h; exact h
  | cons ch chs ih =>
    intro bh r h
    rw [BodyHasher.hashChunksM] at h
    rw [BodyHasher.hashChunks]
    cases h1 : bh.hashChunkM M ch with
    | none => rw [h1] at h; cases h
    | some p =>
      obtain ⟨bh1, s⟩ := p
      rw [h1] at h
      rw [hashChunkM_checked hm h1]
      simp only at h ⊢
      cases h2 : bh1.hashChunksM M chs with
      | none => rw [h2] at h; cases h
      | some q => rw [h2] at h; rw [ih h2]; exact h

theorem finishOneM_checked (hm : M.checked = true) {hash : HashFn} {bh : BodyHasher}
    {e : BodyHasherKey × CountingHasher × Bool} {r : BodyHashResult}
    (h : bh.finishOneM M hash e = some r) : bh.finishOne hash e = some r := by
  obtain ⟨key, c, tr⟩ := e
  unfold BodyHasher.finishOneM at h
  unfold BodyHasher.finishOne
  simp only at h ⊢
  cases ha : hasherActive bh.failOnTruncate c tr with
  | false => rw [ha] at h; exact h
  | true =>
    rw [ha] at h
    simp only [if_true] at h ⊢
    cases hc : bh.finishCanon key.2.2 with
    | none => rw [hc] at h; cases h
    | some out =>
      rw [hc] at h
      simp only at h ⊢
      cases hu : c.updateM M out with
      | none => rw [hu] at h; cases h
      | some q =>
        obtain ⟨c', s⟩ := q
        rw [hu] at h
        rw [updateM_checked hm hu]
        cases s <;> exact h

theorem finishM_checked (hm : M.checked = true) {hash : HashFn} {bh : BodyHasher} {r : BodyHashResults}
    (h : bh.finishM M hash = some r) : bh.finish hash = some r := by
  unfold BodyHasher.finishM at h
  unfold BodyHasher.finish
  generalize bh.hashers = l at h ⊢
  induction l generalizing r with
  | nil => exact h
  | cons e l ih =>
    rw [BodyHasher.finishLoopM] at h
    rw [BodyHasher.finishLoop]
    cases h1 : bh.finishOneM M hash e with
    | none => rw [h1] at h; cases h
    | some x =>
      rw [h1] at h
      rw [finishOneM_checked hm h1]
      simp only at h ⊢
      cases h2 : bh.finishLoopM M hash l with
      | none => rw [h2] at h; cases h
      | some q => rw [h2] at h; rw [ih h2]; exact h

/-! ## One hasher without limit -/

/-- A body hasher with one key, without a limit. -/
def single (fail : Bool) (alg : HashAlg) (k : CanonAlg) (c : BodyCanon) (absorbed : Bytes) (n : Nat) : BodyHasher :=
  { failOnTruncate := fail
    hashers := [((none, alg, k), { alg, absorbed, length := none, bytesWritten := n }, false)]
    canonSimple := match k with | .simple => c | .relaxed => BodyCanon.new .simple
    canonRelaxed := match k with | .simple => BodyCanon.new .relaxed | .relaxed => c }

theorem build_single (fail : Bool) (alg : HashAlg) (k : CanonAlg) :
    BodyHasher.build fail [(none, alg, k)] = single fail alg k (BodyCanon.new k) [] 0 := by
  cases k <;> rfl

theorem single_chunk {fail : Bool} {alg : HashAlg} {k : CanonAlg} {c c' : BodyCanon} {absorbed chunk out : Bytes}
    {n n' : Nat} (hc : c.chunkM M chunk = some (c', out)) (hn : M.add n out.length = some n') :
    (single fail alg k c absorbed n).hashChunkM M chunk =
      some (single fail alg k c' (absorbed ++ out) n', .interested) := by
  unfold BodyHasher.hashChunkM single
  cases k <;>
    simp [hashChunkLoopM, hasherActive, CountingHasher.isDone, ChunkLoop.getM, hc, CountingHasher.updateM, hn]

theorem single_overflow {fail : Bool} {alg : HashAlg} {k : CanonAlg} {c c' : BodyCanon} {absorbed chunk out : Bytes}
    {n : Nat} (hc : c.chunkM M chunk = some (c', out)) (hn : M.add n out.length = none) :
    (single fail alg k c absorbed n).hashChunkM M chunk = none := by
  unfold BodyHasher.hashChunkM single
  cases k <;>
    simp [hashChunkLoopM, hasherActive, CountingHasher.isDone, ChunkLoop.getM, hc, CountingHasher.updateM, hn]

theorem single_canon_overflow {fail : Bool} {alg : HashAlg} {k : CanonAlg} {c : BodyCanon} {absorbed chunk : Bytes}
    {n : Nat} (hc : c.chunkM M chunk = none) :
    (single fail alg k c absorbed n).hashChunkM M chunk = none := by
  unfold BodyHasher.hashChunkM single
  cases k <;>
    simp [hashChunkLoopM, hasherActive, CountingHasher.isDone, ChunkLoop.getM, hc]

theorem single_finish {hash : HashFn} {fail : Bool} {alg : HashAlg} {k : CanonAlg} {c : BodyCanon} {absorbed out : Bytes}
    {n n' : Nat} (hc : c.finish = some out) (hn : M.add n out.length = some n') :
    (single fail alg k c absorbed n).finishM M hash =
      some [((none, alg, k), .ok (hash alg (absorbed ++ out), n'))] := by
  unfold BodyHasher.finishM single
  cases k <;>
    simp [BodyHasher.finishLoopM, BodyHasher.finishOneM, hasherActive, CountingHasher.isDone, BodyHasher.finishCanon,
      hc, CountingHasher.updateM, hn, CountingHasher.finish]

/-- The canonicalizer after a byte. -/
def afterByte (k : CanonAlg) : BodyCanon := { kind := k, state := .byte, blankLine := false, emptyLines := 0 }

/-- The canonicalizer after empty lines at the beginning. -/
def afterLines (k : CanonAlg) (n : Nat) : BodyCanon := { kind := k, state := .crlf, blankLine := true, emptyLines := n }

theorem afterByte_chunk (k : CanonAlg) : (afterByte k).chunkM M [97] = some (afterByte k, [97]) := by
  cases k <;> rfl

theorem new_chunk (k : CanonAlg) : (BodyCanon.new k).chunkM M [97] = some (afterByte k, [97]) := by
  cases k <;> rfl

theorem afterByte_finish (k : CanonAlg) : (afterByte k).finish = some CRLF := by
  cases k <;> rfl

theorem afterLines_chunk (k : CanonAlg) : (afterLines k 0).chunkM M [97] = some (afterByte k, [97]) := by
  cases k <;> rfl

theorem afterLines_line (k : CanonAlg) (n : Nat) :
    (afterLines k n).chunkM M [13, 10] = (M.add n 1).map fun n' => (afterLines k n', []) := by
  cases k <;> simp only [afterLines, BodyCanon.chunkM, BodyCanon.stepM, BodyCanon.stepSimpleM, BodyCanon.stepRelaxedM]
  · rw [if_pos (show (13 : UInt8) = CR from rfl)]
    simp only
    rw [if_pos (show (10 : UInt8) = LF from rfl), if_pos trivial]
    unfold BodyCanon.countLine
    cases M.add n 1 <;> rfl
  · rw [if_neg (show ¬ isWspByte 13 = true by decide), if_pos (show (13 : UInt8) = CR from rfl)]
    simp only
    rw [if_pos (show (10 : UInt8) = LF from rfl), if_pos trivial]
    unfold BodyCanon.countLine
    cases M.add n 1 <;> rfl

theorem new_line (k : CanonAlg) :
    (BodyCanon.new k).chunkM M [13, 10] = (M.add 0 1).map fun n' => (afterLines k n', []) := by
  rw [← afterLines_line]
  cases k <;> rfl

theorem add_zero' {n : Nat} (h : n ≤ M.max) : M.add n 0 = some n := add_fits (by omega)

/-- Bytes one at a time, in a build that wraps. -/
theorem bytes_wrap (hm : M.checked = false) (fail : Bool) (alg : HashAlg) (k : CanonAlg) (m : Nat) :
    ∀ (absorbed : Bytes) (n : Nat),
    (single fail alg k (afterByte k) absorbed (n % (M.max + 1))).hashChunksM M (List.replicate m [97]) =
      some (single fail alg k (afterByte k) (absorbed ++ List.replicate m 97) ((n + m) % (M.max + 1)),
        List.replicate m .interested) := by
  induction m with
  | zero => intro absorbed n; simp [BodyHasher.hashChunksM]
  | succ m ih =>
    intro absorbed n
    rw [List.replicate_succ, BodyHasher.hashChunksM, single_chunk (afterByte_chunk k) (add_wraps hm n)]
    simp only
    rw [ih, List.append_assoc, List.replicate_succ, List.replicate_succ, Nat.add_assoc, Nat.add_comm 1 m]
    rfl

/-- Bytes one at a time, in a build that checks. -/
theorem bytes_panic (hm : M.checked = true) (fail : Bool) (alg : HashAlg) (k : CanonAlg) (m : Nat) :
    ∀ (absorbed : Bytes) (n : Nat), n ≤ M.max → M.max < n + m →
    (single fail alg k (afterByte k) absorbed n).hashChunksM M (List.replicate m [97]) = none := by
  induction m with
  | zero => intro _ n h1 h2; omega
  | succ m ih =>
    intro absorbed n h1 h2
    rw [List.replicate_succ, BodyHasher.hashChunksM]
    by_cases hn : n + 1 ≤ M.max
    · rw [single_chunk (afterByte_chunk k) (add_fits hn)]
      simp only [List.length_singleton]
      rw [ih _ _ hn (by omega)]
    · rw [single_overflow (afterByte_chunk k) (by unfold Machine.add; rw [List.length_singleton, if_neg hn, if_pos hm])]

/-- Empty lines one at a time, in a build that wraps. -/
theorem lines_wrap (hm : M.checked = false) (fail : Bool) (alg : HashAlg) (k : CanonAlg) (m : Nat) : ∀ (n : Nat),
    (single fail alg k (afterLines k (n % (M.max + 1))) [] 0).hashChunksM M (List.replicate m [13, 10]) =
      some (single fail alg k (afterLines k ((n + m) % (M.max + 1))) [] 0, List.replicate m .interested) := by
  induction m with
  | zero => intro n; simp [BodyHasher.hashChunksM]
  | succ m ih =>
    intro n
    have hc : (afterLines k (n % (M.max + 1))).chunkM M [13, 10] = some (afterLines k ((n + 1) % (M.max + 1)), []) := by
      rw [afterLines_line, add_wraps hm]; rfl
    rw [List.replicate_succ, BodyHasher.hashChunksM, single_chunk hc (add_zero' (Nat.zero_le _))]
    simp only [List.append_nil]
    rw [ih, List.replicate_succ, Nat.add_assoc, Nat.add_comm 1 m]

/-- Empty lines one at a time, in a build that checks. -/
theorem lines_panic (hm : M.checked = true) (fail : Bool) (alg : HashAlg) (k : CanonAlg) (m : Nat) : ∀ (n : Nat),
    n ≤ M.max → M.max < n + m →
    (single fail alg k (afterLines k n) [] 0).hashChunksM M (List.replicate m [13, 10]) = none := by
  induction m with
  | zero => intro n h1 h2; omega
  | succ m ih =>
    intro n h1 h2
    rw [List.replicate_succ, BodyHasher.hashChunksM]
    by_cases hn : n + 1 ≤ M.max
    · have hc : (afterLines k n).chunkM M [13, 10] = some (afterLines k (n + 1), []) := by
        rw [afterLines_line, add_fits hn]; rfl
      rw [single_chunk hc (add_zero' (Nat.zero_le _))]
      simp only [List.append_nil]
      rw [ih _ hn (by omega)]
    · rw [single_canon_overflow (by rw [afterLines_line]; unfold Machine.add; rw [if_neg hn, if_pos hm]; rfl)]

theorem hashChunksM_append {xs ys : List Bytes} : ∀ {bh : BodyHasher},
    bh.hashChunksM M (xs ++ ys) =
      (bh.hashChunksM M xs).bind fun p => (p.1.hashChunksM M ys).map fun q => (q.1, p.2 ++ q.2) := by
  induction xs with
  | nil =>
    intro bh
    simp only [List.nil_append, BodyHasher.hashChunksM, Option.bind_some]
    cases bh.hashChunksM M ys <;> rfl
  | cons x xs ih =>
    intro bh
    rw [List.cons_append, BodyHasher.hashChunksM, BodyHasher.hashChunksM]
    cases bh.hashChunkM M x with
    | none => rfl
    | some p =>
      obtain ⟨bh1, s⟩ := p
      simp only
      rw [ih]
      cases bh1.hashChunksM M xs with
      | none => rfl
      | some q =>
        obtain ⟨bh2, ss⟩ := q
        simp only [Option.bind_some]
        cases bh2.hashChunksM M ys <;> rfl

end Dkim
