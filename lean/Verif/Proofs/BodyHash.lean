import Verif.Model.BodyHash
import Verif.Proofs.BodyCanon

/-! Helper lemmas about the body hasher. -/

namespace Dkim

/-! ### Canonicalizers never panic -/

/-- States that a canonicalizer of this kind can be in. -/
def BodyCanon.Ok (c : BodyCanon) : Prop :=
  c.kind = .relaxed ∨ (c.state ≠ .wsp ∧ c.state ≠ .wspCr)

theorem BodyCanon.step_ok (c : BodyCanon) (b : UInt8) (h : c.Ok) :
    ∃ c' out, c.step b = some (c', out) ∧ c'.Ok ∧ c'.kind = c.kind := by
  obtain ⟨kind, state, bl, el⟩ := c
  cases kind
  · simp only [BodyCanon.Ok, reduceCtorEq, false_or] at h
    cases state <;> simp only [BodyCanon.step, BodyCanon.stepSimple, BodyCanon.flush] <;>
      (try (exfalso; simp at h; done)) <;>
      (repeat' split) <;>
      exact ⟨_, _, rfl, by simp [BodyCanon.Ok], rfl⟩
  · simp only [BodyCanon.step]
    refine ⟨_, _, rfl, ?_, ?_⟩
    · left
      cases state <;> simp only [BodyCanon.stepRelaxed, BodyCanon.flush] <;>
        (repeat' split) <;> rfl
    · cases state <;> simp only [BodyCanon.stepRelaxed, BodyCanon.flush] <;>
        (repeat' split) <;> rfl

theorem BodyCanon.chunk_ok (c : BodyCanon) (bs : Bytes) (h : c.Ok) :
    ∃ c' out, c.chunk bs = some (c', out) ∧ c'.Ok ∧ c'.kind = c.kind := by
  induction bs generalizing c with
  | nil => exact ⟨c, [], rfl, h, rfl⟩
  | cons b bs ih =>
    obtain ⟨c1, o1, h1, h2, h3⟩ := c.step_ok b h
    obtain ⟨c2, o2, h4, h5, h6⟩ := ih c1 h2
    exact ⟨c2, o1 ++ o2, by simp [BodyCanon.chunk, h1, h4], h5, h6.trans h3⟩

theorem BodyCanon.finish_ok (c : BodyCanon) (h : c.Ok) : ∃ out, c.finish = some out := by
  obtain ⟨kind, state, bl, el⟩ := c
  cases kind <;> cases state <;> simp [BodyCanon.finish, BodyCanon.Ok] at h ⊢

theorem BodyCanon.new_ok (k : CanonAlg) : (BodyCanon.new k).Ok := by
  cases k <;> simp [BodyCanon.Ok, BodyCanon.new]

/-! ### One entry -/

abbrev HEntry := BodyHasherKey × CountingHasher × Bool

/-- State of an entry after the ideal canonicalized prefix `p` has been seen. -/
def EntryInv (fail : Bool) (p : Bytes) (e : HEntry) : Prop :=
  e.2.1.alg = e.1.2.1 ∧ e.2.1.length = e.1.1 ∧
  e.2.1.bytesWritten = e.2.1.absorbed.length ∧
  (match e.1.1 with
   | none => e.2.1.absorbed = p ∧ e.2.2 = false
   | some n => e.2.1.absorbed = p.take n ∧
      (fail = true → e.2.2 = decide (n < p.length)) ∧ (e.2.2 = true → n < p.length))

/-- The entry after a further canonicalized piece. -/
def entryStep (fail : Bool) (out : Bytes) (e : HEntry) : HEntry :=
  if hasherActive fail e.2.1 e.2.2 then
    match e.2.1.update out with
    | none => e
    | some (h, .allConsumed) => (e.1, h, e.2.2)
    | some (h, .truncated) => (e.1, h, true)
  else e

theorem entryInv_new (fail : Bool) (key : BodyHasherKey) :
    EntryInv fail [] (key, CountingHasher.new key.2.1 key.1, false) := by
  rcases key with ⟨_ | n, a, c⟩ <;> simp [EntryInv, CountingHasher.new]

theorem update_some (fail : Bool) (p out : Bytes) (e : HEntry) (h : EntryInv fail p e) :
    ∃ r, e.2.1.update out = some r := by
  rcases e with ⟨⟨len, a, c⟩, ⟨ha, habs, hlen, hbw⟩, tr⟩
  simp only [EntryInv] at h
  obtain ⟨h1, h2, h3, h4⟩ := h
  subst h2 h3
  cases hlen with
  | none => simp [CountingHasher.update]
  | some n =>
    simp only at h4
    have : habs.length ≤ n := by rw [h4.1]; simp; omega
    simp only [CountingHasher.update, ge_iff_le, this, if_true]
    split <;> simp

theorem entryStep_inv (fail : Bool) (p out : Bytes) (e : HEntry) (h : EntryInv fail p e) :
    EntryInv fail (p ++ out) (entryStep fail out e) ∧ (entryStep fail out e).1 = e.1 := by
  rcases e with ⟨⟨len, a, c⟩, ⟨ha, habs, hlen, hbw⟩, tr⟩
  simp only [EntryInv] at h
  obtain ⟨h1, h2, h3, h4⟩ := h
  subst h1 h2 h3
  cases hlen with
  | none =>
    simp only at h4
    obtain ⟨h4, h5⟩ := h4
    subst h4 h5
    simp [entryStep, hasherActive, CountingHasher.isDone, CountingHasher.update, EntryInv]
  | some n =>
    simp only at h4
    obtain ⟨h4, h5, h6⟩ := h4
    have hle : habs.length ≤ n := by rw [h4]; simp; omega
    have hlen : habs.length = min n p.length := by rw [h4]; simp
    by_cases hact : hasherActive fail ⟨ha, habs, some n, habs.length⟩ tr = true
    · simp only [entryStep, hact, if_true, CountingHasher.update, ge_iff_le, hle]
      by_cases hfit : out.length ≤ n - habs.length
      · simp only [hfit, if_true, EntryInv, List.length_append, true_and]
        refine ⟨⟨?_, ?_, ?_⟩, trivial⟩
        · rw [h4, List.take_append]
          by_cases hp : p.length ≤ n
          · rw [List.take_of_length_le hp, List.take_of_length_le (by omega)]
          · have : out = [] := by
              apply List.eq_nil_of_length_eq_zero; omega
            simp [this]
        · intro hf
          rw [h5 hf]
          simp only [decide_eq_decide]
          omega
        · intro ht; have := h6 ht; omega
      · simp only [hfit, if_false, EntryInv, List.length_append, true_and]
        refine ⟨⟨?_, ?_, ?_⟩, trivial⟩
        · rw [h4, List.take_append]
          by_cases hp : p.length ≤ n
          · rw [List.take_of_length_le hp]
          · simp; omega
        · intro hf; simp; omega
        · intro _; omega
    · simp only [entryStep, hact, EntryInv, Bool.false_eq_true, if_false, true_and]
      simp only [hasherActive, CountingHasher.isDone, Bool.or_eq_true, Bool.not_eq_true',
        beq_eq_false_iff_ne, ne_eq, Bool.and_eq_true, not_or, not_and, Bool.not_eq_false,
        Decidable.not_not] at hact
      obtain ⟨hd, ht⟩ := hact
      refine ⟨⟨?_, ?_, ?_⟩, trivial⟩
      · rw [h4, List.take_append_of_le_length (by omega)]
      · intro hf
        have ht' := ht hf
        have := h6 ht'
        simp [ht', List.length_append]; omega
      · intro ht'; have := h6 ht'; simp [List.length_append]; omega

theorem entryStep_inactive (fail : Bool) (p out : Bytes) (e : HEntry) (h : EntryInv fail p e)
    (hi : hasherActive fail e.2.1 e.2.2 = false) : entryStep fail out e = e := by
  simp [entryStep, hi]

/-- What the loop of `hash_chunk` does to `all_done` for one entry. -/
theorem entryStep_active (fail : Bool) (p out : Bytes) (e : HEntry) (h : EntryInv fail p e)
    (ha : hasherActive fail e.2.1 e.2.2 = true) :
    (∃ h', e.2.1.update out = some (h', .allConsumed) ∧
      hasherActive fail (entryStep fail out e).2.1 (entryStep fail out e).2.2
        = (fail || !h'.isDone) ∧ entryStep fail out e = (e.1, h', e.2.2)) ∨
    (∃ h', e.2.1.update out = some (h', .truncated) ∧
      hasherActive fail (entryStep fail out e).2.1 (entryStep fail out e).2.2 = false ∧
      entryStep fail out e = (e.1, h', true)) := by
  rcases e with ⟨⟨len, a, c⟩, ⟨ha', habs, hlen, hbw⟩, tr⟩
  simp only [EntryInv] at h
  obtain ⟨h1, h2, h3, h4⟩ := h
  subst h1 h2 h3
  cases hlen with
  | none =>
    simp only at h4
    left
    simp [entryStep, ha, CountingHasher.update, CountingHasher.isDone, hasherActive]
  | some n =>
    simp only at h4
    obtain ⟨h4, h5, h6⟩ := h4
    have hle : habs.length ≤ n := by rw [h4]; simp; omega
    have hlen : habs.length = min n p.length := by rw [h4]; simp
    simp only [entryStep, ha, if_true, CountingHasher.update, ge_iff_le, hle]
    by_cases hfit : out.length ≤ n - habs.length
    · left
      simp only [hfit, if_true, Option.some.injEq, Prod.mk.injEq, and_true, exists_eq_left']
      simp only [hasherActive, CountingHasher.isDone] at ha ⊢
      cases fail
      · simp
      · have := h5 rfl
        by_cases htr : tr = true
        · have h7 := h6 htr
          subst htr
          have : n = habs.length := by omega
          simp [← this] at ha
        · simp at htr; simp [htr]
    · right
      simp only [hfit, if_false, Option.some.injEq, Prod.mk.injEq, and_true, exists_eq_left']
      simp only [hasherActive, CountingHasher.isDone]
      simp; omega

/-! ### The loop over all entries -/

/-- Result of the lazily evaluated canonicalization of one kind. -/
def lazyDone (c0 : BodyCanon) (memo : Option Bytes) (c1 : BodyCanon) (out : Bytes)
    (cur : BodyCanon) : Prop :=
  (memo = none ∧ cur = c0) ∨ (memo = some out ∧ cur = c1)

def anyActive (fail : Bool) (k : CanonAlg) (es : List HEntry) : Bool :=
  es.any fun e => e.1.2.2 == k && hasherActive fail e.2.1 e.2.2

theorem anyActive_cons (fail : Bool) (k : CanonAlg) (e : HEntry) (es : List HEntry) :
    anyActive fail k (e :: es)
      = ((e.1.2.2 == k && hasherActive fail e.2.1 e.2.2) || anyActive fail k es) := by
  simp [anyActive]

def outFor (outS outR : Bytes) (e : HEntry) : Bytes :=
  match e.1.2.2 with
  | .simple => outS
  | .relaxed => outR

theorem hashChunkLoop_spec (fail : Bool) (chunk : Bytes) (s0 s1 r0 r1 : BodyCanon)
    (outS outR : Bytes) (pS pR : Bytes) (es : List HEntry) (st : ChunkLoop)
    (hes : ∀ e ∈ es, EntryInv fail (outFor pS pR e) e)
    (hS : anyActive fail .simple es = true → s0.chunk chunk = some (s1, outS))
    (hR : anyActive fail .relaxed es = true → r0.chunk chunk = some (r1, outR))
    (hlS : lazyDone s0 st.chunkSimple s1 outS st.canonSimple)
    (hlR : lazyDone r0 st.chunkRelaxed r1 outR st.canonRelaxed) :
    ∃ st', hashChunkLoop fail chunk st es
        = some (st', es.map fun e => entryStep fail (outFor outS outR e) e) ∧
      st'.canonSimple = (if anyActive fail .simple es then s1 else st.canonSimple) ∧
      st'.canonRelaxed = (if anyActive fail .relaxed es then r1 else st.canonRelaxed) ∧
      st'.allDone = (st.allDone &&
        !((es.map fun e => entryStep fail (outFor outS outR e) e).any
          fun e => hasherActive fail e.2.1 e.2.2)) := by
  induction es generalizing st with
  | nil => exact ⟨st, by simp [hashChunkLoop, anyActive]⟩
  | cons e es ih =>
    obtain ⟨key, h, tr⟩ := e
    have hes' : ∀ e ∈ es, EntryInv fail (outFor pS pR e) e := fun e he => hes e (by simp [he])
    have he := hes (key, h, tr) (by simp)
    have hS' : anyActive fail .simple es = true → s0.chunk chunk = some (s1, outS) := by
      intro ha; apply hS; simp [anyActive] at ha ⊢; exact Or.inr ha
    have hR' : anyActive fail .relaxed es = true → r0.chunk chunk = some (r1, outR) := by
      intro ha; apply hR; simp [anyActive] at ha ⊢; exact Or.inr ha
    by_cases hact : hasherActive fail h tr = true
    · -- the canonicalized chunk
      have hget : ∃ st1, st.get key.2.2 chunk = some (st1, outFor outS outR (key, h, tr)) ∧
          lazyDone s0 st1.chunkSimple s1 outS st1.canonSimple ∧
          lazyDone r0 st1.chunkRelaxed r1 outR st1.canonRelaxed ∧
          st1.allDone = st.allDone ∧
          st1.canonSimple = (if key.2.2 = .simple then s1 else st.canonSimple) ∧
          st1.canonRelaxed = (if key.2.2 = .relaxed then r1 else st.canonRelaxed) := by
        cases hk : key.2.2 with
        | simple =>
          have hc := hS (by simp [anyActive, hk, hact])
          rcases hlS with ⟨hm, hcur⟩ | ⟨hm, hcur⟩
          · refine ⟨{ st with canonSimple := s1, chunkSimple := some outS }, ?_, ?_, hlR, ?_⟩
            · simp [ChunkLoop.get, hm, hcur, hc, outFor, hk]
            · right; simp
            · simp
          · refine ⟨st, ?_, Or.inr ⟨hm, hcur⟩, hlR, ?_⟩
            · simp [ChunkLoop.get, hm, outFor, hk]
            · simp [hcur]
        | relaxed =>
          have hc := hR (by simp [anyActive, hk, hact])
          rcases hlR with ⟨hm, hcur⟩ | ⟨hm, hcur⟩
          · refine ⟨{ st with canonRelaxed := r1, chunkRelaxed := some outR }, ?_, hlS, ?_, ?_⟩
            · simp [ChunkLoop.get, hm, hcur, hc, outFor, hk]
            · right; simp
            · simp
          · refine ⟨st, ?_, hlS, Or.inr ⟨hm, hcur⟩, ?_⟩
            · simp [ChunkLoop.get, hm, outFor, hk]
            · simp [hcur]
      obtain ⟨st1, hg, hl1, hl2, hd, hcs, hcr⟩ := hget
      have hcanS : ∀ st' : ChunkLoop,
          st'.canonSimple = (if anyActive fail .simple es then s1 else st1.canonSimple) →
          st'.canonSimple = if anyActive fail .simple ((key, h, tr) :: es) then s1
            else st.canonSimple := by
        intro st' hst
        rw [hst, hcs, anyActive_cons]
        cases hk : key.2.2 <;> cases anyActive fail .simple es <;> simp [hact]
      have hcanR : ∀ st' : ChunkLoop,
          st'.canonRelaxed = (if anyActive fail .relaxed es then r1 else st1.canonRelaxed) →
          st'.canonRelaxed = if anyActive fail .relaxed ((key, h, tr) :: es) then r1
            else st.canonRelaxed := by
        intro st' hst
        rw [hst, hcr, anyActive_cons]
        cases hk : key.2.2 <;> cases anyActive fail .relaxed es <;> simp [hact]
      rcases entryStep_active fail _ (outFor outS outR (key, h, tr)) _ he hact with
        ⟨h', hu, hac, hst⟩ | ⟨h', hu, hac, hst⟩
      · obtain ⟨st', h1, h2, h3, h4⟩ := ih
          (if fail || !h'.isDone then { st1 with allDone := false } else st1) hes' hS' hR'
          (by split <;> exact hl1) (by split <;> exact hl2)
        refine ⟨st', ?_, hcanS st' (by rw [h2]; congr 1; split <;> rfl),
          hcanR st' (by rw [h3]; congr 1; split <;> rfl), ?_⟩
        · simp only [hashChunkLoop, hact, if_true, hg, hu, h1, List.map_cons, hst]
        · rw [h4]
          simp only [List.map_cons, List.any_cons, hac]
          cases hb : (fail || !h'.isDone) <;> simp [hd]
      · obtain ⟨st', h1, h2, h3, h4⟩ := ih st1 hes' hS' hR' hl1 hl2
        refine ⟨st', ?_, hcanS st' h2, hcanR st' h3, ?_⟩
        · simp only [hashChunkLoop, hact, if_true, hg, hu, h1, List.map_cons, hst]
        · rw [h4]
          simp only [List.map_cons, List.any_cons, hac, hd, Bool.false_or]
    · simp only [Bool.not_eq_true] at hact
      obtain ⟨st', h1, h2, h3, h4⟩ := ih st hes' hS' hR' hlS hlR
      refine ⟨st', ?_, ?_, ?_, ?_⟩
      · simp [hashChunkLoop, hact, h1, entryStep]
      · rw [h2, anyActive_cons]; simp [hact]
      · rw [h3, anyActive_cons]; simp [hact]
      · rw [h4]; simp [entryStep, hact]

/-! ### The hasher as a whole -/

/-- Ideal canonicalizer state and output after bytes `b`. -/
def ideal (k : CanonAlg) (b : Bytes) (c : BodyCanon) (p : Bytes) : Prop :=
  (BodyCanon.new k).chunk b = some (c, p)

theorem ideal_exists (k : CanonAlg) (b : Bytes) : ∃ c p, ideal k b c p ∧ c.Ok := by
  obtain ⟨c, p, h1, h2, _⟩ := (BodyCanon.new k).chunk_ok b (BodyCanon.new_ok k)
  exact ⟨c, p, h1, h2⟩

/-- Invariant of a body hasher fed with the bytes `b` in total. -/
structure HasherInv (fail : Bool) (keys : List BodyHasherKey) (b : Bytes) (bh : BodyHasher) :
    Prop where
  fail_eq : bh.failOnTruncate = fail
  keys_eq : bh.hashers.map (·.1) = keys
  entries : ∀ sc sp rc rp, ideal .simple b sc sp → ideal .relaxed b rc rp →
    ∀ e ∈ bh.hashers, EntryInv fail (outFor sp rp e) e
  simple : ∀ sc sp, ideal .simple b sc sp → anyActive fail .simple bh.hashers = true →
    bh.canonSimple = sc
  relaxed : ∀ rc rp, ideal .relaxed b rc rp → anyActive fail .relaxed bh.hashers = true →
    bh.canonRelaxed = rc

theorem hasherInv_build (fail : Bool) (keys : List BodyHasherKey) :
    HasherInv fail keys [] (BodyHasher.build fail keys) := by
  constructor
  · rfl
  · simp [BodyHasher.build, Function.comp_def]
  · intro sc sp rc rp h1 h2 e he
    simp [ideal, BodyCanon.chunk] at h1 h2
    simp [BodyHasher.build] at he
    obtain ⟨k1, k2, k3, _, rfl⟩ := he
    have : outFor sp rp ((k1, k2, k3), CountingHasher.new k2 k1, false) = [] := by
      rw [h1.2, h2.2]; cases k3 <;> simp [outFor]
    rw [this]
    exact entryInv_new fail (k1, k2, k3)
  · intro sc sp h1 _
    simp [ideal, BodyCanon.chunk] at h1
    simp [BodyHasher.build, h1.1]
  · intro sc sp h1 _
    simp [ideal, BodyCanon.chunk] at h1
    simp [BodyHasher.build, h1.1]

theorem outFor_key {a b : Bytes} {e e' : HEntry} (h : e'.1 = e.1) :
    outFor a b e' = outFor a b e := by simp [outFor, h]

theorem outFor_append (a b c d : Bytes) (e : HEntry) :
    outFor (a ++ b) (c ++ d) e = outFor a c e ++ outFor b d e := by
  unfold outFor; split <;> rfl

theorem active_step_mono (fail : Bool) (p out : Bytes) (e : HEntry) (h : EntryInv fail p e)
    (ha : hasherActive fail (entryStep fail out e).2.1 (entryStep fail out e).2.2 = true) :
    hasherActive fail e.2.1 e.2.2 = true := by
  cases hc : hasherActive fail e.2.1 e.2.2 with
  | true => rfl
  | false => rw [entryStep_inactive fail p out e h hc, hc] at ha; exact ha

theorem hashChunk_inv (fail : Bool) (keys : List BodyHasherKey) (b chunk : Bytes)
    (bh : BodyHasher) (h : HasherInv fail keys b bh) :
    ∃ bh' s, bh.hashChunk chunk = some (bh', s) ∧ HasherInv fail keys (b ++ chunk) bh' ∧
      (s = .done ↔ ∀ e ∈ bh'.hashers, hasherActive fail e.2.1 e.2.2 = false) := by
  obtain ⟨s0, sp, hs, hs0⟩ := ideal_exists .simple b
  obtain ⟨r0, rp, hr, hr0⟩ := ideal_exists .relaxed b
  obtain ⟨s1, so, hs1, _⟩ := s0.chunk_ok chunk hs0
  obtain ⟨r1, ro, hr1, _⟩ := r0.chunk_ok chunk hr0
  have hent := h.entries _ _ _ _ hs hr
  have hcs := h.simple _ _ hs
  have hcr := h.relaxed _ _ hr
  obtain ⟨st', h1, h2, h3, h4⟩ := hashChunkLoop_spec fail chunk bh.canonSimple s1 bh.canonRelaxed
    r1 so ro sp rp bh.hashers
    { canonSimple := bh.canonSimple, canonRelaxed := bh.canonRelaxed,
      chunkSimple := none, chunkRelaxed := none, allDone := true } hent
    (by intro ha; rw [hcs ha]; exact hs1) (by intro ha; rw [hcr ha]; exact hr1)
    (Or.inl ⟨rfl, rfl⟩) (Or.inl ⟨rfl, rfl⟩)
  have hids : ideal .simple (b ++ chunk) s1 (sp ++ so) := by
    simp only [ideal] at hs ⊢
    rw [BodyCanon.chunk_append, hs]; simp [hs1]
  have hidr : ideal .relaxed (b ++ chunk) r1 (rp ++ ro) := by
    simp only [ideal] at hr ⊢
    rw [BodyCanon.chunk_append, hr]; simp [hr1]
  refine ⟨_, _, by simp only [BodyHasher.hashChunk, h.fail_eq, h1]; rfl, ?_, ?_⟩
  · constructor
    · rfl
    · rw [← h.keys_eq]
      simp only [List.map_map]
      apply List.map_congr_left
      intro e he
      exact (entryStep_inv fail _ _ e (hent e he)).2
    · intro sc sp' rc rp' hi1 hi2 e he
      simp only [ideal] at hi1 hi2 hids hidr
      rw [hids] at hi1; rw [hidr] at hi2
      simp only [Option.some.injEq, Prod.mk.injEq] at hi1 hi2
      rw [← hi1.2, ← hi2.2]
      simp only [List.mem_map] at he
      obtain ⟨e0, he0, rfl⟩ := he
      have := entryStep_inv fail _ (outFor so ro e0) e0 (hent e0 he0)
      rw [outFor_key this.2, outFor_append]
      exact this.1
    · intro sc sp' hi ha
      simp only [ideal] at hi hids
      rw [hids] at hi; simp only [Option.some.injEq, Prod.mk.injEq] at hi
      rw [← hi.1]
      simp only
      rw [h2, if_pos]
      simp only [anyActive, List.any_map, List.any_eq_true, Function.comp_apply,
        Bool.and_eq_true, beq_iff_eq] at ha ⊢
      obtain ⟨e, he, hk, hact⟩ := ha
      refine ⟨e, he, ?_, active_step_mono fail _ _ e (hent e he) hact⟩
      rw [← hk, (entryStep_inv fail _ _ e (hent e he)).2]
    · intro sc sp' hi ha
      simp only [ideal] at hi hidr
      rw [hidr] at hi; simp only [Option.some.injEq, Prod.mk.injEq] at hi
      rw [← hi.1]
      simp only
      rw [h3, if_pos]
      simp only [anyActive, List.any_map, List.any_eq_true, Function.comp_apply,
        Bool.and_eq_true, beq_iff_eq] at ha ⊢
      obtain ⟨e, he, hk, hact⟩ := ha
      refine ⟨e, he, ?_, active_step_mono fail _ _ e (hent e he) hact⟩
      rw [← hk, (entryStep_inv fail _ _ e (hent e he)).2]
  · rw [h4]
    simp only [Bool.true_and]
    generalize List.map _ bh.hashers = L
    constructor
    · intro hd e he
      by_cases hact : hasherActive fail e.2.1 e.2.2 = true
      · exfalso
        have : L.any (fun e => hasherActive fail e.2.1 e.2.2) = true :=
          List.any_eq_true.2 ⟨e, he, hact⟩
        simp [this] at hd
      · simpa using hact
    · intro hall
      have : L.any (fun e => hasherActive fail e.2.1 e.2.2) = false := by
        rw [List.any_eq_false]; intro e he; simp [hall e he]
      simp [this]

theorem hashChunks_inv (fail : Bool) (keys : List BodyHasherKey) (chs : List Bytes) (b : Bytes)
    (bh : BodyHasher) (h : HasherInv fail keys b bh) :
    ∃ bh' ss, bh.hashChunks chs = some (bh', ss) ∧ HasherInv fail keys (b ++ chs.flatten) bh' := by
  induction chs generalizing b bh with
  | nil => exact ⟨bh, [], rfl, by simpa using h⟩
  | cons c chs ih =>
    obtain ⟨bh1, s, h1, h2, _⟩ := hashChunk_inv fail keys b c bh h
    obtain ⟨bh2, ss, h3, h4⟩ := ih _ _ h2
    refine ⟨bh2, s :: ss, by simp [BodyHasher.hashChunks, h1, h3], ?_⟩
    simpa using h4

/-- A hasher without active entries does not change. -/
theorem hashChunkLoop_inactive (fail : Bool) (chunk : Bytes) (st : ChunkLoop) (es : List HEntry)
    (h : ∀ e ∈ es, hasherActive fail e.2.1 e.2.2 = false) :
    hashChunkLoop fail chunk st es = some (st, es) := by
  induction es with
  | nil => rfl
  | cons e es ih =>
    obtain ⟨key, hh, tr⟩ := e
    have := h _ (List.mem_cons_self ..)
    simp only at this
    simp [hashChunkLoop, this, ih (fun e he => h e (by simp [he]))]

theorem hashChunks_inactive (bh : BodyHasher)
    (h : ∀ e ∈ bh.hashers, hasherActive bh.failOnTruncate e.2.1 e.2.2 = false)
    (chs : List Bytes) :
    bh.hashChunks chs = some (bh, List.replicate chs.length .done) := by
  induction chs with
  | nil => rfl
  | cons c chs ih =>
    simp [BodyHasher.hashChunks, BodyHasher.hashChunk, hashChunkLoop_inactive _ _ _ _ h, ih,
      List.replicate_succ]

/-- Specified result for one key and canonicalized body (helper form). -/
theorem finishOne_spec (hash : HashFn) (fail : Bool) (keys : List BodyHasherKey) (b : Bytes)
    (bh : BodyHasher) (h : HasherInv fail keys b bh) (e : HEntry) (he : e ∈ bh.hashers)
    (cb : Bytes) (hcb : (BodyCanon.new e.1.2.2).run b = some cb) :
    bh.finishOne hash e = some
      (match e.1.1 with
       | none => .ok (hash e.1.2.1 cb, cb.length)
       | some n =>
         if cb.length < n then .error .insufficientInput
         else if n < cb.length ∧ fail = true then .error .inputTruncated
         else .ok (hash e.1.2.1 (cb.take n), n)) := by
  obtain ⟨s0, sp, hs, hs0⟩ := ideal_exists .simple b
  obtain ⟨r0, rp, hr, hr0⟩ := ideal_exists .relaxed b
  have hent := h.entries _ _ _ _ hs hr e he
  have hcs := h.simple _ _ hs
  have hcr := h.relaxed _ _ hr
  -- the final piece
  have hfin : ∃ out, cb = outFor sp rp e ++ out ∧
      (hasherActive fail e.2.1 e.2.2 = true →
        bh.finishCanon e.1.2.2 = some out) := by
    cases hk : e.1.2.2 with
    | simple =>
      rw [hk] at hcb
      simp only [ideal] at hs
      simp only [BodyCanon.run, hs, Option.bind_some, Option.map_eq_some_iff] at hcb
      obtain ⟨out, h1, h2⟩ := hcb
      refine ⟨out, by simp [outFor, hk, h2], ?_⟩
      intro ha
      have : anyActive fail .simple bh.hashers = true := by
        simp only [anyActive, List.any_eq_true]; exact ⟨e, he, by simp [hk, ha]⟩
      simp [BodyHasher.finishCanon, hcs this, h1]
    | relaxed =>
      rw [hk] at hcb
      simp only [ideal] at hr
      simp only [BodyCanon.run, hr, Option.bind_some, Option.map_eq_some_iff] at hcb
      obtain ⟨out, h1, h2⟩ := hcb
      refine ⟨out, by simp [outFor, hk, h2], ?_⟩
      intro ha
      have : anyActive fail .relaxed bh.hashers = true := by
        simp only [anyActive, List.any_eq_true]; exact ⟨e, he, by simp [hk, ha]⟩
      simp [BodyHasher.finishCanon, hcr this, h1]
  obtain ⟨out, hcb', hfin⟩ := hfin
  have hinv := entryStep_inv fail _ out e hent
  have hstep : bh.finishOne hash e =
      (if fail && (entryStep fail out e).2.2 then some (.error .inputTruncated)
       else match (entryStep fail out e).2.1.finish hash with
        | none => some (.error .insufficientInput)
        | some r => some (.ok r)) := by
    obtain ⟨key, hh, tr⟩ := e
    simp only [BodyHasher.finishOne, h.fail_eq]
    by_cases ha : hasherActive fail hh tr = true
    · simp only [ha, if_true]
      have hf := hfin ha
      simp only at hf
      rw [hf]
      simp only [entryStep, ha, if_true]
      rcases update_some fail _ out _ hent with ⟨⟨h', stt⟩, hu⟩
      simp only at hu
      rw [hu]
      cases stt <;> rfl
    · simp only [entryStep, ha]; rfl
  rw [hstep]
  rw [← hcb'] at hinv
  generalize entryStep fail out e = e' at hinv
  obtain ⟨hinv, hkey⟩ := hinv
  rw [← hkey]
  rcases e' with ⟨⟨len, a, c⟩, ⟨ha', habs, hlen, hbw⟩, tr⟩
  simp only [EntryInv] at hinv
  obtain ⟨h1, h2, h3, h4⟩ := hinv
  subst h1 h2 h3
  cases hlen with
  | none =>
    simp only at h4
    obtain ⟨h4, h5⟩ := h4
    subst h4 h5
    simp [CountingHasher.finish]
  | some n =>
    simp only at h4
    obtain ⟨h4, h5, h6⟩ := h4
    have hlen : habs.length = min n cb.length := by rw [h4]; simp
    simp only [CountingHasher.finish, CountingHasher.isDone, Option.isSome_some, Bool.true_and]
    by_cases hlt : cb.length < n
    · have htr : tr = false := by
        cases htr : tr with
        | false => rfl
        | true => have := h6 htr; omega
      simp only [htr, Bool.and_false, Bool.false_eq_true, if_false, hlt, if_true]
      have : (n == habs.length) = false := by simp; omega
      simp [this]
    · have hn : n = habs.length := by omega
      have : (n == habs.length) = true := by simp [← hn]
      simp only [this, hlt, if_false]
      cases hf : fail with
      | false => simp [h4, hlen]; omega
      | true =>
        have := h5 hf
        by_cases hnl : n < cb.length
        · simp [hnl] at this; simp [this, hnl]
        · simp [hnl] at this; simp [this, hnl, h4]; omega

theorem finishLoop_spec (hash : HashFn) (bh : BodyHasher) (es : List HEntry)
    (spec : BodyHasherKey → BodyHashResult)
    (h : ∀ e ∈ es, bh.finishOne hash e = some (spec e.1)) :
    bh.finishLoop hash es = some (es.map fun e => (e.1, spec e.1)) := by
  induction es with
  | nil => rfl
  | cons e es ih =>
    simp [BodyHasher.finishLoop, h e (by simp), ih (fun e he => h e (by simp [he]))]

theorem get_map (keys : List BodyHasherKey) (spec : BodyHasherKey → BodyHashResult)
    (key : BodyHasherKey) :
    BodyHashResults.get (keys.map fun k => (k, spec k)) key
      = if key ∈ keys then some (spec key) else none := by
  induction keys with
  | nil => rfl
  | cons k ks ih =>
    simp only [List.map_cons, BodyHashResults.get, ih, List.mem_cons]
    by_cases h : k = key
    · simp [h]
    · have : ¬ key = k := fun h' => h h'.symm
      simp [h, this]

end Dkim
