import Verif.Model.Changing
import Verif.Props.Waiting

/-!
# A DNS whose answers change

C99. Other theorems are about a DNS that answers the same name always in the same way. Here is
shown what holds for every DNS, and that those are the special case.
-/

namespace Dkim
open Spec

variable {E : Env}

/-! ## Specification -/

/-- The name that is asked for a pair of ASCII domain and selector. -/
def Spec.nameOf (pair : Str × Str) : Str := pair.2 ++ c!"._domainkey." ++ pair.1 ++ c!"."

/-- The pairs of ASCII domain and selector of the signatures that pass the initial checks, each
once, in some order. -/
def Spec.AllPairs (E : Env) (cfg : Config) (clock : Nat → Int) (headers : List Field)
    (pairs : List (Str × Str)) : Prop :=
  pairs.Nodup ∧ ∀ d s, (d, s) ∈ pairs ↔ LookedUp E cfg clock headers d s

/-- If the signature in the field `f` has one of the pairs, then `reply` is the reply for it. -/
def Spec.OwnReply (E : Env) (pairs : List (Str × Str)) (replies : Str × Str → Reply) (f : Field)
    (reply : Reply) : Prop :=
  ∀ value sig d s, FieldSignature E f value sig → E.idna.toAscii sig.domain = some d →
    E.idna.toAscii sig.selector = some s → (d, s) ∈ pairs → reply = replies (d, s)

/-! ## The loop -/

theorem awaitChanging_ends (dns : ChangingResolver) (replies : Str × Str → Reply) :
    ∀ (ls : List Lookup) (t : Nat) (set : List (Str × List Nat × QueryResult)),
    (∀ k l, ls[k]? = some l → dns (set.length + k) (queryName l.1.1 l.1.2) = some (replies l.1)) →
    awaitChanging dns t set ls = .ends (t + (ls.map fun l => (replies l.1).delay).sum)
      (set ++ replied replies ls) := by
  intro ls
  induction ls with
  | nil => intro t set _; simp [awaitChanging, replied]
  | cons l ls ih =>
    intro t set h
    obtain ⟨⟨d, s⟩, ix⟩ := l
    have h1 := h 0 _ rfl
    simp only [Nat.add_zero] at h1
    rw [awaitChanging, h1]
    simp only
    rw [ih]
    · simp [replied, Nat.add_assoc]
    · intro k l hl
      have := h (k + 1) l (by simpa using hl)
      rw [← this]
      congr 1
      simp
      omega

theorem awaitChanging_forever (dns : ChangingResolver) {n : Str} {after : List Str} :
    ∀ (ls : List Lookup) (t : Nat) (set : List (Str × List Nat × QueryResult)) (before : List Str),
    ls.map (fun l => queryName l.1.1 l.1.2) = before ++ n :: after →
    (∀ k b, before[k]? = some b → dns (set.length + k) b ≠ none) → dns (set.length + before.length) n = none →
    awaitChanging dns t set ls = .forever (set.map (·.1) ++ before ++ [n]) := by
  intro ls
  induction ls with
  | nil => intro t set before h _ _; simp at h
  | cons l ls ih =>
    intro t set before h hb hn
    obtain ⟨⟨d, s⟩, ix⟩ := l
    rw [awaitChanging]
    cases before with
    | nil =>
      simp only [List.map_cons, List.nil_append, List.cons.injEq] at h
      simp only [List.length_nil, Nat.add_zero] at hn
      simp only [h.1, hn]
      simp
    | cons b before =>
      simp only [List.map_cons, List.cons_append, List.cons.injEq] at h
      have h1 := hb 0 b rfl
      simp only [Nat.add_zero] at h1
      rw [← h.1] at h1
      cases hs : dns set.length (queryName d s) with
      | none => exact absurd hs h1
      | some reply =>
        simp only
        rw [ih _ _ before h.2]
        · simp [← h.1]
        · intro k b hk
          have := hb (k + 1) b (by simpa using hk)
          rw [List.length_append, List.length_singleton, Nat.add_assoc, Nat.add_comm 1 k]
          exact this
        · rw [List.length_append, List.length_singleton, Nat.add_assoc, Nat.add_comm 1]
          simpa using hn

theorem pairs_of_taskKey (L : Lawful E) {cfg : Config} {clock : Nat → Int} (T : TypedTimes cfg clock)
    (headers : List Field) (d s : Str) :
    (∃ p ∈ dkimFields cfg.maxSignatures headers, taskKey E (start E headers cfg clock p) = some (d, s)) ↔
      LookedUp E cfg clock headers d s := by
  constructor
  · rintro ⟨⟨i, f⟩, hp, hk⟩
    rcases start_cases L.idna headers cfg clock i f with ⟨e, h, _⟩ | ⟨v, s, e, h, _⟩ | ⟨v, sig, h, hs, hc⟩
    · rw [h] at hk; simp [taskKey, VerifyTask.failed] at hk
    · rw [h] at hk; simp [taskKey, VerifyTask.failed] at hk
    · rw [h] at hk
      refine ⟨i, f, v, sig, hp, hs, (validateSignature_matches headers cfg (typed_lt T i) sig).passes hc, ?_⟩
      simp only [taskKey, VerifyTask.started, if_true] at hk
      split at hk
      · next a b ha hb =>
        simp only [Option.some.injEq, Prod.mk.injEq] at hk
        rw [ha, hb, hk.1, hk.2]
        exact ⟨rfl, rfl⟩
      · simp at hk
  · rintro ⟨i, f, value, sig, hp, hs, hpass, hd, hse⟩
    refine ⟨(i, f), hp, ?_⟩
    rcases start_cases L.idna headers cfg clock i f with ⟨e, h, h1, _⟩ | ⟨v, s', e, h, h1, h2⟩ | ⟨v, sig', h, hs', hc⟩
    · exact absurd hs (h1 _ _)
    · obtain ⟨rfl, rfl⟩ := fieldSignature_unique L.idna hs h1
      exact absurd ((validateSignature_matches headers cfg (typed_lt T i) sig).fails e h2) hpass.not_firstFailure
    · obtain ⟨rfl, rfl⟩ := fieldSignature_unique L.idna hs hs'
      rw [h]
      simp [taskKey, VerifyTask.started, hd, hse]

theorem mem_unique_fst {α β : Type} : ∀ {l : List (α × β)}, (l.map (·.1)).Nodup → ∀ {p q : α × β},
    p ∈ l → q ∈ l → p.1 = q.1 → p = q := by
  intro l
  induction l with
  | nil => simp
  | cons a l ih =>
    intro hn p q hp hq h
    rw [List.map_cons, List.nodup_cons] at hn
    rcases List.mem_cons.1 hp with rfl | hp' <;> rcases List.mem_cons.1 hq with rfl | hq'
    · rfl
    · exact absurd (List.mem_map.2 ⟨q, hq', h.symm⟩) hn.1
    · exact absurd (List.mem_map.2 ⟨p, hp', h⟩) hn.1
    · exact ih hn.2 hp' hq' h

/-- The result of a signature is that with its own reply for all names. -/
theorem resultBy_own (L : Lawful E) {cfg : Config} {clock : Nat → Int} {headers : List Field}
    {pairs : List (Str × Str)} {replies : Str × Str → Reply} {i : Nat} {f : Field}
    (hk : ∀ k, taskKey E (start E headers cfg clock (i, f)) = some k → k ∈ pairs) {reply : Reply}
    (ho : OwnReply E pairs replies f reply) (body : Bytes) :
    resultBy E replies cfg clock headers body (i, f)
      = resultFor E (fun _ => reply) cfg clock headers body (i, f) := by
  unfold resultBy resultFor doneBy done
  rcases start_cases L.idna headers cfg clock i f with ⟨e, h, _⟩ | ⟨v, s, e, h, _⟩ | ⟨v, sig, h, hs, hc⟩
  · rw [h]; simp [taskKey, VerifyTask.failed]
  · rw [h]; simp [taskKey, VerifyTask.failed]
  · rw [h] at hk ⊢
    cases ht : taskKey E (VerifyTask.started i sig f.name v) with
    | none => simp only [ht]
    | some k =>
      have hm := hk k ht
      simp only [ht]
      simp only [taskKey, VerifyTask.started, if_true] at ht
      split at ht
      · next a b ha hb =>
        simp only [Option.some.injEq] at ht
        subst ht
        rw [ho v sig a b hs ha hb hm]
      · simp at ht

theorem resultBy_ownReply (L : Lawful E) {cfg : Config} {clock : Nat → Int} {headers : List Field}
    (pairs : List (Str × Str)) (replies : Str × Str → Reply) (f : Field) :
    ∃ reply, OwnReply E pairs replies f reply := by
  by_cases h : ∃ value sig d s, FieldSignature E f value sig ∧ E.idna.toAscii sig.domain = some d ∧
      E.idna.toAscii sig.selector = some s
  · obtain ⟨value, sig, d, s, h1, h2, h3⟩ := h
    refine ⟨replies (d, s), ?_⟩
    intro value' sig' d' s' h1' h2' h3' _
    obtain ⟨rfl, rfl⟩ := fieldSignature_unique L.idna h1 h1'
    rw [h2] at h2'; rw [h3] at h3'
    cases h2'; cases h3'; rfl
  · refine ⟨⟨0, .ok []⟩, ?_⟩
    intro value sig d s h1 h2 h3 _
    exact absurd ⟨value, sig, d, s, h1, h2, h3⟩ h

/-! ## The property -/

/-- C99: the verifier against a DNS with answers that may change from question to question.

There is one lookup for each pair of ASCII domain and selector of the signatures that pass the
initial checks, in some order. If all questions are answered, then verification of the header ends
after the sum of the durations; the names are asked one after the other in this order; and the
result for each signature is the one that the property of verification (`Judged`) demands when
the DNS gives to all questions the very answer that was given to the question for this
signature. So an answer is never used for a signature with another domain or selector, not even if the
same name was asked for both; and signatures with the same domain and selector share one answer. If
some question remains without answer, then verification waits for ever for the first such one,
and no other is asked. -/
theorem C99_answers (L : Lawful E) (dns : ChangingResolver) {cfg : Config} {clock : Nat → Int}
    (T : TypedTimes cfg clock) (headers : List Field) (hne : dkimFields cfg.maxSignatures headers ≠ []) :
    ∃ pairs, AllPairs E cfg clock headers pairs ∧
      (∀ replies : Str × Str → Reply,
        (∀ k p, pairs[k]? = some p → dns k (nameOf p) = some (replies p)) →
        ∃ v, verifyHeaderChanging E dns headers cfg clock
            = some (.ends (pairs.map fun p => (replies p).delay).sum (some v, pairs.map nameOf)) ∧
          ∀ chunks, ∃ v' stances results, v.processBody chunks = some (v', stances) ∧
            v'.finish E = some results ∧
            results.map (·.index) = (dkimFields cfg.maxSignatures headers).map (·.1) ∧
            ∀ i f, (i, f) ∈ dkimFields cfg.maxSignatures headers → ∀ reply, OwnReply E pairs replies f reply →
              ∀ r, (r ∈ results ∧ r.index = i) ↔
                Judged E (fun _ => reply) cfg (clock i) headers chunks.flatten i f r) ∧
      ∀ k p, pairs[k]? = some p → dns k (nameOf p) = none →
        (∀ j q, j < k → pairs[j]? = some q → dns j (nameOf q) ≠ none) →
        verifyHeaderChanging E dns headers cfg clock = some (.forever ((pairs.take (k + 1)).map nameOf)) := by
  obtain ⟨tasks, m, hf, hemp, hm, hnd, hmem, hall⟩ := run_replied L.idna L.order L.set T headers hne
  have hname : ∀ p : Str × Str, queryName p.1 p.2 = nameOf p := fun p => rfl
  refine ⟨(E.lookupOrder m).map (·.1), ⟨hnd, ?_⟩, ?_, ?_⟩
  · intro d s
    rw [hmem]
    exact pairs_of_taskKey L T headers d s
  · intro replies hr
    obtain ⟨ts, rs, keys, h1, h2, h3⟩ := hall replies
    refine ⟨⟨rs, BodyHasher.build cfg.forbidUnsignedContent (E.keySet keys)⟩, ?_, ?_⟩
    · unfold verifyHeaderChanging verifyAllChanging
      have e := awaitChanging_ends dns replies (E.lookupOrder m) 0 [] (by
        intro k l hl
        have := hr k l.1 (by rw [List.getElem?_map, hl]; rfl)
        simpa [hname] using this)
      simp only [List.nil_append, Nat.zero_add] at e
      simp only [hf, hemp, hm, e, h1, h2]
      simp [replied, Function.comp_def, hname]
    · intro chunks
      obtain ⟨v', ss, h4, h5⟩ := h3 chunks
      have hown : ∀ i f, (i, f) ∈ dkimFields cfg.maxSignatures headers → ∀ reply,
          OwnReply E ((E.lookupOrder m).map (·.1)) replies f reply →
          resultBy E replies cfg clock headers chunks.flatten (i, f)
            = resultFor E (fun _ => reply) cfg clock headers chunks.flatten (i, f) := by
        intro i f hif reply ho
        exact resultBy_own L (fun k hk => (hmem k).2 ⟨(i, f), hif, hk⟩) ho _
      have hidx : ∀ p ∈ dkimFields cfg.maxSignatures headers,
          (resultBy E replies cfg clock headers chunks.flatten p).index = p.1 := by
        rintro ⟨i, f⟩ hp
        obtain ⟨reply, ho⟩ := resultBy_ownReply (clock := clock) (cfg := cfg) (headers := headers) L
          ((E.lookupOrder m).map (·.1)) replies f
        rw [hown i f hp reply ho]
        exact (resultFor_judged L.idna (fun _ => reply) T headers chunks.flatten i f).index_eq
      refine ⟨v', ss, _, h4, h5, ?_, ?_⟩
      · rw [List.map_map]
        exact List.map_congr_left hidx
      · intro i f hif reply ho r
        have hj := resultFor_judged L.idna (fun _ => reply) T headers chunks.flatten i f
        rw [← hown i f hif reply ho] at hj
        constructor
        · rintro ⟨hr, hi⟩
          rw [List.mem_map] at hr
          obtain ⟨p, hp, rfl⟩ := hr
          rw [hidx p hp] at hi
          have : p = (i, f) := mem_unique_fst (dkimFields_nodup _ _) hp hif hi
          subst this
          exact hj
        · intro h
          have := h.unique L.idna hj
          subst this
          exact ⟨List.mem_map.2 ⟨_, hif, rfl⟩, hidx _ hif⟩
  · intro k p hk hn hb
    unfold verifyHeaderChanging verifyAllChanging
    have hlt : k < ((E.lookupOrder m).map (·.1)).length := (List.getElem?_eq_some_iff.1 hk).1
    have e := awaitChanging_forever dns (n := nameOf p)
      (after := (((E.lookupOrder m).map (·.1)).drop (k + 1)).map nameOf) (E.lookupOrder m) 0 []
      ((((E.lookupOrder m).map (·.1)).take k).map nameOf) (by
        have : (E.lookupOrder m).map (fun l => queryName l.1.1 l.1.2)
            = ((E.lookupOrder m).map (·.1)).map nameOf := by
          rw [List.map_map]; rfl
        rw [this]
        conv => lhs; rw [← List.take_append_drop k ((E.lookupOrder m).map (·.1))]
        rw [List.drop_eq_getElem_cons hlt]
        rw [(List.getElem?_eq_some_iff.1 hk).2]
        simp) (by
        intro j b hj
        rw [List.getElem?_map, List.getElem?_take] at hj
        split at hj
        · next hjk =>
          rw [Option.map_eq_some_iff] at hj
          obtain ⟨q, hq, rfl⟩ := hj
          simpa using hb j q hjk hq
        · simp at hj) (by
        rw [List.length_map, List.length_take, Nat.min_eq_left (by omega)]
        simpa using hn)
    simp only [List.map_nil, List.nil_append] at e
    simp only [hf, hemp, hm, e]
    rw [List.take_succ, hk]
    simp

/-- C99: without a signature nothing is asked. -/
theorem C99_nothing (dns : ChangingResolver) (cfg : Config) (clock : Nat → Int) (headers : List Field)
    (hne : dkimFields cfg.maxSignatures headers = []) :
    verifyHeaderChanging E dns headers cfg clock = some (.ends 0 (none, [])) := by
  have h := run_none (E := E) (clock := clock) (fun _ => ⟨0, .ok []⟩) headers hne
  unfold verifyHeader at h
  unfold verifyHeaderChanging
  split at h
  · simp at h
  next tasks hf =>
  split at h
  · next he => simp [hf, he]
  · split at h
    · simp at h
    · split at h <;> simp at h

/-- C99: a DNS that answers always in the same way is the one of the other theorems (by
`C96_waiting_partial` and `verifyHeader`). -/
theorem C99_constant (slow : SlowResolver) (headers : List Field) (cfg : Config) (clock : Nat → Int) :
    verifyHeaderChanging E (fun _ => slow) headers cfg clock = verifyHeaderTimed E slow headers cfg clock := by
  have h : ∀ (ls : List Lookup) (t : Nat) (set : List (Str × List Nat × QueryResult)),
      awaitChanging (fun _ => slow) t set ls = awaitAll slow t set ls := by
    intro ls
    induction ls with
    | nil => intro t set; rfl
    | cons l ls ih =>
      intro t set
      obtain ⟨⟨d, s⟩, ix⟩ := l
      rw [awaitChanging, awaitAll]
      cases slow (queryName d s) <;> simp [ih]
  have h2 : ∀ tasks, verifyAllChanging E (fun _ => slow) headers cfg tasks
      = verifyAllTimed E slow headers cfg tasks := by
    intro tasks
    unfold verifyAllChanging verifyAllTimed
    simp only [h]
    rfl
  unfold verifyHeaderChanging verifyHeaderTimed
  simp only [h2]
  rfl

/-! ## Cases -/

/-- The first question is answered after two seconds that there is no such name, all others after
three seconds with a failure. -/
def moody : ChangingResolver
  | 0, _ => some ⟨2, .error .notFound⟩
  | _, _ => some ⟨3, .error .timedOut⟩

set_option maxRecDepth 100000 in
/-- The same name is asked twice and answered differently: the two signatures have different
results. -/
example : ∃ v v' stances r₁ r₂ n, verifyHeaderChanging testEnv moody collidingMessage .default (fun _ => 1500)
      = some (.ends 5 (some v, [n, n])) ∧
    v.processBody [] = some (v', stances) ∧ v'.finish testEnv = some [r₁, r₂] ∧ r₁.status ≠ r₂.status :=
  ⟨_, _, _, _, _, _, rfl, rfl, rfl, by decide⟩

set_option maxRecDepth 100000 in
/-- The second question is never answered. -/
example : ∃ n, verifyHeaderChanging testEnv (fun k n => if k = 0 then moody 0 n else none) collidingMessage
    .default (fun _ => 1500) = some (.forever [n, n]) :=
  ⟨_, rfl⟩

end Dkim
