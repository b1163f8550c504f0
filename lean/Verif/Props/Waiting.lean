import Verif.Model.Waiting
import Verif.Props.Work
import Verif.Props.VerifierCases

/-!
# The time for which the verifier waits

C96. The code awaits the lookups one after the other, without a limit. The property that was
promised (concurrent lookups, each ended by the timeout) does not hold; what holds instead is
described exactly.
-/

namespace Dkim
open Spec

variable {E : Env}

/-! ## Specification -/

/-- The longest of some durations. -/
def Spec.longest : List Nat → Nat
  | [] => 0
  | d :: ds => max d (longest ds)

/-- How long a resolver takes for a name that it answers. -/
def Spec.duration (slow : SlowResolver) (name : Str) : Nat :=
  match slow name with
  | some reply => reply.delay
  | none => 0

/-- The resolver gives the answers of the slow one, where that answers. -/
def Spec.Extends (resolver : Resolver) (slow : SlowResolver) : Prop :=
  ∀ name reply, slow name = some reply → resolver name = reply

/-- The property as promised: lookups go on at the same time and each is given up after the
timeout, so that verification of the header ends, and ends when the longest of the lookups is
answered or given up. -/
def Spec.Concurrent (E : Env) (slow : SlowResolver) (headers : List Field) (cfg : Config)
    (clock : Nat → Int) : Prop :=
  ∃ v names, verifyHeaderTimed E slow headers cfg clock = some (.ends
    (longest (names.map fun n => match slow n with
      | some reply => min reply.delay cfg.lookupTimeout
      | none => cfg.lookupTimeout)) (v, names))

/-! ## The loop -/

theorem awaitAll_ends (slow : SlowResolver) {resolver : Resolver} (hx : Extends resolver slow) :
    ∀ (ls : List Lookup) (t : Nat) (set : List (Str × List Nat × QueryResult)),
    (∀ l ∈ ls, slow (queryName l.1.1 l.1.2) ≠ none) →
    awaitAll slow t set ls = .ends
      (t + (ls.map fun l => duration slow (queryName l.1.1 l.1.2)).sum)
      (set ++ ls.map fun l => (queryName l.1.1 l.1.2, l.2, lookUpRecords resolver l.1.1 l.1.2)) := by
  intro ls
  induction ls with
  | nil => intro t set _; simp [awaitAll]
  | cons l ls ih =>
    intro t set h
    obtain ⟨⟨d, s⟩, ix⟩ := l
    have h1 := h _ (.head _)
    simp only at h1
    rw [awaitAll]
    cases hs : slow (queryName d s) with
    | none => exact absurd hs h1
    | some reply =>
      simp only
      rw [ih _ _ fun l hl => h l (.tail _ hl)]
      have e : lookUpRecords (fun _ => reply) d s = lookUpRecords resolver d s := by
        simp only [lookUpRecords, hx _ _ hs]
      simp [e, duration, hs, Nat.add_assoc]

theorem awaitAll_forever (slow : SlowResolver) {n : Str} {after : List Str} (hn : slow n = none) :
    ∀ (ls : List Lookup) (t : Nat) (set : List (Str × List Nat × QueryResult)) (before : List Str),
    ls.map (fun l => queryName l.1.1 l.1.2) = before ++ n :: after → (∀ b ∈ before, slow b ≠ none) →
    awaitAll slow t set ls = .forever (set.map (·.1) ++ before ++ [n]) := by
  intro ls
  induction ls with
  | nil => intro t set before h _; simp at h
  | cons l ls ih =>
    intro t set before h hb
    obtain ⟨⟨d, s⟩, ix⟩ := l
    rw [awaitAll]
    cases before with
    | nil =>
      simp only [List.map_cons, List.nil_append, List.cons.injEq] at h
      simp only [h.1, hn]
      simp
    | cons b before =>
      simp only [List.map_cons, List.cons_append, List.cons.injEq] at h
      have h1 := hb b (.head _)
      rw [← h.1] at h1
      cases hs : slow (queryName d s) with
      | none => exact absurd hs h1
      | some reply =>
        simp only
        rw [ih _ _ before h.2 fun b hb' => hb b (.tail _ hb')]
        simp [← h.1]

/-- The names that are asked do not depend on the answers. -/
theorem verifyHeader_asked (order : OrderLaw E.lookupOrder) {resolver : Resolver}
    {headers : List Field} {cfg : Config} {clock : Nat → Int} {v : Option Verifier} {names : List Str}
    (h : verifyHeader E resolver headers cfg clock = some (v, names)) :
    names = (E.lookupOrder ((((findSignatures E headers cfg clock).getD []) |> addLookups E []).getD [])).map
      (fun l => queryName l.1.1 l.1.2) := by
  unfold verifyHeader at h
  split at h
  · simp at h
  next tasks hf =>
  simp only [hf, Option.getD_some]
  split at h
  · next he =>
    simp only [Option.some.injEq, Prod.mk.injEq] at h
    rw [List.isEmpty_iff] at he
    subst he
    have e : E.lookupOrder [] = [] := List.perm_nil.1 (order [])
    simp [← h.2, addLookups, e]
  next he =>
  split at h
  · simp at h
  next ts asked hv =>
  split at h
  · simp at h
  next rs keys hc =>
  simp only [Option.some.injEq, Prod.mk.injEq] at h
  obtain ⟨rfl, rfl⟩ := h
  unfold verifyAll spawn at hv
  cases hl : addLookups E [] tasks with
  | none => simp [hl] at hv
  | some m =>
    simp only [hl, Option.map_some] at hv
    split at hv
    · simp at hv
    next ts' hr =>
    simp only [Option.some.injEq, Prod.mk.injEq] at hv
    rw [← hv.2]
    simp [spawnAll, Function.comp_def]

/-- The timed run against a run of the verifier without times. -/
theorem verifyHeaderTimed_ends {slow : SlowResolver} {resolver : Resolver} (hx : Extends resolver slow)
    {headers : List Field} {cfg : Config} {clock : Nat → Int} {v : Option Verifier} {names : List Str}
    (h : verifyHeader E resolver headers cfg clock = some (v, names)) (ha : ∀ n ∈ names, slow n ≠ none) :
    verifyHeaderTimed E slow headers cfg clock = some (.ends (names.map (duration slow)).sum (v, names)) := by
  unfold verifyHeader at h
  unfold verifyHeaderTimed
  split at h
  · simp at h
  next tasks hf =>
  split at h
  · next he =>
    simp only [Option.some.injEq, Prod.mk.injEq] at h
    simp [hf, he, ← h.1, ← h.2]
  next he =>
  simp only [hf, he, Bool.false_eq_true, if_false]
  split at h
  · simp at h
  next ts asked hv =>
  split at h
  · simp at h
  next rs keys hc =>
  simp only [Option.some.injEq, Prod.mk.injEq] at h
  obtain ⟨rfl, rfl⟩ := h
  unfold verifyAll spawn at hv
  unfold verifyAllTimed
  cases hl : addLookups E [] tasks with
  | none => simp [hl] at hv
  | some m =>
    simp only [hl, Option.map_some] at hv
    split at hv
    · simp at hv
    next ts' hr =>
    simp only [Option.some.injEq, Prod.mk.injEq] at hv
    obtain ⟨rfl, rfl⟩ := hv
    have e := awaitAll_ends slow hx (E.lookupOrder m) 0 [] (by
      intro l hl'
      exact ha _ (List.mem_map.2 ⟨(_, l.2, lookUpRecords resolver l.1.1 l.1.2),
        List.mem_map.2 ⟨l, hl', rfl⟩, rfl⟩))
    simp only [List.nil_append, Nat.zero_add] at e
    simp only [e]
    unfold spawnAll at hr
    simp only [hr, hc]
    simp [spawnAll, Function.comp_def]

theorem verifyHeaderTimed_forever {slow : SlowResolver} {resolver : Resolver}
    {headers : List Field} {cfg : Config} {clock : Nat → Int} {v : Option Verifier}
    {before after : List Str} {n : Str}
    (h : verifyHeader E resolver headers cfg clock = some (v, before ++ n :: after))
    (hb : ∀ b ∈ before, slow b ≠ none) (hn : slow n = none) :
    verifyHeaderTimed E slow headers cfg clock = some (.forever (before ++ [n])) := by
  unfold verifyHeader at h
  unfold verifyHeaderTimed
  split at h
  · simp at h
  next tasks hf =>
  split at h
  · simp at h
  next he =>
  simp only [hf, he, Bool.false_eq_true, if_false]
  split at h
  · simp at h
  next ts asked hv =>
  split at h
  · simp at h
  next rs keys hc =>
  simp only [Option.some.injEq, Prod.mk.injEq] at h
  obtain ⟨rfl, rfl⟩ := h
  unfold verifyAll spawn at hv
  unfold verifyAllTimed
  cases hl : addLookups E [] tasks with
  | none => simp [hl] at hv
  | some m =>
    simp only [hl, Option.map_some] at hv
    split at hv
    · simp at hv
    next ts' hr =>
    simp only [Option.some.injEq, Prod.mk.injEq] at hv
    have e := awaitAll_forever slow hn (after := after) (E.lookupOrder m) 0 [] before (by
      rw [← hv.2]; simp [spawnAll, Function.comp_def]) hb
    simp only [List.map_nil, List.nil_append] at e
    simp only [e]

/-! ## Sums and longest durations -/

theorem Spec.le_longest {d : Nat} : ∀ {l : List Nat}, d ∈ l → d ≤ longest l := by
  intro l
  induction l with
  | nil => simp
  | cons a l ih =>
    intro h
    rw [longest]
    rcases List.mem_cons.1 h with rfl | h
    · omega
    · have := ih h; omega

theorem Spec.longest_mem : ∀ {l : List Nat}, l ≠ [] → longest l ∈ l := by
  intro l
  induction l with
  | nil => simp
  | cons a l ih =>
    intro _
    rw [longest]
    by_cases h : l = []
    · subst h; simp [longest]
    · have := ih h
      by_cases h2 : longest l ≤ a
      · rw [Nat.max_eq_left h2]; exact .head _
      · rw [Nat.max_eq_right (by omega)]; exact .tail _ this

theorem longest_le_sum (l : List Nat) : longest l ≤ l.sum := by
  induction l with
  | nil => simp [longest]
  | cons a l ih => rw [longest, List.sum_cons]; omega

theorem sum_le_mul (l : List Nat) : l.sum ≤ l.length * longest l := by
  induction l with
  | nil => simp
  | cons a l ih =>
    rw [longest, List.sum_cons, List.length_cons, Nat.add_mul, Nat.one_mul]
    have h1 : l.length * longest l ≤ l.length * max a (longest l) :=
      Nat.mul_le_mul_left _ (by omega)
    omega

theorem sum_eq_zero_iff (l : List Nat) : l.sum = 0 ↔ (l.filter (0 < ·)).length = 0 := by
  induction l with
  | nil => simp
  | cons a l ih =>
    rw [List.sum_cons, List.filter_cons]
    by_cases h : 0 < a
    · simp [h]; omega
    · have : a = 0 := by omega
      subst this
      simpa using ih

theorem sum_eq_longest_iff (l : List Nat) : l.sum = longest l ↔ (l.filter (0 < ·)).length ≤ 1 := by
  induction l with
  | nil => simp [longest]
  | cons a l ih =>
    have hle := longest_le_sum l
    rw [List.sum_cons, longest, List.filter_cons]
    by_cases h : 0 < a
    · simp only [h, decide_true, if_true, List.length_cons]
      have := sum_eq_zero_iff l
      constructor
      · intro e
        have : l.sum = 0 := by omega
        omega
      · intro e
        have : l.sum = 0 := this.2 (by omega)
        omega
    · have : a = 0 := by omega
      subst this
      simpa using ih

/-! ## The property -/

/-- C96, in part. The full property is `Spec.Concurrent` for all resolvers, headers and
configurations, which does not hold (`C96_violation`).

What holds: there is one lookup for each pair of ASCII domain and selector of the signatures that
pass the initial checks, in some order. If the resolver answers all of them, then verification of
the header ends after the sum of their durations, with the result that the answers alone
determine (that of `verifyHeader`, about which the other theorems are). If it does not, then
verification waits for ever for the first one that is not answered; the lookups behind it are not
even begun. -/
theorem C96_waiting_partial (L : Lawful E) (slow : SlowResolver) {cfg : Config} {clock : Nat → Int}
    (T : TypedTimes cfg clock) (headers : List Field) :
    ∃ pairs : List (Str × Str), pairs.Nodup ∧ (∀ d s, (d, s) ∈ pairs ↔ LookedUp E cfg clock headers d s) ∧
      ∃ names, names = pairs.map (fun p => p.2 ++ c!"._domainkey." ++ p.1 ++ c!".") ∧
      ((∀ n ∈ names, slow n ≠ none) → ∃ v,
        verifyHeaderTimed E slow headers cfg clock = some (.ends (names.map (duration slow)).sum (v, names)) ∧
        ∀ resolver, Extends resolver slow → verifyHeader E resolver headers cfg clock = some (v, names)) ∧
      ∀ before n after, names = before ++ n :: after → (∀ b ∈ before, slow b ≠ none) → slow n = none →
        verifyHeaderTimed E slow headers cfg clock = some (.forever (before ++ [n])) := by
  let resolver : Resolver := fun n => (slow n).getD ⟨0, .error .other⟩
  have hx : Extends resolver slow := fun n r h => by simp [resolver, h]
  obtain ⟨o, asked, h, hrun⟩ := C50_no_panic L resolver cfg clock T headers
  have hp : ∃ pairs : List (Str × Str), pairs.Nodup ∧
      (∀ d s, (d, s) ∈ pairs ↔ LookedUp E cfg clock headers d s) ∧
      asked = pairs.map (fun p => p.2 ++ c!"._domainkey." ++ p.1 ++ c!".") := by
    cases o with
    | none =>
      by_cases hne : dkimFields cfg.maxSignatures headers = []
      · have e := (run_none (E := E) (clock := clock) resolver headers hne).symm.trans h
        simp only [Option.some.injEq, Prod.mk.injEq, true_and] at e
        refine ⟨[], .nil, ?_, by simp [← e]⟩
        intro d s
        simp [LookedUp, hne]
      · obtain ⟨w, keys, g1, _⟩ := run_eq L.idna L.order L.set resolver T headers hne
        have e := g1.symm.trans h
        simp at e
    | some v =>
      obtain ⟨v', ss, rs, h2, h3⟩ := hrun v rfl []
      obtain ⟨pairs, q1, q2, q3⟩ := C48_queries L T (⟨v, v', ss, h, h2, h3⟩ : Run E resolver cfg clock headers [] rs asked)
      exact ⟨pairs, q1, q3, q2⟩
  obtain ⟨pairs, q1, q2, q3⟩ := hp
  refine ⟨pairs, q1, q2, asked, q3, ?_, ?_⟩
  · intro ha
    have ht := verifyHeaderTimed_ends hx h ha
    refine ⟨o, ht, ?_⟩
    intro resolver' hx'
    obtain ⟨o', asked', h', _⟩ := C50_no_panic L resolver' cfg clock T headers
    obtain rfl := (verifyHeader_asked L.order h').trans (verifyHeader_asked L.order h).symm
    have ht' := verifyHeaderTimed_ends hx' h' ha
    rw [ht] at ht'
    simp only [Option.some.injEq, Waiting.ends.injEq, Prod.mk.injEq, true_and, and_true] at ht'
    rw [h', ht']
  · rintro before n after rfl hb hn
    exact verifyHeaderTimed_forever h hb hn

theorem first_unanswered {slow : SlowResolver} {n : Str} (e : slow n = none) : ∀ {ns : List Str}, n ∈ ns →
    ∃ before m after, ns = before ++ m :: after ∧ (∀ b ∈ before, slow b ≠ none) ∧ slow m = none := by
  intro ns
  induction ns with
  | nil => simp
  | cons x ns ih =>
    intro hn
    by_cases hx : slow x = none
    · exact ⟨[], x, ns, rfl, by simp, hx⟩
    · obtain ⟨before, m, after, rfl, hb, hm⟩ := ih (by
        rcases List.mem_cons.1 hn with rfl | h
        · exact absurd e hx
        · exact h)
      exact ⟨x :: before, m, after, rfl, by simpa [hx] using hb, hm⟩

/-- C96: if verification of the header ends, then the resolver has answered every lookup, and the
time is at least the longest of them and at most their number times the longest. It is the
longest, as with concurrent lookups, exactly if at most one of the lookups takes any time. -/
theorem C96_longest (L : Lawful E) {slow : SlowResolver} {cfg : Config} {clock : Nat → Int}
    (T : TypedTimes cfg clock) {headers : List Field} {time : Nat} {v : Option Verifier} {names : List Str}
    (h : verifyHeaderTimed E slow headers cfg clock = some (.ends time (v, names))) :
    ∃ durations : List Nat, durations.map some = names.map (fun n => (slow n).map (·.delay)) ∧
      longest durations ≤ time ∧ time ≤ durations.length * longest durations ∧
      (time = longest durations ↔ (durations.filter (0 < ·)).length ≤ 1) := by
  obtain ⟨_, _, _, ns, _, h1, h2⟩ := C96_waiting_partial L slow T headers
  have ha : ∀ n ∈ ns, slow n ≠ none := by
    intro n hn e
    obtain ⟨before, m, after, rfl, hb, hm⟩ := first_unanswered e hn
    have := (h2 before m after rfl hb hm).symm.trans h
    simp at this
  obtain ⟨v', h3, _⟩ := h1 ha
  have e := h3.symm.trans h
  simp only [Option.some.injEq, Waiting.ends.injEq, Prod.mk.injEq] at e
  obtain ⟨rfl, _, rfl⟩ := e
  refine ⟨ns.map (duration slow), ?_, longest_le_sum _, sum_le_mul _, sum_eq_longest_iff _⟩
  rw [List.map_map]
  apply List.map_congr_left
  intro n hn
  have := ha n hn
  cases hs : slow n with
  | none => exact absurd hs this
  | some r => simp [duration, hs]

theorem longest_min_le (t : Nat) (l : List Nat) : longest (l.map (min · t)) ≤ t := by
  induction l with
  | nil => simp [longest]
  | cons a l ih => simp only [List.map_cons, longest]; omega

theorem longest_min_le' (t : Nat) (l : List Nat) : longest (l.map (min · t)) ≤ longest l := by
  induction l with
  | nil => simp [longest]
  | cons a l ih => simp only [List.map_cons, longest]; omega

theorem le_sum_of_mem {d : Nat} {l : List Nat} (h : d ∈ l) : d ≤ l.sum :=
  Nat.le_trans (le_longest h) (longest_le_sum l)

theorem sum_eq_longest_min_iff (t : Nat) (l : List Nat) :
    l.sum = longest (l.map (min · t)) ↔ (∀ d ∈ l, d ≤ t) ∧ (l.filter (0 < ·)).length ≤ 1 := by
  have h1 := longest_min_le t l
  have h2 := longest_min_le' t l
  have h3 := longest_le_sum l
  constructor
  · intro e
    refine ⟨fun d hd => ?_, (sum_eq_longest_iff l).1 (by omega)⟩
    have := le_sum_of_mem hd
    omega
  · rintro ⟨h, h'⟩
    rw [← sum_eq_longest_iff] at h'
    rw [h']
    congr 1
    have : l.map (min · t) = l.map id := List.map_congr_left fun d hd => Nat.min_eq_left (h d hd)
    rw [this, List.map_id]

theorem length_filter_le_one {α : Type} {p : α → Bool} {l : List α} (hn : l.Nodup) :
    (l.filter p).length ≤ 1 ↔ ∀ a ∈ l, ∀ b ∈ l, p a → p b → a = b := by
  have hn' := hn.sublist (List.filter_sublist (p := p))
  have hm : ∀ a, a ∈ l.filter p ↔ a ∈ l ∧ p a := fun a => List.mem_filter
  constructor
  · intro h a ha b hb pa pb
    have ha := (hm a).2 ⟨ha, pa⟩
    have hb := (hm b).2 ⟨hb, pb⟩
    generalize l.filter p = m at *
    match m, h with
    | [], _ => simp at ha
    | [x], _ => simp at ha hb; rw [ha, hb]
    | _ :: _ :: _, h => simp at h
  · intro h
    match e : l.filter p with
    | [] => simp
    | [x] => simp
    | x :: y :: m =>
      have hx := (hm x).1 (by simp [e])
      have hy := (hm y).1 (by simp [e])
      rw [e] at hn'
      exact absurd (h x hx.1 y hy.1 hx.2 hy.2) (by rintro rfl; simp at hn')

/-- C96: the promised behaviour is there exactly if every lookup is answered within the timeout
and no two of them take any time. -/
theorem C96_concurrent_iff (L : Lawful E) (slow : SlowResolver) {cfg : Config} {clock : Nat → Int}
    (T : TypedTimes cfg clock) (headers : List Field) :
    Concurrent E slow headers cfg clock ↔
      (∀ d s, LookedUp E cfg clock headers d s → ∃ reply,
        slow (s ++ c!"._domainkey." ++ d ++ c!".") = some reply ∧ reply.delay ≤ cfg.lookupTimeout) ∧
      ∀ d s d' s', LookedUp E cfg clock headers d s → LookedUp E cfg clock headers d' s' →
        0 < duration slow (s ++ c!"._domainkey." ++ d ++ c!".") →
        0 < duration slow (s' ++ c!"._domainkey." ++ d' ++ c!".") → (d, s) = (d', s') := by
  obtain ⟨pairs, q1, q2, ns, q3, h1, h2⟩ := C96_waiting_partial L slow T headers
  have hone : ((ns.map (duration slow)).filter (0 < ·)).length ≤ 1 ↔
      ∀ d s d' s', LookedUp E cfg clock headers d s → LookedUp E cfg clock headers d' s' →
        0 < duration slow (s ++ c!"._domainkey." ++ d ++ c!".") →
        0 < duration slow (s' ++ c!"._domainkey." ++ d' ++ c!".") → (d, s) = (d', s') := by
    rw [q3, List.map_map, List.filter_map, List.length_map, length_filter_le_one q1]
    simp only [← q2, Function.comp_apply, decide_eq_true_eq]
    constructor
    · intro h d s d' s' a b; exact h (d, s) a (d', s') b
    · rintro h ⟨d, s⟩ a ⟨d', s'⟩ b; exact h d s d' s' a b
  by_cases ha : ∀ n ∈ ns, slow n ≠ none
  · obtain ⟨v, h3, _⟩ := h1 ha
    have e : (ns.map fun n => match slow n with
        | some reply => min reply.delay cfg.lookupTimeout
        | none => cfg.lookupTimeout) = (ns.map (duration slow)).map (min · cfg.lookupTimeout) := by
      rw [List.map_map]
      apply List.map_congr_left
      intro n hn
      have := ha n hn
      cases hs : slow n with
      | none => exact absurd hs this
      | some r => simp [duration, hs]
    have hc : Concurrent E slow headers cfg clock ↔
        (ns.map (duration slow)).sum = longest ((ns.map (duration slow)).map (min · cfg.lookupTimeout)) := by
      rw [← e]
      constructor
      · rintro ⟨v', names, h4⟩
        have h4 := h3.symm.trans h4
        simp only [Option.some.injEq, Waiting.ends.injEq, Prod.mk.injEq] at h4
        obtain ⟨h4, _, rfl⟩ := h4
        exact h4
      · intro h4
        exact ⟨v, ns, by rw [h3, h4]⟩
    rw [hc, sum_eq_longest_min_iff, hone]
    apply and_congr_left
    intro _
    constructor
    · intro h d s hl
      have hm : s ++ c!"._domainkey." ++ d ++ c!"." ∈ ns := by
        rw [q3]; exact List.mem_map.2 ⟨(d, s), (q2 d s).2 hl, rfl⟩
      have h5 := h _ (List.mem_map.2 ⟨_, hm, rfl⟩)
      have := ha _ hm
      cases hs : slow (s ++ c!"._domainkey." ++ d ++ c!".") with
      | none => exact absurd hs this
      | some r =>
        rw [duration, hs] at h5
        exact ⟨r, rfl, h5⟩
    · intro h x hx
      obtain ⟨n, hn, rfl⟩ := List.mem_map.1 hx
      rw [q3] at hn
      obtain ⟨⟨d, s⟩, hp, rfl⟩ := List.mem_map.1 hn
      obtain ⟨r, hr, hle⟩ := h d s ((q2 d s).1 hp)
      rw [duration, hr]
      exact hle
  · constructor
    · rintro ⟨v, names, h4⟩
      exfalso
      apply ha
      intro n hn hs
      obtain ⟨before, m, after, rfl, hb, hm⟩ := first_unanswered hs hn
      have := (h2 before m after rfl hb hm).symm.trans h4
      simp at this
    · rintro ⟨h, _⟩
      exfalso
      apply ha
      intro n hn hs
      rw [q3] at hn
      obtain ⟨⟨d, s⟩, hp, rfl⟩ := List.mem_map.1 hn
      obtain ⟨r, hr, _⟩ := h d s ((q2 d s).1 hp)
      simp only at hs
      rw [hs] at hr
      simp at hr

/-- The end of a wait, without the verifier. -/
def waited (E : Env) (slow : SlowResolver) (now : Int) (headers : List Field) : Option (Option Nat × List Str) :=
  match verifyHeaderTimed E slow headers .default (fun _ => now) with
  | some (.ends t (_, names)) => some (some t, names)
  | some (.forever names) => some (none, names)
  | none => none

/-- As `testResolver`, but each lookup takes six seconds. -/
def sixSeconds : SlowResolver := fun n => some { testResolver n with delay := 6000 }

/-- As `sixSeconds`, but the key of selector `r` is never found. -/
def stuck : SlowResolver := fun n => if n = c!"r._domainkey.example.com." then none else sixSeconds n

set_option maxRecDepth 100000 in
theorem test_sixSeconds : waited testEnv sixSeconds 1500 testMessage
    = some (some 12000, [c!"r._domainkey.example.com.", c!"e._domainkey.example.com."]) := by
  rfl

set_option maxRecDepth 100000 in
theorem test_stuck : waited testEnv stuck 1500 testMessage = some (none, [c!"r._domainkey.example.com."]) := by
  rfl

theorem waited_ends {slow : SlowResolver} {now : Int} {headers : List Field} {t : Nat} {names : List Str}
    (h : waited E slow now headers = some (some t, names)) :
    ∃ v, verifyHeaderTimed E slow headers .default (fun _ => now) = some (.ends t (v, names)) := by
  unfold waited at h
  split at h
  · next v _ e =>
    simp only [Option.some.injEq, Prod.mk.injEq] at h
    rw [e, h.1, h.2]
    exact ⟨_, rfl⟩
  · simp at h
  · simp at h

theorem waited_forever {slow : SlowResolver} {now : Int} {headers : List Field} {names : List Str}
    (h : waited E slow now headers = some (none, names)) :
    verifyHeaderTimed E slow headers .default (fun _ => now) = some (.forever names) := by
  unfold waited at h
  split at h
  · simp at h
  · next e =>
    simp only [Option.some.injEq, Prod.mk.injEq, true_and] at h
    rw [e, h]
  · simp at h

/-- C96 does not hold: two lookups that are both answered within the timeout of ten seconds take
twelve seconds together; and if the first of two lookups is never answered, then verification
never ends, and the second is never begun. -/
theorem C96_violation : Lawful testEnv ∧ TypedTimes .default (fun _ => 1500) ∧
    (¬ Concurrent testEnv sixSeconds testMessage .default (fun _ => 1500) ∧
      (∀ n, ∃ reply, sixSeconds n = some reply ∧ reply.delay < Config.default.lookupTimeout) ∧
      ∃ time v, verifyHeaderTimed testEnv sixSeconds testMessage .default (fun _ => 1500)
        = some (.ends time (v, [c!"r._domainkey.example.com.", c!"e._domainkey.example.com."])) ∧
        Config.default.lookupTimeout < time) ∧
    (¬ Concurrent testEnv stuck testMessage .default (fun _ => 1500) ∧
      verifyHeaderTimed testEnv stuck testMessage .default (fun _ => 1500)
        = some (.forever [c!"r._domainkey.example.com."])) := by
  obtain ⟨v, h⟩ := waited_ends test_sixSeconds
  have h' := waited_forever test_stuck
  have T : TypedTimes .default (fun _ => 1500) := typed_default (by decide) _ rfl
  refine ⟨testEnv_lawful, T, ⟨?_, ?_, 12000, v, h, by decide⟩, ?_, h'⟩
  · rintro ⟨v', names, e⟩
    have e := e.symm.trans h
    simp only [Option.some.injEq, Waiting.ends.injEq, Prod.mk.injEq] at e
    obtain ⟨e1, _, rfl⟩ := e
    revert e1
    decide
  · intro n
    exact ⟨_, rfl, (by decide : 6000 < 10000)⟩
  · rintro ⟨v', names, e⟩
    have e := e.symm.trans h'
    simp at e

end Dkim
