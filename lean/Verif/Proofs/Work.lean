import Verif.Spec.Work
import Verif.Proofs.VerifierRun
import Verif.Props.Verifier

/-!
# The expensive steps of verification (helpers for C111)
-/

namespace Dkim

open Spec

variable {E : Env}

/-! ## Without the list of steps -/

theorem parseAndCacheW_erase (c : CachedRecord) : (c.parseAndCacheW E).map (·.1) = c.parseAndCache E := by
  cases c with
  | parsed r => rfl
  | unparsed r =>
    cases r with
    | error e => rfl
    | ok s =>
      simp only [CachedRecord.parseAndCacheW, CachedRecord.parseAndCache]
      cases recordFromStr E.lossy E.pre s <;> rfl

theorem tryRecordW_erase (headers : List Field) (cfg : Config) (sig : DkimSignature) (task : VerifyTask)
    (record : Except RecordError KeyRecord) :
    (tryRecordW E headers cfg sig task record).map (·.1) = tryRecord E headers cfg sig task record := by
  cases record with
  | error e => rfl
  | ok record =>
    simp only [tryRecordW, tryRecord]
    cases validateKeyRecord E sig.algorithm.keyType sig.algorithm.hashAlg record sig.domain sig.identity with
    | panic => rfl
    | err e => rfl
    | ok u =>
      simp only
      cases readVerifyingKey E sig.algorithm.keyType record.keyData with
      | error e => rfl
      | ok key =>
        simp only
        cases keySizeAccepted E key cfg with
        | false => rfl
        | true =>
          simp only [Bool.not_true, Bool.false_eq_true, if_false]
          cases task.headerName with
          | none => rfl
          | some name =>
            cases task.headerValue with
            | none => rfl
            | some value =>
              simp only
              cases performVerification E headers key sig name value <;> rfl

theorem tryRecordsW_erase (headers : List Field) (cfg : Config) (sig : DkimSignature) (task : VerifyTask)
    (cs : List CachedRecord) :
    (tryRecordsW E headers cfg sig task cs).map (·.1) = tryRecords E headers cfg sig task cs := by
  induction cs generalizing task with
  | nil => rfl
  | cons c cs ih =>
    rw [tryRecordsW, tryRecords, ← parseAndCacheW_erase]
    rcases c.parseAndCacheW E with _ | ⟨⟨c', record⟩, w1⟩
    · rfl
    simp only [Option.map_some]
    rw [← tryRecordW_erase]
    rcases tryRecordW E headers cfg sig task record with _ | ⟨⟨task', _ | _⟩, w2⟩
    · rfl
    · simp only [Option.map_some]
      rw [← ih]
      rcases tryRecordsW E headers cfg sig task' cs with _ | ⟨⟨_, _⟩, _⟩ <;> rfl
    · rfl

theorem verifyTaskW_erase (headers : List Field) (cfg : Config) (task : VerifyTask)
    (lookup : Except VerificationError (List CachedRecord)) :
    (verifyTaskW E headers cfg task lookup).map (·.1) = verifyTask E headers cfg task lookup := by
  unfold verifyTaskW verifyTask
  cases task.signature with
  | none => rfl
  | some sig =>
    cases lookup with
    | error e => rfl
    | ok records =>
      simp only
      cases records.isEmpty with
      | true => rfl
      | false =>
        simp only [Bool.false_eq_true, if_false]
        rw [← tryRecordsW_erase]
        rcases tryRecordsW E headers cfg sig task records with _ | ⟨⟨_, _⟩, _⟩ <;> rfl

theorem verifySelectedW_erase (headers : List Field) (cfg : Config) (indexes : List Nat)
    (lookup : Except VerificationError (List CachedRecord)) (tasks : List VerifyTask) :
    (verifySelectedW E headers cfg indexes lookup tasks).map (·.1) =
      verifySelected E headers cfg indexes lookup tasks := by
  induction tasks generalizing lookup with
  | nil => rfl
  | cons t ts ih =>
    rw [verifySelectedW, verifySelected]
    cases indexes.contains t.index with
    | true =>
      simp only [if_true]
      rw [← verifyTaskW_erase]
      rcases verifyTaskW E headers cfg t lookup with _ | ⟨⟨t', l'⟩, w⟩
      · rfl
      simp only [Option.map_some]
      rw [← ih]
      rcases verifySelectedW E headers cfg indexes l' ts with _ | ⟨_, _⟩ <;> rfl
    | false =>
      simp only [Bool.false_eq_true, if_false]
      rw [← ih]
      rcases verifySelectedW E headers cfg indexes lookup ts with _ | ⟨_, _⟩ <;> rfl

theorem verifyResultsW_erase (headers : List Field) (cfg : Config) (tasks : List VerifyTask)
    (qs : List (Str × List Nat × QueryResult)) :
    (verifyResultsW E headers cfg tasks qs).map (·.1) = verifyResults E headers cfg tasks qs := by
  induction qs generalizing tasks with
  | nil => rfl
  | cons q qs ih =>
    obtain ⟨name, is, res⟩ := q
    rw [verifyResultsW, verifyResults, ← verifySelectedW_erase]
    rcases verifySelectedW E headers cfg is (mapLookupResult res) tasks with _ | ⟨ts, w⟩
    · rfl
    simp only [Option.map_some]
    rw [← ih]
    rcases verifyResultsW E headers cfg ts qs with _ | ⟨_, _⟩ <;> rfl

theorem verifyHeaderW_erase (resolver : Resolver) (headers : List Field) (cfg : Config) (clock : Nat → Int) :
    (verifyHeaderW E resolver headers cfg clock).map (·.1) = verifyHeader E resolver headers cfg clock := by
  unfold verifyHeaderW verifyHeader
  cases findSignatures E headers cfg clock with
  | none => rfl
  | some tasks =>
    simp only
    cases tasks.isEmpty with
    | true => rfl
    | false =>
      simp only [Bool.false_eq_true, if_false, verifyAllW, verifyAll]
      cases spawn E resolver tasks with
      | none => rfl
      | some queries =>
        simp only
        rw [← verifyResultsW_erase]
        rcases verifyResultsW E headers cfg tasks queries with _ | ⟨ts, w⟩
        · rfl
        simp only [Option.map_some]
        rcases collectTasks E ts with _ | ⟨_, _⟩ <;> rfl

/-! ## Parsing -/

/-- The texts not parsed yet. -/
def unparsedTexts (cs : List CachedRecord) : List Str :=
  cs.filterMap fun
    | .unparsed (.ok s) => some s
    | _ => none

theorem parsedTexts_append (a b : List Work) : parsedTexts (a ++ b) = parsedTexts a ++ parsedTexts b :=
  List.filterMap_append ..

theorem parseAndCacheW_parse {c c' : CachedRecord} {record : Except RecordError KeyRecord} {w : List Work}
    (h : c.parseAndCacheW E = some ((c', record), w)) :
    parsedTexts w = unparsedTexts [c] ∧ unparsedTexts [c'] = [] := by
  cases c with
  | parsed r =>
    simp only [CachedRecord.parseAndCacheW, Option.some.injEq, Prod.mk.injEq] at h
    obtain ⟨⟨rfl, rfl⟩, rfl⟩ := h
    exact ⟨rfl, rfl⟩
  | unparsed r =>
    cases r with
    | error e =>
      simp only [CachedRecord.parseAndCacheW, Option.some.injEq, Prod.mk.injEq] at h
      obtain ⟨⟨rfl, rfl⟩, rfl⟩ := h
      exact ⟨rfl, rfl⟩
    | ok s =>
      simp only [CachedRecord.parseAndCacheW] at h
      split at h
      · cases h
      all_goals
        simp only [Option.some.injEq, Prod.mk.injEq] at h
        obtain ⟨⟨rfl, rfl⟩, rfl⟩ := h
        exact ⟨rfl, rfl⟩

theorem tryRecordW_steps {headers : List Field} {cfg : Config} {sig : DkimSignature} {task task' : VerifyTask}
    {record : Except RecordError KeyRecord} {b : Bool} {w : List Work}
    (h : tryRecordW E headers cfg sig task record = some ((task', b), w)) :
    parsedTexts w = [] ∧ task'.index = task.index := by
  unfold tryRecordW at h
  repeat' (split at h)
  all_goals
    first
    | (cases h; done)
    | (cases h; exact ⟨rfl, rfl⟩)

theorem unparsedTexts_cons (c : CachedRecord) (cs : List CachedRecord) :
    unparsedTexts (c :: cs) = unparsedTexts [c] ++ unparsedTexts cs := by
  unfold unparsedTexts
  rw [← List.filterMap_append]
  rfl

theorem tryRecordsW_parse {headers : List Field} {cfg : Config} {sig : DkimSignature} {task task' : VerifyTask}
    {cs cs' : List CachedRecord} {w : List Work}
    (h : tryRecordsW E headers cfg sig task cs = some ((task', cs'), w)) :
    parsedTexts w ++ unparsedTexts cs' = unparsedTexts cs := by
  induction cs generalizing task cs' w with
  | nil =>
    simp only [tryRecordsW, Option.some.injEq, Prod.mk.injEq] at h
    obtain ⟨⟨rfl, rfl⟩, rfl⟩ := h
    rfl
  | cons c cs ih =>
    rw [tryRecordsW] at h
    rcases h1 : c.parseAndCacheW E with _ | ⟨⟨c', record⟩, w1⟩
    · rw [h1] at h; cases h
    rw [h1] at h
    simp only at h
    obtain ⟨p1, p2⟩ := parseAndCacheW_parse h1
    rcases h2 : tryRecordW E headers cfg sig task record with _ | ⟨⟨task1, b⟩, w2⟩
    · rw [h2] at h; cases h
    rw [h2] at h
    have p3 := (tryRecordW_steps h2).1
    cases b with
    | true =>
      simp only [Option.some.injEq, Prod.mk.injEq] at h
      obtain ⟨⟨rfl, rfl⟩, rfl⟩ := h
      rw [parsedTexts_append, p1, p3, unparsedTexts_cons c' cs, p2, unparsedTexts_cons c cs]
      simp
    | false =>
      simp only at h
      rcases h3 : tryRecordsW E headers cfg sig task1 cs with _ | ⟨⟨task2, cs2⟩, w3⟩
      · rw [h3] at h; cases h
      rw [h3] at h
      simp only [Option.some.injEq, Prod.mk.injEq] at h
      obtain ⟨⟨rfl, rfl⟩, rfl⟩ := h
      have := ih h3
      rw [parsedTexts_append, parsedTexts_append, p1, p3, unparsedTexts_cons c' cs2, p2, unparsedTexts_cons c cs, ← this]
      simp

/-- The texts of an answer not parsed yet. -/
def unparsedIn : Except VerificationError (List CachedRecord) → List Str
  | .error _ => []
  | .ok cs => unparsedTexts cs

theorem verifyTaskW_parse {headers : List Field} {cfg : Config} {task task' : VerifyTask}
    {l l' : Except VerificationError (List CachedRecord)} {w : List Work}
    (h : verifyTaskW E headers cfg task l = some ((task', l'), w)) :
    parsedTexts w ++ unparsedIn l' = unparsedIn l := by
  unfold verifyTaskW at h
  cases hs : task.signature with
  | none => rw [hs] at h; cases h
  | some sig =>
    rw [hs] at h
    cases l with
    | error e =>
      simp only [Option.some.injEq, Prod.mk.injEq] at h
      obtain ⟨⟨rfl, rfl⟩, rfl⟩ := h
      rfl
    | ok cs =>
      simp only at h
      split at h
      · cases h
      rcases h3 : tryRecordsW E headers cfg sig task cs with _ | ⟨⟨task2, cs2⟩, w3⟩
      · rw [h3] at h; cases h
      rw [h3] at h
      simp only [Option.some.injEq, Prod.mk.injEq] at h
      obtain ⟨⟨rfl, rfl⟩, rfl⟩ := h
      exact tryRecordsW_parse h3

theorem verifySelectedW_parse {headers : List Field} {cfg : Config} {is : List Nat}
    {l : Except VerificationError (List CachedRecord)} {tasks tasks' : List VerifyTask} {w : List Work}
    (h : verifySelectedW E headers cfg is l tasks = some (tasks', w)) : parsedTexts w <+: unparsedIn l := by
  induction tasks generalizing l tasks' w with
  | nil =>
    simp only [verifySelectedW, Option.some.injEq, Prod.mk.injEq] at h
    obtain ⟨rfl, rfl⟩ := h
    exact List.nil_prefix
  | cons t ts ih =>
    rw [verifySelectedW] at h
    split at h
    · rcases h1 : verifyTaskW E headers cfg t l with _ | ⟨⟨t', l'⟩, w1⟩
      · rw [h1] at h; cases h
      rw [h1] at h
      simp only at h
      rcases h2 : verifySelectedW E headers cfg is l' ts with _ | ⟨ts', w2⟩
      · rw [h2] at h; cases h
      rw [h2] at h
      simp only [Option.some.injEq, Prod.mk.injEq] at h
      obtain ⟨rfl, rfl⟩ := h
      rw [parsedTexts_append, ← verifyTaskW_parse h1]
      exact (List.prefix_append_right_inj _).2 (ih h2)
    · rcases h2 : verifySelectedW E headers cfg is l ts with _ | ⟨ts', w2⟩
      · rw [h2] at h; cases h
      rw [h2] at h
      simp only [Option.some.injEq, Prod.mk.injEq] at h
      obtain ⟨rfl, rfl⟩ := h
      exact ih h2

theorem filterMap_same {α β : Type} {f g : α → Option β} (h : ∀ x, f x = g x) (l : List α) :
    l.filterMap f = l.filterMap g := by
  rw [show f = g from funext h]

/-- The texts in the result of a lookup. -/
def textsIn : QueryResult → List Str
  | .error _ => []
  | .ok txts => txts.filterMap Except.toOption

theorem unparsedIn_map (q : QueryResult) : unparsedIn (mapLookupResult q) = textsIn q := by
  cases q with
  | error e => cases e <;> rfl
  | ok txts =>
    cases txts with
    | nil => rfl
    | cons t ts =>
      simp only [mapLookupResult, List.isEmpty_cons, Bool.false_eq_true, if_false, unparsedIn, textsIn,
        unparsedTexts, List.filterMap_map]
      have hx : ∀ x, ((fun c : CachedRecord => match c with
          | .unparsed (.ok s) => some s
          | _ => none) ∘ CachedRecord.unparsed) x = Except.toOption x := by
        intro x
        cases x <;> rfl
      exact filterMap_same hx _

theorem textsIn_lookUp (resolver : Resolver) (d s : Str) :
    textsIn (lookUpRecords resolver d s) = answerTexts (resolver (queryName d s)).result := by
  unfold lookUpRecords
  cases (resolver (queryName d s)).result with
  | error e => rfl
  | ok txts =>
    simp only [textsIn, answerTexts]
    rw [selectTxts_eq, List.filterMap_map]
    apply filterMap_same
    intro x
    cases x with
    | error e => rfl
    | ok bytes =>
      simp only [Function.comp_apply, parseTxt]
      cases fromUtf8 bytes <;> rfl

theorem verifyResultsW_parse {headers : List Field} {cfg : Config} {tasks tasks' : List VerifyTask}
    {qs : List (Str × List Nat × QueryResult)} {w : List Work}
    (h : verifyResultsW E headers cfg tasks qs = some (tasks', w)) :
    ∃ parts : List (List Str), parsedTexts w = parts.flatten ∧ parts.length = qs.length ∧
      ∀ (k : Nat) (q : Str × List Nat × QueryResult) (p : List Str), qs[k]? = some q → parts[k]? = some p → p <+: textsIn q.2.2 := by
  induction qs generalizing tasks w with
  | nil =>
    simp only [verifyResultsW, Option.some.injEq, Prod.mk.injEq] at h
    obtain ⟨rfl, rfl⟩ := h
    exact ⟨[], rfl, rfl, by simp⟩
  | cons q qs ih =>
    obtain ⟨name, is, res⟩ := q
    rw [verifyResultsW] at h
    rcases h1 : verifySelectedW E headers cfg is (mapLookupResult res) tasks with _ | ⟨ts, w1⟩
    · rw [h1] at h; cases h
    rw [h1] at h
    simp only at h
    rcases h2 : verifyResultsW E headers cfg ts qs with _ | ⟨ts', w2⟩
    · rw [h2] at h; cases h
    rw [h2] at h
    simp only [Option.some.injEq, Prod.mk.injEq] at h
    obtain ⟨rfl, rfl⟩ := h
    obtain ⟨parts, g1, g2, g3⟩ := ih h2
    refine ⟨parsedTexts w1 :: parts, by rw [parsedTexts_append, g1, List.flatten_cons], by simp [g2], ?_⟩
    intro k q p hq hp
    cases k with
    | zero =>
      simp only [List.getElem?_cons_zero, Option.some.injEq] at hq hp
      subst hq hp
      rw [← unparsedIn_map]
      exact verifySelectedW_parse h1
    | succ k =>
      simp only [List.getElem?_cons_succ] at hq hp
      exact g3 k q p hq hp

/-! ## Checking -/

/-- The checks, with the index of the signature. -/
def checksOf (work : List Work) : List (Nat × KeyRecord) :=
  work.filterMap fun
    | .parse _ => none
    | .check i r => some (i, r)

theorem checksOf_append (a b : List Work) : checksOf (a ++ b) = checksOf a ++ checksOf b :=
  List.filterMap_append ..

theorem checkCount_eq (w : List Work) : checkCount w = (checksOf w).length := by
  induction w with
  | nil => rfl
  | cons a w ih =>
    have h1 : checkCount (a :: w) = checkCount [a] + checkCount w := by
      unfold checkCount
      rw [← List.countP_append]
      rfl
    have h2 : checksOf (a :: w) = checksOf [a] ++ checksOf w := by
      rw [← checksOf_append]
      rfl
    rw [h1, h2, List.length_append, ih]
    cases a <;> rfl

theorem checkedWith_eq (i : Nat) (w : List Work) :
    checkedWith i w = ((checksOf w).filter fun p => p.1 = i).map (·.2) := by
  induction w with
  | nil => rfl
  | cons a w ih =>
    have h1 : checkedWith i (a :: w) = checkedWith i [a] ++ checkedWith i w := by
      unfold checkedWith
      rw [← List.filterMap_append]
      rfl
    have h2 : checksOf (a :: w) = checksOf [a] ++ checksOf w := by
      rw [← checksOf_append]
      rfl
    rw [h1, h2, List.filter_append, List.map_append, ← ih]
    congr 1
    cases a with
    | parse t => rfl
    | check j r =>
      simp only [checkedWith, checksOf, List.filterMap_cons, List.filterMap_nil]
      by_cases h : j = i
      · simp [h]
      · simp [h]

/-- The checks of one key record before the signature is checked. -/
def beforeCheck (E : Env) (cfg : Config) (sig : DkimSignature) (record : KeyRecord) : Option VerificationError :=
  match validateKeyRecord E sig.algorithm.keyType sig.algorithm.hashAlg record sig.domain sig.identity with
  | .panic => none
  | .err e => some e
  | .ok () =>
    match readVerifyingKey E sig.algorithm.keyType record.keyData with
    | .error e => some (.verificationFailure e)
    | .ok key => if !keySizeAccepted E key cfg then some (.policy .keyTooSmall) else none

/-- The record the signature is checked with, if so. -/
def oneCheck (E : Env) (cfg : Config) (sig : DkimSignature) : Except RecordError KeyRecord → List KeyRecord
  | .error _ => []
  | .ok r => if (beforeCheck E cfg sig r).isNone then [r] else []

theorem beforeCheck_matches (headers : List Field) (cfg : Config) {sig : DkimSignature} (hc : Convertible E sig)
    (f : Field) (original : Str) (r : KeyRecord) :
    Matches (beforeCheck E cfg sig r) (recordChecks E cfg headers f original sig r).dropLast := by
  unfold beforeCheck recordChecks
  simp only [List.dropLast]
  rw [algKeyType_eq, algHash_eq]
  unfold validateKeyRecord
  by_cases h1 : r.keyType ≠ keyTypeOf sig.algorithm
  · rw [if_pos h1]; exact .stop rfl h1
  rw [if_neg h1]
  rw [Decidable.not_not] at h1
  refine .pass h1 ?_
  by_cases h2 : r.keyData = []
  · rw [if_pos (by rw [h2]; rfl)]; exact .stop rfl (fun h => h h2)
  rw [if_neg (by cases hd : r.keyData <;> simp [hd] at h2 ⊢)]
  refine .pass h2 ?_
  by_cases h3 : hashOf sig.algorithm ∉ r.hashAlgorithms
  · rw [if_pos (by simpa using h3)]; exact .stop rfl h3
  rw [if_neg (by simpa using h3)]
  rw [Decidable.not_not] at h3
  refine .pass h3 ?_
  obtain ⟨b, hb, h4⟩ := subdomainForbidden_eq hc r
  rw [hb]
  cases b with
  | true => exact .stop rfl (h4.1 rfl)
  | false =>
    refine .pass ?_ ?_
    · simp only
      exact Classical.byContradiction fun h => by simpa using h4.2 h
    simp only [readVerifyingKey, fromKeyData_eq]
    cases hk : publicKey E.crypto (keyTypeOf sig.algorithm) r.keyData with
    | none => exact .stop rfl (fun h => h rfl)
    | some k =>
      refine .pass (by simp) ?_
      simp only
      by_cases h5 : ¬ k.minKeySizeOk E.pre = true
      · rw [if_neg h5]
        refine .stop rfl ?_
        simp only [Option.some.injEq, forall_eq']
        rw [← minKeySizeOk_iff]; exact h5
      rw [Decidable.not_not] at h5
      rw [if_pos h5]
      refine .pass ?_ ?_
      · simp only [Option.some.injEq, forall_eq']
        rw [← minKeySizeOk_iff]; exact h5
      simp only
      refine .ite rfl ?_ .nil
      simp only [Option.some.injEq, forall_eq']
      rw [← keySizeAccepted_iff]; simp

theorem usable_iff (headers : List Field) (cfg : Config) {sig : DkimSignature} (hc : Convertible E sig)
    (f : Field) (original : Str) (r : KeyRecord) :
    Usable E cfg headers f original sig r ↔ (beforeCheck E cfg sig r).isNone = true := by
  have hm := beforeCheck_matches headers cfg hc f original r
  unfold Usable
  constructor
  · intro h
    cases hb : beforeCheck E cfg sig r with
    | none => rfl
    | some e =>
      obtain ⟨before, c, after, e1, _, e2, _⟩ := hm.fails e hb
      exact absurd (h c (by rw [e1]; simp)) e2
  · intro h
    exact hm.passes (Option.isNone_iff_eq_none.1 h)

theorem tryRecordW_checks {headers : List Field} {cfg : Config} {sig : DkimSignature} (hc : Convertible E sig)
    {task task' : VerifyTask} {record : Except RecordError KeyRecord} {b : Bool} {w : List Work}
    (h : tryRecordW E headers cfg sig task record = some ((task', b), w)) :
    checksOf w = (oneCheck E cfg sig record).map fun r => (task.index, r) := by
  cases record with
  | error e => cases h; rfl
  | ok record =>
    simp only [tryRecordW] at h
    rw [oneCheck]
    have hp := validateKeyRecord_noPanic hc sig.algorithm.keyType sig.algorithm.hashAlg record
    cases h1 : validateKeyRecord E sig.algorithm.keyType sig.algorithm.hashAlg record sig.domain sig.identity with
    | panic => exact absurd h1 hp
    | err e =>
      have hb : beforeCheck E cfg sig record = some e := by simp only [beforeCheck, h1]
      rw [h1] at h; cases h; rw [hb]; rfl
    | ok u =>
      rw [h1] at h
      simp only at h
      cases h2 : readVerifyingKey E sig.algorithm.keyType record.keyData with
      | error e =>
        have hb : beforeCheck E cfg sig record = some (.verificationFailure e) := by simp only [beforeCheck, h1, h2]
        rw [h2] at h; cases h; rw [hb]; rfl
      | ok key =>
        rw [h2] at h
        simp only at h
        cases h3 : keySizeAccepted E key cfg with
        | false =>
          have hb : beforeCheck E cfg sig record = some (.policy .keyTooSmall) := by
            simp [beforeCheck, h1, h2, h3]
          rw [h3] at h; cases h; rw [hb]; rfl
        | true =>
          have hb : beforeCheck E cfg sig record = none := by simp [beforeCheck, h1, h2, h3]
          rw [h3] at h
          rw [hb]
          simp only [Bool.not_true, Bool.false_eq_true, if_false] at h
          repeat' (split at h)
          all_goals first | (cases h; done) | (cases h; rfl)

/-- The records the signature is checked with. -/
def allChecks (E : Env) (headers : List Field) (cfg : Config) (sig : DkimSignature) (name value : Str) :
    List (Except IoErr Str) → List KeyRecord
  | [] => []
  | r :: rs => oneCheck E cfg sig (parsedTxt E r) ++
    if (tryOne E headers cfg sig name value (parsedTxt E r)).1.isNone then []
    else allChecks E headers cfg sig name value rs

theorem parseAndCacheW_checks {c c' : CachedRecord} {record : Except RecordError KeyRecord} {w : List Work}
    (h : c.parseAndCacheW E = some ((c', record), w)) : checksOf w = [] := by
  cases c with
  | parsed r => cases h; rfl
  | unparsed r =>
    cases r with
    | error e => cases h; rfl
    | ok s =>
      simp only [CachedRecord.parseAndCacheW] at h
      split at h <;> cases h <;> rfl

theorem tryRecordsW_checks {headers : List Field} {cfg : Config} {sig : DkimSignature} (hc : Convertible E sig)
    {name value : Str} {rs : List (Except IoErr Str)} {cs cs' : List CachedRecord} {task task' : VerifyTask}
    {w : List Work} (hn : task.headerName = some name) (hv : task.headerValue = some value)
    (hcs : CoherentList E cs rs) (h : tryRecordsW E headers cfg sig task cs = some ((task', cs'), w)) :
    checksOf w = (allChecks E headers cfg sig name value rs).map fun r => (task.index, r) := by
  induction hcs generalizing task cs' w with
  | nil => cases h; rfl
  | @cons c r cs rs hcr _ ih =>
    rw [tryRecordsW] at h
    obtain ⟨c1, hp, _⟩ := parseAndCache_eq hcr
    rcases h1 : c.parseAndCacheW E with _ | ⟨⟨c', record⟩, w1⟩
    · rw [h1] at h; cases h
    have he := parseAndCacheW_erase (E := E) c
    rw [h1, hp] at he
    cases he
    have hw1 := parseAndCacheW_checks h1
    rw [h1] at h
    simp only at h
    rcases h2 : tryRecordW E headers cfg sig task (parsedTxt E r) with _ | ⟨⟨task1, b⟩, w2⟩
    · rw [h2] at h; cases h
    have hw2 := tryRecordW_checks hc h2
    have he := tryRecordW_erase (E := E) headers cfg sig task (parsedTxt E r)
    rw [h2, tryRecord_eq headers cfg hc hn hv] at he
    simp only [Option.map_some, Option.some.injEq, Prod.mk.injEq] at he
    obtain ⟨e1, e2⟩ := he
    rw [h2] at h
    rw [allChecks, ← e2]
    cases b with
    | true =>
      cases h
      rw [checksOf_append, hw1, hw2]
      simp
    | false =>
      simp only at h
      rcases h3 : tryRecordsW E headers cfg sig task1 cs with _ | ⟨⟨task2, cs2⟩, w3⟩
      · rw [h3] at h; cases h
      rw [h3] at h
      cases h
      rw [checksOf_append, checksOf_append, hw1, hw2, ih (by rw [e1]; exact hn) (by rw [e1]; exact hv) h3]
      rw [e1]
      simp

/-- The records with which the signature of a task is checked. -/
def taskChecks (E : Env) (headers : List Field) (cfg : Config) (q : QueryResult) (t : VerifyTask) : List KeyRecord :=
  match t.signature, t.headerName, t.headerValue, q with
  | some sig, some name, some value, .ok rs => allChecks E headers cfg sig name value rs
  | _, _, _, _ => []

theorem taskChecks_finish (headers : List Field) (cfg : Config) (q q' : QueryResult) (t : VerifyTask) :
    taskChecks E headers cfg q (finishTask E headers cfg q' t) = taskChecks E headers cfg q t := by
  unfold finishTask
  split
  · rfl
  · rfl

theorem verifyTaskW_checks {headers : List Field} {cfg : Config} {t t' : VerifyTask} (hr : Ready E t)
    {l l' : Except VerificationError (List CachedRecord)} {q : QueryResult} (hl : CoherentLookup E l q)
    {w : List Work} (h : verifyTaskW E headers cfg t l = some ((t', l'), w)) :
    checksOf w = (taskChecks E headers cfg q t).map fun r => (t.index, r) := by
  obtain ⟨sig, name, value, e, hc⟩ := hr
  rw [e] at h ⊢
  generalize t.index = i at h ⊢
  cases q with
  | error io =>
    simp only [CoherentLookup] at hl
    subst hl
    cases io <;> (cases h; rfl)
  | ok rs =>
    cases rs with
    | nil =>
      simp only [CoherentLookup] at hl
      subst hl
      cases h
      rfl
    | cons r rs =>
      simp only [CoherentLookup] at hl
      obtain ⟨cs, rfl, hcs⟩ := hl
      have hne : cs.isEmpty = false := by cases hcs; rfl
      simp only [verifyTaskW, VerifyTask.started] at h
      rw [hne] at h
      simp only [Bool.false_eq_true, if_false] at h
      split at h
      · cases h
      next task records w' h1 =>
        cases h
        exact tryRecordsW_checks hc rfl rfl hcs h1

theorem verifySelectedW_checks {headers : List Field} {cfg : Config} {is : List Nat} {q : QueryResult}
    {l : Except VerificationError (List CachedRecord)} {tasks tasks' : List VerifyTask} {w : List Work}
    (hr : ∀ t ∈ tasks, is.contains t.index = true → Ready E t) (hl : CoherentLookup E l q)
    (h : verifySelectedW E headers cfg is l tasks = some (tasks', w)) :
    checksOf w = tasks.flatMap fun t =>
      if is.contains t.index then (taskChecks E headers cfg q t).map fun r => (t.index, r) else [] := by
  induction tasks generalizing l tasks' w with
  | nil => cases h; rfl
  | cons t ts ih =>
    have ih := fun {l tasks' w} hl h => @ih l tasks' w (fun t ht => hr t (List.mem_cons_of_mem _ ht)) hl h
    rw [verifySelectedW] at h
    rw [List.flatMap_cons]
    by_cases hi : is.contains t.index = true
    · rw [if_pos hi] at h ⊢
      rcases h1 : verifyTaskW E headers cfg t l with _ | ⟨⟨t', l'⟩, w1⟩
      · rw [h1] at h; cases h
      obtain ⟨l2, g1, g2⟩ := verifyTask_eq headers cfg (hr t (by simp) hi) hl
      have he := verifyTaskW_erase (E := E) headers cfg t l
      rw [h1, g1] at he
      cases he
      rw [h1] at h
      simp only at h
      rcases h2 : verifySelectedW E headers cfg is l' ts with _ | ⟨ts', w2⟩
      · rw [h2] at h; cases h
      rw [h2] at h
      cases h
      rw [checksOf_append, verifyTaskW_checks (hr t (by simp) hi) hl h1, ih g2 h2]
    · rw [if_neg hi] at h ⊢
      rcases h2 : verifySelectedW E headers cfg is l ts with _ | ⟨ts', w2⟩
      · rw [h2] at h; cases h
      rw [h2] at h
      cases h
      rw [ih hl h2]
      rfl

theorem verifyResultsW_checks {headers : List Field} {cfg : Config} {qs : List (Str × List Nat × QueryResult)}
    {tasks tasks' : List VerifyTask} {w : List Work}
    (hr : ∀ t ∈ tasks, ∀ q ∈ qs, q.2.1.contains t.index = true → Ready E t)
    (hp : qs.Pairwise (fun q q' => ∀ i, ¬ (q.2.1.contains i = true ∧ q'.2.1.contains i = true)))
    (h : verifyResultsW E headers cfg tasks qs = some (tasks', w)) :
    checksOf w = qs.flatMap fun q => tasks.flatMap fun t =>
      if q.2.1.contains t.index then (taskChecks E headers cfg q.2.2 t).map fun r => (t.index, r) else [] := by
  induction qs generalizing tasks tasks' w with
  | nil => cases h; rfl
  | cons q qs ih =>
    obtain ⟨name, is, res⟩ := q
    rw [List.pairwise_cons] at hp
    have hsel := fun t ht h => hr t ht (name, is, res) (by simp) h
    rw [verifyResultsW] at h
    rcases h1 : verifySelectedW E headers cfg is (mapLookupResult res) tasks with _ | ⟨ts, w1⟩
    · rw [h1] at h; cases h
    have he := verifySelectedW_erase (E := E) headers cfg is (mapLookupResult res) tasks
    rw [h1, verifySelected_eq headers cfg is res tasks hsel _ (coherentLookup_map res)] at he
    cases he
    rw [h1] at h
    simp only at h
    rcases h2 : verifyResultsW E headers cfg (tasks.map fun t =>
        if is.contains t.index then finishTask E headers cfg res t else t) qs with _ | ⟨ts', w2⟩
    · rw [h2] at h; cases h
    rw [h2] at h
    cases h
    rw [checksOf_append, verifySelectedW_checks hsel (coherentLookup_map res) h1, ih ?_ hp.2 h2, List.flatMap_cons]
    · congr 2
      funext q
      rw [List.flatMap_map]
      congr 1
      funext t
      by_cases hi : is.contains t.index = true
      · rw [if_pos hi, finishTask_index, taskChecks_finish]
      · rw [if_neg hi]
    · intro t ht q hq hc
      rw [List.mem_map] at ht
      obtain ⟨t', ht', rfl⟩ := ht
      by_cases hi : is.contains t'.index = true
      · rw [if_pos hi, finishTask_index] at hc
        exact absurd ⟨hi, hc⟩ (hp.1 q hq t'.index)
      · rw [if_neg hi] at hc ⊢
        exact hr t' ht' q (List.mem_cons_of_mem _ hq) hc

/-! ## The checks of one signature -/

theorem flatMap_if {α β : Type} (i : Nat) (idx : α → Nat) (f : α → List β) {t : α} :
    ∀ {l : List α}, t ∈ l → (l.map idx).Nodup → idx t = i →
    (l.flatMap fun a => if idx a = i then f a else []) = f t := by
  intro l ht hn hi
  have none_of : ∀ l : List α, i ∉ l.map idx → (l.flatMap fun a => if idx a = i then f a else []) = [] := by
    intro l hl
    rw [List.flatMap_eq_nil_iff]
    intro a ha
    rw [if_neg fun h => hl (List.mem_map.2 ⟨a, ha, h⟩)]
  induction l with
  | nil => cases ht
  | cons a l ih =>
    rw [List.map_cons, List.nodup_cons] at hn
    rw [List.flatMap_cons]
    rcases List.mem_cons.1 ht with rfl | ht
    · rw [if_pos hi, none_of l (hi ▸ hn.1), List.append_nil]
    · have hne : idx a ≠ i := fun h => hn.1 (h.trans hi.symm ▸ List.mem_map_of_mem ht)
      rw [if_neg hne, List.nil_append, ih ht hn.2]

theorem flatMap_find {α β : Type} (p : α → Bool) (f : α → List β) {l : List α}
    (hp : l.Pairwise fun a b => ¬ (p a = true ∧ p b = true)) :
    (l.flatMap fun a => if p a then f a else []) = ((l.find? p).map f).getD [] := by
  induction l with
  | nil => rfl
  | cons a l ih =>
    rw [List.pairwise_cons] at hp
    rw [List.flatMap_cons, List.find?_cons]
    cases h : p a with
    | true =>
      have : (l.flatMap fun a => if p a then f a else []) = [] := by
        rw [List.flatMap_eq_nil_iff]
        intro b hb
        rw [if_neg fun hb' => hp.1 b hb ⟨h, hb'⟩]
      rw [this]
      simp
    | false =>
      rw [ih hp.2]
      rfl

theorem filter_checks (i j : Nat) (rs : List KeyRecord) :
    (((rs.map fun r => (j, r)).filter fun p => p.1 = i).map (·.2)) = if j = i then rs else [] := by
  by_cases h : j = i
  · subst h
    simp [List.filter_eq_self.2, Function.comp_def]
  · rw [if_neg h]
    rw [List.filter_eq_nil_iff.2]
    · rfl
    · intro a ha
      rw [List.mem_map] at ha
      obtain ⟨r, _, rfl⟩ := ha
      simpa using h

theorem verifyResultsW_checkedWith {headers : List Field} {cfg : Config} {qs : List (Str × List Nat × QueryResult)}
    {tasks tasks' : List VerifyTask} {w : List Work}
    (hr : ∀ t ∈ tasks, ∀ q ∈ qs, q.2.1.contains t.index = true → Ready E t)
    (hp : qs.Pairwise (fun q q' => ∀ i, ¬ (q.2.1.contains i = true ∧ q'.2.1.contains i = true)))
    (hn : (tasks.map (·.index)).Nodup)
    (h : verifyResultsW E headers cfg tasks qs = some (tasks', w)) {t : VerifyTask} (ht : t ∈ tasks) :
    checkedWith t.index w = (((qs.find? fun q => q.2.1.contains t.index).map (·.2.2)).map
      fun q => taskChecks E headers cfg q t).getD [] := by
  rw [checkedWith_eq, verifyResultsW_checks hr hp h, List.filter_flatMap, List.map_flatMap, Option.map_map]
  rw [← flatMap_find (fun q : Str × List Nat × QueryResult => q.2.1.contains t.index)
    ((fun q => taskChecks E headers cfg q t) ∘ fun q => q.2.2) (hp.imp fun h => h t.index)]
  congr 1
  funext q
  rw [List.filter_flatMap, List.map_flatMap]
  have hone := flatMap_if t.index (·.index)
    (fun a => if q.2.1.contains t.index then taskChecks E headers cfg q.2.2 a else []) ht hn rfl
  refine Eq.trans ?_ hone
  congr 1
  funext a
  by_cases hc : q.2.1.contains a.index = true
  · rw [if_pos hc, filter_checks]
    by_cases ha : a.index = t.index
    · rw [if_pos ha, if_pos ha, if_pos (ha ▸ hc)]
    · rw [if_neg ha, if_neg ha]
  · rw [if_neg hc]
    by_cases ha : a.index = t.index
    · rw [if_pos ha, if_neg (ha ▸ hc)]; rfl
    · rw [if_neg ha]; rfl

/-! ## The whole header -/

theorem start_tasks_ready (law : CaseLaw E.idna) (headers : List Field) (cfg : Config) (clock : Nat → Int) :
    (∀ t ∈ (dkimFields cfg.maxSignatures headers).map (start E headers cfg clock),
      t.status = .inProgress → Ready E t) ∧
    (((dkimFields cfg.maxSignatures headers).map (start E headers cfg clock)).map (·.index)).Nodup := by
  constructor
  · intro t htm h
    rw [List.mem_map] at htm
    obtain ⟨p, _, rfl⟩ := htm
    exact start_ready law headers cfg clock p h
  · rw [List.map_map]
    have : ((fun t : VerifyTask => t.index) ∘ start E headers cfg clock) = (fun p : Nat × Field => p.1) := by
      funext p; exact start_index law headers cfg clock p
    rw [this]
    exact dkimFields_nodup _ _

/-- What `verifyHeaderW` does, if there is a signature. -/
theorem verifyHeaderW_inv {resolver : Resolver} {headers : List Field} {cfg : Config} {clock : Nat → Int}
    {v : Option Verifier} {asked : List Str} {w : List Work}
    (h : verifyHeaderW E resolver headers cfg clock = some ((v, asked), w)) :
    (dkimFields cfg.maxSignatures headers = [] ∧ asked = [] ∧ w = []) ∨
    ∃ m tasks', addLookups E [] ((dkimFields cfg.maxSignatures headers).map (start E headers cfg clock)) = some m ∧
      verifyResultsW E headers cfg ((dkimFields cfg.maxSignatures headers).map (start E headers cfg clock))
        (replied (replyOf resolver) (E.lookupOrder m)) = some (tasks', w) ∧
      asked = (replied (replyOf resolver) (E.lookupOrder m)).map (·.1) := by
  rw [verifyHeaderW, findSignatures_eq] at h
  simp only at h
  cases hd : dkimFields cfg.maxSignatures headers with
  | nil =>
    rw [hd] at h
    cases h
    exact .inl ⟨rfl, rfl, rfl⟩
  | cons p ps =>
    right
    rw [hd] at h
    simp only [List.map_cons, List.isEmpty_cons, Bool.false_eq_true, if_false] at h
    rw [verifyAllW, spawn] at h
    cases hm : addLookups E [] (start E headers cfg clock p :: ps.map (start E headers cfg clock)) with
    | none => rw [hm] at h; cases h
    | some m =>
      rw [hm] at h
      simp only [Option.map_some] at h
      rw [replied_of] at h
      rcases hv : verifyResultsW E headers cfg (start E headers cfg clock p :: ps.map (start E headers cfg clock))
        (replied (replyOf resolver) (E.lookupOrder m)) with _ | ⟨tasks', w'⟩
      · rw [hv] at h; cases h
      rw [hv] at h
      simp only at h
      refine ⟨m, tasks', by rw [List.map_cons]; exact hm, ?_⟩
      rw [List.map_cons, hv]
      split at h
      · cases h
      · cases h
        exact ⟨rfl, rfl⟩

theorem verifyHeaderW_checkedWith (law : CaseLaw E.idna) (order : OrderLaw E.lookupOrder) {resolver : Resolver}
    {headers : List Field} {cfg : Config} {clock : Nat → Int} {v : Option Verifier} {asked : List Str} {w : List Work}
    (h : verifyHeaderW E resolver headers cfg clock = some ((v, asked), w)) {i : Nat} {f : Field}
    (hf : (i, f) ∈ dkimFields cfg.maxSignatures headers) :
    checkedWith i w = ((taskKey E (start E headers cfg clock (i, f))).map fun k =>
      taskChecks E headers cfg (lookUpRecords resolver k.1 k.2) (start E headers cfg clock (i, f))).getD [] := by
  rcases verifyHeaderW_inv h with ⟨hn, _, _⟩ | ⟨m, tasks', h1, h2, _⟩
  · rw [hn] at hf; cases hf
  obtain ⟨hr, hn⟩ := start_tasks_ready law headers cfg clock
  obtain ⟨m', h1', _, _, h4⟩ := replied_spec order _ hr hn
  rw [h1] at h1'
  cases h1'
  obtain ⟨g1, g2, g3⟩ := h4 (replyOf resolver)
  have hmem := List.mem_map_of_mem (f := start E headers cfg clock) hf
  have := verifyResultsW_checkedWith g1 g2 hn h2 hmem
  rw [start_index law] at this
  rw [this]
  have hg := g3 _ hmem
  rw [start_index law] at hg
  rw [hg, Option.map_map]
  rfl

theorem verifyHeaderW_indexes (law : CaseLaw E.idna) (order : OrderLaw E.lookupOrder) {resolver : Resolver}
    {headers : List Field} {cfg : Config} {clock : Nat → Int} {v : Option Verifier} {asked : List Str} {w : List Work}
    (h : verifyHeaderW E resolver headers cfg clock = some ((v, asked), w)) {i : Nat} {r : KeyRecord}
    (hc : (i, r) ∈ checksOf w) : ∃ f, (i, f) ∈ dkimFields cfg.maxSignatures headers := by
  rcases verifyHeaderW_inv h with ⟨_, _, rfl⟩ | ⟨m, tasks', h1, h2, _⟩
  · cases hc
  obtain ⟨hr, hn⟩ := start_tasks_ready law headers cfg clock
  obtain ⟨m', h1', _, _, h4⟩ := replied_spec order _ hr hn
  rw [h1] at h1'
  cases h1'
  obtain ⟨g1, g2, g3⟩ := h4 (replyOf resolver)
  rw [verifyResultsW_checks g1 g2 h2, List.mem_flatMap] at hc
  obtain ⟨q, _, hc⟩ := hc
  rw [List.mem_flatMap] at hc
  obtain ⟨t, ht, hc⟩ := hc
  rw [List.mem_map] at ht
  obtain ⟨⟨j, f⟩, hp, rfl⟩ := ht
  split at hc
  · rw [List.mem_map] at hc
    obtain ⟨r', _, e⟩ := hc
    rw [start_index law] at e
    cases e
    exact ⟨f, hp⟩
  · cases hc

theorem allChecks_spec (headers : List Field) (cfg : Config) {sig : DkimSignature} (hc : Convertible E sig)
    (f : Field) (value : Str) (txts : List (Except IoErr Bytes)) :
    CheckedRecords E cfg headers f (makeOriginal value) sig txts
      (allChecks E headers cfg sig f.name value (txts.map parseTxt)) := by
  induction txts with
  | nil => exact .none
  | cons txt txts ih =>
    rw [List.map_cons, allChecks]
    cases hp : parsedTxt E (parseTxt txt) with
    | error e =>
      refine .unusable txt txts _ ?_ ih
      intro r hr
      rw [txtRecord_iff, hp] at hr
      cases hr
    | ok r =>
      have htr := (txtRecord_iff txt r).2 hp
      have hm := tryOne_matches headers cfg hc f value r
      have hu := usable_iff headers cfg hc f (makeOriginal value) r
      rw [oneCheck]
      cases ho : (tryOne E headers cfg sig f.name value (.ok r)).1 with
      | none =>
        have hpass := hm.passes ho
        have huse : Usable E cfg headers f (makeOriginal value) sig r :=
          fun c hc => hpass c (List.dropLast_subset _ hc)
        rw [if_pos (hu.1 huse)]
        exact .verified txt _ r htr hpass
      | some e =>
        have hnot : ¬ AllPass (recordChecks E cfg headers f (makeOriginal value) sig r) := by
          obtain ⟨before, c, after, e1, _, e2, _⟩ := hm.fails e ho
          exact fun h => e2 (h c (by rw [e1]; simp))
        by_cases hb : (beforeCheck E cfg sig r).isNone = true
        · rw [if_pos hb]
          exact .wrong txt _ r _ htr (hu.2 hb) hnot ih
        · rw [if_neg hb]
          refine .unusable txt _ _ ?_ ih
          intro r' hr' huse
          rw [txtRecord_iff, hp] at hr'
          cases hr'
          exact hb (hu.1 huse)

theorem fieldChecks_of (law : CaseLaw E.idna) (resolver : Resolver) {cfg : Config} {clock : Nat → Int}
    (ht : TypedTimes cfg clock) (headers : List Field) (i : Nat) (f : Field) :
    FieldChecks E resolver cfg (clock i) headers f
      (((taskKey E (start E headers cfg clock (i, f))).map fun k =>
        taskChecks E headers cfg (lookUpRecords resolver k.1 k.2) (start E headers cfg clock (i, f))).getD []) := by
  rcases start_cases law headers cfg clock i f with ⟨e, h, h1, h2⟩ | ⟨v, sig, e, h, h1, h2⟩ | ⟨v, sig, h, hs, hc⟩
  · have hk : taskKey E (.failed i (.dkimSignatureFormat e)) = none := by simp [taskKey, VerifyTask.failed]
    rw [h, hk]
    exact .skipped fun value sig name txts hs => absurd hs (h1 value sig)
  · have hk : taskKey E { VerifyTask.failed i e with signature := some sig } = none := by
      simp [taskKey, VerifyTask.failed]
    rw [h, hk]
    refine .skipped fun value sig' name txts hs hpass => ?_
    obtain ⟨_, rfl⟩ := fieldSignature_unique law h1 hs
    obtain ⟨before, c, after, e1, _, e2, _⟩ :=
      (validateSignature_matches headers cfg (typed_lt ht i) sig).fails e h2
    exact absurd (hpass c (by rw [e1]; simp)) e2
  · have hpass := (validateSignature_matches headers cfg (typed_lt ht i) sig).passes hc
    have hconv : Convertible E sig := by
      obtain ⟨_, tags, _, _, h3⟩ := hs
      exact convertible_of h3
    obtain ⟨d, hd⟩ := hconv.domain
    obtain ⟨s, hse⟩ := hconv.selector
    have hq : QueryFor E sig (keyName d s) := ⟨d, s, hd, hse, rfl⟩
    have hk : taskKey E (.started i sig f.name v) = some (d, s) := by
      simp [taskKey, VerifyTask.started, hd, hse]
    rw [h, hk]
    simp only [Option.map_some, Option.getD_some, lookUpRecords]
    rw [keyName_eq]
    cases hres : (resolver (keyName d s)).result with
    | error io =>
      refine .skipped fun value sig' name txts hs' _ hq' hres' => ?_
      obtain ⟨_, rfl⟩ := fieldSignature_unique law hs hs'
      obtain ⟨d', s', hd', hs', rfl⟩ := hq'
      rw [hd] at hd'
      rw [hse] at hs'
      cases hd'
      cases hs'
      rw [hres] at hres'
      cases hres'
    | ok txts =>
      simp only
      rw [selectTxts_eq]
      exact .checked v (makeOriginal v) sig _ txts _ hs (withoutB_of hs) hpass hq hres
        (allChecks_spec headers cfg hconv f v _)

/-! ## Numbers -/

theorem firstTwoAndLast_length {α : Type} (l : List α) : (firstTwoAndLast l).length ≤ 3 := by
  unfold firstTwoAndLast
  split
  · exact Nat.le_refl 3
  next h =>
    match l, h with
    | [], _ => exact Nat.zero_le 3
    | [_], _ => exact Nat.le_of_ble_eq_true rfl
    | [_, _], _ => exact Nat.le_of_ble_eq_true rfl
    | a :: b :: c :: rest, h => exact absurd rfl (h a b c rest)

theorem checkedRecords_length {cfg : Config} {headers : List Field} {f : Field} {original : Str} {sig : DkimSignature}
    {txts : List (Except IoErr Bytes)} {rs : List KeyRecord}
    (h : CheckedRecords E cfg headers f original sig txts rs) : rs.length ≤ txts.length := by
  induction h with
  | none => exact Nat.le_refl _
  | unusable _ _ _ _ _ ih => exact Nat.le_succ_of_le ih
  | wrong _ _ _ _ _ _ _ _ ih => exact Nat.succ_le_succ ih
  | verified => simp

theorem fieldChecks_length {resolver : Resolver} {cfg : Config} {now : Int} {headers : List Field} {f : Field}
    {rs : List KeyRecord} (h : FieldChecks E resolver cfg now headers f rs) : rs.length ≤ 3 := by
  cases h with
  | skipped => exact Nat.zero_le _
  | checked _ _ _ _ txts _ _ _ _ _ _ hc =>
    exact Nat.le_trans (checkedRecords_length hc) (firstTwoAndLast_length _)

theorem length_le_of_each {α : Type} {is : List Nat} : ∀ {l : List (Nat × α)}, (∀ p ∈ l, p.1 ∈ is) →
    (∀ i, (l.filter fun p => p.1 = i).length ≤ 3) → l.length ≤ 3 * is.length := by
  induction is with
  | nil =>
    intro l h _
    cases l with
    | nil => exact Nat.zero_le _
    | cons p l => exact absurd (h p (by simp)) (by simp)
  | cons i is ih =>
    intro l h h3
    have e : l.length = (l.filter fun p => p.1 = i).length + (l.filter fun p => ¬ p.1 = i).length := by
      rw [← List.countP_eq_length_filter, ← List.countP_eq_length_filter]
      simpa using List.length_eq_countP_add_countP (fun p : Nat × α => decide (p.1 = i)) (l := l)
    have h1 := h3 i
    have h2 : (l.filter fun p => ¬ p.1 = i).length ≤ 3 * is.length := by
      refine ih ?_ ?_
      · intro p hp
        rw [List.mem_filter] at hp
        rcases List.mem_cons.1 (h p hp.1) with e | e
        · exact absurd e (by simpa using hp.2)
        · exact e
      · intro j
        refine Nat.le_trans ?_ (h3 j)
        exact (List.filter_sublist.filter _).length_le
    rw [List.length_cons]
    omega

theorem flatten_length_le {α : Type} {parts : List (List α)} (h : ∀ p ∈ parts, p.length ≤ 3) :
    parts.flatten.length ≤ 3 * parts.length := by
  induction parts with
  | nil => exact Nat.le_refl _
  | cons p parts ih =>
    rw [List.flatten_cons, List.length_append, List.length_cons]
    have := h p (by simp)
    have := ih fun q hq => h q (by simp [hq])
    omega

theorem dkimFields_length_le (n : Nat) (headers : List Field) : (dkimFields n headers).length ≤ n := by
  rw [dkimFields, List.length_take]
  exact Nat.min_le_left ..

theorem answerTexts_length (r : Except IoErr (List (Except IoErr Bytes))) : (answerTexts r).length ≤ 3 := by
  cases r with
  | error e => exact Nat.zero_le _
  | ok txts => exact Nat.le_trans (List.length_filterMap_le _ _) (firstTwoAndLast_length _)

end Dkim
