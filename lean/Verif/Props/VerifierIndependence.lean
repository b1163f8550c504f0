import Verif.Props.Verifier

/-!
# Properties C39, C47 and C48: independence of signatures, and the DNS
-/

namespace Dkim

open Spec

variable {E : Env}

/-! ## C39 -/

/-- The same environment with other iteration orders of the internal maps. -/
def reorder (E : Env) (order : List Lookup → List Lookup) (set : List BodyHasherKey → List BodyHasherKey) : Env :=
  { E with lookupOrder := order, keySet := set }

/-- The same configuration with other limits on the number of signatures and on the
lookup time. -/
def otherLimits (cfg : Config) (max timeout : Nat) : Config :=
  { cfg with maxSignatures := max, lookupTimeout := timeout }

/-- Two headers agree on all fields that a signature signs and that the configuration
protects. -/
def SameRelevant (cfg : Config) (sig : DkimSignature) (headers headers' : List Field) : Prop :=
  let relevant := fun f : Field => (sig.signedHeaders ++ cfg.headersForbiddenUnsigned).any (sameName f.name)
  headers.filter relevant = headers'.filter relevant

section congruence

variable (order : List Lookup → List Lookup) (set : List BodyHasherKey → List BodyHasherKey) (max timeout : Nat)

theorem sameRelevant_signed {cfg : Config} {sig : DkimSignature} {headers headers' : List Field}
    (h : SameRelevant cfg sig headers headers') :
    (headers.filter fun f => sig.signedHeaders.any (sameName f.name))
      = headers'.filter fun f => sig.signedHeaders.any (sameName f.name) := by
  have key : ∀ l : List Field, (l.filter fun f => sig.signedHeaders.any (sameName f.name)) =
      (l.filter fun f => (sig.signedHeaders ++ cfg.headersForbiddenUnsigned).any (sameName f.name)).filter
        fun f => sig.signedHeaders.any (sameName f.name) := by
    intro l
    rw [List.filter_filter]
    congr 1
    funext f
    rw [List.any_append]
    cases sig.signedHeaders.any (sameName f.name) <;> simp
  rw [key, h, ← key]

theorem sameRelevant_occurrences {cfg : Config} {sig : DkimSignature} {headers headers' : List Field}
    (h : SameRelevant cfg sig headers headers') {n : Str} (hn : n ∈ cfg.headersForbiddenUnsigned) :
    (headers.filter fun f => fieldNameEq f.name n) = headers'.filter fun f => fieldNameEq f.name n := by
  have key : ∀ l : List Field, (l.filter fun f => fieldNameEq f.name n) =
      (l.filter fun f => (sig.signedHeaders ++ cfg.headersForbiddenUnsigned).any (sameName f.name)).filter
        fun f => fieldNameEq f.name n := by
    intro l
    rw [List.filter_filter]
    congr 1
    funext f
    cases h1 : fieldNameEq f.name n with
    | false => rfl
    | true =>
      rw [fieldNameEq, eqIgnoreCase_eq] at h1
      rw [List.any_append, Bool.true_and]
      have : cfg.headersForbiddenUnsigned.any (sameName f.name) = true := by
        rw [List.any_eq_true]; exact ⟨n, hn, h1⟩
      rw [this, Bool.or_true]
  rw [key, h, ← key]

theorem readVerifyingKey_congr (k : KeyType) (d : Bytes) :
    readVerifyingKey (reorder E order set) k d = readVerifyingKey E k d := by
  unfold readVerifyingKey
  cases h : VerifyingKey.fromKeyData E.crypto k d with
  | none =>
    have h' : VerifyingKey.fromKeyData (reorder E order set).crypto k d = none := h
    rw [h']
    rfl
  | some v =>
    have h' : VerifyingKey.fromKeyData (reorder E order set).crypto k d = some v := h
    rw [h']
    rfl

theorem verifySignature_congr (key : VerifyingKey E.crypto) (alg : HashAlg) (d s : Bytes) :
    verifySignature (reorder E order set) key alg d s = verifySignature E key alg d s := by
  cases key <;> rfl

theorem tryOne_congr {cfg : Config} {sig : DkimSignature} {headers headers' : List Field}
    (h : SameRelevant cfg sig headers headers') (name value : Str) (r : Except RecordError KeyRecord) :
    tryOne (reorder E order set) headers' (otherLimits cfg max timeout) sig name value r
      = tryOne E headers cfg sig name value r := by
  cases r with
  | error e => rfl
  | ok record =>
    unfold tryOne
    simp only
    have e1 : validateKeyRecord (reorder E order set) sig.algorithm.keyType sig.algorithm.hashAlg record
        sig.domain sig.identity = validateKeyRecord E sig.algorithm.keyType sig.algorithm.hashAlg record
        sig.domain sig.identity := rfl
    rw [e1]
    cases validateKeyRecord E sig.algorithm.keyType sig.algorithm.hashAlg record sig.domain sig.identity with
    | panic => rfl
    | err e => rfl
    | ok u =>
      cases u
      simp only
      have e2 : readVerifyingKey (reorder E order set) sig.algorithm.keyType record.keyData
          = readVerifyingKey E sig.algorithm.keyType record.keyData := readVerifyingKey_congr order set _ _
      rw [e2]
      cases readVerifyingKey E sig.algorithm.keyType record.keyData with
      | error e => rfl
      | ok key =>
        simp only
        have e3 : keySizeAccepted (reorder E order set) key (otherLimits cfg max timeout)
            = keySizeAccepted E key cfg := rfl
        have e4 : performVerification (reorder E order set) headers' key sig name value
            = performVerification E headers key sig name value := by
          unfold performVerification computeDataHash dataHashInput
          rw [C10_unlisted_fields _ headers headers' _ (sameRelevant_signed h)]
          exact verifySignature_congr order set _ _ _ _
        rw [e3, e4]

theorem tryAll_congr {cfg : Config} {sig : DkimSignature} {headers headers' : List Field}
    (h : SameRelevant cfg sig headers headers') (name value : Str) (r : Except IoErr Str)
    (rs : List (Except IoErr Str)) :
    tryAll (reorder E order set) headers' (otherLimits cfg max timeout) sig name value r rs
      = tryAll E headers cfg sig name value r rs := by
  induction rs generalizing r with
  | nil =>
    rw [tryAll, tryAll, tryOne_congr order set max timeout h]
    rfl
  | cons a l ih =>
    rw [tryAll, tryAll, tryOne_congr order set max timeout h, ih]
    rfl

theorem outcome_congr {cfg : Config} {sig : DkimSignature} {headers headers' : List Field}
    (h : SameRelevant cfg sig headers headers') (name value : Str) (q : QueryResult) :
    outcome (reorder E order set) headers' (otherLimits cfg max timeout) sig name value q
      = outcome E headers cfg sig name value q := by
  unfold outcome
  split <;> first | rfl | exact tryAll_congr order set max timeout h name value _ _

theorem validateSignature_congr {cfg : Config} {sig : DkimSignature} {headers headers' : List Field}
    (h : SameRelevant cfg sig headers headers') (now : Int) :
    validateSignature (reorder E order set) sig headers' (otherLimits cfg max timeout) now
      = validateSignature E sig headers cfg now := by
  have e : noneUnsigned headers' cfg.headersForbiddenUnsigned sig.signedHeaders
      = noneUnsigned headers cfg.headersForbiddenUnsigned sig.signedHeaders := by
    unfold noneUnsigned
    rw [Bool.eq_iff_iff, List.all_eq_true, List.all_eq_true]
    refine forall_congr' fun n => forall_congr' fun hn => ?_
    rw [sameRelevant_occurrences h hn]
  have e2 : validateSignedHeaders headers' cfg.headersRequired cfg.headersForbiddenUnsigned sig.signedHeaders
      = validateSignedHeaders headers cfg.headersRequired cfg.headersForbiddenUnsigned sig.signedHeaders := by
    unfold validateSignedHeaders
    rw [e]
  unfold validateSignature
  rw [show validateSignedHeaders headers' (otherLimits cfg max timeout).headersRequired
    (otherLimits cfg max timeout).headersForbiddenUnsigned sig.signedHeaders
    = validateSignedHeaders headers cfg.headersRequired cfg.headersForbiddenUnsigned sig.signedHeaders from e2]
  rfl

/-- Equal results from equal inputs. -/
theorem resultFor_congr (law : CaseLaw E.idna) {resolver resolver' : Resolver} {cfg : Config}
    {clock clock' : Nat → Int} {headers headers' : List Field} {body : Bytes} {i i' : Nat} {f : Field}
    (ht : clock i = clock' i')
    (hh : ∀ value sig, FieldSignature E f value sig → SameRelevant cfg sig headers headers')
    (hd : ∀ value sig, FieldSignature E f value sig → ∀ name, QueryFor E sig name →
      (resolver name).result = (resolver' name).result) :
    resultFor (reorder E order set) resolver' (otherLimits cfg max timeout) clock' headers' body (i', f)
      = { resultFor E resolver cfg clock headers body (i, f) with index := i' } := by
  have hstart : start (reorder E order set) headers' (otherLimits cfg max timeout) clock' (i', f)
      = { start E headers cfg clock (i, f) with index := i' } := by
    have g := startTask_eq (E := E) headers cfg clock i f
    have g' := startTask_eq (E := reorder E order set) headers' (otherLimits cfg max timeout) clock' i' f
    unfold startTask at g g'
    cases hu : fromUtf8 f.body with
    | none =>
      rw [hu] at g g'
      simp only [Option.some.injEq] at g g'
      rw [← g, ← g']
      rfl
    | some value =>
      rw [hu] at g g'
      simp only at g g'
      rw [show sigFromStr (reorder E order set).idna (reorder E order set).pre value
        = sigFromStr E.idna E.pre value from rfl] at g'
      cases hp : sigFromStr E.idna E.pre value with
      | panic => exact absurd hp (C31_total _ _ _)
      | err e =>
        rw [hp] at g g'
        simp only [Option.some.injEq] at g g'
        rw [← g, ← g']
        rfl
      | ok sig =>
        rw [hp] at g g'
        simp only at g g'
        have hs : FieldSignature E f value sig :=
          ⟨(fromUtf8_eq_some _ _).1 hu, (sigFromStr_iff law _ _ _).1 hp⟩
        rw [validateSignature_congr order set max timeout (hh value sig hs), ← ht] at g'
        cases hv : validateSignature E sig headers cfg (clock i) with
        | none =>
          rw [hv] at g g'
          simp only [Option.some.injEq] at g g'
          rw [← g, ← g']
          rfl
        | some e =>
          rw [hv] at g g'
          simp only [Option.some.injEq] at g g'
          rw [← g, ← g']
          rfl
  unfold resultFor
  rw [hstart]
  have hdone : done (reorder E order set) resolver' headers' (otherLimits cfg max timeout)
      { start E headers cfg clock (i, f) with index := i' }
      = { done E resolver headers cfg (start E headers cfg clock (i, f)) with index := i' } := by
    rcases start_cases law headers cfg clock i f with ⟨e, h, _⟩ | ⟨v, s, e, h, _⟩ | ⟨v, sig, h, hs, hc⟩
    · rw [h, done_failed (by simp [VerifyTask.failed]), done_failed (by simp [VerifyTask.failed])]
    · rw [h, done_failed (by simp [VerifyTask.failed]), done_failed (by simp [VerifyTask.failed])]
    · have hconv : Convertible E sig := by
        obtain ⟨_, tags, _, _, h3⟩ := hs
        exact convertible_of h3
      obtain ⟨d, hdd⟩ := hconv.domain
      obtain ⟨s, hse⟩ := hconv.selector
      have e1 := done_started (E := E) (resolver := resolver) (headers := headers) (cfg := cfg) (i := i)
        (name := f.name) (value := v) hdd hse
      have e2 := done_started (E := reorder E order set) (resolver := resolver') (headers := headers')
        (cfg := otherLimits cfg max timeout) (i := i') (name := f.name) (value := v) (sig := sig) hdd hse
      rw [h, e1]
      have e3 : ({ VerifyTask.started i sig f.name v with index := i' } : VerifyTask)
          = VerifyTask.started i' sig f.name v := rfl
      rw [e3, e2, outcome_congr order set max timeout (hh v sig hs)]
      have e4 : lookUpRecords resolver' d s = lookUpRecords resolver d s := by
        unfold lookUpRecords
        rw [keyName_eq, hd v sig hs (keyName d s) ⟨d, s, hdd, hse, rfl⟩]
      rw [e4]
      rfl
  rw [hdone]
  rfl

end congruence

/-- C39: two runs yield the same result for a DKIM-Signature field (at whatever
position), if the fields that its signature signs and that the configuration protects
are the same, the body has the same content, the time is the same, and the DNS has the
same answer for its own domain and selector. All else may differ: other fields,
among them other signatures, answers for other names, how many signatures are
evaluated, how the body is cut into chunks, and the orders of iteration of the
internal maps, and so also which lookups are shared. -/
theorem C39_independent (order order' : List Lookup → List Lookup)
    (set set' : List BodyHasherKey → List BodyHasherKey)
    (L : Lawful (reorder E order set)) (L' : Lawful (reorder E order' set')) {resolver resolver' : Resolver}
    (cfg : Config) (max timeout : Nat) {clock clock' : Nat → Int} (T : TypedTimes cfg clock)
    (T' : TypedTimes cfg clock') {headers headers' : List Field} {chunks chunks' : List Bytes}
    {results results' : List VerificationResult} {asked asked' : List Str}
    (h : Run (reorder E order set) resolver cfg clock headers chunks results asked)
    (h' : Run (reorder E order' set') resolver' (otherLimits cfg max timeout) clock' headers' chunks' results' asked')
    (r r' : VerificationResult) (hr : r ∈ results) (hr' : r' ∈ results') (f : Field)
    (hf : headers[r.index]? = some f) (hf' : headers'[r'.index]? = some f)
    (hrel : ∀ value sig, FieldSignature E f value sig → SameRelevant cfg sig headers headers')
    (hbody : chunks.flatten = chunks'.flatten) (htime : clock r.index = clock' r'.index)
    (hdns : ∀ value sig, FieldSignature E f value sig → ∀ name, QueryFor E sig name →
      (resolver name).result = (resolver' name).result) :
    r'.status = r.status ∧ r'.signature = r.signature ∧ r'.keyRecord = r.keyRecord := by
  have find : ∀ {E : Env} (L : Lawful E) {resolver : Resolver} {cfg : Config} {clock : Nat → Int}
      (T : TypedTimes cfg clock) {headers : List Field} {chunks : List Bytes}
      {results : List VerificationResult} {asked : List Str}
      (h : Run E resolver cfg clock headers chunks results asked) (r : VerificationResult) (hr : r ∈ results)
      (hf : headers[r.index]? = some f),
      r = resultFor E resolver cfg clock headers chunks.flatten (r.index, f) := by
    intro E L resolver cfg clock T headers chunks results asked h r hr hf
    obtain ⟨_, h2, _⟩ := h.eq L T
    rw [h2, List.mem_map] at hr
    obtain ⟨⟨i, g⟩, hp, e⟩ := hr
    have hi : r.index = i := by rw [← e]; exact resultFor_index L resolver T headers _ _
    have := (mem_dkimFields hp).1
    rw [← hi, hf] at this
    injection this with this
    rw [← hi, ← this] at e
    exact e.symm
  have T'' : TypedTimes (otherLimits cfg max timeout) clock' := ⟨T'.clock, T'.fixed⟩
  have e := find L T h r hr hf
  have e' := find L' T'' h' r' hr' hf'
  have hc := resultFor_congr (E := reorder E order set) order' set' max timeout L.idna (resolver := resolver)
    (resolver' := resolver') (cfg := cfg) (clock := clock) (clock' := clock') (headers := headers)
    (headers' := headers') (body := chunks'.flatten) (i := r.index) (i' := r'.index) (f := f) htime hrel hdns
  rw [hbody] at e
  have e2 : r' = { r with index := r'.index } := by
    conv => rhs; rw [e]
    rw [← hc]
    exact e'
  rw [e2]
  exact ⟨rfl, rfl, rfl⟩

/-! ## C48 -/

/-- C48: the names asked are those for the pairs of ASCII domain and selector of the
signatures that pass the initial checks, one for each pair. -/
theorem C48_queries (L : Lawful E) {resolver : Resolver} {cfg : Config} {clock : Nat → Int}
    (T : TypedTimes cfg clock) {headers : List Field} {chunks : List Bytes} {results : List VerificationResult}
    {asked : List Str} (h : Run E resolver cfg clock headers chunks results asked) :
    ∃ pairs : List (Str × Str), pairs.Nodup ∧
      asked = pairs.map (fun p => p.2 ++ c!"._domainkey." ++ p.1 ++ c!".") ∧
      ∀ d s, (d, s) ∈ pairs ↔ ∃ i f value sig, (i, f) ∈ dkimFields cfg.maxSignatures headers ∧
        FieldSignature E f value sig ∧
        AllPass (signatureChecks E cfg (unixTime cfg (clock i)) headers sig) ∧
        E.idna.toAscii sig.domain = some d ∧ E.idna.toAscii sig.selector = some s := by
  obtain ⟨_, _, keys, h1, h2, h3⟩ := h.eq L T
  refine ⟨keys, h2, h1, ?_⟩
  intro d s
  rw [h3]
  constructor
  · rintro ⟨⟨i, f⟩, hp, hk⟩
    rcases start_cases L.idna headers cfg clock i f with ⟨e, h, _⟩ | ⟨v, s, e, h, _⟩ | ⟨v, sig, h, hs, hc⟩
    · rw [h] at hk; simp [taskKey, VerifyTask.failed] at hk
    · rw [h] at hk; simp [taskKey, VerifyTask.failed] at hk
    · rw [h] at hk
      refine ⟨i, f, v, sig, hp, hs, (validateSignature_matches headers cfg (typed_lt T i) sig).passes hc, ?_⟩
      simp only [taskKey, VerifyTask.started, if_true] at hk
      split at hk
      · next a b ha hb =>
        simp only [Option.some.injEq, Prod.mk.injEq] at hk
        rw [ha, hb, hk.1, hk.2]
        exact ⟨rfl, rfl⟩
      · simp at hk
  · rintro ⟨i, f, value, sig, hp, hs, hpass, hd, hse⟩
    refine ⟨(i, f), hp, ?_⟩
    rcases start_cases L.idna headers cfg clock i f with ⟨e, h, h1, _⟩ | ⟨v, s', e, h, h1, h2⟩ | ⟨v, sig', h, hs', hc⟩
    · exact absurd hs (h1 _ _)
    · obtain ⟨rfl, rfl⟩ := fieldSignature_unique L.idna hs h1
      exact absurd ((validateSignature_matches headers cfg (typed_lt T i) sig).fails e h2) hpass.not_firstFailure
    · obtain ⟨rfl, rfl⟩ := fieldSignature_unique L.idna hs hs'
      rw [h]
      simp [taskKey, VerifyTask.started, hd, hse]

/-! ## C47 -/

/-- C47 does not hold: the time that the resolver takes, and the configured timeout,
have no influence at all. -/
theorem C47_delay_ignored (resolver resolver' : Resolver)
    (h : ∀ name, (resolver name).result = (resolver' name).result) (cfg : Config) (max timeout : Nat)
    (clock : Nat → Int) (headers : List Field) (hm : max = cfg.maxSignatures) :
    verifyHeader E resolver headers cfg clock
      = verifyHeader E resolver' headers (otherLimits cfg max timeout) clock := by
  subst hm
  have e : ∀ d s, lookUpRecords resolver d s = lookUpRecords resolver' d s := by
    intro d s
    unfold lookUpRecords
    rw [h]
  have e2 : ∀ tasks, spawn E resolver tasks = spawn E resolver' tasks := by
    intro tasks
    unfold spawn spawnAll
    simp only [e]
  have e3 : ∀ q tasks, verifyResults E headers cfg tasks q
      = verifyResults E headers (otherLimits cfg cfg.maxSignatures timeout) tasks q := by
    have f0 : ∀ sig task rs, tryRecords E headers cfg sig task rs
        = tryRecords E headers (otherLimits cfg cfg.maxSignatures timeout) sig task rs := by
      intro sig task rs
      induction rs generalizing task with
      | nil => rfl
      | cons r rs ih =>
        simp only [tryRecords, ih]
        rfl
    have f1 : ∀ is l tasks, verifySelected E headers cfg is l tasks
        = verifySelected E headers (otherLimits cfg cfg.maxSignatures timeout) is l tasks := by
      intro is l tasks
      induction tasks generalizing l with
      | nil => rfl
      | cons t ts ih => simp only [verifySelected, verifyTask, ih, f0]
    intro q
    induction q with
    | nil => intro tasks; rfl
    | cons a q ih => intro tasks; simp only [verifyResults, f1, ih]
  have e4 : findSignatures E headers cfg clock
      = findSignatures E headers (otherLimits cfg cfg.maxSignatures timeout) clock := by
    rw [findSignatures, findSignatures]
    have : ∀ l, startTasks E headers cfg clock l
        = startTasks E headers (otherLimits cfg cfg.maxSignatures timeout) clock l := by
      intro l
      rw [startTasks_eq, startTasks_eq]
      rfl
    rw [this]
    rfl
  unfold verifyHeader verifyAll
  rw [e4]
  simp only [e2, e3]
  rfl

/-- C47 (partial): when the resolver itself gives up with error `TimedOut`, the result is
a timeout, which is reported as a temporary error. Missing: the time limit of the
configuration, which the code does not use; see `C47_violation`. -/
theorem C47_resolver_timeout_partial (L : Lawful E) {resolver : Resolver} {cfg : Config} {clock : Nat → Int}
    (T : TypedTimes cfg clock) {headers : List Field} {chunks : List Bytes} {results : List VerificationResult}
    {asked : List Str} (h : Run E resolver cfg clock headers chunks results asked) (r : VerificationResult)
    (hr : r ∈ results) (f : Field) (hf : headers[r.index]? = some f) (value : Str) (sig : DkimSignature)
    (hsig : FieldSignature E f value sig)
    (hpass : AllPass (signatureChecks E cfg (unixTime cfg (clock r.index)) headers sig)) (name : Str)
    (hq : QueryFor E sig name) (hres : (resolver name).result = .error .timedOut) :
    r.status = .failure .timeout ∧ r.status.toDkimResult = .temperror := by
  obtain ⟨f', hf', hj⟩ := (verify_judged L T h).1 r hr
  have e : f' = f := by
    have := (mem_dkimFields hf').1
    rw [hf] at this
    injection this with this
    exact this.symm
  subst e
  suffices hs : r.status = .failure .timeout by rw [hs]; exact ⟨rfl, rfl⟩
  revert hj hpass
  generalize r.index = i
  intro hpass hj
  cases hj with
  | unparsed e h1 h2 => exact absurd hsig (h1 _ _)
  | rejected v s e h1 h2 =>
    obtain ⟨rfl, rfl⟩ := fieldSignature_unique L.idna hsig h1
    exact absurd h2 hpass.not_firstFailure
  | noAnswer v s n e h1 h2 h3 h4 =>
    obtain ⟨rfl, rfl⟩ := fieldSignature_unique L.idna hsig h1
    rw [← queryFor_unique hq h3, hres] at h4
    injection h4 with h4
    rw [← h4]
    rfl
  | noRecords v s n h1 h2 h3 h4 =>
    obtain ⟨rfl, rfl⟩ := fieldSignature_unique L.idna hsig h1
    rw [← queryFor_unique hq h3, hres] at h4
    simp at h4
  | verified v o s n ts before after txt rec h1 h2 h3 h4 h5 h6 h7 h8 =>
    obtain ⟨rfl, rfl⟩ := fieldSignature_unique L.idna hsig h1
    rw [← queryFor_unique hq h4, hres] at h5
    simp at h5
  | unverified v o s n ts before txt e rec h1 h2 h3 h4 h5 h6 h7 h8 =>
    obtain ⟨rfl, rfl⟩ := fieldSignature_unique L.idna hsig h1
    rw [← queryFor_unique hq h4, hres] at h5
    simp at h5

end Dkim
