import Verif.Spec.Verifier
import Verif.Props.Body
import Verif.Props.Signature
import Verif.Props.Record
import Verif.Props.Errors
import Verif.Props.Strip
import Verif.Props.HeaderCanon

/-!
# Verifying: helper lemmas, part 1

A run of the verifier computes the result of every field by itself: the functions
with panics, caches and shared lookups equal total functions on single tasks.
-/

namespace Dkim

open Spec

variable {E : Env}

/-! ## The tasks -/

/-- The task for a field before the lookups. -/
def start (E : Env) (headers : List Field) (cfg : Config) (clock : Nat → Int) (p : Nat × Field) : VerifyTask :=
  (startTask E headers cfg clock p.1 p.2).getD (.failed p.1 .overflow)

theorem startTask_eq (headers : List Field) (cfg : Config) (clock : Nat → Int) (i : Nat) (f : Field) :
    startTask E headers cfg clock i f = some (start E headers cfg clock (i, f)) := by
  have : ∃ t, startTask E headers cfg clock i f = some t := by
    unfold startTask
    cases fromUtf8 f.body with
    | none => exact ⟨_, rfl⟩
    | some value =>
      simp only
      cases h : sigFromStr E.idna E.pre value with
      | panic => exact absurd h (C31_total _ _ _)
      | err e => exact ⟨_, rfl⟩
      | ok sig =>
        simp only
        cases validateSignature E sig headers cfg (clock i) <;> exact ⟨_, rfl⟩
  obtain ⟨t, ht⟩ := this
  simp [start, ht]

theorem startTasks_eq (headers : List Field) (cfg : Config) (clock : Nat → Int) (l : List (Nat × Field)) :
    startTasks E headers cfg clock l = some (l.map (start E headers cfg clock)) := by
  induction l with
  | nil => rfl
  | cons p l ih =>
    obtain ⟨i, f⟩ := p
    rw [startTasks, startTask_eq, ih]
    rfl

theorem enumFrom_zipIdx {α : Type} (l : List α) (n : Nat) :
    enumFrom n l = (l.zipIdx n).map fun p => (p.2, p.1) := by
  induction l generalizing n with
  | nil => rfl
  | cons a l ih => simp [enumFrom, ih]

theorem isDkim_iff (f : Field) : fieldNameEq f.name dkimSignatureName = decide (IsDkimField f) := by
  rw [fieldNameEq, eqIgnoreCase_eq]
  by_cases h : IsDkimField f
  · rw [decide_eq_true h, sameName_iff, h]; decide
  · rw [decide_eq_false h, ← Bool.not_eq_true, sameName_iff]
    intro e
    apply h
    rw [IsDkimField, e]; decide

theorem dkimFields_eq (max : Nat) (headers : List Field) :
    ((enumFrom 0 headers).filter fun p => fieldNameEq p.2.name dkimSignatureName).take max
      = dkimFields max headers := by
  unfold dkimFields positions
  rw [enumFrom_zipIdx]
  congr 2
  funext p
  exact isDkim_iff p.2

theorem findSignatures_eq (headers : List Field) (cfg : Config) (clock : Nat → Int) :
    findSignatures E headers cfg clock
      = some ((dkimFields cfg.maxSignatures headers).map (start E headers cfg clock)) := by
  rw [findSignatures, dkimFields_eq, startTasks_eq]

theorem positions_fst_nodup (headers : List Field) : ((positions headers).map (·.1)).Nodup := by
  unfold positions
  rw [List.map_map]
  have : (headers.zipIdx.map ((fun x : Nat × Field => x.1) ∘ fun p => (p.2, p.1)))
      = List.range headers.length := by
    rw [show ((fun x : Nat × Field => x.1) ∘ fun p : Field × Nat => (p.2, p.1)) = Prod.snd from rfl]
    rw [List.zipIdx_map_snd, List.range_eq_range']
  rw [this]
  exact List.nodup_range

theorem dkimFields_sublist (max : Nat) (headers : List Field) :
    (dkimFields max headers).Sublist (positions headers) :=
  (List.take_sublist _ _).trans List.filter_sublist

theorem dkimFields_nodup (max : Nat) (headers : List Field) :
    ((dkimFields max headers).map (·.1)).Nodup :=
  (positions_fst_nodup headers).sublist ((dkimFields_sublist max headers).map _)

/-- The ASCII conversions that are made for a signature succeed. -/
structure Convertible (E : Env) (sig : DkimSignature) : Prop where
  domain : ∃ d, E.idna.toAscii sig.domain = some d
  selector : ∃ s, E.idna.toAscii sig.selector = some s
  identity : ∀ i, sig.identity = some i → ∃ d, E.idna.toAscii i.domain = some d

theorem convertible_of {tags : List (Str × Str)} {sig : DkimSignature}
    (h : SignatureOf E.idna E.pre tags sig) : Convertible E sig := by
  refine ⟨?_, ?_, ?_⟩
  · obtain ⟨v, _, rfl, a, ha, _⟩ := h.domain; exact ⟨a, ha⟩
  · obtain ⟨v, _, rfl, a, ha, _⟩ := h.selector; exact ⟨a, ha⟩
  · intro i hi
    obtain ⟨_, _, a, _, ha, _⟩ := h.identityUnderDomain i hi
    exact ⟨a, ha⟩

/-- A task that awaits its key records. -/
def Ready (E : Env) (t : VerifyTask) : Prop :=
  ∃ sig name value, t = .started t.index sig name value ∧ Convertible E sig

/-- What a new task can be. -/
theorem start_cases (law : CaseLaw E.idna) (headers : List Field) (cfg : Config) (clock : Nat → Int) (i : Nat)
    (f : Field) :
    (∃ e, start E headers cfg clock (i, f) = .failed i (.dkimSignatureFormat e) ∧
      (∀ value sig, ¬ FieldSignature E f value sig) ∧ FieldDefect E f e) ∨
    (∃ value sig e, start E headers cfg clock (i, f)
        = { VerifyTask.failed i e with signature := some sig } ∧ FieldSignature E f value sig ∧
      validateSignature E sig headers cfg (clock i) = some e) ∨
    (∃ value sig, start E headers cfg clock (i, f) = .started i sig f.name value ∧
      FieldSignature E f value sig ∧ validateSignature E sig headers cfg (clock i) = none) := by
  have h := startTask_eq (E := E) headers cfg clock i f
  unfold startTask at h
  cases hu : fromUtf8 f.body with
  | none =>
    rw [hu] at h
    simp only [Option.some.injEq] at h
    refine .inl ⟨_, h.symm, ?_, .inl ⟨fun s hs => ?_, rfl⟩⟩
    rotate_left
    · rw [(fromUtf8_eq_some _ _).2 hs] at hu
      simp at hu
    intro value sig hs
    have := (fromUtf8_eq_some _ _).2 hs.1
    rw [hu] at this
    simp at this
  | some value =>
    rw [hu] at h
    have hv : utf8 value = f.body := ((fromUtf8_eq_some _ _).1 hu).symm
    have huniq : ∀ v sig, FieldSignature E f v sig → sigFromStr E.idna E.pre value = .ok sig := by
      intro v sig hs
      have : v = value := utf8_injective (hs.1.symm.trans hv.symm)
      subst this
      exact (sigFromStr_iff law _ _ _).2 hs.2
    simp only at h
    cases hp : sigFromStr E.idna E.pre value with
    | panic => exact absurd hp (C31_total _ _ _)
    | err e =>
      rw [hp] at h
      simp only [Option.some.injEq] at h
      refine .inl ⟨e, h.symm, ?_, .inr ⟨value, hv.symm, (C54_error_exact _ law _ _ _).1 hp⟩⟩
      intro v sig hs
      have := huniq v sig hs
      rw [hp] at this
      simp at this
    | ok sig =>
      rw [hp] at h
      have hs : FieldSignature E f value sig := ⟨hv.symm, (sigFromStr_iff law _ _ _).1 hp⟩
      simp only at h
      cases hc : validateSignature E sig headers cfg (clock i) with
      | some e =>
        rw [hc] at h
        simp only [Option.some.injEq] at h
        exact .inr (.inl ⟨value, sig, e, h.symm, hs, hc⟩)
      | none =>
        rw [hc] at h
        simp only [Option.some.injEq] at h
        exact .inr (.inr ⟨value, sig, h.symm, hs, hc⟩)

theorem start_index (law : CaseLaw E.idna) (headers : List Field) (cfg : Config) (clock : Nat → Int)
    (p : Nat × Field) : (start E headers cfg clock p).index = p.1 := by
  rcases start_cases law headers cfg clock p.1 p.2 with ⟨e, h, _⟩ | ⟨v, s, e, h, _⟩ | ⟨v, s, h, _⟩ <;>
    rw [show p = (p.1, p.2) from rfl, h] <;> rfl

theorem start_ready (law : CaseLaw E.idna) (headers : List Field) (cfg : Config) (clock : Nat → Int)
    (p : Nat × Field) (h : (start E headers cfg clock p).status = .inProgress) :
    Ready E (start E headers cfg clock p) := by
  rcases start_cases law headers cfg clock p.1 p.2 with ⟨e, h1, _⟩ | ⟨v, s, e, h1, _⟩ | ⟨v, s, h1, h2, _⟩ <;>
    rw [show p = (p.1, p.2) from rfl, h1] at h
  · simp [VerifyTask.failed] at h
  · simp [VerifyTask.failed] at h
  · obtain ⟨_, tags, _, _, h3⟩ := h2
    exact ⟨s, p.2.name, v, by rw [start_index law]; exact h1, convertible_of h3⟩

/-! ## The lookups -/

/-- The map has index `i` under the key. -/
def HasIndex (m : List Lookup) (key : Str × Str) (i : Nat) : Prop := ∃ is, (key, is) ∈ m ∧ i ∈ is

theorem mem_insertIndex (is : List Nat) (i j : Nat) : j ∈ insertIndex is i ↔ j ∈ is ∨ j = i := by
  unfold insertIndex
  split
  · next h =>
    rw [List.contains_iff_mem] at h
    exact ⟨.inl, fun e => e.elim id (fun e => e ▸ h)⟩
  · simp

theorem insertLookup_keys (m : List Lookup) (key : Str × Str) (i : Nat) :
    (insertLookup m key i).map (·.1) = if key ∈ m.map (·.1) then m.map (·.1) else m.map (·.1) ++ [key] := by
  induction m with
  | nil => simp [insertLookup]
  | cons e m ih =>
    obtain ⟨k, is⟩ := e
    rw [insertLookup]
    by_cases h : k = key
    · simp [h]
    · rw [if_neg h, List.map_cons, ih]
      have : key ≠ k := fun e => h e.symm
      by_cases hm : key ∈ m.map (·.1)
      · rw [if_pos hm, if_pos (by simp only [List.map_cons, List.mem_cons]; exact .inr hm)]
        rfl
      · rw [if_neg hm, if_neg (by simp only [List.map_cons, List.mem_cons, not_or]; exact ⟨this, hm⟩)]
        rfl

theorem insertLookup_has (m : List Lookup) (key : Str × Str) (i : Nat) (k : Str × Str) (j : Nat) :
    HasIndex (insertLookup m key i) k j ↔ HasIndex m k j ∨ (k = key ∧ j = i) := by
  induction m with
  | nil =>
    simp only [insertLookup, HasIndex, List.mem_singleton, Prod.mk.injEq, List.not_mem_nil, false_and,
      exists_false, false_or]
    constructor
    · rintro ⟨is, ⟨rfl, rfl⟩, h⟩
      exact ⟨rfl, List.mem_singleton.1 h⟩
    · rintro ⟨rfl, rfl⟩
      exact ⟨_, ⟨rfl, rfl⟩, by simp⟩
  | cons e m ih =>
    obtain ⟨k', is⟩ := e
    have hc : ∀ (is : List Nat) (m : List Lookup), HasIndex ((k', is) :: m) k j ↔
        (k = k' ∧ j ∈ is) ∨ HasIndex m k j := by
      intro is m
      constructor
      · rintro ⟨is', h, hj⟩
        rcases List.mem_cons.1 h with e | h
        · injection e with e1 e2
          exact .inl ⟨e1, e2 ▸ hj⟩
        · exact .inr ⟨is', h, hj⟩
      · rintro (⟨rfl, hj⟩ | ⟨is', h, hj⟩)
        · exact ⟨is, by simp, hj⟩
        · exact ⟨is', by simp [h], hj⟩
    rw [insertLookup]
    by_cases h : k' = key
    · rw [if_pos h, hc, hc, mem_insertIndex, h]
      constructor
      · rintro (⟨a, b | b⟩ | b)
        · exact .inl (.inl ⟨a, b⟩)
        · exact .inr ⟨a, b⟩
        · exact .inl (.inr b)
      · rintro ((⟨a, b⟩ | b) | ⟨a, b⟩)
        · exact .inl ⟨a, .inl b⟩
        · exact .inr b
        · exact .inl ⟨a, .inr b⟩
    · rw [if_neg h, hc, ih, hc]
      constructor
      · rintro (h | h | h)
        · exact .inl (.inl h)
        · exact .inl (.inr h)
        · exact .inr h
      · rintro ((h | h) | h)
        · exact .inl h
        · exact .inr (.inl h)
        · exact .inr (.inr h)

/-- The ASCII domain and selector of a task that awaits its key records. -/
def taskKey (E : Env) (t : VerifyTask) : Option (Str × Str) :=
  if t.status = .inProgress then
    match t.signature with
    | none => none
    | some sig =>
      match E.idna.toAscii sig.domain, E.idna.toAscii sig.selector with
      | some d, some s => some (d, s)
      | _, _ => none
  else none

theorem ready_key {t : VerifyTask} (h : Ready E t) : ∃ key, taskKey E t = some key := by
  obtain ⟨sig, name, value, e, hc⟩ := h
  obtain ⟨d, hd⟩ := hc.domain
  obtain ⟨s, hs⟩ := hc.selector
  rw [e]
  exact ⟨(d, s), by simp [taskKey, VerifyTask.started, hd, hs]⟩

theorem ready_status {t : VerifyTask} (h : Ready E t) : t.status = .inProgress := by
  obtain ⟨sig, name, value, e, _⟩ := h
  rw [e]; rfl

theorem taskKey_status {t : VerifyTask} {key : Str × Str} (h : taskKey E t = some key) :
    t.status = .inProgress := by
  unfold taskKey at h
  split at h
  · assumption
  · simp at h

theorem addLookups_spec (tasks : List VerifyTask) (hr : ∀ t ∈ tasks, t.status = .inProgress → Ready E t) :
    ∀ m : List Lookup, (m.map (·.1)).Nodup → (∀ e ∈ m, e.2 ≠ []) →
    ∃ m', addLookups E m tasks = some m' ∧ (m'.map (·.1)).Nodup ∧ (∀ e ∈ m', e.2 ≠ []) ∧
      ∀ k j, HasIndex m' k j ↔ HasIndex m k j ∨ ∃ t ∈ tasks, taskKey E t = some k ∧ t.index = j := by
  induction tasks with
  | nil => intro m h1 h2; exact ⟨m, rfl, h1, h2, by simp⟩
  | cons t ts ih =>
    intro m h1 h2
    have ih := ih (fun t ht => hr t (List.mem_cons_of_mem _ ht))
    rw [addLookups]
    by_cases hs : t.status = .inProgress
    · obtain ⟨sig, name, value, e, hc⟩ := hr t (by simp) hs
      obtain ⟨d, hd⟩ := hc.domain
      obtain ⟨s, hse⟩ := hc.selector
      have hsig : t.signature = some sig := by rw [e]; rfl
      have hk : taskKey E t = some (d, s) := by simp [taskKey, hs, hsig, hd, hse]
      rw [if_pos hs, hsig]
      simp only [addLookup, hd, hse]
      have hn : ((insertLookup m (d, s) t.index).map (·.1)).Nodup := by
        rw [insertLookup_keys]
        split
        · exact h1
        · next hm =>
          rw [List.nodup_append]
          refine ⟨h1, by simp, ?_⟩
          intro a ha b hb
          simp only [List.mem_singleton] at hb
          rw [hb]
          exact fun e => hm (e ▸ ha)
      have hne : ∀ e ∈ insertLookup m (d, s) t.index, e.2 ≠ [] := by
        clear ih hn hr h1
        induction m with
        | nil => simp [insertLookup]
        | cons e m ih =>
          obtain ⟨k', is⟩ := e
          rw [insertLookup]
          have h3 := h2 (k', is) (by simp)
          have h4 := ih (fun e he => h2 e (List.mem_cons_of_mem _ he))
          split
          · intro e he
            rcases List.mem_cons.1 he with rfl | he
            · simp only
              unfold insertIndex
              split
              · exact h3
              · simp
            · exact h2 e (List.mem_cons_of_mem _ he)
          · intro e he
            rcases List.mem_cons.1 he with rfl | he
            · exact h3
            · exact h4 e he
      obtain ⟨m', h3, h4, h5, h6⟩ := ih _ hn hne
      refine ⟨m', h3, h4, h5, ?_⟩
      intro k j
      rw [h6, insertLookup_has]
      constructor
      · rintro ((h | ⟨rfl, rfl⟩) | ⟨t', h, h'⟩)
        · exact .inl h
        · exact .inr ⟨t, by simp, hk, rfl⟩
        · exact .inr ⟨t', by simp [h], h'⟩
      · rintro (h | ⟨t', h, h', h''⟩)
        · exact .inl (.inl h)
        · rcases List.mem_cons.1 h with rfl | h
          · rw [hk] at h'
            injection h' with h'
            exact .inl (.inr ⟨h'.symm, h''.symm⟩)
          · exact .inr ⟨t', h, h', h''⟩
    · rw [if_neg hs]
      obtain ⟨m', h3, h4, h5, h6⟩ := ih m h1 h2
      refine ⟨m', h3, h4, h5, ?_⟩
      intro k j
      rw [h6]
      have hk : taskKey E t = none := by simp [taskKey, hs]
      constructor
      · rintro (h | ⟨t', h, h'⟩)
        · exact .inl h
        · exact .inr ⟨t', by simp [h], h'⟩
      · rintro (h | ⟨t', h, h', h''⟩)
        · exact .inl h
        · rcases List.mem_cons.1 h with rfl | h
          · rw [hk] at h'; simp at h'
          · exact .inr ⟨t', h, h', h''⟩

/-! ## Key records -/

/-- What a TXT record is parsed to. -/
def parsedTxt (E : Env) : Except IoErr Str → Except RecordError KeyRecord
  | .error _ => .error .recordFormat
  | .ok s =>
    match recordFromStr E.lossy E.pre s with
    | .panic => .error .recordFormat
    | .err e => .error e
    | .ok r => .ok r

/-- A cached record is as looked up, or already parsed. -/
def Coherent (E : Env) (c : CachedRecord) (r : Except IoErr Str) : Prop :=
  c = .unparsed r ∨ c = .parsed (parsedTxt E r)

/-- The same for a list. -/
inductive CoherentList (E : Env) : List CachedRecord → List (Except IoErr Str) → Prop
  | nil : CoherentList E [] []
  | cons {c : CachedRecord} {r : Except IoErr Str} {cs : List CachedRecord} {rs : List (Except IoErr Str)} :
      Coherent E c r → CoherentList E cs rs → CoherentList E (c :: cs) (r :: rs)

theorem parseAndCache_eq {c : CachedRecord} {r : Except IoErr Str} (h : Coherent E c r) :
    ∃ c', c.parseAndCache E = some (c', parsedTxt E r) ∧ Coherent E c' r := by
  rcases h with rfl | rfl
  · cases r with
    | error e => exact ⟨_, rfl, .inr rfl⟩
    | ok s =>
      rw [CachedRecord.parseAndCache, parsedTxt]
      cases hp : recordFromStr E.lossy E.pre s with
      | panic => exact absurd hp (recordFromStr_noPanic _ _ _)
      | err e => exact ⟨_, rfl, .inr (by rw [parsedTxt, hp])⟩
      | ok r => exact ⟨_, rfl, .inr (by rw [parsedTxt, hp])⟩
  · exact ⟨_, rfl, .inr rfl⟩

theorem coherentList_unparsed (rs : List (Except IoErr Str)) : CoherentList E (rs.map .unparsed) rs := by
  induction rs with
  | nil => exact .nil
  | cons r rs ih => exact .cons (.inl rfl) ih

/-- One key record tried: the error, if it does not verify. -/
def tryOne (E : Env) (headers : List Field) (cfg : Config) (sig : DkimSignature) (name value : Str)
    (record : Except RecordError KeyRecord) : Option VerificationError × Option KeyRecord :=
  match record with
  | .error e => (some (.keyRecordFormat e), none)
  | .ok record =>
    (match validateKeyRecord E sig.algorithm.keyType sig.algorithm.hashAlg record sig.domain sig.identity with
    | .panic => none
    | .err e => some e
    | .ok () =>
      match readVerifyingKey E sig.algorithm.keyType record.keyData with
      | .error e => some (.verificationFailure e)
      | .ok key =>
        if !keySizeAccepted E key cfg then some (.policy .keyTooSmall)
        else if performVerification E headers key sig name value then none
        else some (.verificationFailure .verificationFailure), some record)

/-- The status that results. -/
def statusOf : Option VerificationError → VerifyStatus
  | none => .successful
  | some e => .failed e

theorem validateKeyRecord_noPanic {sig : DkimSignature} (hc : Convertible E sig) (k : KeyType) (h : HashAlg)
    (r : KeyRecord) : validateKeyRecord E k h r sig.domain sig.identity ≠ .panic := by
  unfold validateKeyRecord
  refine iteInduction (motive := fun r => r ≠ Res.panic) (fun e => by simp) (fun _ => ?_)
  refine iteInduction (motive := fun r => r ≠ Res.panic) (fun e => by simp) (fun _ => ?_)
  refine iteInduction (motive := fun r => r ≠ Res.panic) (fun e => by simp) (fun _ => ?_)
  have : ∃ b, subdomainForbidden E r sig.domain sig.identity = some b := by
    unfold subdomainForbidden
    split
    · split
      · exact ⟨_, rfl⟩
      · next i hi =>
        obtain ⟨d, hd⟩ := hc.domain
        obtain ⟨d', hd'⟩ := hc.identity i hi
        rw [hd, hd']
        exact ⟨_, rfl⟩
    · exact ⟨_, rfl⟩
  obtain ⟨b, hb⟩ := this
  rw [hb]
  cases b <;> simp

theorem tryRecord_eq (headers : List Field) (cfg : Config) {sig : DkimSignature} (hc : Convertible E sig)
    {task : VerifyTask} {name value : Str} (hn : task.headerName = some name)
    (hv : task.headerValue = some value) (record : Except RecordError KeyRecord) :
    tryRecord E headers cfg sig task record =
      some ({ task with status := statusOf (tryOne E headers cfg sig name value record).1,
                        keyRecord := (tryOne E headers cfg sig name value record).2 },
        (tryOne E headers cfg sig name value record).1.isNone) := by
  cases record with
  | error e => rfl
  | ok record =>
    unfold tryRecord tryOne
    simp only [hn, hv]
    have hp := validateKeyRecord_noPanic hc sig.algorithm.keyType sig.algorithm.hashAlg record
    cases h1 : validateKeyRecord E sig.algorithm.keyType sig.algorithm.hashAlg record sig.domain sig.identity with
    | panic => exact absurd h1 hp
    | err e => rfl
    | ok u =>
      cases u
      simp only
      cases h2 : readVerifyingKey E sig.algorithm.keyType record.keyData with
      | error e => rfl
      | ok key =>
        simp only
        cases keySizeAccepted E key cfg with
        | false => rfl
        | true =>
          simp only [Bool.not_true, Bool.false_eq_true, if_false]
          cases performVerification E headers key sig name value <;> rfl

/-- The records tried in order, the first of which is given. -/
def tryAll (E : Env) (headers : List Field) (cfg : Config) (sig : DkimSignature) (name value : Str) :
    Except IoErr Str → List (Except IoErr Str) → Option VerificationError × Option KeyRecord
  | r, [] => tryOne E headers cfg sig name value (parsedTxt E r)
  | r, r' :: rs =>
    if (tryOne E headers cfg sig name value (parsedTxt E r)).1.isNone then
      tryOne E headers cfg sig name value (parsedTxt E r)
    else tryAll E headers cfg sig name value r' rs

theorem tryRecords_eq (headers : List Field) (cfg : Config) {sig : DkimSignature} (hc : Convertible E sig)
    {name value : Str} : ∀ (r : Except IoErr Str) (rs : List (Except IoErr Str)) (cs : List CachedRecord)
    (task : VerifyTask), task.headerName = some name → task.headerValue = some value →
    CoherentList E cs (r :: rs) → ∃ cs', CoherentList E cs' (r :: rs) ∧
      tryRecords E headers cfg sig task cs =
        some ({ task with status := statusOf (tryAll E headers cfg sig name value r rs).1,
                          keyRecord := (tryAll E headers cfg sig name value r rs).2 }, cs') := by
  intro r rs
  induction rs generalizing r with
  | nil =>
    intro cs task hn hv h
    cases h with
    | cons h1 h2 =>
      cases h2
      obtain ⟨c', h3, h4⟩ := parseAndCache_eq h1
      refine ⟨[c'], .cons h4 .nil, ?_⟩
      rw [tryRecords, h3]
      simp only
      rw [tryRecord_eq headers cfg hc hn hv, tryAll]
      cases (tryOne E headers cfg sig name value (parsedTxt E r)).1.isNone <;> simp [tryRecords]
  | cons r' rs ih =>
    intro cs task hn hv h
    cases h with
    | @cons c _ cs _ h1 h2 =>
      obtain ⟨c', h3, h4⟩ := parseAndCache_eq h1
      rw [tryRecords, h3]
      simp only
      rw [tryRecord_eq headers cfg hc hn hv, tryAll]
      cases (tryOne E headers cfg sig name value (parsedTxt E r)).1.isNone with
      | true => exact ⟨c' :: cs, .cons h4 h2, by simp⟩
      | false =>
        simp only [Bool.false_eq_true, if_false]
        obtain ⟨cs', h5, h6⟩ := ih r' cs
          { task with status := statusOf (tryOne E headers cfg sig name value (parsedTxt E r)).1,
                      keyRecord := (tryOne E headers cfg sig name value (parsedTxt E r)).2 } hn hv h2
        rw [h6]
        exact ⟨c' :: cs', .cons h4 h5, rfl⟩

/-! ## Verification of the tasks -/

/-- The outcome for a task when the lookup has a result: the error, if any, and the
reported key record. -/
def outcome (E : Env) (headers : List Field) (cfg : Config) (sig : DkimSignature) (name value : Str) :
    QueryResult → Option VerificationError × Option KeyRecord
  | .error .notFound => (some .noKeyFound, none)
  | .error .invalidInput => (some .invalidKeyDomain, none)
  | .error .timedOut => (some .timeout, none)
  | .error .invalidData => (some .keyLookup, none)
  | .error .other => (some .keyLookup, none)
  | .ok [] => (some .noKeyFound, none)
  | .ok (r :: rs) => tryAll E headers cfg sig name value r rs

/-- The task after its lookup. -/
def finishTask (E : Env) (headers : List Field) (cfg : Config) (q : QueryResult) (t : VerifyTask) : VerifyTask :=
  match t.signature, t.headerName, t.headerValue with
  | some sig, some name, some value =>
    { t with status := statusOf (outcome E headers cfg sig name value q).1,
             keyRecord := (outcome E headers cfg sig name value q).2 }
  | _, _, _ => t

/-- The state of the records of a lookup with a result. -/
def CoherentLookup (E : Env) (l : Except VerificationError (List CachedRecord)) (q : QueryResult) : Prop :=
  match q with
  | .ok (r :: rs) => ∃ cs, l = .ok cs ∧ CoherentList E cs (r :: rs)
  | q => l = mapLookupResult q

theorem coherentLookup_map (q : QueryResult) : CoherentLookup E (mapLookupResult q) q := by
  cases q with
  | error e => rfl
  | ok rs =>
    cases rs with
    | nil => rfl
    | cons r rs => exact ⟨_, rfl, coherentList_unparsed (r :: rs)⟩

theorem verifyTask_eq (headers : List Field) (cfg : Config) {t : VerifyTask} (hr : Ready E t)
    {l : Except VerificationError (List CachedRecord)} {q : QueryResult} (hl : CoherentLookup E l q) :
    ∃ l', verifyTask E headers cfg t l = some (finishTask E headers cfg q t, l') ∧ CoherentLookup E l' q := by
  obtain ⟨sig, name, value, e, hc⟩ := hr
  rw [e]
  generalize t.index = i
  cases q with
  | error io =>
    simp only [CoherentLookup] at hl
    subst hl
    cases io <;> exact ⟨_, rfl, rfl⟩
  | ok rs =>
    cases rs with
    | nil =>
      simp only [CoherentLookup] at hl
      subst hl
      exact ⟨_, rfl, rfl⟩
    | cons r rs =>
      simp only [CoherentLookup] at hl
      obtain ⟨cs, rfl, hcs⟩ := hl
      obtain ⟨cs', h1, h2⟩ := tryRecords_eq headers cfg hc r rs cs
        (.started i sig name value) rfl rfl hcs
      refine ⟨.ok cs', ?_, cs', rfl, h1⟩
      have hne : cs.isEmpty = false := by cases hcs; rfl
      simp only [verifyTask, VerifyTask.started]
      rw [hne]
      simp only [VerifyTask.started] at h2
      rw [h2]
      rfl

theorem verifySelected_eq (headers : List Field) (cfg : Config) (indexes : List Nat) (q : QueryResult)
    (tasks : List VerifyTask) :
    (∀ t ∈ tasks, indexes.contains t.index = true → Ready E t) →
    ∀ l, CoherentLookup E l q →
    verifySelected E headers cfg indexes l tasks =
      some (tasks.map fun t => if indexes.contains t.index then finishTask E headers cfg q t else t) := by
  induction tasks with
  | nil => intro _ _ _; rfl
  | cons t ts ih =>
    intro hr l hl
    have ih := ih (fun t ht => hr t (List.mem_cons_of_mem _ ht))
    rw [verifySelected, List.map_cons]
    by_cases h : indexes.contains t.index = true
    · obtain ⟨l', h1, h2⟩ := verifyTask_eq headers cfg (hr t (by simp) h) hl
      rw [if_pos h, if_pos h, h1]
      simp only
      rw [ih l' h2]
    · rw [if_neg h, if_neg h, ih l hl]

theorem finishTask_index (headers : List Field) (cfg : Config) (q : QueryResult) (t : VerifyTask) :
    (finishTask E headers cfg q t).index = t.index := by
  unfold finishTask
  split <;> rfl

/-- The task after all lookups. -/
def afterQueries (E : Env) (headers : List Field) (cfg : Config) (qs : List (Str × List Nat × QueryResult))
    (t : VerifyTask) : VerifyTask :=
  match qs.find? fun q => q.2.1.contains t.index with
  | some q => finishTask E headers cfg q.2.2 t
  | none => t

theorem verifyResults_eq (headers : List Field) (cfg : Config) (qs : List (Str × List Nat × QueryResult)) :
    ∀ tasks : List VerifyTask,
    (∀ t ∈ tasks, ∀ q ∈ qs, q.2.1.contains t.index = true → Ready E t) →
    qs.Pairwise (fun q q' => ∀ i, ¬ (q.2.1.contains i = true ∧ q'.2.1.contains i = true)) →
    verifyResults E headers cfg tasks qs = some (tasks.map (afterQueries E headers cfg qs)) := by
  induction qs with
  | nil =>
    intro tasks _ _
    rw [verifyResults]
    have : afterQueries E headers cfg [] = id := by funext t; rfl
    rw [this, List.map_id]
  | cons q qs ih =>
    intro tasks hr hp
    obtain ⟨name, is, res⟩ := q
    rw [List.pairwise_cons] at hp
    rw [verifyResults, verifySelected_eq headers cfg is res tasks (fun t ht h => hr t ht (name, is, res) (by simp) h)
      _ (coherentLookup_map res)]
    simp only
    rw [ih _ ?_ hp.2, List.map_map]
    · congr 1
      apply List.map_congr_left
      intro t ht
      simp only [Function.comp_apply]
      unfold afterQueries
      rw [List.find?_cons]
      simp only
      by_cases h : is.contains t.index = true
      · rw [if_pos h, h, finishTask_index]
        have : qs.find? (fun q => q.2.1.contains t.index) = none := by
          rw [List.find?_eq_none]
          intro q hq hc
          exact hp.1 q hq t.index ⟨h, hc⟩
        rw [this]
      · rw [if_neg h]
        rw [Bool.not_eq_true] at h
        rw [h]
    · intro t ht q hq hc
      rw [List.mem_map] at ht
      obtain ⟨t', ht', rfl⟩ := ht
      by_cases h : is.contains t'.index = true
      · rw [if_pos h, finishTask_index] at hc
        exact absurd ⟨h, hc⟩ (hp.1 q hq t'.index)
      · rw [if_neg h] at hc ⊢
        exact hr t' ht' q (List.mem_cons_of_mem _ hq) hc

/-- The task with its own lookup. -/
def done (E : Env) (resolver : Resolver) (headers : List Field) (cfg : Config) (t : VerifyTask) : VerifyTask :=
  match taskKey E t with
  | some key => finishTask E headers cfg (lookUpRecords resolver key.1 key.2) t
  | none => t

/-- The task with the reply to its own lookup, where each lookup has a reply. -/
def doneBy (E : Env) (replies : Str × Str → Reply) (headers : List Field) (cfg : Config) (t : VerifyTask) :
    VerifyTask :=
  match taskKey E t with
  | some key => finishTask E headers cfg (lookUpRecords (fun _ => replies key) key.1 key.2) t
  | none => t

/-- The results of the lookups, where each lookup has a reply. -/
def replied (replies : Str × Str → Reply) (lookups : List Lookup) : List (Str × List Nat × QueryResult) :=
  lookups.map fun l => (queryName l.1.1 l.1.2, l.2, lookUpRecords (fun _ => replies l.1) l.1.1 l.1.2)

/-- There is one lookup for every key, and a task has the reply to its own lookup. -/
theorem replied_spec (order : OrderLaw E.lookupOrder) (tasks : List VerifyTask)
    (hr : ∀ t ∈ tasks, t.status = .inProgress → Ready E t) (hn : (tasks.map (·.index)).Nodup) :
    ∃ m, addLookups E [] tasks = some m ∧ ((E.lookupOrder m).map (·.1)).Nodup ∧
      (∀ k, k ∈ (E.lookupOrder m).map (·.1) ↔ ∃ t ∈ tasks, taskKey E t = some k) ∧
      ∀ replies,
        (∀ t ∈ tasks, ∀ q ∈ replied replies (E.lookupOrder m), q.2.1.contains t.index = true → Ready E t) ∧
        (replied replies (E.lookupOrder m)).Pairwise
          (fun q q' => ∀ i, ¬ (q.2.1.contains i = true ∧ q'.2.1.contains i = true)) ∧
        ∀ t ∈ tasks, ((replied replies (E.lookupOrder m)).find? fun q => q.2.1.contains t.index).map (·.2.2) =
          (taskKey E t).map fun k => lookUpRecords (fun _ => replies k) k.1 k.2 := by
  obtain ⟨m, h1, h2, h3, h4⟩ := addLookups_spec tasks hr [] (by simp) (by simp)
  have hperm := order m
  have hsame : ∀ t ∈ tasks, ∀ t' ∈ tasks, t.index = t'.index → t = t' := by
    intro t ht t' ht' e
    clear h1 h4 hr
    induction tasks with
    | nil => simp at ht
    | cons a l ih =>
      simp only [List.map_cons, List.nodup_cons, List.mem_map, not_exists, not_and] at hn
      rcases List.mem_cons.1 ht with e1 | h
      · rcases List.mem_cons.1 ht' with e2 | h'
        · rw [e1, e2]
        · exact absurd (by rw [← e, e1]) (hn.1 t' h')
      · rcases List.mem_cons.1 ht' with e2 | h'
        · exact absurd (by rw [e, e2]) (hn.1 t h)
        · exact ih hn.2 h h'
  have hhas : ∀ k j, HasIndex m k j ↔ ∃ t ∈ tasks, taskKey E t = some k ∧ t.index = j := by
    intro k j
    rw [h4]
    simp [HasIndex]
  -- an entry that has the index of a task has the key of the task
  have hentry : ∀ t ∈ tasks, ∀ e ∈ m, t.index ∈ e.2 → taskKey E t = some e.1 := by
    intro t ht e he hi
    obtain ⟨t', ht', hk, hj⟩ := (hhas e.1 t.index).1 ⟨e.2, he, hi⟩
    rw [hsame t ht t' ht' hj.symm]
    exact hk
  refine ⟨m, h1, (hperm.map _).nodup_iff.2 h2, ?_, ?_⟩
  · intro k
    rw [(hperm.map _).mem_iff]
    constructor
    · intro hk
      rw [List.mem_map] at hk
      obtain ⟨⟨k', is⟩, he, rfl⟩ := hk
      have hne := h3 _ he
      cases is with
      | nil => simp at hne
      | cons i is =>
        obtain ⟨t, ht, hkey, _⟩ := (hhas k' i).1 ⟨_, he, by simp⟩
        exact ⟨t, ht, hkey⟩
    · rintro ⟨t, ht, hk⟩
      obtain ⟨is, he, _⟩ := (hhas k t.index).2 ⟨t, ht, hk, rfl⟩
      rw [List.mem_map]
      exact ⟨_, he, rfl⟩
  · intro replies
    refine ⟨?_, ?_, ?_⟩
    · intro t ht q hq hi
      unfold replied at hq
      rw [List.mem_map] at hq
      obtain ⟨e, he, rfl⟩ := hq
      simp only [List.contains_iff_mem] at hi
      exact hr t ht (taskKey_status (hentry t ht e (hperm.mem_iff.1 he) hi))
    · unfold replied
      rw [List.pairwise_map]
      have hnd : ((E.lookupOrder m).map (·.1)).Nodup := (hperm.map _).nodup_iff.2 h2
      unfold List.Nodup at hnd
      rw [List.pairwise_map] at hnd
      refine List.Pairwise.imp_of_mem ?_ hnd
      intro e e' he he' hne i hi
      simp only [List.contains_iff_mem] at hi
      obtain ⟨t, ht, hk, hj⟩ := (hhas e.1 i).1 ⟨e.2, hperm.mem_iff.1 he, hi.1⟩
      obtain ⟨t', ht', hk', hj'⟩ := (hhas e'.1 i).1 ⟨e'.2, hperm.mem_iff.1 he', hi.2⟩
      rw [hsame t ht t' ht' (hj.trans hj'.symm), hk'] at hk
      injection hk with hk
      exact hne hk.symm
    · intro t ht
      cases hf : (replied replies (E.lookupOrder m)).find? fun q => q.2.1.contains t.index with
      | some q =>
        have hq := List.mem_of_find?_eq_some hf
        have hi := List.find?_some hf
        unfold replied at hq
        rw [List.mem_map] at hq
        obtain ⟨e, he, rfl⟩ := hq
        simp only [List.contains_iff_mem] at hi
        rw [hentry t ht e (hperm.mem_iff.1 he) hi]
        rfl
      | none =>
        cases hk : taskKey E t with
        | none => rfl
        | some k =>
          exfalso
          obtain ⟨is, he, hi⟩ := (hhas k t.index).2 ⟨t, ht, hk, rfl⟩
          rw [List.find?_eq_none] at hf
          refine hf (queryName k.1 k.2, is, lookUpRecords (fun _ => replies k) k.1 k.2) ?_ ?_
          · unfold replied
            rw [List.mem_map]
            exact ⟨_, hperm.mem_iff.2 he, rfl⟩
          · simpa [List.contains_iff_mem] using hi

/-- All tasks are verified each with the reply to its own lookup, whatever the order of the
lookups, and there is one lookup for every key. -/
theorem verifyReplied_eq (order : OrderLaw E.lookupOrder) (headers : List Field) (cfg : Config)
    (tasks : List VerifyTask) (hr : ∀ t ∈ tasks, t.status = .inProgress → Ready E t)
    (hn : (tasks.map (·.index)).Nodup) :
    ∃ m, addLookups E [] tasks = some m ∧ ((E.lookupOrder m).map (·.1)).Nodup ∧
      (∀ k, k ∈ (E.lookupOrder m).map (·.1) ↔ ∃ t ∈ tasks, taskKey E t = some k) ∧
      ∀ replies, verifyResults E headers cfg tasks (replied replies (E.lookupOrder m)) =
        some (tasks.map (doneBy E replies headers cfg)) := by
  obtain ⟨m, h1, h2, h3, h4⟩ := replied_spec order tasks hr hn
  refine ⟨m, h1, h2, h3, fun replies => ?_⟩
  obtain ⟨g1, g2, g3⟩ := h4 replies
  rw [verifyResults_eq headers cfg (replied replies (E.lookupOrder m)) tasks g1 g2]
  simp only [Option.some.injEq]
  apply List.map_congr_left
  intro t ht
  have := g3 t ht
  unfold afterQueries doneBy
  cases hf : (replied replies (E.lookupOrder m)).find? fun q => q.2.1.contains t.index with
  | some q =>
    cases hk : taskKey E t with
    | none => rw [hf, hk] at this; cases this
    | some k =>
      rw [hf, hk] at this
      simp only [Option.map_some, Option.some.injEq] at this
      simp only [this]
  | none =>
    cases hk : taskKey E t with
    | none => rfl
    | some k => rw [hf, hk] at this; cases this

/-- The reply of a resolver to a lookup. -/
def replyOf (resolver : Resolver) (key : Str × Str) : Reply := resolver (queryName key.1 key.2)

theorem replied_of (resolver : Resolver) (lookups : List Lookup) :
    spawnAll E resolver lookups = replied (replyOf resolver) (E.lookupOrder lookups) := rfl

theorem doneBy_of (resolver : Resolver) (headers : List Field) (cfg : Config) :
    doneBy E (replyOf resolver) headers cfg = done E resolver headers cfg := rfl

/-- All tasks are verified each with its own lookup, whatever the order of the
lookups, and one query is made for every key. -/
theorem verifyAll_eq (order : OrderLaw E.lookupOrder) (resolver : Resolver) (headers : List Field) (cfg : Config)
    (tasks : List VerifyTask) (hr : ∀ t ∈ tasks, t.status = .inProgress → Ready E t)
    (hn : (tasks.map (·.index)).Nodup) :
    ∃ keys : List (Str × Str), keys.Nodup ∧ (∀ k, k ∈ keys ↔ ∃ t ∈ tasks, taskKey E t = some k) ∧
      verifyAll E resolver headers cfg tasks =
        some (tasks.map (done E resolver headers cfg), keys.map fun k => queryName k.1 k.2) := by
  obtain ⟨m, h1, h2, h3, h4⟩ := verifyReplied_eq order headers cfg tasks hr hn
  refine ⟨_, h2, h3, ?_⟩
  rw [verifyAll, spawn, h1]
  simp only [Option.map_some]
  rw [replied_of, h4, doneBy_of]
  simp only [replied, List.map_map]
  rfl

end Dkim
