import Verif.Proofs.Asserts
import Verif.Proofs.FieldText
import Verif.Proofs.Sign

/-! # Lemmas: debug assertions, verifying and signing -/

namespace Dkim
open Spec

variable {E : Env}

/-! ## Deleting the value of `b=` -/

theorem vchar_not_fws {x : Char} (h : Rfc5322.VChar x) : ¬ fwsChar x := by
  rintro (rfl | rfl | rfl | rfl) <;> exact absurd h (by unfold Rfc5322.VChar; decide)

theorem unstructured_split {a b : Str} {x : Char} (hx : Rfc5322.VChar x)
    (h : Rfc5322.Unstructured (a ++ x :: b)) :
    Rfc5322.Unstructured b ∧ ∀ b', Rfc5322.Unstructured b' → Rfc5322.Unstructured (a ++ x :: b') := by
  generalize e : a ++ x :: b = t at h
  induction h generalizing a with
  | blank w hw =>
    exfalso
    have h1 : x ∈ w := by rw [← e]; simp
    rcases hw x h1 with rfl | rfl <;> exact absurd hx (by unfold Rfc5322.VChar; decide)
  | more f c s hf hc hs ih =>
    rcases List.append_eq_append_iff.1 e with ⟨a', e1, e2⟩ | ⟨c', e1, e2⟩
    · cases a' with
      | nil =>
        obtain ⟨rfl, rfl⟩ := List.cons.inj e2
        rw [List.append_nil] at e1
        subst e1
        exact ⟨hs, fun b' hb => .more _ _ _ hf hc hb⟩
      | cons d a' =>
        exfalso
        obtain ⟨rfl, _⟩ := List.cons.inj e2
        have : x ∈ f := by rw [e1]; simp
        rcases hf with rfl | hf
        · simp at this
        · exact vchar_not_fws hx (fws_chars hf _ this)
    · cases c' with
      | nil =>
        obtain ⟨rfl, rfl⟩ := List.cons.inj e2
        rw [List.append_nil] at e1
        subst e1
        exact ⟨hs, fun b' hb => .more _ _ _ hf hc hb⟩
      | cons d a' =>
        obtain ⟨rfl, e3⟩ := List.cons.inj e2
        subst e1
        obtain ⟨g1, g2⟩ := ih e3.symm
        refine ⟨g1, fun b' hb => ?_⟩
        have := Rfc5322.Unstructured.more f c _ hf hc (g2 b' hb)
        simpa using this

theorem unstructured_delete {q val post : Str} (hp : post = [] ∨ ∃ r, post = ';' :: r)
    (h : Rfc5322.Unstructured (q ++ ['='] ++ val ++ post)) : Rfc5322.Unstructured (q ++ ['='] ++ post) := by
  have e : q ++ ['='] ++ val ++ post = q ++ '=' :: (val ++ post) := by simp
  rw [e] at h
  obtain ⟨h1, h2⟩ := unstructured_split (by unfold Rfc5322.VChar; decide) h
  rw [List.append_assoc]
  refine h2 post ?_
  rcases hp with rfl | ⟨r, rfl⟩
  · exact .blank [] (by simp)
  · have hv : Rfc5322.VChar ';' := by unfold Rfc5322.VChar; decide
    exact .more [] ';' r (.inl rfl) hv (unstructured_split hv h1).1

theorem Cut.pre_end {pre val post : Str} (h : Cut pre val post) : ∃ q, pre = q ++ ['='] := by
  induction h with
  | here p val post h1 =>
    obtain ⟨f1, f2, _, _, rfl⟩ := h1
    exact ⟨_, rfl⟩
  | next seg pre val post _ _ _ ih =>
    obtain ⟨q, rfl⟩ := ih
    exact ⟨seg ++ ';' :: q, by simp⟩

/-- The text without the value of `b=` is the body of a header field, if the text is. -/
theorem makeOriginal_validBody {txt : Str} (h : ValidBody (utf8 txt)) : ValidBody (utf8 (makeOriginal txt)) := by
  rcases makeOriginal_spec txt with ⟨pre, val, post, rfl, h2, h3⟩ | ⟨_, h3⟩
  · rw [validBody_unstructured] at h ⊢
    obtain ⟨q, rfl⟩ := h2.pre_end
    rw [h3]
    exact unstructured_delete h2.post_start h
  · rwa [h3]

/-! ## Verifying -/

theorem mem_enumFrom {α : Type} {n : Nat} {l : List α} {p : Nat × α} (h : p ∈ enumFrom n l) : p.2 ∈ l := by
  induction l generalizing n with
  | nil => cases h
  | cons a l ih =>
    rcases List.mem_cons.1 h with rfl | h
    · simp
    · exact List.mem_cons_of_mem _ (ih h)

theorem computeDataHashD_eq (hash : HashFn) (hashAlg : HashAlg) (alg : CanonAlg) {headers : List Field}
    (hh : TypedHeaders headers) (selected : List Str) (name : Str) {value : Str} (hv : ValidBody (utf8 value)) :
    computeDataHashD hash hashAlg alg headers selected name value =
      some (computeDataHash hash hashAlg alg headers selected name value) := by
  unfold computeDataHashD
  have h1 : ∀ p ∈ enumFrom 0 headers.reverse, ValidBody p.2.body := fun p hp =>
    (hh p.2 (List.mem_reverse.1 (mem_enumFrom hp))).2
  rw [canonHeadersLoopD_eq alg h1, canonHeaderD_eq alg name hv]
  rfl

theorem performVerificationD_eq {headers : List Field} (hh : TypedHeaders headers) {f : Field} (hf : f ∈ headers)
    {value : Str} (hv : fromUtf8 f.body = some value) (key : VerifyingKey E.crypto) (sig : DkimSignature)
    (name : Str) :
    performVerificationD E headers key sig name value = some (performVerification E headers key sig name value) := by
  have hb : ValidBody (utf8 value) := by
    rw [← (fromUtf8_eq_some _ _).1 hv]; exact (hh f hf).2
  unfold performVerificationD
  rw [makeOriginalAt_eq]
  simp only []
  rw [computeDataHashD_eq _ _ _ hh _ _ (makeOriginal_validBody hb)]
  rfl

/-- The field of a task is one of the header. -/
def TaskFrom (headers : List Field) (t : VerifyTask) : Prop :=
  ∀ name value, t.headerName = some name → t.headerValue = some value →
    ∃ f ∈ headers, fromUtf8 f.body = some value

theorem startTaskD_eq (headers : List Field) (cfg : Config) (clock : Nat → Int) (index : Nat) (f : Field) :
    startTaskD E headers cfg clock index f = startTask E headers cfg clock index f := by
  unfold startTaskD startTask
  cases fromUtf8 f.body with
  | none => rfl
  | some value =>
    simp only [sigFromStrD_eq]
    cases sigFromStr E.idna E.pre value with
    | panic => rfl
    | err e => rfl
    | ok sig => simp only []; cases validateSignature E sig headers cfg (clock index) <;> rfl

theorem startTask_from {headers : List Field} {cfg : Config} {clock : Nat → Int} {index : Nat} {f : Field}
    {t : VerifyTask} (hf : f ∈ headers) (h : startTask E headers cfg clock index f = some t) :
    TaskFrom headers t := by
  unfold startTask at h
  intro name value hn hv
  split at h
  · simp only [Option.some.injEq] at h
    subst h
    cases hn
  · next v e =>
    split at h
    · cases h
    · simp only [Option.some.injEq] at h
      subst h
      cases hn
    · split at h
      · simp only [Option.some.injEq] at h
        subst h
        cases hn
      · simp only [Option.some.injEq] at h
        subst h
        cases hv
        exact ⟨f, hf, e⟩

theorem startTasksD_eq {headers : List Field} (cfg : Config) (clock : Nat → Int) {ps : List (Nat × Field)}
    (hp : ∀ p ∈ ps, p.2 ∈ headers) :
    startTasksD E headers cfg clock ps = startTasks E headers cfg clock ps ∧
      ∀ ts, startTasks E headers cfg clock ps = some ts → ∀ t ∈ ts, TaskFrom headers t := by
  induction ps with
  | nil =>
    refine ⟨rfl, fun ts h t ht => ?_⟩
    cases h
    cases ht
  | cons p ps ih =>
    obtain ⟨index, f⟩ := p
    obtain ⟨ih1, ih2⟩ := ih fun q hq => hp q (by simp [hq])
    rw [startTasksD, startTasks, startTaskD_eq, ih1]
    cases e : startTask E headers cfg clock index f with
    | none => exact ⟨rfl, by simp⟩
    | some t =>
      cases e2 : startTasks E headers cfg clock ps with
      | none => exact ⟨rfl, by simp⟩
      | some ts =>
        refine ⟨rfl, fun ts' h t' ht => ?_⟩
        simp only [Option.some.injEq] at h
        subst h
        rcases List.mem_cons.1 ht with rfl | ht
        · exact startTask_from (hp (index, f) (by simp)) e
        · exact ih2 ts e2 t' ht

theorem parseAndCacheD_eq (r : CachedRecord) : r.parseAndCacheD E = r.parseAndCache E := by
  unfold CachedRecord.parseAndCacheD CachedRecord.parseAndCache
  cases r with
  | parsed r => rfl
  | unparsed r =>
    cases r with
    | error e => rfl
    | ok s => simp only [recordFromStrD_eq]; cases recordFromStr E.lossy E.pre s <;> rfl

theorem tryRecordD_eq {headers : List Field} (hh : TypedHeaders headers) (cfg : Config) (sig : DkimSignature)
    {task : VerifyTask} (ht : TaskFrom headers task) (record : Except RecordError KeyRecord) :
    tryRecordD E headers cfg sig task record = tryRecord E headers cfg sig task record := by
  unfold tryRecordD tryRecord
  cases record with
  | error e => rfl
  | ok record =>
    simp only []
    cases validateKeyRecord E sig.algorithm.keyType sig.algorithm.hashAlg record sig.domain sig.identity with
    | panic => rfl
    | err e => rfl
    | ok x =>
      simp only []
      cases readVerifyingKey E sig.algorithm.keyType record.keyData with
      | error e => rfl
      | ok key =>
        simp only []
        cases keySizeAccepted E key cfg with
        | false => rfl
        | true =>
          simp only [Bool.not_true, Bool.false_eq_true, if_false]
          cases hn : task.headerName with
          | none => rfl
          | some name =>
            cases hv : task.headerValue with
            | none => rfl
            | some value =>
              obtain ⟨f, hf, hu⟩ := ht name value hn hv
              simp only [performVerificationD_eq hh hf hu]
              cases performVerification E headers key sig name value <;> rfl

theorem tryRecord_from {headers : List Field} {cfg : Config} {sig : DkimSignature}
    {task task' : VerifyTask} {record : Except RecordError KeyRecord} {b : Bool} (ht : TaskFrom headers task)
    (h : tryRecord E headers cfg sig task record = some (task', b)) : TaskFrom headers task' := by
  have key : task'.headerName = task.headerName ∧ task'.headerValue = task.headerValue := by
    unfold tryRecord at h
    repeat' split at h
    all_goals first
      | cases h
      | skip
    all_goals exact ⟨rfl, rfl⟩
  intro name value hn hv
  exact ht name value (key.1 ▸ hn) (key.2 ▸ hv)

theorem tryRecordsD_eq {headers : List Field} (hh : TypedHeaders headers) (cfg : Config) (sig : DkimSignature)
    {task : VerifyTask} (ht : TaskFrom headers task) (rs : List CachedRecord) :
    tryRecordsD E headers cfg sig task rs = tryRecords E headers cfg sig task rs ∧
      ∀ task' rs', tryRecords E headers cfg sig task rs = some (task', rs') → TaskFrom headers task' := by
  induction rs generalizing task with
  | nil =>
    refine ⟨rfl, fun task' rs' h => ?_⟩
    simp only [tryRecords, Option.some.injEq, Prod.mk.injEq] at h
    exact h.1 ▸ ht
  | cons r rs ih =>
    rw [tryRecordsD, tryRecords, parseAndCacheD_eq]
    cases r.parseAndCache E with
    | none => exact ⟨rfl, by simp⟩
    | some p =>
      obtain ⟨r, record⟩ := p
      simp only [tryRecordD_eq hh cfg sig ht]
      cases e : tryRecord E headers cfg sig task record with
      | none => exact ⟨rfl, by simp⟩
      | some q =>
        obtain ⟨task1, b⟩ := q
        have ht1 := tryRecord_from ht e
        cases b with
        | true =>
          refine ⟨rfl, fun task' rs' h => ?_⟩
          simp only [Option.some.injEq, Prod.mk.injEq] at h
          exact h.1 ▸ ht1
        | false =>
          obtain ⟨ih1, ih2⟩ := ih ht1
          simp only [ih1]
          cases e2 : tryRecords E headers cfg sig task1 rs with
          | none => exact ⟨rfl, by simp⟩
          | some q =>
            obtain ⟨task2, rs2⟩ := q
            refine ⟨rfl, fun task' rs' h => ?_⟩
            simp only [Option.some.injEq, Prod.mk.injEq] at h
            exact h.1 ▸ ih2 task2 rs2 e2

theorem verifyTaskD_eq {headers : List Field} (hh : TypedHeaders headers) (cfg : Config)
    {task : VerifyTask} (ht : TaskFrom headers task) (lookup : Except VerificationError (List CachedRecord)) :
    verifyTaskD E headers cfg task lookup = verifyTask E headers cfg task lookup ∧
      ∀ task' l, verifyTask E headers cfg task lookup = some (task', l) → TaskFrom headers task' := by
  unfold verifyTaskD verifyTask
  cases task.signature with
  | none => exact ⟨rfl, by simp⟩
  | some sig =>
    cases lookup with
    | error e =>
      refine ⟨rfl, fun task' l h => ?_⟩
      simp only [Option.some.injEq, Prod.mk.injEq] at h
      rw [← h.1]
      exact ht
    | ok records =>
      simp only []
      cases records.isEmpty with
      | true => exact ⟨rfl, by simp⟩
      | false =>
        simp only [Bool.false_eq_true, if_false]
        obtain ⟨h1, h2⟩ := tryRecordsD_eq (E := E) hh cfg sig ht records
        rw [h1]
        cases e : tryRecords E headers cfg sig task records with
        | none => exact ⟨rfl, by simp⟩
        | some q =>
          obtain ⟨task1, rs1⟩ := q
          refine ⟨rfl, fun task' l h => ?_⟩
          simp only [Option.some.injEq, Prod.mk.injEq] at h
          exact h.1 ▸ h2 task1 rs1 e

theorem verifySelectedD_eq {headers : List Field} (hh : TypedHeaders headers) (cfg : Config)
    (indexes : List Nat) {ts : List VerifyTask} (ht : ∀ t ∈ ts, TaskFrom headers t)
    (lookup : Except VerificationError (List CachedRecord)) :
    verifySelectedD E headers cfg indexes lookup ts = verifySelected E headers cfg indexes lookup ts ∧
      ∀ ts', verifySelected E headers cfg indexes lookup ts = some ts' → ∀ t ∈ ts', TaskFrom headers t := by
  induction ts generalizing lookup with
  | nil =>
    refine ⟨rfl, fun ts h t ht => ?_⟩
    cases h
    cases ht
  | cons t ts ih =>
    have ih := ih fun x hx => ht x (by simp [hx])
    rw [verifySelectedD, verifySelected]
    cases indexes.contains t.index with
    | true =>
      simp only [if_true]
      obtain ⟨h1, h2⟩ := verifyTaskD_eq (E := E) hh cfg (ht t (by simp)) lookup
      rw [h1]
      cases e : verifyTask E headers cfg t lookup with
      | none => exact ⟨rfl, by simp⟩
      | some q =>
        obtain ⟨t1, l1⟩ := q
        obtain ⟨ih1, ih2⟩ := ih l1
        simp only [ih1]
        cases e2 : verifySelected E headers cfg indexes l1 ts with
        | none => exact ⟨rfl, by simp⟩
        | some ts1 =>
          refine ⟨rfl, fun ts' h x hx => ?_⟩
          simp only [Option.some.injEq] at h
          subst h
          rcases List.mem_cons.1 hx with rfl | hx
          · exact h2 _ _ e
          · exact ih2 _ e2 x hx
    | false =>
      simp only [Bool.false_eq_true, if_false]
      obtain ⟨ih1, ih2⟩ := ih lookup
      rw [ih1]
      cases e2 : verifySelected E headers cfg indexes lookup ts with
      | none => exact ⟨rfl, by simp⟩
      | some ts1 =>
        refine ⟨rfl, fun ts' h x hx => ?_⟩
        simp only [Option.some.injEq] at h
        subst h
        rcases List.mem_cons.1 hx with rfl | hx
        · exact ht _ (by simp)
        · exact ih2 _ e2 x hx

theorem verifyResultsD_eq {headers : List Field} (hh : TypedHeaders headers) (cfg : Config)
    (qs : List (Str × List Nat × QueryResult)) {ts : List VerifyTask} (ht : ∀ t ∈ ts, TaskFrom headers t) :
    verifyResultsD E headers cfg ts qs = verifyResults E headers cfg ts qs := by
  induction qs generalizing ts with
  | nil => rfl
  | cons q qs ih =>
    obtain ⟨n, indexes, result⟩ := q
    rw [verifyResultsD, verifyResults]
    obtain ⟨h1, h2⟩ := verifySelectedD_eq (E := E) hh cfg indexes ht (mapLookupResult result)
    rw [h1]
    cases e : verifySelected E headers cfg indexes (mapLookupResult result) ts with
    | none => rfl
    | some ts1 => exact ih (h2 ts1 e)

theorem verifyHeaderD_eq {headers : List Field} (hh : TypedHeaders headers) (resolver : Resolver) (cfg : Config)
    (clock : Nat → Int) : verifyHeaderD E resolver headers cfg clock = verifyHeader E resolver headers cfg clock := by
  unfold verifyHeaderD verifyHeader findSignaturesD findSignatures
  obtain ⟨h1, h2⟩ := startTasksD_eq (E := E) (headers := headers) cfg clock
    (ps := ((enumFrom 0 headers).filter fun p => fieldNameEq p.2.name dkimSignatureName).take cfg.maxSignatures)
    (fun p hp => mem_enumFrom (List.mem_filter.1 (List.mem_of_mem_take hp)).1)
  rw [h1]
  cases e : startTasks E headers cfg clock
    (((enumFrom 0 headers).filter fun p => fieldNameEq p.2.name dkimSignatureName).take cfg.maxSignatures) with
  | none => rfl
  | some tasks =>
    have h3 : verifyAllD E resolver headers cfg tasks = verifyAll E resolver headers cfg tasks := by
      unfold verifyAllD verifyAll
      cases spawn E resolver tasks with
      | none => rfl
      | some qs =>
        simp only [verifyResultsD_eq hh cfg qs (h2 tasks e)]
        cases verifyResults E headers cfg tasks qs <;> rfl
    simp only [h3]
    cases tasks.isEmpty with
    | true => rfl
    | false =>
      simp only [Bool.false_eq_true, if_false]
      cases verifyAll E resolver headers cfg tasks with
      | none => rfl
      | some p =>
        obtain ⟨ts, asked⟩ := p
        simp only []
        cases collectTasks E ts <;> rfl

/-! ## Signing -/

theorem tagName_ascii {n : Str} (h : TagName n) : n.all isAscii = true := by
  obtain ⟨c, r, rfl, h1, h2⟩ := h
  rw [List.all_eq_true]
  intro d hd
  simp only [isAscii, decide_eq_true_eq]
  rcases List.mem_cons.1 hd with rfl | hd
  · omega
  · rcases h2 d hd with h | h | rfl
    · omega
    · omega
    · decide

theorem formatTagD_eq (fmt : Fmt) (i : Nat) {name : Str} (h : name.all isAscii = true) (value : Str) :
    formatTagD fmt i name value = some (formatTag fmt i name value) := by
  unfold formatTagD; rw [if_pos h]

theorem push?_bind {α : Type} (st : FmtState) (x : Option α) (f : α → Option (Str × Nat)) (g : α → Str × Nat)
    (h : ∀ a, f a = some (g a)) : st.push? (x.bind f) = st.push? (x.map g) := by
  cases x with
  | none => rfl
  | some a => rw [Option.bind_some, h, Option.map_some]

variable {ix : Idna} {u : UnsignedSig}

theorem formatNamedD_eq (hf : SigFine ix u) (len : Nat) (fmt : Fmt) (st : FmtState) {name : Str}
    (hn : name ∈ tagNamesUnsorted u) : formatNamedD ix u len fmt st name = formatNamed ix u len fmt st name := by
  have t : ∀ n ∈ [c!"a", c!"c", c!"d", c!"i", c!"l", c!"s", c!"t", c!"v", c!"x"], ∀ v,
      formatTagD fmt st.i n v = some (formatTag fmt st.i n v) :=
    fun n hn v => formatTagD_eq fmt st.i ((by decide : ∀ n ∈
      [c!"a", c!"c", c!"d", c!"i", c!"l", c!"s", c!"t", c!"v", c!"x"], n.all isAscii = true) n hn) v
  have tc : formatTagCD fmt st.i u.canonicalization = some (formatTagC fmt st.i u.canonicalization) := by
    unfold formatTagCD formatTagC
    cases u.canonicalization.header <;> cases u.canonicalization.body
    · rfl
    all_goals exact t c!"c" (by decide) _
  have th : formatTagHD fmt st.i u.signedHeaders = formatTagH fmt st.i u.signedHeaders := by
    unfold formatTagHD
    rw [if_neg]
    simpa using hf.headers_ne
  have tz : name = c!"z" → formatTagZD fmt st.i u.copiedHeaders = formatTagZ fmt st.i u.copiedHeaders := by
    rintro rfl
    unfold formatTagZD
    rw [if_neg]
    intro he
    rw [tagNamesUnsorted_eq, List.mem_append, mem_fixedNames] at hn
    rcases hn with hn | hn
    · revert hn
      simp [List.isEmpty_iff.1 he]
    · obtain ⟨x, hx, e⟩ := List.mem_map.1 hn
      have := (hf.ext x hx).2.2
      rw [e] at this
      cases this
  have te : st.push? ((u.extTags.find? fun t => t.1 == name).bind fun t => formatTagD fmt st.i t.1 t.2) =
      st.push? ((u.extTags.find? fun t => t.1 == name).map fun t => formatTag fmt st.i t.1 t.2) := by
    cases e : u.extTags.find? fun t => t.1 == name with
    | none => rfl
    | some x =>
      rw [Option.bind_some, formatTagD_eq _ _ (tagName_ascii (hf.ext x (List.mem_of_find?_eq_some e)).1),
        Option.map_some]
  unfold formatNamedD formatNamed
  rw [t c!"a" (by decide), t c!"v" (by decide), tc, th, te,
    push?_bind st _ _ _ (t c!"d" (by decide)), push?_bind st _ _ _ (t c!"i" (by decide)),
    push?_bind st _ _ _ (t c!"s" (by decide)),
    push?_bind st _ (fun n => formatTagD fmt st.i c!"l" (natToStr n)) _ (fun n => t c!"l" (by decide) _),
    push?_bind st _ (fun n => formatTagD fmt st.i c!"t" (natToStr n)) _ (fun n => t c!"t" (by decide) _),
    push?_bind st _ (fun n => formatTagD fmt st.i c!"x" (natToStr n)) _ (fun n => t c!"x" (by decide) _)]
  by_cases hz : name = c!"z"
  · rw [tz hz]; rfl
  · simp only [if_neg hz]; rfl

theorem formatLoopD_eq (hf : SigFine ix u) (len width : Nat) (indent : Str) (ascii : Bool) (names : List Str)
    (st : FmtState) (hn : ∀ n ∈ names, n ∈ tagNamesUnsorted u) :
    formatLoopD ix u len width indent ascii st names = formatLoop ix u len width indent ascii st names := by
  induction names generalizing st with
  | nil => rfl
  | cons n ns ih =>
    rw [formatLoopD, formatLoop, formatNamedD_eq hf _ _ _ (hn n (by simp))]
    cases formatNamed ix u len ⟨width, indent, ns.isEmpty, ascii⟩ st n with
    | none => rfl
    | some st => exact ih st fun m hm => hn m (by simp [hm])

theorem formatWithoutSignatureD_eq {sortBy : Comparator → List Str → List Str} (hs : SortLaw sortBy)
    (hf : SigFine ix u) (format : OutputFormat) (len : Nat) :
    formatWithoutSignatureD ix sortBy u format len = formatWithoutSignature ix sortBy u format len := by
  unfold formatWithoutSignatureD formatWithoutSignature
  simp only []
  rw [formatLoopD_eq hf _ _ _ _ _ _ fun n hn => (computeTagNames_perm hs u format.tagOrder).mem_iff.1 hn]
  cases formatLoop ix u len format.lineWidth format.indentation format.asciiOnly
      ⟨[], byteLen format.headerName + 1, none⟩ (computeTagNames sortBy u format.tagOrder) with
  | none => rfl
  | some st => cases st.insertion <;> rfl

theorem byteLen_append_le (a b : Str) : byteLen a ≤ byteLen (a ++ b) := by
  have h1 := utf8_length a
  have h2 := utf8_length (a ++ b)
  rw [utf8_append, List.length_append] at h2
  omega

theorem produceSignatureD_eq (law : IdnaLaw E.idna) (hs : SortLaw E.sortBy) {u : UnsignedSig}
    (hf : SigFine E.idna u) (key : SigningKey E.crypto) (format : OutputFormat)
    (hi : GoodIndent format.indentation) {headers : List Field} (hh : TypedHeaders headers) :
    produceSignatureD u key format headers = produceSignature u key format headers := by
  unfold produceSignatureD produceSignature
  rw [formatWithoutSignatureD_eq hs hf]
  obtain ⟨ns1, ns2, t1, lead, t2, h1, h2, h3⟩ :=
    formatWithoutSignature_spec law hs hf format (estimateBTagLength key.signatureLength)
  rw [h1]
  simp only []
  have hv : ValidBody (utf8 (t1 ++ lead ++ c!"b=" ++ t2)) := by
    have := (formatted_folded law hf hi.fws (.inl rfl) (h3 [])).validBody
    simpa using this
  rw [computeDataHashD_eq _ _ _ hh _ _ hv]
  simp only []
  split
  · rfl
  · cases signHash key u.algorithm.hashAlg
      (computeDataHash E.hash u.algorithm.hashAlg u.canonicalization.header headers u.signedHeaders
        format.headerName (t1 ++ lead ++ c!"b=" ++ t2)) with
    | none => rfl
    | some sig =>
      simp only []
      unfold insertSignatureDataD
      rw [if_pos (byteLen_append_le _ _)]
      cases insertSignatureData (t1 ++ lead ++ c!"b=" ++ t2) (byteLen (t1 ++ lead ++ c!"b=")) format.headerName sig
        format.lineWidth format.indentation <;> rfl

theorem unsignedSig_change (r : SignRequest E) (headers : List Field) (now : Nat) (bh bh' : Bytes)
    (bl bl' : Option Nat) :
    unsignedSig r headers now bh bl =
      (unsignedSig r headers now bh' bl').map fun u => { u with bodyHash := bh, bodyLength := bl } := by
  unfold unsignedSig
  simp only []
  split
  · rfl
  · split <;> rfl

theorem unsignedSig_fine {r : SignRequest E} {headers : List Field} (ht : TypedRequest r) (ha : Accepted r)
    (hh : TypedHeaders headers) (hf : HasFrom headers) {now : Nat} {bh : Bytes} {bl : Option Nat}
    {u : UnsignedSig} (h : unsignedSig r headers now bh bl = some u) : SigFine E.idna u := by
  obtain ⟨n1, n2⟩ := namesToSign_fine ht ha hh hf
  rw [unsignedSig_change r headers now bh _ bl _,
    unsignedSig_eq [] now n1 (fun n hn => (n2 n hn).2), Option.map_some, Option.some.injEq] at h
  have hs := sigData_fine ht ha hh hf [] now
  subst h
  exact ⟨hs.domain, hs.selector, hs.identity, hs.headers_ne, hs.headers, hs.copied, hs.ext_nodup, hs.ext⟩

theorem performSigningD_eq (law : IdnaLaw E.idna) (hs : SortLaw E.sortBy) {r : SignRequest E}
    {headers : List Field} (ht : TypedRequest r) (ha : Accepted r) (hh : TypedHeaders headers)
    (hf : HasFrom headers) (results : BodyHashResults) (now : Nat) :
    performSigningD r headers results now = performSigning r headers results now := by
  unfold performSigningD performSigning
  cases requestKey r with
  | none => rfl
  | some key =>
    simp only []
    cases results.get key with
    | none => rfl
    | some x =>
      cases x with
      | error e => cases e <;> rfl
      | ok p =>
        obtain ⟨bodyHash, finalLen⟩ := p
        simp only []
        cases signedBodyLength r.bodyLength finalLen with
        | none => rfl
        | some bl =>
          simp only []
          cases e : unsignedSig r headers now bodyHash bl with
          | none => rfl
          | some u => exact produceSignatureD_eq law hs (unsignedSig_fine ht ha hh hf e) _ _ ha.indent hh

theorem signLoopD_eq (law : IdnaLaw E.idna) (hs : SortLaw E.sortBy) {headers : List Field}
    {rs : List (SignRequest E)} (ht : ∀ r ∈ rs, TypedRequest r) (ha : ∀ r ∈ rs, Accepted r)
    (hh : TypedHeaders headers) (hf : HasFrom headers) (results : BodyHashResults) (clock : Nat → Nat) (i : Nat) :
    signLoopD headers results clock i rs = signLoop headers results clock i rs := by
  induction rs generalizing i with
  | nil => rfl
  | cons r rs ih =>
    rw [signLoopD, signLoop, performSigningD_eq law hs (ht r (by simp)) (ha r (by simp)) hh hf,
      ih (fun x hx => ht x (by simp [hx])) (fun x hx => ha x (by simp [hx]))]
    cases performSigning r headers results (clock i) <;> rfl

theorem signD_eq (law : IdnaLaw E.idna) (hs : SortLaw E.sortBy) {headers : List Field}
    {rs : List (SignRequest E)} (ht : ∀ r ∈ rs, TypedRequest r) (hh : TypedHeaders headers)
    {s s' : Signer E} {ss : List Stance} {chunks : List Bytes} (h : prepareSigning E headers rs = .ok s)
    (hp : s.processBody chunks = some (s', ss)) (clock : Nat → Nat) : s'.signD clock = s'.sign clock := by
  have hd := (prepareSigning_decides law.toCaseLaw headers ht).ok_iff.1 ⟨s, h⟩
  rw [signingRules_iff] at hd
  obtain ⟨hf, _, _, hv⟩ := hd
  obtain ⟨h1, h2, _⟩ := prepareSigning_ok h
  have h3 : s'.tasks = s.tasks ∧ s'.headers = s.headers := by
    unfold Signer.processBody at hp
    split at hp
    · simp only [Option.some.injEq, Prod.mk.injEq] at hp
      rw [← hp.1]
      exact ⟨rfl, rfl⟩
    · cases hp
  unfold Signer.signD Signer.sign
  cases s'.bodyHasher.finish E.hash with
  | none => rfl
  | some results =>
    simp only [h3.1, h3.2, h1, h2]
    exact signLoopD_eq law hs ht (fun r hr => validRequest_accepted (hv r hr)) hh hf results clock 0

end Dkim
