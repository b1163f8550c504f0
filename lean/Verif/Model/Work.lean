import Verif.Model.Verifier

/-!
# The expensive steps of verification

The functions of verifier/header.rs that parse key records and check signatures, again, with
a list of these steps. (The suffix `W` stands for "work".)
-/

namespace Dkim

/-- A step: the text of a TXT record is parsed as a key record (verifier/header.rs:272), or
the signature in the header field at an index is checked with the key of a record
(verifier/header.rs:408, the call of `perform_verification`). -/
inductive Work
  | parse (txt : Str)
  | check (index : Nat) (record : KeyRecord)
deriving DecidableEq, Repr

variable (E : Env)

/-- verifier/header.rs:268-289 `parse_and_cache`. -/
def CachedRecord.parseAndCacheW :
    CachedRecord → Option ((CachedRecord × Except RecordError KeyRecord) × List Work)
  | .parsed r => some ((.parsed r, r), [])
  | .unparsed (.error _) => some ((.parsed (.error .recordFormat), .error .recordFormat), [])
  | .unparsed (.ok s) =>
    match recordFromStr E.lossy E.pre s with
    | .panic => none
    | .err e => some ((.parsed (.error e), .error e), [.parse s])
    | .ok r => some ((.parsed (.ok r), .ok r), [.parse s])

/-- verifier/header.rs:362-417: the body of the loop over the key records. -/
def tryRecordW (headers : List Field) (cfg : Config) (sig : DkimSignature) (task : VerifyTask)
    (record : Except RecordError KeyRecord) : Option ((VerifyTask × Bool) × List Work) :=
  match record with
  | .error e => some (({ task with status := .failed (.keyRecordFormat e), keyRecord := none }, false), [])
  | .ok record =>
    match validateKeyRecord E sig.algorithm.keyType sig.algorithm.hashAlg record sig.domain
        sig.identity with
    | .panic => none
    | .err e => some (({ task with status := .failed e, keyRecord := some record }, false), [])
    | .ok () =>
      match readVerifyingKey E sig.algorithm.keyType record.keyData with
      | .error e =>
        some (({ task with status := .failed (.verificationFailure e), keyRecord := some record }, false), [])
      | .ok key =>
        if !keySizeAccepted E key cfg then
          some (({ task with status := .failed (.policy .keyTooSmall), keyRecord := some record }, false), [])
        else
          match task.headerName, task.headerValue with
          | some name, some value =>
            if performVerification E headers key sig name value then
              some (({ task with status := .successful, keyRecord := some record }, true),
                [.check task.index record])
            else
              some (({ task with status := .failed (.verificationFailure .verificationFailure),
                                 keyRecord := some record }, false), [.check task.index record])
          | _, _ => none

/-- verifier/header.rs:355-417: the loop over the key records. -/
def tryRecordsW (headers : List Field) (cfg : Config) (sig : DkimSignature) :
    VerifyTask → List CachedRecord → Option ((VerifyTask × List CachedRecord) × List Work)
  | task, [] => some ((task, []), [])
  | task, r :: rest =>
    match r.parseAndCacheW E with
    | none => none
    | some ((r, record), w1) =>
      match tryRecordW E headers cfg sig task record with
      | none => none
      | some ((task, true), w2) => some ((task, r :: rest), w1 ++ w2)
      | some ((task, false), w2) =>
        match tryRecordsW headers cfg sig task rest with
        | none => none
        | some ((task, rest), w3) => some ((task, r :: rest), w1 ++ w2 ++ w3)

/-- verifier/header.rs:329-418 `verify_task`. -/
def verifyTaskW (headers : List Field) (cfg : Config) (task : VerifyTask)
    (lookup : Except VerificationError (List CachedRecord)) :
    Option ((VerifyTask × Except VerificationError (List CachedRecord)) × List Work) :=
  match task.signature with
  | none => none
  | some sig =>
    match lookup with
    | .error e => some (({ task with status := .failed e }, .error e), [])
    | .ok records =>
      if records.isEmpty then none
      else
        match tryRecordsW E headers cfg sig task records with
        | none => none
        | some ((task, records), w) => some ((task, .ok records), w)

/-- verifier/header.rs:161-169: the tasks selected by `indexes`. -/
def verifySelectedW (headers : List Field) (cfg : Config) (indexes : List Nat) :
    Except VerificationError (List CachedRecord) → List VerifyTask → Option (List VerifyTask × List Work)
  | _, [] => some ([], [])
  | lookup, t :: ts =>
    if indexes.contains t.index then
      match verifyTaskW E headers cfg t lookup with
      | none => none
      | some ((t, lookup), w1) =>
        match verifySelectedW headers cfg indexes lookup ts with
        | none => none
        | some (ts, w2) => some (t :: ts, w1 ++ w2)
    else
      match verifySelectedW headers cfg indexes lookup ts with
      | none => none
      | some (ts, w) => some (t :: ts, w)

/-- verifier/header.rs:154-170: the loop over the query results. -/
def verifyResultsW (headers : List Field) (cfg : Config) :
    List VerifyTask → List (Str × List Nat × QueryResult) → Option (List VerifyTask × List Work)
  | tasks, [] => some (tasks, [])
  | tasks, (_, indexes, result) :: rest =>
    match verifySelectedW E headers cfg indexes (mapLookupResult result) tasks with
    | none => none
    | some (tasks, w1) =>
      match verifyResultsW headers cfg tasks rest with
      | none => none
      | some (tasks, w2) => some (tasks, w1 ++ w2)

/-- verifier/header.rs:143-173 `verify_all`. -/
def verifyAllW (resolver : Resolver) (headers : List Field) (cfg : Config) (tasks : List VerifyTask) :
    Option ((List VerifyTask × List Str) × List Work) :=
  match spawn E resolver tasks with
  | none => none
  | some queries =>
    match verifyResultsW E headers cfg tasks queries with
    | none => none
    | some (tasks, w) => some ((tasks, queries.map (·.1)), w)

/-- verifier/mod.rs:602-645 `verify_header`. -/
def verifyHeaderW (resolver : Resolver) (headers : List Field) (cfg : Config) (clock : Nat → Int) :
    Option ((Option Verifier × List Str) × List Work) :=
  match findSignatures E headers cfg clock with
  | none => none
  | some tasks =>
    if tasks.isEmpty then some ((none, []), [])
    else
      match verifyAllW E resolver headers cfg tasks with
      | none => none
      | some ((tasks, asked), w) =>
        match collectTasks E tasks with
        | none => none
        | some (tasks, keys) =>
          some ((some ⟨tasks, BodyHasher.build cfg.forbidUnsignedContent (E.keySet keys)⟩, asked), w)

end Dkim
