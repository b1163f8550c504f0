import Verif.Model.Verifier

/-!
# The time for which the verifier waits

Model of the waiting in `/repo/src/verifier/query.rs:53-90` and its callers. `Model/Verifier`
leaves out how long a lookup takes; here a lookup takes the time of its reply, or never ends.
Time passes only in lookups.
-/

namespace Dkim

variable (E : Env)

/-- A DNS resolver that may leave a question unanswered for ever. -/
abbrev SlowResolver := Str → Option Reply

/-- What becomes of a future: it is ready after a time (in milliseconds), or it is pending for
ever, with the names that had been asked. -/
inductive Waiting (α : Type)
  | ends (time : Nat) (result : α)
  | forever (asked : List Str)

/-- verifier/query.rs:59-86: the loop over the lookups, where each is awaited (line 76) before
the next one begins. `time` is the time that has passed, `set` the results so far, each with the
name that was asked. The timeout (lines 64, 78-81) is not applied. -/
def awaitAll (resolver : SlowResolver) (time : Nat) (set : List (Str × List Nat × QueryResult)) :
    List Lookup → Waiting (List (Str × List Nat × QueryResult))
  | [] => .ends time set
  | ((domain, selector), indexes) :: rest =>
    match resolver (queryName domain selector) with
    | none => .forever (set.map (·.1) ++ [queryName domain selector])
    | some reply =>
      awaitAll resolver (time + reply.delay)
        (set ++ [(queryName domain selector, indexes, lookUpRecords (fun _ => reply) domain selector)]) rest

/-- verifier/header.rs:143-173 `verify_all` with verifier/query.rs:140-158 `Queries::spawn`;
`none` is a panic. -/
def verifyAllTimed (resolver : SlowResolver) (headers : List Field) (cfg : Config) (tasks : List VerifyTask) :
    Option (Waiting (List VerifyTask × List Str)) :=
  match addLookups E [] tasks with
  | none => none
  | some lookups =>
    match awaitAll resolver 0 [] (E.lookupOrder lookups) with
    | .forever asked => some (.forever asked)
    | .ends time queries =>
      match verifyResults E headers cfg tasks queries with
      | none => none
      | some tasks => some (.ends time (tasks, queries.map (·.1)))

/-- verifier/mod.rs:602-645 `verify_header`: as `verifyHeader`, with the time after which it
ends; outer `none` is a panic. -/
def verifyHeaderTimed (resolver : SlowResolver) (headers : List Field) (cfg : Config) (clock : Nat → Int) :
    Option (Waiting (Option Verifier × List Str)) :=
  match findSignatures E headers cfg clock with
  | none => none
  | some tasks =>
    if tasks.isEmpty then some (.ends 0 (none, []))
    else
      match verifyAllTimed E resolver headers cfg tasks with
      | none => none
      | some (.forever asked) => some (.forever asked)
      | some (.ends time (tasks, asked)) =>
        match collectTasks E tasks with
        | none => none
        | some (tasks, keys) =>
          some (.ends time
            (some ⟨tasks, BodyHasher.build cfg.forbidUnsignedContent (E.keySet keys)⟩, asked))

end Dkim
