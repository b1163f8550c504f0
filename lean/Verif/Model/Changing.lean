import Verif.Model.Waiting

/-!
# A DNS whose answers change

In `Model/Verifier` and `Model/Waiting` a resolver answers a name always in the same way. Here its
answers may depend on how many questions were asked before in the run, and thereby on time and on
all else that happens outside of the verifier. As before a question may remain without answer.
Otherwise this is `Model/Waiting` once more.
-/

namespace Dkim

variable (E : Env)

/-- verifier/lookup/mod.rs:36-54 `LookupTxt`: the reply to a name that is asked after a number of
other questions, or `none` if there never is one. -/
abbrev ChangingResolver := Nat → Str → Option Reply

/-- verifier/query.rs:59-86: as `awaitAll`. The number of questions that were asked before is the
number of results in `set`. -/
def awaitChanging (dns : ChangingResolver) (time : Nat) (set : List (Str × List Nat × QueryResult)) :
    List Lookup → Waiting (List (Str × List Nat × QueryResult))
  | [] => .ends time set
  | ((domain, selector), indexes) :: rest =>
    match dns set.length (queryName domain selector) with
    | none => .forever (set.map (·.1) ++ [queryName domain selector])
    | some reply =>
      awaitChanging dns (time + reply.delay)
        (set ++ [(queryName domain selector, indexes, lookUpRecords (fun _ => reply) domain selector)]) rest

/-- verifier/header.rs:143-173 `verify_all` with verifier/query.rs:140-158 `Queries::spawn`;
`none` is a panic. -/
def verifyAllChanging (dns : ChangingResolver) (headers : List Field) (cfg : Config)
    (tasks : List VerifyTask) : Option (Waiting (List VerifyTask × List Str)) :=
  match addLookups E [] tasks with
  | none => none
  | some lookups =>
    match awaitChanging dns 0 [] (E.lookupOrder lookups) with
    | .forever asked => some (.forever asked)
    | .ends time queries =>
      match verifyResults E headers cfg tasks queries with
      | none => none
      | some tasks => some (.ends time (tasks, queries.map (·.1)))

/-- verifier/mod.rs:602-645 `verify_header`; outer `none` is a panic. -/
def verifyHeaderChanging (dns : ChangingResolver) (headers : List Field) (cfg : Config)
    (clock : Nat → Int) : Option (Waiting (Option Verifier × List Str)) :=
  match findSignatures E headers cfg clock with
  | none => none
  | some tasks =>
    if tasks.isEmpty then some (.ends 0 (none, []))
    else
      match verifyAllChanging E dns headers cfg tasks with
      | none => none
      | some (.forever asked) => some (.forever asked)
      | some (.ends time (tasks, asked)) =>
        match collectTasks E tasks with
        | none => none
        | some (tasks, keys) =>
          some (.ends time
            (some ⟨tasks, BodyHasher.build cfg.forbidUnsignedContent (E.keySet keys)⟩, asked))

end Dkim
