import Verif.Spec.Header

/-!
# How much work it is to select header fields (specification for C113)
-/

namespace Dkim.Spec

/-- How many header fields must be looked at, from the first of the list, to find the field with the
given name after the first `k` with this name; all of them, if there is none. -/
def fieldsUpTo (name : Str) : Nat → List Field → Nat
  | _, [] => 0
  | k, f :: rest =>
    if sameName f.name name then
      match k with
      | 0 => 1
      | k + 1 => fieldsUpTo name k rest + 1
    else fieldsUpTo name k rest + 1

/-- How many header fields must be looked at, from the bottom of the header, to find the field that each
of the names selects (see `selectedFields`), starting anew for each; `earlier` are the names before. -/
def fieldsLookedAt (headers : List Field) : List Str → List Str → Nat
  | _, [] => 0
  | earlier, n :: names =>
    fieldsUpTo n (earlier.countP (sameName n)) headers.reverse +
      fieldsLookedAt headers (n :: earlier) names

/-- How many of the names must be looked at to find out whether a name is among them: up to the first that is the
same, or all. -/
def namesUpTo (name : Str) (names : List Str) : Nat :=
  min (names.findIdx (sameName name) + 1) names.length

/-- The size in a message of header fields: names, values, colons and line ends. -/
def headerSize (headers : List Field) : Nat := (headers.map fun f => byteLen f.name + 1 + f.body.length + 2).sum

/-- The size in a signature of names separated by colons. -/
def namesSize (names : List Str) : Nat := (names.map fun n => byteLen n + 1).sum

end Dkim.Spec
