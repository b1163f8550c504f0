import Verif.Model.Signer

/-!
# The work of selecting header fields

`canonicalize_headers` once more, with the number of header fields that are looked at. (The suffix `V`
stands for "visited".)
-/

namespace Dkim

/-- canonicalize.rs:40-56: the inner loop; with the number of header fields for which it is tested (line
45) whether they have been processed. -/
def findUnprocessedV (name : Str) (processed : List Nat) : List (Nat × Field) → Option (Nat × Field) × Nat
  | [] => (none, 0)
  | (i, f) :: rest =>
    if processed.contains i then
      let (r, n) := findUnprocessedV name processed rest
      (r, n + 1)
    else if eqIgnoreCase f.name name then (some (i, f), 1)
    else
      let (r, n) := findUnprocessedV name processed rest
      (r, n + 1)

/-- canonicalize.rs:39-57: the outer loop. -/
def canonHeadersLoopV (alg : CanonAlg) (rev : List (Nat × Field)) : List Nat → List Str → Bytes × Nat
  | _, [] => ([], 0)
  | processed, sel :: sels =>
    match findUnprocessedV sel processed rev with
    | (none, n) =>
      let (out, m) := canonHeadersLoopV alg rev processed sels
      (out, n + m)
    | (some (i, f), n) =>
      let (out, m) := canonHeadersLoopV alg rev (i :: processed) sels
      (canonHeader alg f.name f.body ++ CRLF ++ out, n + m)

/-- canonicalize.rs:31-60 `canonicalize_headers`. -/
def canonHeadersV (alg : CanonAlg) (headers : List Field) (selected : List Str) : Bytes × Nat :=
  canonHeadersLoopV alg (enumFrom 0 headers.reverse) [] selected

/-- `slice::contains` of the standard library: compares with one element after the other, until one is
equal; with the number of comparisons. -/
def containsNameV (name : Str) : List Str → Bool × Nat
  | [] => (false, 0)
  | n :: rest =>
    if fieldNameEq n name then (true, 1)
    else
      let (r, k) := containsNameV name rest
      (r, k + 1)

/-- sign.rs:201-212 `prepare_copied_headers`, with the number of names compared (line 207). -/
def prepareCopiedHeadersV (headers : List Field) (selected : List Str) : List (Str × Bytes) × Nat :=
  match headers with
  | [] => ([], 0)
  | f :: rest =>
    let (r, k) := prepareCopiedHeadersV rest selected
    match containsNameV f.name selected with
    | (true, n) => ((f.name, f.body) :: r, n + k)
    | (false, n) => (r, n + k)

end Dkim
