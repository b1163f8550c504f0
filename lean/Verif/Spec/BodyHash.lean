import Verif.Spec.Canon
import Verif.Model.BodyHash

/-!
# Specification of body hash results

Only types are taken from the model (`BodyHasherKey`, `BodyHashResult`).
-/

namespace Dkim.Spec

/-- The body hash result for a key, given the whole canonicalized body: the hash
and length of all of it, or of the first `n` bytes with limit `n`; too short a
body is an error, and so is too long a body if `fail` is set. -/
def bodyHashResult (hash : HashFn) (fail : Bool) (key : BodyHasherKey) (cb : Bytes) :
    BodyHashResult :=
  match key with
  | (none, alg, _) => .ok (hash alg cb, cb.length)
  | (some n, alg, _) =>
    if cb.length < n then .error .insufficientInput
    else if n < cb.length ∧ fail = true then .error .inputTruncated
    else .ok (hash alg (cb.take n), n)

/-- The canonical form of a body that the code computes (established by
`C02_simple_body_exact` and `C03_relaxed_body_exact`): RFC 6376 apart from the
two documented deviations. -/
def codeSimpleBody (body : Bytes) : Bytes :=
  if body ≠ [] ∧ (∀ l ∈ bodyLines body, l = []) then [] else rfcSimpleBody body

def codeRelaxedBody (body : Bytes) : Bytes :=
  if (splitLines body).2 ≠ [] ∧ (splitLines body).2.all isWsp = true then
    rfcRelaxedBody body ++ [13, 10]
  else rfcRelaxedBody body

def codeBody : CanonAlg → Bytes → Bytes
  | .simple => codeSimpleBody
  | .relaxed => codeRelaxedBody

/-- Nothing but whitespace (relaxed), or nothing at all (simple). -/
def blankLine (k : CanonAlg) (l : Bytes) : Prop := ∀ b ∈ l, k = .relaxed ∧ isWsp b = true

/-- Lines, each ended with CRLF, that contain nothing but whitespace (relaxed), or nothing at
all (simple). -/
def BlankLines (k : CanonAlg) (extra : Bytes) : Prop :=
  ∃ ls, (∀ l ∈ ls, blankLine k l) ∧ extra = joinLines ls

/-- The canonical form of a body according to RFC 6376. -/
def rfcBody : CanonAlg → Bytes → Bytes
  | .simple => rfcSimpleBody
  | .relaxed => rfcRelaxedBody

end Dkim.Spec
