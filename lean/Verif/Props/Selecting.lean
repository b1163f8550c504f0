import Verif.Proofs.Selecting
import Verif.Spec.Signer

/-!
# Property C113: selecting the signed header fields takes work linear in the size of the message

The full claim: there is a constant, such that the number of header fields that `canonicalize_headers`
looks at is at most this constant times the size of the header and of the list of names. The claim is
false (`C113_violation`), because the search starts anew at the bottom of the header for each name. The
exact number is in `C113_exact`, and is never more than the product (`C113_bound_partial`), which is
reached (`C113_worst`); and half of it, when only fields that exist are signed (`C113_repeated`).
-/

namespace Dkim

open Spec

/-- C113: what is counted is the work of the function that the other properties are about. -/
theorem C113_same (alg : CanonAlg) (headers : List Field) (names : List Str) :
    (canonHeadersV alg headers names).1 = canonHeaders alg headers names :=
  canonHeadersLoopV_fst ..

/-- C113: exactly how many header fields are looked at. -/
theorem C113_exact (alg : CanonAlg) (headers : List Field) (names : List Str) :
    (canonHeadersV alg headers names).2 = fieldsLookedAt headers [] names := by
  apply canonHeadersLoopV_exact
  intro n
  rw [List.countP_nil, List.drop_zero, List.filter_eq_self]
  intro _ _
  rfl

/-- C113 as far as it holds: for each name, no header field is looked at twice. Missing: a bound that is
linear, which does not exist, see `C113_violation`. -/
theorem C113_bound_partial (alg : CanonAlg) (headers : List Field) (names : List Str) :
    (canonHeadersV alg headers names).2 ≤ names.length * headers.length := by
  have := canonHeadersLoopV_le alg (enumFrom 0 headers.reverse) names []
  rw [length_enumFrom, List.length_reverse] at this
  exact this

/-- C113: a name that is found at the bottom of the header costs one test, whatever the header. -/
theorem C113_cheap (alg : CanonAlg) (headers : List Field) (f : Field) :
    (canonHeadersV alg (headers ++ [f]) [f.name]).2 = 1 := by
  rw [C113_exact]
  simp only [fieldsLookedAt, List.countP_nil, List.reverse_append, List.reverse_cons, List.reverse_nil,
    List.nil_append, List.cons_append, fieldsUpTo, sameName_iff, if_true]

/-- A header with the required field and `n` others. -/
def manyFields (n : Nat) : List Field := ⟨c!"From", b!" me"⟩ :: List.replicate n ⟨c!"a", []⟩

/-- The required name and `n` others, of fields that may not be added to the message. -/
def manyNames (n : Nat) : List Str := c!"From" :: List.replicate n c!"b"

/-- C113: the worst case, with well-formed header fields and names. -/
theorem C113_worst (alg : CanonAlg) (n : Nat) :
    TypedHeaders (manyFields n) ∧ (∀ m ∈ manyNames n, ValidName m) ∧
    (manyFields n).length = n + 1 ∧ (manyNames n).length = n + 1 ∧
    (canonHeadersV alg (manyFields n) (manyNames n)).2 = (n + 1) * (n + 1) := by
  refine ⟨?_, ?_, ?_, ?_, ?_⟩
  · intro f hf
    rw [← fieldNameOk_iff, ← fieldBodyOk_iff]
    rcases List.mem_cons.1 hf with rfl | hf
    · decide
    · rw [List.eq_of_mem_replicate hf]
      decide
  · intro m hm
    rw [← fieldNameOk_iff]
    rcases List.mem_cons.1 hm with rfl | hm
    · decide
    · rw [List.eq_of_mem_replicate hm]
      decide
  · rw [manyFields, List.length_cons, List.length_replicate]
  · rw [manyNames, List.length_cons, List.length_replicate]
  · have hl : (manyFields n).length = n + 1 := by rw [manyFields, List.length_cons, List.length_replicate]
    rw [C113_exact, manyNames, fieldsLookedAt, fieldsLookedAt_absent, hl]
    · rw [manyFields, List.reverse_cons, List.reverse_replicate, fieldsUpTo_append, List.length_replicate,
        Nat.succ_mul, Nat.add_comm]
      · rfl
      · intro f hf
        rw [List.eq_of_mem_replicate hf]
        decide
    · intro f hf
      rcases List.mem_cons.1 hf with rfl | hf
      · decide
      · rw [List.eq_of_mem_replicate hf]
        decide

/-- C113: the work also grows with the square, if each name selects a field: when fields that all have the
same name are signed. -/
theorem C113_repeated (alg : CanonAlg) (f : Field) (n : Nat) :
    2 * (canonHeadersV alg (List.replicate n f) (List.replicate n f.name)).2 = n * (n + 1) := by
  rw [C113_exact]
  exact fieldsLookedAt_present f n n 0 (Nat.zero_add n)

/-- C113: the violation: there is no linear bound. -/
theorem C113_violation (alg : CanonAlg) : ¬ ∃ c, ∀ (headers : List Field) (names : List Str),
    TypedHeaders headers → (∀ m ∈ names, ValidName m) →
    (canonHeadersV alg headers names).2 ≤ c * (headerSize headers + namesSize names) := by
  rintro ⟨c, h⟩
  obtain ⟨h1, h2, _, _, h3⟩ := C113_worst alg (16 * c)
  have := h _ _ h1 h2
  rw [h3] at this
  have e1 : headerSize (manyFields (16 * c)) = 10 + 16 * c * 4 := by
    rw [headerSize, manyFields, List.map_cons, List.map_replicate, List.sum_cons, List.sum_replicate_nat]
    rfl
  have e2 : namesSize (manyNames (16 * c)) = 5 + 16 * c * 2 := by
    rw [namesSize, manyNames, List.map_cons, List.map_replicate, List.sum_cons, List.sum_replicate_nat]
    rfl
  rw [e1, e2] at this
  have h4 : c * (10 + 16 * c * 4 + (5 + 16 * c * 2)) ≤ (15 * c) * (16 * c + 1) := by
    have h6 : 10 + 16 * c * 4 + (5 + 16 * c * 2) ≤ 15 * (16 * c + 1) := by omega
    rw [Nat.mul_comm 15 c, Nat.mul_assoc c 15]
    exact Nat.mul_le_mul_left c h6
  have h5 : (15 * c) * (16 * c + 1) < (16 * c + 1) * (16 * c + 1) :=
    Nat.mul_lt_mul_of_pos_right (by omega) (by omega)
  omega

/-- Two fields of the same name, asked for once more than there are. -/
example : (canonHeadersV .simple [⟨c!"To", b!" a"⟩, ⟨c!"From", b!" b"⟩, ⟨c!"to", b!" c"⟩]
    [c!"to", c!"From", c!"TO", c!"to"]).2 = 1 + 2 + 3 + 3 := by
  decide

end Dkim
