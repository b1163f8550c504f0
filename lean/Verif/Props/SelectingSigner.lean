import Verif.Proofs.SelectingSigner
import Verif.Props.Selecting
import Verif.Props.RereadCases

/-!
# Property C113 for the signer: messages that make it do work with the square of their size

Continues `Verif.Props.Selecting`: the names are those of the header fields that are signed by default. Then the
same for the function that copies the signed header fields into the signature.
-/

namespace Dkim

open Spec

/-- C113: when the names of the header fields that pass some test (in which case does not matter) are
signed from the bottom of the header to the top, then as many header fields are looked at for each as there are
from the bottom up to it: the number is the sum of the positions of the signed fields. -/
theorem C113_chosen (alg : CanonAlg) (headers : List Field) (p : Str → Bool)
    (hp : ∀ m n, lower m = lower n → p m = p n) :
    (canonHeadersV alg headers ((headers.map (·.name)).filter p).reverse).2 =
      (((enumFrom 1 headers.reverse).filter fun q => p q.2.name).map (·.1)).sum := by
  rw [C113_exact, ← List.filter_reverse, ← List.map_reverse]
  exact fieldsLookedAt_chosen (fun m n h => hp m n ((sameName_iff ..).1 h)) headers.reverse [] rfl

/-- C113: if all header fields are signed, whatever their names, half the square of their number. -/
theorem C113_all_signed (alg : CanonAlg) (headers : List Field) :
    2 * (canonHeadersV alg headers (headers.map (·.name)).reverse).2 = headers.length * (headers.length + 1) := by
  have h := C113_chosen alg headers (fun _ => true) (fun _ _ _ => rfl)
  rw [List.filter_eq_self.2 fun _ _ => rfl, List.filter_eq_self.2 fun _ _ => rfl] at h
  rw [h]
  have := sum_positions headers.reverse 0
  rw [List.length_reverse, Nat.zero_add, Nat.zero_add, Nat.zero_mul, Nat.add_zero] at this
  exact this

/-- The header of a message that has been sent on to many. -/
def resentFields (n : Nat) : List Field := ⟨c!"From", b!" me"⟩ :: List.replicate n ⟨c!"Resent-To", b!" a"⟩

theorem resentFields_typed (n : Nat) : TypedHeaders (resentFields n) := by
  intro f hf
  rw [← fieldNameOk_iff, ← fieldBodyOk_iff]
  rcases List.mem_cons.1 hf with rfl | hf
  · decide
  · rw [List.eq_of_mem_replicate hf]
    decide

theorem resentFields_signed (n : Nat) :
    ((resentFields n).map (·.name)).filter (fun m => signedByDefault.contains (lower m)) =
      (resentFields n).map (·.name) := by
  rw [List.filter_eq_self]
  intro m hm
  obtain ⟨f, hf, rfl⟩ := List.mem_map.1 hm
  rcases List.mem_cons.1 hf with rfl | hf
  · decide
  · rw [List.eq_of_mem_replicate hf]
    decide

variable {E : Env}

/-- Signing with Ed25519 succeeds. -/
theorem ed25519_signed (law : IdnaLaw E.idna) (hs : SortLaw E.sortBy) (hset : SetLaw E.keySet)
    {r : SignRequest E} (ht : TypedRequest r) (hv : ValidRequest r) (halg : r.algorithm = .ed25519Sha256)
    {chunks : List Bytes} (clock : Nat → Nat)
    (hlen : ∀ k, (codeBody k chunks.flatten).length < 2 ^ 64) (hbody : bodyToSign r chunks.flatten ≠ none)
    {headers : List Field} (hh : TypedHeaders headers) (hf : HasFrom headers) :
    ∃ o, Signed headers [r] chunks clock [.ok o] := by
  have ht' : ∀ q ∈ [r], TypedRequest q := by
    intro q hq
    rw [List.mem_singleton.1 hq]
    exact ht
  obtain ⟨s, hprep⟩ := (C34_accepts law.toCaseLaw headers [r] ht').2
    ⟨hf, Nat.le_refl 1, by rw [List.length_singleton]; decide, by
      intro q hq
      rw [List.mem_singleton.1 hq]
      exact hv⟩
  obtain ⟨s', ss, out, k1, k2, k3⟩ := C35_ed25519 law hs hset _ [r] s hh ht' hprep chunks clock hlen
  obtain ⟨o, ho⟩ := k3 0 r rfl halg hbody
  obtain ⟨_, _, out', j1, j2, j3, _⟩ := C35_results law hs hset _ [r] s hh ht' hprep chunks clock hlen
  rw [k1] at j1
  injection j1 with j1
  injection j1 with j1 _
  subst j1
  rw [k2] at j2
  injection j2 with j2
  subst j2
  have hout : out = [.ok o] := by
    match out, j3, ho with
    | [x], _, ho =>
      injection ho with ho
      rw [ho]
  subst hout
  exact ⟨o, s, s', ss, hprep, k1, k2⟩

/-- C113: the violation, of the signer: for every valid Ed25519 request with the default selection of header
fields, whatever the body, there is no linear bound in the size of the header on the work for the
signature. -/
theorem C113_violation_signer (law : IdnaLaw E.idna) (hs : SortLaw E.sortBy) (hset : SetLaw E.keySet)
    (r : SignRequest E) (ht : TypedRequest r) (hv : ValidRequest r) (halg : r.algorithm = .ed25519Sha256)
    (hauto : r.headerSelection = .auto) (chunks : List Bytes) (clock : Nat → Nat)
    (hlen : ∀ k, (codeBody k chunks.flatten).length < 2 ^ 64) (hbody : bodyToSign r chunks.flatten ≠ none) :
    ¬ ∃ c, ∀ (headers : List Field) (o : SigningOutput), TypedHeaders headers →
      Signed headers [r] chunks clock [.ok o] →
      (canonHeadersV o.signature.canonicalization.header headers o.signature.signedHeaders).2 ≤
        c * headerSize headers := by
  rintro ⟨c, h⟩
  have hh := resentFields_typed (28 * c)
  have ht' : ∀ q ∈ [r], TypedRequest q := by
    intro q hq
    rw [List.mem_singleton.1 hq]
    exact ht
  obtain ⟨o, run⟩ := ed25519_signed law hs hset ht hv halg clock hlen hbody hh ⟨_, List.mem_cons_self .., by decide⟩
  obtain ⟨_, _, _, _, _, _, _, f, _⟩ := C36_fields law hs hset _ [r] hh ht' chunks clock _ run hlen 0 r rfl o rfl
  have work := h _ o hh run
  rw [f hauto, resentFields_signed] at work
  have exact_ := C113_all_signed o.signature.canonicalization.header (resentFields (28 * c))
  have e1 : (resentFields (28 * c)).length = 28 * c + 1 := by
    rw [resentFields, List.length_cons, List.length_replicate]
  have e2 : headerSize (resentFields (28 * c)) = 10 + 28 * c * 14 := by
    rw [headerSize, resentFields, List.map_cons, List.map_replicate, List.sum_cons, List.sum_replicate_nat]
    rfl
  rw [e1] at exact_
  rw [e2] at work
  have e3 : 2 * (c * (10 + 28 * c * 14)) = 20 * c + 28 * c * (28 * c) := by
    rw [Nat.mul_add, Nat.mul_add, ← Nat.mul_assoc 2 c, ← Nat.mul_assoc 2 c, Nat.mul_comm (28 * c) 14,
      ← Nat.mul_assoc (2 * c) 14]
    rw [show 2 * c * 14 = 28 * c by omega]
    omega
  have e4 : (28 * c + 1) * (28 * c + 1 + 1) = 28 * c * (28 * c) + 3 * (28 * c) + 2 := by
    rw [Nat.add_mul, Nat.mul_add, Nat.mul_add]
    omega
  omega

/-! ### Copied header fields -/

/-- C113: what is counted is the work of the function that the other properties are about. -/
theorem C113_copies_same (headers : List Field) (names : List Str) :
    (prepareCopiedHeadersV headers names).1 = prepareCopiedHeaders headers names :=
  prepareCopiedHeadersV_fst ..

/-- C113: exactly how many names are looked at when the signed header fields are copied: for each header
field, those up to the first that is its name, or all. -/
theorem C113_copies_exact (headers : List Field) (names : List Str) :
    (prepareCopiedHeadersV headers names).2 = (headers.map fun f => namesUpTo f.name names).sum :=
  prepareCopiedHeadersV_snd ..

/-- C113 for copies as far as it holds. Missing: a linear bound, see `C113_copies_violation`. -/
theorem C113_copies_bound_partial (headers : List Field) (names : List Str) :
    (prepareCopiedHeadersV headers names).2 ≤ headers.length * names.length := by
  rw [C113_copies_exact]
  induction headers with
  | nil => exact Nat.zero_le _
  | cons f headers ih =>
    rw [List.map_cons, List.sum_cons, List.length_cons, Nat.succ_mul]
    have : namesUpTo f.name names ≤ names.length := Nat.min_le_right ..
    omega

/-- The same header, with fields that are not signed. -/
def receivedFields (n : Nat) : List Field := resentFields n ++ List.replicate n ⟨c!"Received", b!" a"⟩

theorem receivedFields_typed (n : Nat) : TypedHeaders (receivedFields n) := by
  intro f hf
  rcases List.mem_append.1 hf with hf | hf
  · exact resentFields_typed n f hf
  · rw [← fieldNameOk_iff, ← fieldBodyOk_iff, List.eq_of_mem_replicate hf]
    decide

theorem receivedFields_signed (n : Nat) :
    ((receivedFields n).map (·.name)).filter (fun m => signedByDefault.contains (lower m)) =
      (resentFields n).map (·.name) := by
  rw [receivedFields, List.map_append, List.filter_append, resentFields_signed]
  have : (List.map (·.name) (List.replicate n (⟨c!"Received", b!" a"⟩ : Field))).filter
      (fun m => signedByDefault.contains (lower m)) = [] := by
    rw [List.filter_eq_nil_iff]
    intro m hm
    rw [List.map_replicate] at hm
    rw [List.eq_of_mem_replicate hm]
    decide
  rw [this, List.append_nil]

/-- C113: the violation for copies: there is no linear bound in the size of the header on the work of
copying the signed fields, for every such request that asks for copies. -/
theorem C113_copies_violation (law : IdnaLaw E.idna) (hs : SortLaw E.sortBy) (hset : SetLaw E.keySet)
    (r : SignRequest E) (ht : TypedRequest r) (hv : ValidRequest r) (halg : r.algorithm = .ed25519Sha256)
    (hauto : r.headerSelection = .auto) (_hcopy : r.copyHeaders = true) (chunks : List Bytes) (clock : Nat → Nat)
    (hlen : ∀ k, (codeBody k chunks.flatten).length < 2 ^ 64) (hbody : bodyToSign r chunks.flatten ≠ none) :
    ¬ ∃ c, ∀ (headers : List Field) (o : SigningOutput), TypedHeaders headers →
      Signed headers [r] chunks clock [.ok o] →
      (prepareCopiedHeadersV headers o.signature.signedHeaders).2 ≤ c * headerSize headers := by
  rintro ⟨c, h⟩
  have hh := receivedFields_typed (27 * c + 1)
  have ht' : ∀ q ∈ [r], TypedRequest q := by
    intro q hq
    rw [List.mem_singleton.1 hq]
    exact ht
  obtain ⟨o, run⟩ := ed25519_signed law hs hset ht hv halg clock hlen hbody hh
    ⟨_, List.mem_append_left _ (List.mem_cons_self ..), by decide⟩
  obtain ⟨_, _, _, _, _, _, _, f, _⟩ := C36_fields law hs hset _ [r] hh ht' chunks clock _ run hlen 0 r rfl o rfl
  have work := h _ o hh run
  rw [f hauto, receivedFields_signed, C113_copies_exact] at work
  generalize hn : 27 * c + 1 = n at work
  have e1 : headerSize (receivedFields n) = 10 + 27 * n := by
    rw [headerSize, receivedFields, resentFields, List.map_append, List.map_cons, List.map_replicate,
      List.map_replicate, List.sum_append, List.sum_cons, List.sum_replicate_nat, List.sum_replicate_nat]
    show 10 + n * 14 + n * 13 = 10 + 27 * n
    omega
  have e2 : namesUpTo c!"Received" ((resentFields n).map (·.name)).reverse = n + 1 := by
    rw [namesUpTo_absent, List.length_reverse, List.length_map, resentFields, List.length_cons, List.length_replicate]
    intro m hm
    obtain ⟨f, hf, rfl⟩ := List.mem_map.1 (List.mem_reverse.1 hm)
    rcases List.mem_cons.1 hf with rfl | hf
    · decide
    · rw [List.eq_of_mem_replicate hf]
      decide
  rw [e1, receivedFields, List.map_append, List.sum_append, List.map_replicate] at work
  simp only at work
  rw [e2, List.sum_replicate_nat] at work
  have e3 : n * (n + 1) = 27 * (c * n) + 2 * n := by
    conv => lhs; rw [Nat.mul_succ]; lhs; lhs; rw [← hn]
    rw [Nat.add_mul, Nat.mul_assoc]
    omega
  have e4 : c * (10 + 27 * n) = 10 * c + 27 * (c * n) := by
    rw [Nat.mul_add, ← Nat.mul_assoc, Nat.mul_comm c 27, Nat.mul_assoc]
    omega
  omega

/-- Two names compared for each of the first and the last field, one for the other. -/
example : (prepareCopiedHeadersV [⟨c!"X", []⟩, ⟨c!"to", []⟩, ⟨c!"from", []⟩] [c!"To", c!"From"]) =
    ([(c!"to", []), (c!"from", [])], 2 + 1 + 2) := by
  decide

/-- Non-vacuity: the request of the examples, with the default selection. -/
example : TypedRequest testRequest ∧ ValidRequest testRequest ∧ testRequest.algorithm = .ed25519Sha256 ∧
    testRequest.headerSelection = .auto ∧ testRequest.copyHeaders = true ∧ bodyToSign testRequest b!"abc\r\n" ≠ none := by
  refine ⟨typed_of_check (by decide), ?_, rfl, rfl, rfl, by decide⟩
  have h : (∃ s, prepareSigning testEnv testHeaders [testRequest] = .ok s) := ⟨_, rfl⟩
  exact ((C34_accepts testEnv_idna.toCaseLaw testHeaders [testRequest] (by
    intro q hq
    rw [List.mem_singleton.1 hq]
    exact typed_of_check (by decide))).1 h).2.2.2 _ (List.mem_singleton.2 rfl)

end Dkim
