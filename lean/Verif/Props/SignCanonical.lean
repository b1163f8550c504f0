import Verif.Props.SignerRuns
import Verif.Props.RereadCases

/-!
# Property C94: signing sees only canonical content
-/

namespace Dkim

open Spec

variable {E : Env}

/-- C94: a request gets the same result for two messages if the same names are signed, the fields
that are signed have the same canonical forms, the bodies have the same canonical form and, if
fields are copied into the signature, the same fields are copied. -/
theorem C94_canonical (law : IdnaLaw E.idna) (hs : SortLaw E.sortBy) (hset : SetLaw E.keySet)
    (headers headers' : List Field) (requests requests' : List (SignRequest E)) (hh : TypedHeaders headers)
    (hh' : TypedHeaders headers')
    (ht : ∀ r ∈ requests, TypedRequest r) (ht' : ∀ r ∈ requests', TypedRequest r) (chunks chunks' : List Bytes)
    (clock clock' : Nat → Nat)
    (out out' : List (Except SigningError SigningOutput)) (h : Signed headers requests chunks clock out)
    (h' : Signed headers' requests' chunks' clock' out')
    (hlen : ∀ k, (codeBody k chunks.flatten).length < 2 ^ 64)
    (hlen' : ∀ k, (codeBody k chunks'.flatten).length < 2 ^ 64) (i j : Nat) (r : SignRequest E)
    (hi : requests[i]? = some r) (hj : requests'[j]? = some r) (hnow : clock i = clock' j)
    (hnames : namesToSign r headers = namesToSign r headers')
    (hfields : (selectedFields headers (namesToSign r headers)).map
        (fun f => canonField r.canonicalization.header f.name f.body) =
      (selectedFields headers' (namesToSign r headers)).map
        (fun f => canonField r.canonicalization.header f.name f.body))
    (hbody : codeBody r.canonicalization.body chunks.flatten = codeBody r.canonicalization.body chunks'.flatten)
    (hcopied : r.copyHeaders = true →
      (headers.filter fun f => (namesToSign r headers).any fun n => sameName n f.name) =
        headers'.filter fun f => (namesToSign r headers).any fun n => sameName n f.name) :
    ∃ res, out[i]? = some res ∧ out'[j]? = some res := by
  refine ⟨_, (Signed.item law hs hset hh ht h hlen).2 i r hi, ?_⟩
  rw [(Signed.item law hs hset hh' ht' h' hlen').2 j r hj, ← hnow]
  have hpart : bodyToSign r chunks'.flatten = bodyToSign r chunks.flatten := by
    simp only [bodyToSign, hbody]
  have hdata : ∀ part, sigData r headers' part (clock i) = sigData r headers part (clock i) := by
    intro part
    simp only [sigData, ← hnames]
    cases hc : r.copyHeaders with
    | false => simp
    | true => simp [hcopied hc]
  have hinput : ∀ n v, dataHashInput r.canonicalization.header headers' (namesToSign r headers) n v =
      dataHashInput r.canonicalization.header headers (namesToSign r headers) n v := by
    intro n v
    rw [dataHashInput_eq, dataHashInput_eq]
    unfold headerHashInput
    have hmap := congrArg (List.flatMap (· ++ b!"\r\n")) hfields
    simp only [List.flatMap_map] at hmap
    rw [hmap]
  unfold resultOfRequest
  rw [hpart]
  cases bodyToSign r chunks.flatten with
  | none => rfl
  | some part =>
    simp only [hdata]
    have hprod : produceSignature (sigData r headers part (clock i)) r.signingKey r.format headers' =
        produceSignature (sigData r headers part (clock i)) r.signingKey r.format headers := by
      unfold produceSignature computeDataHash
      simp only [show (sigData r headers part (clock i)).canonicalization = r.canonicalization from rfl,
        show (sigData r headers part (clock i)).signedHeaders = namesToSign r headers from rfl, hinput]
    rw [hprod]

/-- The header of the tests with other whitespace, other letter case, and other unsigned fields. -/
def otherHeaders : List Field :=
  [⟨c!"From", b!"\r\n\tme "⟩, ⟨c!"Subject", b!" a; \r\n \tb"⟩, ⟨c!"X", b!" 1"⟩, ⟨c!"Y", b!" 2"⟩]

def plainRequest : SignRequest testEnv :=
  { testRequest with copyHeaders := false, headerSelection := .manual [c!"Subject", c!"From", c!"To"] }

theorem otherHeaders_typed : TypedHeaders otherHeaders := by
  intro f hf
  rw [← fieldNameOk_iff, ← fieldBodyOk_iff]
  revert f
  decide

set_option maxRecDepth 20000 in
/-- Non-vacuity: two different headers and bodies for which a request gets the same result. -/
example : (∃ o, TestRun testHeaders plainRequest o) ∧ (∃ o, TestRun otherHeaders plainRequest o) ∧
    testHeaders ≠ otherHeaders ∧ namesToSign plainRequest testHeaders = namesToSign plainRequest otherHeaders ∧
    (selectedFields testHeaders (namesToSign plainRequest testHeaders)).map
        (fun f => canonField plainRequest.canonicalization.header f.name f.body) =
      (selectedFields otherHeaders (namesToSign plainRequest testHeaders)).map
        (fun f => canonField plainRequest.canonicalization.header f.name f.body) ∧
    (selectedFields testHeaders (namesToSign plainRequest testHeaders)).length = 2 ∧
    codeBody plainRequest.canonicalization.body b!"a\r\n\r\n" = codeBody plainRequest.canonicalization.body b!"a\r\n" :=
  ⟨⟨_, testHeaders_typed, typed_of_check (by decide), _, _, _, rfl, rfl, rfl⟩,
    ⟨_, otherHeaders_typed, typed_of_check (by decide), _, _, _, rfl, rfl, rfl⟩, by decide, rfl, by decide, by decide, by decide⟩

end Dkim
