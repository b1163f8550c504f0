import Verif.Props.EndToEndExact
import Verif.Props.SignerTogether

/-!
# Property C62: the exception is exact

Among the requests whose signatures can be read, only those that list DKIM-Signature more
often than the header has it are not verified together with the others.
-/

namespace Dkim

open Spec

variable {E : Env}

theorem selectAux_append_le (g : Field → Bytes) (headers : List Field) (names earlier : List Str) :
    ∀ top : List Field, ((selectAux headers earlier names).flatMap g).length ≤
      ((selectAux (top ++ headers) earlier names).flatMap g).length := by
  intro top
  induction top with
  | nil => exact Nat.le_refl _
  | cons f top ih => exact Nat.le_trans ih (selectAux_cons_le g f (top ++ headers) names earlier)

/-- With signature fields on top, the data that is hashed is the same exactly if
DKIM-Signature is not listed more often than it occurs below. -/
theorem headerHashInput_tops (c : CanonAlg) (top headers : List Field) (names : List Str) (name value : Str)
    (hne : top ≠ []) (htop : ∀ f ∈ top, lower f.name = c!"dkim-signature") :
    headerHashInput c (top ++ headers) names name value = headerHashInput c headers names name value ↔
      mentions names c!"DKIM-Signature" ≤ occurrences headers c!"DKIM-Signature" := by
  have same : ∀ f ∈ top, sameName f.name = sameName c!"DKIM-Signature" := by
    intro f hf
    have e : lower f.name = lower c!"DKIM-Signature" := htop f hf
    funext m
    simp [sameName, e]
  constructor
  · intro h
    unfold headerHashInput at h
    rw [List.append_left_inj] at h
    refine Nat.le_of_not_lt fun hlt => ?_
    have hl := List.dropLast_concat_getLast hne
    have hs := same _ (List.getLast_mem hne)
    have h1 := selectAux_cons_lt (fun f => canonField c f.name f.body ++ b!"\r\n") (top.getLast hne) (by simp) headers
      names [] (by simp) (by
        simp only [mentions, occurrences, hs, List.countP_nil, Nat.zero_add] at hlt ⊢
        exact hlt)
    have h2 := selectAux_append_le (fun f => canonField c f.name f.body ++ b!"\r\n") (top.getLast hne :: headers)
      names [] top.dropLast
    rw [List.append_cons, hl] at h2
    unfold selectedFields at h
    rw [h] at h2
    omega
  · intro h
    have := selectedFields_above (above := top) (headers := headers) (names := names) (by
      intro g hg
      simp only [mentions, occurrences, same g hg] at h ⊢
      exact h)
    unfold headerHashInput
    rw [this]

theorem outputField_name (law : IdnaLaw E.idna) (hs : SortLaw E.sortBy) (hset : SetLaw E.keySet)
    {headers : List Field} {requests : List (SignRequest E)} (hh : TypedHeaders headers)
    (ht : ∀ r ∈ requests, TypedRequest r) {chunks : List Bytes} {clock : Nat → Nat} {outputs : List SigningOutput}
    (h : Signed headers requests chunks clock (outputs.map .ok))
    (hlen : ∀ k, (codeBody k chunks.flatten).length < 2 ^ 64) :
    ∀ o ∈ outputs, lower (outputField o).name = c!"dkim-signature" := by
  intro o ho
  obtain ⟨hlen', _⟩ := Signed.item law hs hset hh ht h hlen
  rw [List.length_map] at hlen'
  obtain ⟨i, ho⟩ := List.getElem?_of_mem ho
  have hi : i < requests.length := by
    have := (List.getElem?_eq_some_iff.1 ho).1
    omega
  have hr := List.getElem?_eq_getElem hi
  have ho' : (outputs.map (Except.ok (ε := SigningError)))[i]? = some (.ok o) := by simp [ho]
  show lower o.headerName = _
  rw [(C36_reflects law hs hset headers requests hh ht chunks clock _ h hlen i _ hr o ho').1]
  exact (signed_output law hs hset hh ht h hlen hr ho').2.1.headerName

/-- C62: with all produced fields on top, in any order, the verifier hashes for a signature
the header data that was signed, exactly if its request does not list DKIM-Signature more
often than the header had it. -/
theorem C62_same_data_exactly (law : IdnaLaw E.idna) (hs : SortLaw E.sortBy) (hset : SetLaw E.keySet)
    (headers : List Field) (requests : List (SignRequest E)) (hh : TypedHeaders headers)
    (ht : ∀ r ∈ requests, TypedRequest r) (chunks : List Bytes) (clock : Nat → Nat) (outputs : List SigningOutput)
    (h : Signed headers requests chunks clock (outputs.map .ok))
    (hlen : ∀ k, (codeBody k chunks.flatten).length < 2 ^ 64)
    (top : List Field) (htop : top.Perm (outputs.map outputField)) (i : Nat)
    (r : SignRequest E) (_hr : requests[i]? = some r) (o : SigningOutput) (ho : outputs[i]? = some o) :
    headerHashInput r.canonicalization.header (top ++ headers) (namesToSign r headers) o.headerName
        (makeOriginal o.headerValue) =
      headerHashInput r.canonicalization.header headers (namesToSign r headers) o.headerName
        (makeOriginal o.headerValue) ↔
    mentions (namesToSign r headers) c!"DKIM-Signature" ≤ occurrences headers c!"DKIM-Signature" := by
  apply headerHashInput_tops
  · intro e
    subst e
    have := htop.length_eq
    rw [List.length_map] at this
    have := (List.getElem?_eq_some_iff.1 ho).1
    simp_all
  · intro f hf
    obtain ⟨o, ho, rfl⟩ := List.mem_map.1 (htop.mem_iff.1 hf)
    exact outputField_name law hs hset hh ht h hlen o ho

/-- C62, the exception: if a request lists DKIM-Signature more often than the header has it,
then its signature is not verified among the others, unless a published key accepts the
signature for the data that are then hashed, which are other than those for which it was
made. -/
theorem C62_oversigned (law : IdnaLaw E.idna) (hs : SortLaw E.sortBy) (hset : SetLaw E.keySet)
    (hord : OrderLaw E.lookupOrder) (hsign : SignLaw E.crypto) (hhash : ∀ a b, E.hash a b ≠ [])
    (headers : List Field) (requests : List (SignRequest E)) (hh : TypedHeaders headers)
    (ht : ∀ r ∈ requests, TypedRequest r) (chunks : List Bytes) (clock : Nat → Nat) (outputs : List SigningOutput)
    (h : Signed headers requests chunks clock (outputs.map .ok))
    (hlen : ∀ k, (codeBody k chunks.flatten).length < 2 ^ 64)
    (top : List Field) (htop : top.Perm (outputs.map outputField)) (i : Nat) (hclock : clock i < 2 ^ 64)
    (r : SignRequest E) (hr : requests[i]? = some r) (o : SigningOutput) (ho : outputs[i]? = some o)
    (hread : Readable r headers (clock i))
    (hover : occurrences headers c!"DKIM-Signature" < mentions (namesToSign r headers) c!"DKIM-Signature")
    (resolver : Resolver) (cfg : Config) (vclock : Nat → Int) (T : TypedTimes cfg vclock)
    (chunks' : List Bytes) (results : List VerificationResult) (asked : List Str)
    (run : Run E resolver cfg vclock (top ++ headers) chunks' results asked)
    (res : VerificationResult) (hres : res ∈ results) (hpos : top[res.index]? = some (outputField o)) :
    res.status = .success → ∃ d s txts txt record key, E.idna.toAscii r.domain = some d ∧
      E.idna.toAscii r.selector = some s ∧ (resolver (keyName d s)).result = .ok txts ∧ txt ∈ txts ∧
      TxtRecord E txt record ∧ publicKey E.crypto (keyTypeOf r.algorithm) record.keyData = some key ∧
      let input := fun hs => headerHashInput r.canonicalization.header hs (namesToSign r headers) o.headerName
        (makeOriginal o.headerValue)
      signWith r.signingKey (hashOf r.algorithm) (E.hash (hashOf r.algorithm) (input headers)) =
        some o.signature.signatureData ∧
      input (top ++ headers) ≠ input headers ∧
      verifyWith key (hashOf r.algorithm) (E.hash (hashOf r.algorithm) (input (top ++ headers)))
        o.signature.signatureData = true := by
  have ho' : (outputs.map (Except.ok (ε := SigningError)))[i]? = some (.ok o) := by simp [ho]
  refine other_data law hs hset hord hsign hhash hh ht h hlen hclock hr ho' hread T run hres ?_ ?_
  · rw [List.getElem?_append_left (List.getElem?_eq_some_iff.1 hpos).1, hpos]
    rfl
  · intro e
    have := (C62_same_data_exactly law hs hset headers requests hh ht chunks clock outputs h hlen top htop i r hr
      o ho).1 e
    omega

set_option maxRecDepth 100000 in
/-- Non-vacuity: a run with one request that lists the name too often, and one that does
not. -/
example : ∃ o1 o2, Signed testHeaders [oversigning, simpleRequest] testBody (fun _ => 1000) ([o1, o2].map .ok) ∧
    occurrences testHeaders c!"DKIM-Signature" < mentions (namesToSign oversigning testHeaders) c!"DKIM-Signature" ∧
    ¬ occurrences testHeaders c!"DKIM-Signature" <
      mentions (namesToSign simpleRequest testHeaders) c!"DKIM-Signature" :=
  ⟨_, _, ⟨_, _, _, rfl, rfl, rfl⟩, by decide, by decide⟩

end Dkim
