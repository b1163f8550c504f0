import Verif.Props.SignerTogether

/-!
# Property C95: a message that is signed on several hops
-/

namespace Dkim

open Spec

variable {E : Env}

/-- The field in position `p` of the header is a signature made for the fields below it and
the body `body`, by a request that satisfies the conditions of C16 with respect to the fields
above. -/
def SignedAt (resolver : Resolver) (cfg : Config) (vclock : Nat → Int) (header : List Field) (body : Bytes)
    (p : Nat) (requests : List (SignRequest E)) : Prop :=
  ∃ chunks clock out i r o, Signed (header.drop (p + 1)) requests chunks clock out ∧
    chunks.flatten = body ∧ clock i < 2 ^ 64 ∧ requests[i]? = some r ∧ out[i]? = some (.ok o) ∧
    header[p]? = some ⟨o.headerName, utf8 o.headerValue⟩ ∧ (∀ q ∈ requests, TypedRequest q) ∧
    Readable r (header.drop (p + 1)) (clock i) ∧
    (∀ n, (lower n = c!"dkim-signature" ∨ ∃ g ∈ header.take p, g.name = n) →
      mentions (namesToSign r (header.drop (p + 1))) n ≤ occurrences (header.drop (p + 1)) n) ∧
    KeyPublished resolver cfg r ∧ PolicyAccepts cfg (vclock p) header body r o.signature

/-- C95, partial: all signatures that were added to a message on its way, each for the fields
below it, verify together, as far as the limit on the number of signatures allows. Fields may have
been added between them, and a signature may cover the signatures below it. Missing, as in C16:
requests whose signatures the library cannot read, and requests that list DKIM-Signature (or the
name of a field added above) more often than it occurred when they were handled. -/
theorem C95_hops_partial (law : IdnaLaw E.idna) (hs : SortLaw E.sortBy) (hset : SetLaw E.keySet)
    (hord : OrderLaw E.lookupOrder) (hsign : SignLaw E.crypto) (hhash : ∀ a b, E.hash a b ≠ [])
    (header : List Field) (hh : TypedHeaders header) (chunks : List Bytes)
    (hlen : ∀ k, (codeBody k chunks.flatten).length < 2 ^ 64) (resolver : Resolver) (cfg : Config)
    (vclock : Nat → Int) (T : TypedTimes cfg vclock) :
    ∀ p (requests : List (SignRequest E)), SignedAt resolver cfg vclock header chunks.flatten p requests →
      (header.take p).countP (fun g => decide (IsDkimField g)) < cfg.maxSignatures →
      (∃ results asked, Run E resolver cfg vclock header chunks results asked) ∧
      ∀ results asked, Run E resolver cfg vclock header chunks results asked →
        ∃ res ∈ results, res.index = p ∧ res.status = .success := by
  rintro p requests ⟨chunks0, clock, out, i, r, o, h1, h2, h3, h4, h5, h6, h7, h8, h9, h10, h11⟩ hmax
  obtain ⟨hp, hf⟩ := List.getElem?_eq_some_iff.1 h6
  have hsplit : header.take p ++ ⟨o.headerName, utf8 o.headerValue⟩ :: header.drop (p + 1) = header := by
    rw [← hf, ← List.drop_eq_getElem_cons hp, List.take_append_drop]
  have hpl : (header.take p).length = p := by rw [List.length_take]; omega
  have hdrop : TypedHeaders (header.drop (p + 1)) := fun f hf => hh f (List.mem_of_mem_drop hf)
  obtain ⟨results', asked', hrun', hres⟩ := C16_sign_verify_partial law hs hset hord hsign hhash _ requests hdrop h7
    chunks0 clock out h1 (by rw [h2]; exact hlen) i h3 r h4 o h5 h8 resolver cfg vclock T (header.take p) chunks h2.symm
    hmax h9 h10 (by rw [hpl, hsplit, h2]; exact h11)
  rw [hsplit] at hrun'
  rw [hpl] at hres
  refine ⟨⟨_, _, hrun'⟩, fun results asked hrun => ?_⟩
  rw [(hrun.unique hrun').1]
  exact hres

/-! ## Concrete case -/

/-- A request that also signs the signature that is there. -/
def secondRequest : SignRequest testEnv :=
  { otherRequest with
    copyHeaders := false
    headerSelection := .manual [c!"From", c!"DKIM-Signature", c!"Received"] }

def firstHop : List (Except SigningError SigningOutput) :=
  (signRun testHeaders [simpleRequest] testBody (fun _ => 1000)).getD []

def firstHeader : List Field :=
  ⟨c!"Received", b!" z"⟩ :: (firstHop.flatMap fun x => match x with | .ok o => [outputField o] | _ => []) ++ testHeaders

def secondHop : List (Except SigningError SigningOutput) :=
  (signRun firstHeader [secondRequest] testBody (fun _ => 1000)).getD []

def secondHeader : List Field :=
  (secondHop.flatMap fun x => match x with | .ok o => [outputField o] | _ => []) ++ firstHeader

set_option maxRecDepth 100000 in
/-- Non-vacuity: a message that was signed, then got another field, and was signed again, whereby
the first signature was signed too. -/
theorem test_hops : TypedHeaders secondHeader ∧
    SignedAt testResolver .default (fun _ => 1050) secondHeader testBody.flatten 0 [secondRequest] ∧
    SignedAt testResolver .default (fun _ => 1050) secondHeader testBody.flatten 2 [simpleRequest] := by
  refine ⟨?_, ⟨testBody, fun _ => 1000, secondHop, 0, secondRequest, _, signed_of_run rfl, rfl, by decide, rfl, rfl, rfl,
      ?_, ?_, ?_, ?_, ?_, ?_⟩,
    ⟨testBody, fun _ => 1000, firstHop, 0, simpleRequest, _, signed_of_run rfl, rfl, by decide, rfl, rfl, rfl,
      ?_, simple_readable, ?_, test_published _, ?_, ?_⟩⟩
  · intro f hf
    rw [← fieldNameOk_iff, ← fieldBodyOk_iff]
    revert f
    decide
  · intro q hq
    rw [List.mem_singleton.1 hq]
    exact typed_of_check (by decide)
  · refine ⟨testEnv_kept (typed_of_check (by decide)), by rintro ⟨⟩, by rintro j l ⟨⟩, ?_, ?_⟩
    · intro v hv
      simp [secondRequest, otherRequest, simpleRequest, testRequest] at hv
    · intro _
      exact ⟨by rintro t ⟨⟩; decide, by rintro ⟨⟩⟩
  · rintro n (hn | ⟨g, hg, rfl⟩)
    · unfold mentions occurrences
      rw [show sameName n = fun m => c!"dkim-signature" == lower m from funext fun m => by rw [sameName, hn]]
      decide
    · cases hg
  · exact ⟨c!"example.com", c!"r", _, .ok b!"p=Ag==", _, .rsa (1017 : Nat), rfl, rfl, rfl,
      .tail _ (.head _), (txtRecord_iff _ _).2 rfl, rfl, by decide, by decide, by decide, rfl,
      show 1024 ≤ (1017 + 7) / 8 * 8 by decide, show 1024 ≤ (1017 + 7) / 8 * 8 by decide, otherRequest_keyPair⟩
  · exact (validateSignature_matches _ _ (by decide) _).passes rfl
  · intro h; cases h
  · intro q hq
    rw [List.mem_singleton.1 hq]
    exact typed_of_check (by decide)
  · rintro n (hn | ⟨g, hg, rfl⟩)
    · unfold mentions occurrences
      rw [show sameName n = fun m => c!"dkim-signature" == lower m from funext fun m => by rw [sameName, hn]]
      decide
    · revert g
      decide
  · exact (validateSignature_matches _ _ (by decide) _).passes rfl
  · intro h; cases h

end Dkim
