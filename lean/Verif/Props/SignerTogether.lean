import Verif.Props.EndToEnd
import Verif.Props.SignerRuns

/-!
# Property C62: all signatures of a signing run verify together

And concrete cases for C60, C61 and C63.
-/

namespace Dkim

open Spec

variable {E : Env}

theorem Run.unique {resolver : Resolver} {cfg : Config} {clock : Nat → Int} {headers : List Field}
    {chunks : List Bytes} {results results' : List VerificationResult} {asked asked' : List Str}
    (h : Run E resolver cfg clock headers chunks results asked)
    (h' : Run E resolver cfg clock headers chunks results' asked') : results = results' ∧ asked = asked' := by
  obtain ⟨v, w, ss, h1, h2, h3⟩ := h
  obtain ⟨v', w', ss', g1, g2, g3⟩ := h'
  rw [h1] at g1
  simp only [Option.some.injEq, Prod.mk.injEq] at g1
  obtain ⟨rfl, rfl⟩ := g1
  rw [h2] at g2
  simp only [Option.some.injEq, Prod.mk.injEq] at g2
  obtain ⟨rfl, _⟩ := g2
  rw [h3] at g3
  injection g3 with g3
  exact ⟨g3, rfl⟩

/-- The header field of a signature. -/
def Spec.outputField (o : SigningOutput) : Field := ⟨o.headerName, utf8 o.headerValue⟩

/-- C62, partial: if all requests succeed and the fields are put on top of the header in any
order, all of them are verified with success in one run. The conditions are those of
`C16_sign_verify_partial` for each request, and that the number of signatures evaluated is
not smaller. Missing, as in C16: requests whose signatures the library cannot read, and
requests that list DKIM-Signature more often than it occurs. -/
theorem C62_together_partial (law : IdnaLaw E.idna) (hs : SortLaw E.sortBy) (hset : SetLaw E.keySet)
    (hord : OrderLaw E.lookupOrder) (hsign : SignLaw E.crypto) (hhash : ∀ a b, E.hash a b ≠ [])
    (headers : List Field) (requests : List (SignRequest E)) (hh : TypedHeaders headers)
    (ht : ∀ r ∈ requests, TypedRequest r) (chunks : List Bytes) (clock : Nat → Nat) (outputs : List SigningOutput)
    (h : Signed headers requests chunks clock (outputs.map .ok))
    (hlen : ∀ k, (codeBody k chunks.flatten).length < 2 ^ 64) (hclock : ∀ i, clock i < 2 ^ 64)
    (hread : ∀ i r, requests[i]? = some r → Readable r headers (clock i))
    (resolver : Resolver) (cfg : Config) (vclock : Nat → Int) (T : TypedTimes cfg vclock)
    (chunks' : List Bytes) (hbody : chunks'.flatten = chunks.flatten)
    (top : List Field) (htop : top.Perm (outputs.map outputField))
    (hmax : requests.length ≤ cfg.maxSignatures)
    (hcover : ∀ r ∈ requests, ∀ n, lower n = c!"dkim-signature" →
      mentions (namesToSign r headers) n ≤ occurrences headers n)
    (hkey : ∀ r ∈ requests, KeyPublished resolver cfg r)
    (hpol : ∀ (i p : Nat) r o, requests[i]? = some r → outputs[i]? = some o → top[p]? = some (outputField o) →
      PolicyAccepts cfg (vclock p) (top ++ headers) chunks.flatten r o.signature) :
    ∃ results asked, Run E resolver cfg vclock (top ++ headers) chunks' results asked ∧
      ∀ p, p < requests.length → ∃ res ∈ results, res.index = p ∧ res.status = .success := by
  obtain ⟨hlen', _⟩ := Signed.item law hs hset hh ht h hlen
  rw [List.length_map] at hlen'
  have htl : top.length = requests.length := by rw [htop.length_eq, List.length_map, hlen']
  have hname : ∀ f ∈ top, lower f.name = c!"dkim-signature" := by
    intro f hf
    obtain ⟨o, ho, rfl⟩ := List.mem_map.1 (htop.mem_iff.1 hf)
    obtain ⟨i, ho⟩ := List.getElem?_of_mem ho
    have hi : i < requests.length := by
      have := (List.getElem?_eq_some_iff.1 ho).1
      omega
    have hr := List.getElem?_eq_getElem hi
    have ho' : (outputs.map (Except.ok (ε := SigningError)))[i]? = some (.ok o) := by simp [ho]
    show lower o.headerName = _
    rw [(C36_reflects law hs hset headers requests hh ht chunks clock _ h hlen i _ hr o ho').1]
    exact (signed_output law hs hset hh ht h hlen hr ho').2.1.headerName
  have key : ∀ p, p < requests.length → ∃ results asked,
      Run E resolver cfg vclock (top ++ headers) chunks' results asked ∧
        ∃ res ∈ results, res.index = p ∧ res.status = .success := by
    intro p hp
    have hp' : p < top.length := by omega
    have hm := htop.mem_iff.1 (List.getElem_mem hp')
    obtain ⟨o, ho, hf⟩ := List.mem_map.1 hm
    obtain ⟨i, ho⟩ := List.getElem?_of_mem ho
    have hi : i < requests.length := by
      have := (List.getElem?_eq_some_iff.1 ho).1
      omega
    have hr := List.getElem?_eq_getElem hi
    have ho' : (outputs.map (Except.ok (ε := SigningError)))[i]? = some (.ok o) := by simp [ho]
    have hmem : requests[i] ∈ requests := List.getElem_mem hi
    have hsplit : top ++ headers = top.take p ++ ⟨o.headerName, utf8 o.headerValue⟩ :: (top.drop (p + 1) ++ headers) := by
      show _ = top.take p ++ outputField o :: _
      rw [hf]
      have e : top = top.take p ++ top[p] :: top.drop (p + 1) := by
        rw [← List.drop_eq_getElem_cons hp', List.take_append_drop]
      exact (congrArg (· ++ headers) e).trans (List.append_assoc _ _ _)
    have hpl : (top.take p).length = p := by rw [List.length_take]; omega
    have := sign_verify law hs hset hord hsign hhash hh ht h hlen (hclock i) hr ho' (hread i _ hr) T
      (above := top.take p) (below := top.drop (p + 1) ++ headers) (chunks' := chunks') (resolver := resolver) ?_ ?_
      (by rw [hbody]) (hkey _ hmem) ?_
    · rw [hpl, ← hsplit] at this
      exact this
    · refine Nat.lt_of_le_of_lt (List.countP_le_length) ?_
      omega
    · rw [← hsplit, selectedFields_above]
      intro g hg
      exact hcover _ hmem _ (hname g hg)
    · rw [hpl, ← hsplit]
      exact hpol i p _ o hr ho (by rw [List.getElem?_eq_getElem hp', ← hf])
  cases hn : requests.length with
  | zero =>
    exfalso
    obtain ⟨s, _, _, h1, _⟩ := h
    have hd := (prepareSigning_decides law.toCaseLaw headers ht).ok_iff.1 ⟨s, h1⟩
    rw [signingRules_iff] at hd
    omega
  | succ n =>
    obtain ⟨results, asked, hrun, _⟩ := key 0 (by omega)
    refine ⟨results, asked, hrun, ?_⟩
    intro p hp
    obtain ⟨results', asked', hrun', hres⟩ := key p (by omega)
    rw [(hrun.unique hrun').1]
    exact hres

/-! ## Concrete cases -/

/-- A request to sign with RSA, another selection of fields and another length. -/
def otherRequest : SignRequest testEnv :=
  { simpleRequest with
    signingKey := .rsa ()
    algorithm := .rsaSha256
    selector := c!"r"
    bodyLength := .exact 3
    timestamp := .exact 900
    identity := none
    canonicalization := ⟨.simple, .relaxed⟩
    headerSelection := .auto }

/-- A run of the signer, as function. -/
def signRun (headers : List Field) (requests : List (SignRequest E)) (chunks : List Bytes) (clock : Nat → Nat) :
    Option (List (Except SigningError SigningOutput)) :=
  match prepareSigning E headers requests with
  | .ok s =>
    match s.processBody chunks with
    | some (s', _) => s'.sign clock
    | none => none
  | _ => none

theorem signed_of_run {headers : List Field} {requests : List (SignRequest E)} {chunks : List Bytes}
    {clock : Nat → Nat} {out : List (Except SigningError SigningOutput)}
    (h : signRun headers requests chunks clock = some out) : Signed headers requests chunks clock out := by
  unfold signRun at h
  split at h
  · next s e =>
    split at h
    · next s' ss e' => exact ⟨s, s', ss, e, e', h⟩
    · cases h
  · cases h

theorem otherRequest_keyPair : KeyPair (C := testEnv.crypto) (.rsa ()) (.rsa (1017 : Nat)) := by
  intro h data sig e
  injection e with e
  subst e
  exact decide_eq_true rfl

set_option maxRecDepth 100000 in
theorem other_published : KeyPublished (E := testEnv) testResolver .default otherRequest :=
  ⟨c!"example.com", c!"r", _, .ok b!"p=Ag==", _, .rsa (1017 : Nat), rfl, rfl, rfl,
    .tail _ (.head _), (txtRecord_iff _ _).2 rfl, rfl, by decide, by decide, by decide, rfl,
    show 1024 ≤ (1017 + 7) / 8 * 8 by decide, show 1024 ≤ (1017 + 7) / 8 * 8 by decide, otherRequest_keyPair⟩

theorem simple_readable : Readable simpleRequest testHeaders 1000 := by
  refine ⟨testEnv_kept (typed_of_check (by decide)), fun _ f hf _ => test_readable f hf, ?_, ?_, ?_⟩
  · rintro j l ⟨⟩ ⟨⟩
    exact .inr ((isLocalPart_iff _).1 rfl)
  · intro v hv
    simp [simpleRequest, testRequest] at hv
  · intro _
    exact ⟨by rintro t ⟨⟩, by decide⟩

theorem other_readable : Readable otherRequest testHeaders 1000 := by
  refine ⟨testEnv_kept (typed_of_check (by decide)), fun _ f hf _ => test_readable f hf, by rintro j l ⟨⟩, ?_, ?_⟩
  · intro v hv
    simp [otherRequest, simpleRequest, testRequest] at hv
  · intro _
    exact ⟨by rintro t ⟨⟩; decide, by rintro ⟨⟩⟩

set_option maxRecDepth 100000 in
/-- Non-vacuity: the hypotheses of C62 are met by two different requests, with the second
signature on top. -/
theorem test_together : ∃ o1 o2, Signed testHeaders [simpleRequest, otherRequest] testBody (fun _ => 1000)
      ([o1, o2].map .ok) ∧ TypedHeaders testHeaders ∧ TypedRequest simpleRequest ∧ TypedRequest otherRequest ∧
    Readable simpleRequest testHeaders 1000 ∧ Readable otherRequest testHeaders 1000 ∧
    (∀ r ∈ [simpleRequest, otherRequest], ∀ n, lower n = c!"dkim-signature" →
      mentions (namesToSign r testHeaders) n ≤ occurrences testHeaders n) ∧
    (∀ r ∈ [simpleRequest, otherRequest], KeyPublished testResolver .default r) ∧
    PolicyAccepts .default 1050 ([outputField o2, outputField o1] ++ testHeaders) testBody.flatten simpleRequest
      o1.signature ∧
    PolicyAccepts .default 1050 ([outputField o2, outputField o1] ++ testHeaders) testBody.flatten otherRequest
      o2.signature := by
  refine ⟨_, _, ⟨_, _, _, rfl, rfl, rfl⟩, testHeaders_typed, typed_of_check (by decide), typed_of_check (by decide),
    simple_readable, other_readable, ?_, ?_, ⟨?_, ?_⟩, ⟨?_, ?_⟩⟩
  · intro r hr n hn
    have : mentions (namesToSign r testHeaders) n = 0 := by
      simp only [List.mem_cons, List.not_mem_nil, or_false] at hr
      rcases hr with rfl | rfl
      · simp only [mentions, List.countP_eq_zero, sameName, hn]
        decide
      · simp only [mentions, List.countP_eq_zero, sameName, hn]
        decide
    omega
  · intro r hr
    simp only [List.mem_cons, List.not_mem_nil, or_false] at hr
    rcases hr with rfl | rfl
    · exact test_published _
    · exact other_published
  · exact (validateSignature_matches _ _ (by decide) _).passes rfl
  · intro h; cases h
  · exact (validateSignature_matches _ _ (by decide) _).passes rfl
  · intro h; cases h

set_option maxRecDepth 100000 in
/-- A run with two requests, of which the second fails, and one with the first alone.
(C60) -/
example : ∃ o, Signed testHeaders [{ testRequest with bodyLength := .exact 10 }, simpleRequest] testBody (fun _ => 1000)
      [.error .insufficientContent, .ok o] ∧
    Signed testHeaders [simpleRequest] [testBody.flatten] (fun _ => 1000) [.ok o] :=
  ⟨_, ⟨_, _, _, rfl, rfl, rfl⟩, signed_of_run rfl⟩

set_option maxRecDepth 100000 in
/-- The signer is done after the first two chunks. (C61) -/
example : ∃ s s', prepareSigning testEnv testHeaders [otherRequest] = .ok s ∧
    s.processBody [b!"ab", b!"cd"] = some (s', [.interested] ++ [.done]) :=
  ⟨_, _, rfl, rfl⟩

set_option maxRecDepth 100000 in
/-- The verifier is done if only the second signature is there. (C61) -/
example : ∃ v asked v', verifyHeader testEnv testResolver (testMessage.drop 1) .default (fun _ => 1500) =
      some (some v, asked) ∧ v.processBody [b!"a", b!"bcd"] = some (v', [.interested] ++ [.done]) :=
  ⟨_, _, _, rfl, rfl⟩

/-- The times of the output of a run. -/
theorem testRun_times {headers : List Field} {r : SignRequest testEnv} {o : SigningOutput} {t d : Nat}
    (h : TestRun headers r o) (hlen : ∀ k, (codeBody k b!"ab\r\n").length < 2 ^ 64) (ht : r.timestamp = .exact t)
    (hd : r.validDuration = some d) :
    o.signature.timestamp = some t ∧ o.signature.expiration = some (min (2 ^ 64 - 1) (t + d)) := by
  obtain ⟨h1, h2, h3⟩ := h
  obtain ⟨_, _, _, _, k5, k6, _⟩ := C36_fields testEnv_idna testEnv_sort testEnv_set headers [r] h1
    (by intro q hq; rw [List.mem_singleton.1 hq]; exact h2) _ _ _ h3 hlen 0 r rfl o rfl
  rw [ht] at k5
  refine ⟨k5, ?_⟩
  rw [k6, hd, k5]
  rfl

theorem test_short : ∀ k, (codeBody k b!"ab\r\n").length < 2 ^ 64 := by
  intro k
  cases k <;> decide

/-- C63 is violated: the expiration is not after the timestamp if that is the greatest
integer. -/
theorem C63_violation : ∃ o t x, TestRun testHeaders lateRequest o ∧ o.signature.timestamp = some t ∧
    o.signature.expiration = some x ∧ ¬ t < x := by
  obtain ⟨o, h, _⟩ := C37_violation_time
  obtain ⟨h1, h2⟩ := testRun_times h test_short (t := 2 ^ 64 - 1) (d := 432000) rfl rfl
  exact ⟨o, _, _, h, h1, h2, by omega⟩

set_option maxRecDepth 20000 in
/-- An output with both times. (C63) -/
example : ∃ o, TestRun testHeaders testRequest o ∧ o.signature.timestamp = some 1000 ∧
    o.signature.expiration = some 433000 := by
  have h : ∃ o, TestRun testHeaders testRequest o :=
    ⟨_, testHeaders_typed, typed_of_check (by decide), _, _, _, rfl, rfl, rfl⟩
  obtain ⟨o, h⟩ := h
  exact ⟨o, h, testRun_times h test_short rfl rfl⟩

end Dkim
