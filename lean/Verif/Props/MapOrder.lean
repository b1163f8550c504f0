import Verif.Props.Results
import Verif.Props.VerifierIndependence
import Verif.Props.SignerRuns

/-!
# Property C88: the order of hash maps, and chunks, do not matter
-/

namespace Dkim

open Spec

variable {E : Env}

/-- The same environment with other iteration orders of the maps and sets. -/
def Env.iterating (E : Env) (lookups : List Lookup → List Lookup) (keys : List BodyHasherKey → List BodyHasherKey) :
    Env :=
  { E with lookupOrder := lookups, keySet := keys }

theorem judged_iterating {o o' : List Lookup → List Lookup} {k k' : List BodyHasherKey → List BodyHasherKey}
    {resolver : Resolver} {cfg : Config} {now : Int} {headers : List Field} {body : Bytes} {i : Nat} {f : Field}
    {r : VerificationResult} (h : Judged (E.iterating o k) resolver cfg now headers body i f r) :
    Judged (E.iterating o' k') resolver cfg now headers body i f r := by
  cases h with
  | unparsed e h1 h2 => exact .unparsed e h1 h2
  | rejected v s e h1 h2 => exact .rejected v s e h1 h2
  | noAnswer v s n e h1 h2 h3 h4 => exact .noAnswer v s n e h1 h2 h3 h4
  | noRecords v s n h1 h2 h3 h4 => exact .noRecords v s n h1 h2 h3 h4
  | verified v o s n txts before after txt rec g1 g2 g3 g4 g5 g6 g7 g8 =>
    exact .verified v o s n txts before after txt rec g1 g2 g3 g4 g5 g6 g7 g8
  | unverified v o s n txts before txt e rec g1 g2 g3 g4 g5 g6 g7 g8 =>
    exact .unverified v o s n txts before txt e rec g1 g2 g3 g4 g5 g6 g7 g8

theorem eq_of_index {l l' : List VerificationResult} (hi : l.map (·.index) = l'.map (·.index))
    (h : ∀ r ∈ l, ∀ r' ∈ l', r.index = r'.index → r = r') : l = l' := by
  induction l generalizing l' with
  | nil => cases l' with
    | nil => rfl
    | cons a l' => simp at hi
  | cons a l ih =>
    cases l' with
    | nil => simp at hi
    | cons b l' =>
      simp only [List.map_cons, List.cons.injEq] at hi
      rw [h a (by simp) b (by simp) hi.1, ih hi.2 fun r hr r' hr' => h r (by simp [hr]) r' (by simp [hr'])]

/-- C88: the results of a verification depend neither on the order in which the lookups are
made and the hashers are kept, nor on how the body is divided into chunks; and the same
names are asked. -/
theorem C88_verification {o o' : List Lookup → List Lookup} {k k' : List BodyHasherKey → List BodyHasherKey}
    (law : CaseLaw E.idna) (ho : OrderLaw o) (ho' : OrderLaw o') (hk : SetLaw k) (hk' : SetLaw k')
    {resolver : Resolver} {cfg : Config} {clock : Nat → Int} (T : TypedTimes cfg clock) {headers : List Field}
    {chunks chunks' : List Bytes} (hbody : chunks.flatten = chunks'.flatten)
    {results results' : List VerificationResult} {asked asked' : List Str}
    (h : Run (E.iterating o k) resolver cfg clock headers chunks results asked)
    (h' : Run (E.iterating o' k') resolver cfg clock headers chunks' results' asked') :
    results = results' ∧ asked.Perm asked' := by
  have L : Lawful (E.iterating o k) := ⟨law, ho, hk⟩
  have L' : Lawful (E.iterating o' k') := ⟨law, ho', hk'⟩
  constructor
  · refine eq_of_index ?_ ?_
    · rw [(C38_one_result_each L T h).1, (C38_one_result_each L' T h').1]
    · intro r hr r' hr' hi
      obtain ⟨f, hf, hj⟩ := (verify_judged L T h).1 r hr
      obtain ⟨f', hf', hj'⟩ := (verify_judged L' T h').1 r' hr'
      have e1 := (mem_dkimFields hf).1
      have e2 := (mem_dkimFields hf').1
      rw [← hi] at hj' e2
      rw [e1] at e2
      injection e2 with e2
      subst e2
      rw [← hbody] at hj'
      exact (judged_iterating hj).unique L'.idna hj'
  · obtain ⟨p, n, e, m⟩ := C48_queries L T h
    obtain ⟨p', n', e', m'⟩ := C48_queries L' T h'
    rw [e, e']
    refine List.Perm.map _ ((List.perm_ext_iff_of_nodup n n').2 ?_)
    rintro ⟨d, s⟩
    exact (m d s).trans (m' d s).symm

/-- A request in such an environment. -/
def SignRequest.iterating (o : List Lookup → List Lookup) (k : List BodyHasherKey → List BodyHasherKey)
    (r : SignRequest E) : SignRequest (E.iterating o k) :=
  { signingKey := r.signingKey, algorithm := r.algorithm, canonicalization := r.canonicalization, domain := r.domain
    headerSelection := r.headerSelection, identity := r.identity, bodyLength := r.bodyLength, selector := r.selector
    timestamp := r.timestamp, validDuration := r.validDuration, copyHeaders := r.copyHeaders, extTags := r.extTags
    format := r.format }

theorem typedRequest_iterating {o : List Lookup → List Lookup} {k : List BodyHasherKey → List BodyHasherKey}
    {r : SignRequest E} (h : TypedRequest r) : TypedRequest (r.iterating o k) := by
  obtain ⟨⟩ := h
  constructor <;> assumption

theorem resultOfRequest_iterating (o : List Lookup → List Lookup) (k : List BodyHasherKey → List BodyHasherKey)
    (headers : List Field) (body : Bytes) (now : Nat) (r : SignRequest E) :
    resultOfRequest headers body now (r.iterating o k) = resultOfRequest headers body now r := by
  have b : bodyToSign (r.iterating o k) body = bodyToSign r body := rfl
  have d : ∀ part, sigData (r.iterating o k) headers part now = sigData r headers part now := fun _ => rfl
  have p : ∀ u, produceSignature (E := E.iterating o k) u (r.iterating o k).signingKey (r.iterating o k).format headers =
      produceSignature (E := E) u r.signingKey r.format headers := by
    intro u
    have e1 : (E.iterating o k).idna = E.idna := rfl
    have e2 : (E.iterating o k).sortBy = E.sortBy := rfl
    have e3 : (E.iterating o k).hash = E.hash := rfl
    have e4 : (r.iterating o k).format = r.format := rfl
    have e5 : (r.iterating o k).signingKey.signatureLength = r.signingKey.signatureLength := rfl
    have e6 : (r.iterating o k).signingKey.keyType = r.signingKey.keyType := rfl
    have e7 : ∀ h d, signHash (r.iterating o k).signingKey h d = signHash r.signingKey h d := by
      intro h d
      cases r with
      | mk key => cases key <;> rfl
    unfold produceSignature
    simp only [e1, e2, e3, e4, e5, e6, e7]
  unfold resultOfRequest
  simp only [b, d, p]

/-- C88: the same for the results of signing. -/
theorem C88_signing {o o' : List Lookup → List Lookup} {k k' : List BodyHasherKey → List BodyHasherKey}
    (law : IdnaLaw E.idna) (hs : SortLaw E.sortBy) (hk : SetLaw k) (hk' : SetLaw k')
    (headers : List Field) (requests : List (SignRequest E)) (hh : TypedHeaders headers)
    (ht : ∀ r ∈ requests, TypedRequest r) (chunks chunks' : List Bytes) (hbody : chunks.flatten = chunks'.flatten)
    (hlen : ∀ a, (codeBody a chunks.flatten).length < 2 ^ 64) (clock : Nat → Nat)
    (out out' : List (Except SigningError SigningOutput))
    (h : Signed headers (requests.map (·.iterating o k)) chunks clock out)
    (h' : Signed headers (requests.map (·.iterating o' k')) chunks' clock out') : out = out' := by
  have htr : ∀ (o : List Lookup → List Lookup) (k : List BodyHasherKey → List BodyHasherKey),
      ∀ r ∈ requests.map (·.iterating o k), TypedRequest r := by
    intro o k r hr
    obtain ⟨q, hq, rfl⟩ := List.mem_map.1 hr
    exact typedRequest_iterating (ht q hq)
  obtain ⟨n, g⟩ := Signed.item (E := E.iterating o k) law hs hk hh (htr o k) h hlen
  obtain ⟨n', g'⟩ := Signed.item (E := E.iterating o' k') law hs hk' hh (htr o' k') h' (hbody ▸ hlen)
  rw [List.length_map] at n n'
  apply List.ext_getElem?
  intro i
  by_cases hi : i < requests.length
  · have e := List.getElem?_eq_getElem hi
    rw [g i (requests[i].iterating o k) (by rw [List.getElem?_map, e]; rfl),
      g' i (requests[i].iterating o' k') (by rw [List.getElem?_map, e]; rfl), hbody,
      resultOfRequest_iterating, resultOfRequest_iterating]
  · rw [List.getElem?_eq_none (by omega), List.getElem?_eq_none (by omega)]

/-- Iteration in reverse is lawful too. -/
theorem reverse_orderLaw : OrderLaw (List.reverse (α := Lookup)) := fun l => l.reverse_perm

theorem reverse_setLaw {k : List BodyHasherKey → List BodyHasherKey} (hk : SetLaw k) :
    SetLaw (fun l => (k l).reverse) :=
  fun l => ⟨(List.reverse_perm (k l)).nodup_iff.2 (hk l).1, fun x => by rw [List.mem_reverse]; exact (hk l).2 x⟩

set_option maxRecDepth 100000 in
/-- Non-vacuity: a run with reversed orders and the body in one chunk, in which the names are
asked in the other order. -/
example : (∃ results, Run (testEnv.iterating testEnv.lookupOrder testEnv.keySet) testResolver .default (fun _ => 1500)
      testMessage testBody results [c!"r._domainkey.example.com.", c!"e._domainkey.example.com."]) ∧
    ∃ results, Run (testEnv.iterating List.reverse fun l => (testEnv.keySet l).reverse) testResolver .default
      (fun _ => 1500) testMessage [testBody.flatten] results
      [c!"e._domainkey.example.com.", c!"r._domainkey.example.com."] :=
  ⟨⟨_, _, _, _, rfl, rfl, rfl⟩, ⟨_, _, _, _, rfl, rfl, rfl⟩⟩

end Dkim
