import Verif.Props.EndToEnd

/-!
# Property C16: the exception is exact

A request that lists DKIM-Signature more often than the header has it is the only case in
which the verifier does not look at the data that was signed.
-/

namespace Dkim

open Spec

variable {E : Env}

theorem fromBottom_cons (f : Field) (headers : List Field) (n : Str) :
    fromBottom (f :: headers) n = fromBottom headers n ++ (if sameName f.name n then [f] else []) := by
  unfold fromBottom
  rw [List.reverse_cons, List.filter_append, List.filter_cons, List.filter_nil]

theorem occurrences_fromBottom (headers : List Field) (n : Str) :
    (fromBottom headers n).length = occurrences headers n := by
  unfold fromBottom occurrences
  rw [List.filter_reverse, List.length_reverse, List.countP_eq_length_filter]
  congr 2
  funext f
  simp only [sameName, Bool.beq_comm]

theorem selectAux_cons_le (g : Field → Bytes) (f : Field) (headers : List Field) : ∀ (names earlier : List Str),
    ((selectAux headers earlier names).flatMap g).length ≤
      ((selectAux (f :: headers) earlier names).flatMap g).length := by
  intro names
  induction names with
  | nil => intro earlier; exact Nat.le_refl _
  | cons n ns ih =>
    intro earlier
    simp only [selectAux, List.flatMap_append, List.length_append]
    refine Nat.add_le_add ?_ (ih _)
    rw [fromBottom_cons]
    cases h : (fromBottom headers n)[earlier.countP (sameName n)]? with
    | none => simp
    | some a =>
      have hlt : earlier.countP (sameName n) < (fromBottom headers n).length :=
        (List.getElem?_eq_some_iff.1 h).1
      rw [List.getElem?_append_left hlt, h]
      exact Nat.le_refl _

theorem selectAux_cons_lt (g : Field → Bytes) (f : Field) (hg : g f ≠ []) (headers : List Field) :
    ∀ (names earlier : List Str), earlier.countP (sameName f.name) ≤ occurrences headers f.name →
    occurrences headers f.name < earlier.countP (sameName f.name) + mentions names f.name →
    ((selectAux headers earlier names).flatMap g).length <
      ((selectAux (f :: headers) earlier names).flatMap g).length := by
  intro names
  induction names with
  | nil =>
    intro earlier h1 h2
    simp only [mentions, List.countP_nil] at h2
    omega
  | cons n ns ih =>
    intro earlier h1 h2
    simp only [selectAux, List.flatMap_append, List.length_append]
    have hm : mentions (n :: ns) f.name = mentions ns f.name + (if sameName f.name n then 1 else 0) := by
      unfold mentions; rw [List.countP_cons]
    have hc : (n :: earlier).countP (sameName f.name) =
        earlier.countP (sameName f.name) + (if sameName f.name n then 1 else 0) := List.countP_cons ..
    rw [fromBottom_cons]
    by_cases hs : sameName f.name n = true
    · have e : lower f.name = lower n := by simpa [sameName] using hs
      have e1 : earlier.countP (sameName n) = earlier.countP (sameName f.name) := by
        congr 1; funext m; simp [sameName, e]
      have e2 : (fromBottom headers n).length = occurrences headers f.name := by
        rw [occurrences_fromBottom]
        unfold occurrences
        congr 1; funext m; simp [sameName, e]
      rw [if_pos hs] at hm hc
      rw [if_pos hs, e1]
      by_cases hlt : earlier.countP (sameName f.name) < occurrences headers f.name
      · rw [List.getElem?_append_left (by omega)]
        exact Nat.add_lt_add_left (ih _ (by omega) (by omega)) _
      · refine Nat.add_lt_add_of_lt_of_le ?_ (selectAux_cons_le g f headers ns _)
        rw [List.getElem?_eq_none (by omega), List.getElem?_append_right (by omega)]
        have : earlier.countP (sameName f.name) - (fromBottom headers n).length = 0 := by omega
        rw [this]
        simpa using List.length_pos_iff.2 hg
    · rw [if_neg hs] at hm hc
      rw [if_neg hs, List.append_nil]
      exact Nat.add_lt_add_left (ih _ (by omega) (by omega)) _

/-- With one more field on top, the data that is hashed is the same exactly if the name of
this field is not listed more often than it occurs below. -/
theorem headerHashInput_top (c : CanonAlg) (f : Field) (headers : List Field) (names : List Str)
    (name value : Str) :
    headerHashInput c (f :: headers) names name value = headerHashInput c headers names name value ↔
      mentions names f.name ≤ occurrences headers f.name := by
  unfold headerHashInput
  rw [List.append_left_inj]
  constructor
  · intro h
    refine Nat.le_of_not_lt fun hlt => ?_
    have := selectAux_cons_lt (fun f => canonField c f.name f.body ++ b!"\r\n") f (by simp) headers names []
      (by simp) (by simpa using hlt)
    unfold selectedFields at h
    rw [h] at this
    exact absurd this (Nat.lt_irrefl _)
  · intro h
    have := selectedFields_above (above := [f]) (headers := headers) (names := names) (by
      intro g hg
      rw [List.mem_singleton.1 hg]
      exact h)
    rw [List.singleton_append] at this
    rw [this]

/-- C16: the verifier of the message with the produced field on top hashes the same header
data as the signer, exactly if the request does not list DKIM-Signature more often than
the header has it. -/
theorem C16_same_data_exactly (law : IdnaLaw E.idna) (hs : SortLaw E.sortBy) (hset : SetLaw E.keySet)
    (headers : List Field) (requests : List (SignRequest E)) (hh : TypedHeaders headers)
    (ht : ∀ r ∈ requests, TypedRequest r) (chunks : List Bytes) (clock : Nat → Nat)
    (out : List (Except SigningError SigningOutput)) (h : Signed headers requests chunks clock out)
    (hlen : ∀ k, (codeBody k chunks.flatten).length < 2 ^ 64) (i : Nat)
    (r : SignRequest E) (hr : requests[i]? = some r) (o : SigningOutput) (ho : out[i]? = some (.ok o)) :
    headerHashInput r.canonicalization.header (⟨o.headerName, utf8 o.headerValue⟩ :: headers)
        (namesToSign r headers) o.headerName (makeOriginal o.headerValue) =
      headerHashInput r.canonicalization.header headers (namesToSign r headers) o.headerName
        (makeOriginal o.headerValue) ↔
    mentions (namesToSign r headers) c!"DKIM-Signature" ≤ occurrences headers c!"DKIM-Signature" := by
  have hname : lower o.headerName = c!"dkim-signature" := by
    rw [(C36_reflects law hs hset headers requests hh ht chunks clock out h hlen i r hr o ho).1]
    exact (signed_output law hs hset hh ht h hlen hr ho).2.1.headerName
  rw [headerHashInput_top]
  have e : lower o.headerName = lower c!"DKIM-Signature" := hname
  have e1 : sameName o.headerName = sameName c!"DKIM-Signature" := by funext m; simp [sameName, e]
  simp only [mentions, occurrences, e1]

/-- If the verifier hashes other header data than the signer, a verification does not
succeed, unless a published key accepts the signature for data other than those for which
it was made. -/
theorem other_data (law : IdnaLaw E.idna) (hs : SortLaw E.sortBy) (hset : SetLaw E.keySet)
    (hord : OrderLaw E.lookupOrder) (hsign : SignLaw E.crypto) (hhash : ∀ a b, E.hash a b ≠ [])
    {headers : List Field} {requests : List (SignRequest E)} (hh : TypedHeaders headers)
    (ht : ∀ r ∈ requests, TypedRequest r) {chunks : List Bytes} {clock : Nat → Nat}
    {out : List (Except SigningError SigningOutput)} (h : Signed headers requests chunks clock out)
    (hlen : ∀ k, (codeBody k chunks.flatten).length < 2 ^ 64) {i : Nat} (hclock : clock i < 2 ^ 64)
    {r : SignRequest E} (hr : requests[i]? = some r) {o : SigningOutput} (ho : out[i]? = some (.ok o))
    (hread : Readable r headers (clock i))
    {resolver : Resolver} {cfg : Config} {vclock : Nat → Int} (T : TypedTimes cfg vclock)
    {message : List Field} {chunks' : List Bytes} {results : List VerificationResult} {asked : List Str}
    (run : Run E resolver cfg vclock message chunks' results asked)
    {res : VerificationResult} (hres : res ∈ results)
    (hfield : message[res.index]? = some ⟨o.headerName, utf8 o.headerValue⟩)
    (hover : headerHashInput r.canonicalization.header message (namesToSign r headers) o.headerName
        (makeOriginal o.headerValue) ≠
      headerHashInput r.canonicalization.header headers (namesToSign r headers) o.headerName
        (makeOriginal o.headerValue)) :
    res.status = .success → ∃ d s txts txt record key, E.idna.toAscii r.domain = some d ∧
      E.idna.toAscii r.selector = some s ∧ (resolver (keyName d s)).result = .ok txts ∧ txt ∈ txts ∧
      TxtRecord E txt record ∧ publicKey E.crypto (keyTypeOf r.algorithm) record.keyData = some key ∧
      let input := fun hs => headerHashInput r.canonicalization.header hs (namesToSign r headers) o.headerName
        (makeOriginal o.headerValue)
      signWith r.signingKey (hashOf r.algorithm) (E.hash (hashOf r.algorithm) (input headers)) =
        some o.signature.signatureData ∧
      input message ≠ input headers ∧
      verifyWith key (hashOf r.algorithm) (E.hash (hashOf r.algorithm) (input message))
        o.signature.signatureData = true := by
  intro hsucc
  have L : Lawful E := ⟨law.toCaseLaw, hord, hset⟩
  obtain ⟨hk, hc, hlocal, hq, hleft⟩ := hread
  obtain ⟨s, pi, _, s1, s2, _, _, s4⟩ := output_read law hs hset hsign hhash hh ht h hlen hclock hr ho hk hlocal hc hq hleft
  obtain ⟨k1, part, sg, k2, k3⟩ := C36_reflects law hs hset headers requests hh ht chunks clock out h hlen i r hr
    o ho
  have ealg : s.algorithm = r.algorithm := by rw [s2.algorithm]; show o.signature.algorithm = _; rw [k3]; rfl
  have ecanon : s.canonicalization = r.canonicalization := by
    rw [s2.canonicalization]; show o.signature.canonicalization = _; rw [k3]; rfl
  have enames : s.signedHeaders = namesToSign r headers := by
    rw [s2.signedHeaders]; show o.signature.signedHeaders = _; rw [k3]; rfl
  have edom : E.idna.toAscii s.domain = E.idna.toAscii r.domain := by
    rw [s2.domain]; show E.idna.toAscii o.signature.domain = _; rw [k3]; rfl
  have esel : E.idna.toAscii s.selector = E.idna.toAscii r.selector := by
    rw [s2.selector]; show E.idna.toAscii o.signature.selector = _; rw [k3]; rfl
  have edata : s.signatureData = o.signature.signatureData := s2.signatureData
  have hsig : FieldSignature E ⟨o.headerName, utf8 o.headerValue⟩ o.headerValue s :=
    ⟨rfl, (sigFromStr_iff law.toCaseLaw E.pre _ _).1 s1⟩
  obtain ⟨f, sig, record, key, value, original, hf, _, _, S⟩ := C40_success_sound L T run res hres hsucc
  rw [hfield] at hf
  simp only [Option.some.injEq] at hf
  subst hf
  obtain ⟨ev, es⟩ := fieldSignature_unique law.toCaseLaw S.signature hsig
  subst ev es
  have eo : original = makeOriginal o.headerValue := withoutB_unique hsig S.stripped (withoutB_of hsig)
  subst eo
  obtain ⟨name, txts, ⟨d, sl, q1, q2, rfl⟩, a1, txt, a2, a3⟩ := S.answer
  have hv := S.verified
  have hk := S.keyRead
  rw [ealg] at hv hk
  rw [edata] at hv
  unfold signedInput at hv
  rw [ecanon, enames] at hv
  refine ⟨d, sl, txts, txt, record, key, edom ▸ q1, esel ▸ q2, a1, ?_, a3, hk,
    (C14_reconstructed law hs hset headers requests hh ht chunks clock out h hlen i r hr o ho).2, hover, hv⟩
  · have := mem_firstTwoAndLast a2
    rcases List.mem_append.1 this with hm | hm
    · exact List.mem_of_mem_take hm
    · exact List.mem_of_getLast? (Option.mem_toList.1 hm)

/-- C16, the exception: if the request lists DKIM-Signature more often than the header has
it, then no verification of the message with the produced field on top succeeds for this
field, unless a published key accepts the signature for the data that are then hashed, which are
other than those for which it was made. -/
theorem C16_oversigned (law : IdnaLaw E.idna) (hs : SortLaw E.sortBy) (hset : SetLaw E.keySet)
    (hord : OrderLaw E.lookupOrder) (hsign : SignLaw E.crypto) (hhash : ∀ a b, E.hash a b ≠ [])
    (headers : List Field) (requests : List (SignRequest E)) (hh : TypedHeaders headers)
    (ht : ∀ r ∈ requests, TypedRequest r) (chunks : List Bytes) (clock : Nat → Nat)
    (out : List (Except SigningError SigningOutput)) (h : Signed headers requests chunks clock out)
    (hlen : ∀ k, (codeBody k chunks.flatten).length < 2 ^ 64) (i : Nat) (hclock : clock i < 2 ^ 64)
    (r : SignRequest E) (hr : requests[i]? = some r) (o : SigningOutput) (ho : out[i]? = some (.ok o))
    (hread : Readable r headers (clock i))
    (hover : occurrences headers c!"DKIM-Signature" < mentions (namesToSign r headers) c!"DKIM-Signature")
    (resolver : Resolver) (cfg : Config) (vclock : Nat → Int) (T : TypedTimes cfg vclock)
    (chunks' : List Bytes) (results : List VerificationResult) (asked : List Str)
    (run : Run E resolver cfg vclock (⟨o.headerName, utf8 o.headerValue⟩ :: headers) chunks' results asked)
    (res : VerificationResult) (hres : res ∈ results) (hidx : res.index = 0) :
    res.status = .success → ∃ d s txts txt record key, E.idna.toAscii r.domain = some d ∧
      E.idna.toAscii r.selector = some s ∧ (resolver (keyName d s)).result = .ok txts ∧ txt ∈ txts ∧
      TxtRecord E txt record ∧ publicKey E.crypto (keyTypeOf r.algorithm) record.keyData = some key ∧
      let input := fun hs => headerHashInput r.canonicalization.header hs (namesToSign r headers) o.headerName
        (makeOriginal o.headerValue)
      signWith r.signingKey (hashOf r.algorithm) (E.hash (hashOf r.algorithm) (input headers)) =
        some o.signature.signatureData ∧
      input (⟨o.headerName, utf8 o.headerValue⟩ :: headers) ≠ input headers ∧
      verifyWith key (hashOf r.algorithm) (E.hash (hashOf r.algorithm) (input (⟨o.headerName, utf8 o.headerValue⟩ :: headers)))
        o.signature.signatureData = true := by
  refine other_data law hs hset hord hsign hhash hh ht h hlen hclock hr ho hread T run hres (by rw [hidx]; rfl) ?_
  intro e
  have := (C16_same_data_exactly law hs hset headers requests hh ht chunks clock out h hlen i r hr o ho).1 e
  omega

/-- Non-vacuity: the hypotheses of `C16_oversigned` are those shown in
`C16_violation_oversigning`, and that the request lists the name once and the
header does not have it. -/
example : occurrences testHeaders c!"DKIM-Signature" <
    mentions (namesToSign oversigning testHeaders) c!"DKIM-Signature" := by decide

/-- Both sides of `C16_same_data_exactly` occur: one request of the examples lists the name
too often, the other does not. -/
example : ¬ occurrences testHeaders c!"DKIM-Signature" <
    mentions (namesToSign simpleRequest testHeaders) c!"DKIM-Signature" := by decide

end Dkim
