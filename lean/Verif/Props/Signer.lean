import Verif.Proofs.Sign
import Verif.Proofs.TestEnv

/-!
# Properties C14 and C34 to C36: signing

`prepareSigning`, `processBody` and `sign` model the three stages of the signer.
`TypedHeaders` and `TypedRequest` state what Rust's types guarantee of the
arguments.
-/

namespace Dkim

open Spec

variable {E : Env}

/-! ## C34 -/

/-- C34: preparation succeeds exactly if there is a From field, there are one to ten
requests, and all requests are valid. -/
theorem C34_accepts (law : CaseLaw E.idna) (headers : List Field) (requests : List (SignRequest E))
    (ht : ∀ r ∈ requests, TypedRequest r) :
    (∃ s, prepareSigning E headers requests = .ok s) ↔
      HasFrom headers ∧ 1 ≤ requests.length ∧ requests.length ≤ 10 ∧ ∀ r ∈ requests, ValidRequest r := by
  rw [(prepareSigning_decides law headers ht).ok_iff, signingRules_iff]

/-- C34: it fails with exactly the error of the first violated rule. -/
theorem C34_first_error (law : CaseLaw E.idna) (headers : List Field) (requests : List (SignRequest E))
    (ht : ∀ r ∈ requests, TypedRequest r) (e : RequestError) :
    prepareSigning E headers requests = .err e ↔ FirstViolated (signingRules headers requests) e :=
  (prepareSigning_decides law headers ht).err_iff e

/-- C34: it never panics. -/
theorem C34_no_panic (law : CaseLaw E.idna) (headers : List Field) (requests : List (SignRequest E))
    (ht : ∀ r ∈ requests, TypedRequest r) : prepareSigning E headers requests ≠ .panic :=
  (prepareSigning_decides law headers ht).no_panic

/-- C34: the prepared signer is for these requests and this header. -/
theorem C34_prepared (headers : List Field) (requests : List (SignRequest E)) (s : Signer E)
    (h : prepareSigning E headers requests = .ok s) : s.tasks = requests ∧ s.headers = headers :=
  ⟨(prepareSigning_ok h).1, (prepareSigning_ok h).2.1⟩

theorem test_validDomain (b : Bool) (d : Str) (h : isValidDomainString asciiIdna d b = true) :
    ValidDomain b testEnv.idna d := (isValidDomainString_iff _ _ _).1 h

/-- Non-vacuity: a concrete request satisfies the typing hypothesis, -/
theorem testRequest_typed : TypedRequest testRequest where
  domain := test_validDomain _ _ (by decide)
  selector := test_validDomain _ _ (by decide)
  identity := by
    intro i h
    injection h with h
    subst h
    exact test_validDomain _ _ (by decide)
  names := by intro ns h; cases h
  length := by intro n h; cases h
  timestamp := by intro n h; injection h with h; subst h; decide
  duration := by intro n h; injection h with h; subst h; decide
  width := by decide
  sha1 := by intro h; cases h

/-- and is accepted; two others are rejected for their own reason. -/
example : (∃ s, prepareSigning testEnv testHeaders [testRequest] = .ok s) ∧
    prepareSigning testEnv testHeaders [testRequest, { testRequest with algorithm := .rsaSha256 }]
      = .err .incompatibleKeyType ∧
    prepareSigning testEnv [] [{ testRequest with algorithm := .rsaSha256 }] = .err .missingFromHeader :=
  ⟨⟨_, rfl⟩, rfl, rfl⟩

/-! ## C35 -/

/-- What was hashed for the signature of a request `r`, given the value of the
signature header without `b=` value. -/
def signedHash (r : SignRequest E) (headers : List Field) (value : Str) : Bytes :=
  E.hash (hashOf r.algorithm)
    (headerHashInput r.canonicalization.header headers (namesToSign r headers) r.format.headerName value)

/-- C35: signing does not panic and returns one result per request, in order; an error
is either insufficient content, exactly if the body is too short for the requested
length, or a failure of the RSA primitive. Canonical bodies of 2^64 bytes or more are
excluded. -/
theorem C35_results (law : IdnaLaw E.idna) (hs : SortLaw E.sortBy) (hset : SetLaw E.keySet)
    (headers : List Field) (requests : List (SignRequest E)) (s : Signer E) (hh : TypedHeaders headers)
    (ht : ∀ r ∈ requests, TypedRequest r) (h : prepareSigning E headers requests = .ok s)
    (chunks : List Bytes) (clock : Nat → Nat) (hlen : ∀ k, (codeBody k chunks.flatten).length < 2 ^ 64) :
    ∃ s' ss out, s.processBody chunks = some (s', ss) ∧ s'.sign clock = some out ∧ out.length = requests.length ∧
      ∀ (i : Nat) (r : SignRequest E), requests[i]? = some r → ∃ res, out[i]? = some res ∧
        (res = .error .insufficientContent ↔ bodyToSign r chunks.flatten = none) ∧
        (∀ e, res = .error e → e = .insufficientContent ∨
          (e = .signingFailure ∧ ∃ value, signWith r.signingKey (hashOf r.algorithm)
            (signedHash r headers value) = none)) := by
  obtain ⟨hf, ha, s', ss, out, h1, h2, h3, h4⟩ := signing_run law hs hset hh ht h chunks clock hlen
  refine ⟨s', ss, out, h1, h2, h3, ?_⟩
  intro i r hr
  have hm := List.mem_of_getElem? hr
  rcases h4 i r hr with ⟨g1, g2⟩ | ⟨part, g1, g2, g3⟩
  · refine ⟨_, g2, by simp [g1], ?_⟩
    intro e he
    injection he with he
    exact .inl he.symm
  · obtain ⟨_, _, before, after, _, _, hp⟩ := produceSignature_spec law hs
      (sigData_fine (ht r hm) (ha r hm) hh hf part (clock i)) r.signingKey (ha r hm).keyType r.format
      (ha r hm).indent headers
    rcases hp with ⟨k1, k2⟩ | ⟨sig, text, k1, k2, k3, k4⟩
    · refine ⟨_, g3 _ k2, by simp [g1], ?_⟩
      intro e he
      injection he with he
      exact .inr ⟨he.symm, _, k1⟩
    · exact ⟨_, g2 _ k4, by simp [g1], by simp⟩

/-- C35: the cursor is positive wherever the formatter moves it back, as that is after the
beginning of a tag (a space or a line break, and at least three characters). The subtraction of natural
numbers in the model is therefore that of the code. -/
theorem C35_cursor (fmt : Fmt) (i len : Nat) : len ≤ (advanceInitial fmt i len).2 := by
  unfold advanceInitial
  split
  · show len ≤ i + (len + 1)
    omega
  · exact Nat.le_add_left _ _

/-- Both kinds of beginning. -/
example : advanceInitial ⟨78, c!"\t", false, false⟩ 70 4 = ([' '], 75) ∧
    advanceInitial ⟨78, c!"\t", false, false⟩ 75 4 = (c!"\r\n\t", 5) := by decide

/-- C35: Ed25519 signing of a body that is long enough always succeeds. -/
theorem C35_ed25519 (law : IdnaLaw E.idna) (hs : SortLaw E.sortBy) (hset : SetLaw E.keySet)
    (headers : List Field) (requests : List (SignRequest E)) (s : Signer E) (hh : TypedHeaders headers)
    (ht : ∀ r ∈ requests, TypedRequest r) (h : prepareSigning E headers requests = .ok s)
    (chunks : List Bytes) (clock : Nat → Nat) (hlen : ∀ k, (codeBody k chunks.flatten).length < 2 ^ 64) :
    ∃ s' ss out, s.processBody chunks = some (s', ss) ∧ s'.sign clock = some out ∧
      ∀ (i : Nat) (r : SignRequest E), requests[i]? = some r → r.algorithm = .ed25519Sha256 →
        bodyToSign r chunks.flatten ≠ none → ∃ o, out[i]? = some (.ok o) := by
  obtain ⟨hf, ha, _⟩ := signing_run law hs hset hh ht h chunks clock hlen
  obtain ⟨s', ss, out, h1, h2, h3, h4⟩ := C35_results law hs hset headers requests s hh ht h chunks clock hlen
  refine ⟨s', ss, out, h1, h2, ?_⟩
  intro i r hr halg hb
  obtain ⟨res, g1, g2, g3⟩ := h4 i r hr
  cases res with
  | ok o => exact ⟨o, g1⟩
  | error e =>
    exfalso
    rcases g3 e rfl with rfl | ⟨_, v, hv⟩
    · exact hb (g2.1 rfl)
    · have hk := (ha r (List.mem_of_getElem? hr)).keyType
      rw [halg] at hk
      cases hkey : r.signingKey with
      | rsa k => rw [hkey] at hk; cases hk
      | ed25519 k => rw [hkey] at hv; cases hv

/-- A whole run of the signer: preparation, body chunks, signing. -/
def Signed (headers : List Field) (requests : List (SignRequest E)) (chunks : List Bytes)
    (clock : Nat → Nat) (out : List (Except SigningError SigningOutput)) : Prop :=
  ∃ s s' ss, prepareSigning E headers requests = .ok s ∧ s.processBody chunks = some (s', ss) ∧
    s'.sign clock = some out

set_option maxRecDepth 20000 in
/-- Non-vacuity: a complete run with two requests, one of which asks for more content
than there is. -/
example : ∃ o, Signed testHeaders [testRequest, { testRequest with bodyLength := .exact 10 }]
    [b!"ab", b!"c\r\n"] (fun _ => 0) [.ok o, .error .insufficientContent] :=
  ⟨_, _, _, _, rfl, rfl, rfl⟩

/-! ## C36 -/

/-- What is known of a successful result. -/
theorem signed_output (law : IdnaLaw E.idna) (hs : SortLaw E.sortBy) (hset : SetLaw E.keySet)
    {headers : List Field} {requests : List (SignRequest E)} (hh : TypedHeaders headers)
    (ht : ∀ r ∈ requests, TypedRequest r) {chunks : List Bytes} {clock : Nat → Nat}
    {out : List (Except SigningError SigningOutput)}
    (h : Signed headers requests chunks clock out)
    (hlen : ∀ k, (codeBody k chunks.flatten).length < 2 ^ 64) {i : Nat} {r : SignRequest E}
    (hr : requests[i]? = some r) {o : SigningOutput} (ho : out[i]? = some (.ok o)) :
    TypedRequest r ∧ Accepted r ∧ HasFrom headers ∧ ∃ part, bodyToSign r chunks.flatten = some part ∧
      produceSignature (sigData r headers part (clock i)) r.signingKey r.format headers = .ok o := by
  obtain ⟨s, s', ss, h1, h2, h3⟩ := h
  obtain ⟨hf, ha, s2, ss2, out2, g1, g2, g3, g4⟩ := signing_run law hs hset hh ht h1 chunks clock hlen
  rw [h2] at g1
  obtain ⟨rfl, _⟩ : s' = s2 ∧ ss = ss2 := by simpa using g1
  rw [h3] at g2
  injection g2 with g2
  subst g2
  have hm := List.mem_of_getElem? hr
  refine ⟨ht r hm, ha r hm, hf, ?_⟩
  rcases g4 i r hr with ⟨k1, k2⟩ | ⟨part, k1, k2, k3⟩
  · rw [ho] at k2
    cases k2
  · refine ⟨part, k1, ?_⟩
    cases e : produceSignature (sigData r headers part (clock i)) r.signingKey r.format headers with
    | ok o' =>
      have := k2 o' e
      rw [ho] at this
      simp only [Option.some.injEq, Except.ok.injEq] at this
      rw [this]
    | err x =>
      have := k3 x e
      rw [ho] at this
      simp at this
    | panic =>
      exfalso
      obtain ⟨_, _, _, _, _, _, hp⟩ := produceSignature_spec law hs
        (sigData_fine (ht r hm) (ha r hm) hh hf part (clock i)) r.signingKey (ha r hm).keyType r.format
        (ha r hm).indent headers
      rcases hp with ⟨_, e'⟩ | ⟨_, _, _, _, _, e'⟩
      · rw [e] at e'; cases e'
      · rw [e] at e'; cases e'

/-- C36: the returned data are those determined by the request, the message and the
clock. -/
theorem C36_reflects (law : IdnaLaw E.idna) (hs : SortLaw E.sortBy) (hset : SetLaw E.keySet)
    (headers : List Field) (requests : List (SignRequest E)) (hh : TypedHeaders headers)
    (ht : ∀ r ∈ requests, TypedRequest r) (chunks : List Bytes) (clock : Nat → Nat)
    (out : List (Except SigningError SigningOutput))
    (h : Signed headers requests chunks clock out)
    (hlen : ∀ k, (codeBody k chunks.flatten).length < 2 ^ 64) (i : Nat) (r : SignRequest E)
    (hr : requests[i]? = some r) (o : SigningOutput) (ho : out[i]? = some (.ok o)) :
    o.headerName = r.format.headerName ∧ ∃ part sig, bodyToSign r chunks.flatten = some part ∧
      o.signature = withSignature (sigData r headers part (clock i)) sig := by
  obtain ⟨h1, h2, h3, part, h4, h5⟩ := signed_output law hs hset hh ht h hlen hr ho
  obtain ⟨_, _, _, _, _, _, hp⟩ := produceSignature_spec law hs (sigData_fine h1 h2 hh h3 part (clock i))
    r.signingKey h2.keyType r.format h2.indent headers
  rcases hp with ⟨_, e⟩ | ⟨sig, _, _, _, _, e⟩
  · rw [h5] at e; cases e
  · rw [h5] at e
    injection e with e
    subst e
    exact ⟨rfl, part, sig, h4, rfl⟩

/-- C36: the consequences that the claim lists, spelled out. -/
theorem C36_fields (law : IdnaLaw E.idna) (hs : SortLaw E.sortBy) (hset : SetLaw E.keySet)
    (headers : List Field) (requests : List (SignRequest E)) (hh : TypedHeaders headers)
    (ht : ∀ r ∈ requests, TypedRequest r) (chunks : List Bytes) (clock : Nat → Nat)
    (out : List (Except SigningError SigningOutput))
    (h : Signed headers requests chunks clock out)
    (hlen : ∀ k, (codeBody k chunks.flatten).length < 2 ^ 64) (i : Nat) (r : SignRequest E)
    (hr : requests[i]? = some r) (o : SigningOutput) (ho : out[i]? = some (.ok o)) :
    (o.signature.algorithm = r.algorithm ∧ o.signature.canonicalization = r.canonicalization ∧
      o.signature.domain = r.domain ∧ o.signature.selector = r.selector ∧
      o.signature.identity = r.identity ∧ o.signature.extTags = r.extTags) ∧
    (r.bodyLength = .noLimit → o.signature.bodyLength = none ∧
      o.signature.bodyHash = E.hash (hashOf r.algorithm) (codeBody r.canonicalization.body chunks.flatten)) ∧
    (r.bodyLength = .messageContent →
      o.signature.bodyLength = some (codeBody r.canonicalization.body chunks.flatten).length ∧
      o.signature.bodyHash = E.hash (hashOf r.algorithm) (codeBody r.canonicalization.body chunks.flatten)) ∧
    (∀ n, r.bodyLength = .exact n → o.signature.bodyLength = some n ∧
      n ≤ (codeBody r.canonicalization.body chunks.flatten).length ∧
      o.signature.bodyHash =
        E.hash (hashOf r.algorithm) ((codeBody r.canonicalization.body chunks.flatten).take n)) ∧
    (o.signature.timestamp = match r.timestamp with
      | .none => none | .now => some (clock i) | .exact t => some t) ∧
    (o.signature.expiration = r.validDuration.map fun d =>
      min (2 ^ 64 - 1) (o.signature.timestamp.getD (clock i) + d)) ∧
    (∀ ns, r.headerSelection = .manual ns → o.signature.signedHeaders = ns) ∧
    (r.headerSelection = .auto → o.signature.signedHeaders =
      ((headers.map (·.name)).filter fun n => signedByDefault.contains (lower n)).reverse) ∧
    (r.copyHeaders = false → o.signature.copiedHeaders = []) ∧
    (r.copyHeaders = true → o.signature.copiedHeaders =
      (headers.filter fun f => o.signature.signedHeaders.any fun n => sameName n f.name).map
        fun f => (f.name, f.body)) := by
  obtain ⟨_, part, sig, h4, h5⟩ := C36_reflects law hs hset headers requests hh ht chunks clock out h hlen i r
    hr o ho
  rw [h5]
  unfold bodyToSign at h4
  refine ⟨⟨rfl, rfl, rfl, rfl, rfl, rfl⟩, ?_, ?_, ?_, rfl, ?_, ?_, ?_, ?_, ?_⟩
  · intro e
    rw [e] at h4
    injection h4 with h4
    subst h4
    exact ⟨if_pos e, rfl⟩
  · intro e
    rw [e] at h4
    injection h4 with h4
    subst h4
    exact ⟨if_neg (by simp [e]), rfl⟩
  · intro n e
    rw [e] at h4
    simp only at h4
    rcases ite_eq_cases h4 with ⟨_, h4⟩ | ⟨hn, h4⟩
    · cases h4
    · injection h4 with h4
      subst h4
      refine ⟨?_, by omega, rfl⟩
      show (if r.bodyLength = .noLimit then none else some _) = _
      rw [if_neg (by simp [e]), List.length_take, Nat.min_eq_left (by omega)]
  · show r.validDuration.map _ = r.validDuration.map _
    congr 1
    funext d
    show min _ ((match r.timestamp with | .exact t => t | _ => clock i) + d) =
      min _ ((match r.timestamp with | .none => none | .now => some (clock i) | .exact t => some t).getD _ + d)
    cases r.timestamp <;> rfl
  · intro ns e
    show namesToSign r headers = ns
    unfold namesToSign
    rw [e]
  · intro e
    show namesToSign r headers = _
    unfold namesToSign
    rw [e]
  · intro e
    show (if r.copyHeaders then _ else _) = _
    rw [e]
    rfl
  · intro e
    show (if r.copyHeaders then _ else _) = _
    rw [e]
    rfl

/-! ## C14 -/

theorem folded_base64_value {indent text : Str} (hi : GoodIndent indent) {sig : Bytes}
    (h : Folded ('\r' :: '\n' :: indent) (encodeBase64 sig) text) : ValueText text :=
  folded_value hi.fws h (base64_valChars sig)

/-- C14: removing the `b=` value from the produced header value, as the verifier does,
gives the string that the signer formatted, hashed and signed. -/
theorem C14_reconstructed (law : IdnaLaw E.idna) (hs : SortLaw E.sortBy) (hset : SetLaw E.keySet)
    (headers : List Field) (requests : List (SignRequest E)) (hh : TypedHeaders headers)
    (ht : ∀ r ∈ requests, TypedRequest r) (chunks : List Bytes) (clock : Nat → Nat)
    (out : List (Except SigningError SigningOutput))
    (h : Signed headers requests chunks clock out)
    (hlen : ∀ k, (codeBody k chunks.flatten).length < 2 ^ 64) (i : Nat) (r : SignRequest E)
    (hr : requests[i]? = some r) (o : SigningOutput) (ho : out[i]? = some (.ok o)) :
    (∃ part index, bodyToSign r chunks.flatten = some part ∧
      formatWithoutSignature E.idna E.sortBy (sigData r headers part (clock i)) r.format
        (estimateBTagLength r.signingKey.signatureLength) = some (makeOriginal o.headerValue, index)) ∧
    signWith r.signingKey (hashOf r.algorithm) (E.hash (hashOf r.algorithm)
      (headerHashInput r.canonicalization.header headers (namesToSign r headers) o.headerName
        (makeOriginal o.headerValue))) = some o.signature.signatureData := by
  obtain ⟨h1, h2, h3, part, h4, h5⟩ := signed_output law hs hset hh ht h hlen hr ho
  have hf := sigData_fine h1 h2 hh h3 part (clock i)
  obtain ⟨ns1, ns2, before, after, g1, ⟨t1, lead, g2, g3, g4⟩, hp⟩ := produceSignature_spec law hs hf
    r.signingKey h2.keyType r.format h2.indent headers
  rcases hp with ⟨_, e⟩ | ⟨sig, text, k1, k2, k3, e⟩
  · rw [h5] at e; cases e
  · rw [h5] at e
    injection e with e
    subst e
    have hcut := formatted_cut law hf (GoodIndent.fws h2.indent) (folded_base64_value h2.indent k3)
      (g4 text) g3
    rw [← g2] at hcut
    have hm := makeOriginal_cut hcut
    simp only
    rw [hm]
    exact ⟨⟨part, _, h4, g1⟩, k1⟩

/-- C14: whatever signature bytes are inserted into whatever formatted signature data,
removing the `b=` value gives back the formatted text. -/
theorem C14_any_signature (law : IdnaLaw E.idna) (hs : SortLaw E.sortBy) (u : UnsignedSig)
    (hf : SigFine E.idna u) (format : OutputFormat)
    (hi : format.indentation ≠ [] ∧ ∀ c ∈ format.indentation, wsp c) (len : Nat) (value : Str)
    (index : Nat) (h : formatWithoutSignature E.idna E.sortBy u format len = some (value, index))
    (sig : Bytes) (width : Nat) : ∃ final,
      insertSignatureData value index format.headerName sig width format.indentation = some final ∧
      makeOriginal final = value := by
  obtain ⟨ns1, ns2, t1, lead, t2, h1, h2, h3⟩ := formatWithoutSignature_spec law hs hf format len
  rw [h] at h1
  injection h1 with h1
  injection h1 with e1 e2
  subst e1 e2
  obtain ⟨text, g1, g2⟩ := insertSignatureData_spec (before := t1 ++ lead ++ c!"b=") (after := t2)
    format.headerName sig width format.indentation
  refine ⟨_, g1, ?_⟩
  exact makeOriginal_cut (formatted_cut law hf (GoodIndent.fws hi)
    (folded_base64_value (sig := sig) hi g2) (h3 text) h2)

end Dkim
