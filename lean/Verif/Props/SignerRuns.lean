import Verif.Props.Signer
import Verif.Props.Verifier

/-!
# Properties C60, C61 and C63: runs of the signer

`Signed headers requests chunks clock out`: a whole run of the signer with these
requests gives the results `out`; `clock i` is the time read while handling request `i`.
-/

namespace Dkim

open Spec

variable {E : Env}

/-- The result of a request, in terms of the request alone. -/
def resultOfRequest (headers : List Field) (body : Bytes) (now : Nat) (r : SignRequest E) :
    Except SigningError SigningOutput :=
  match bodyToSign r body with
  | none => .error .insufficientContent
  | some part =>
    match produceSignature (sigData r headers part now) r.signingKey r.format headers with
    | .ok o => .ok o
    | .err e => .error e
    | .panic => .error .signingFailure

theorem Signed.item (law : IdnaLaw E.idna) (hs : SortLaw E.sortBy) (hset : SetLaw E.keySet)
    {headers : List Field} {requests : List (SignRequest E)} (hh : TypedHeaders headers)
    (ht : ∀ r ∈ requests, TypedRequest r) {chunks : List Bytes} {clock : Nat → Nat}
    {out : List (Except SigningError SigningOutput)} (h : Signed headers requests chunks clock out)
    (hlen : ∀ k, (codeBody k chunks.flatten).length < 2 ^ 64) :
    out.length = requests.length ∧ ∀ (i : Nat) (r : SignRequest E), requests[i]? = some r →
      out[i]? = some (resultOfRequest headers chunks.flatten (clock i) r) := by
  obtain ⟨s, s', ss, h1, h2, h3⟩ := h
  obtain ⟨hf, ha, s2, ss2, out2, g1, g2, g3, g4⟩ := signing_run law hs hset hh ht h1 chunks clock hlen
  rw [h2] at g1
  obtain ⟨rfl, _⟩ : s' = s2 ∧ ss = ss2 := by simpa using g1
  rw [h3] at g2
  injection g2 with g2
  subst g2
  refine ⟨g3, ?_⟩
  intro i r hr
  have hm := List.mem_of_getElem? hr
  unfold resultOfRequest
  rcases g4 i r hr with ⟨k1, k2⟩ | ⟨part, k1, k2, k3⟩
  · rw [k1]; exact k2
  · rw [k1]
    simp only
    obtain ⟨_, _, _, _, _, _, hp⟩ := produceSignature_spec law hs
      (sigData_fine (ht r hm) (ha r hm) hh hf part (clock i)) r.signingKey (ha r hm).keyType r.format
      (ha r hm).indent headers
    rcases hp with ⟨_, e⟩ | ⟨_, _, _, _, _, e⟩
    · rw [e]; exact k3 _ e
    · rw [e]; exact k2 _ e

/-- C60: a request gets the same result in any two runs with the same header, body and
time, whatever the other requests are and wherever it stands among them. -/
theorem C60_independent (law : IdnaLaw E.idna) (hs : SortLaw E.sortBy) (hset : SetLaw E.keySet)
    (headers : List Field) (requests requests' : List (SignRequest E)) (hh : TypedHeaders headers)
    (ht : ∀ r ∈ requests, TypedRequest r) (ht' : ∀ r ∈ requests', TypedRequest r) (chunks chunks' : List Bytes)
    (hbody : chunks.flatten = chunks'.flatten) (clock clock' : Nat → Nat)
    (out out' : List (Except SigningError SigningOutput)) (h : Signed headers requests chunks clock out)
    (h' : Signed headers requests' chunks' clock' out')
    (hlen : ∀ k, (codeBody k chunks.flatten).length < 2 ^ 64) (i j : Nat) (r : SignRequest E)
    (hi : requests[i]? = some r) (hj : requests'[j]? = some r) (hnow : clock i = clock' j) :
    ∃ res, out[i]? = some res ∧ out'[j]? = some res := by
  refine ⟨_, (Signed.item law hs hset hh ht h hlen).2 i r hi, ?_⟩
  rw [(Signed.item law hs hset hh ht' h' (by rwa [← hbody])).2 j r hj, hbody, hnow]

/-- C60: in particular every request of an accepted run can be handled in a run of its
own, with the same result. -/
theorem C60_alone (law : IdnaLaw E.idna) (hs : SortLaw E.sortBy) (hset : SetLaw E.keySet)
    (headers : List Field) (requests : List (SignRequest E)) (hh : TypedHeaders headers)
    (ht : ∀ r ∈ requests, TypedRequest r) (chunks : List Bytes) (clock : Nat → Nat)
    (out : List (Except SigningError SigningOutput)) (h : Signed headers requests chunks clock out)
    (hlen : ∀ k, (codeBody k chunks.flatten).length < 2 ^ 64) :
    out.length = requests.length ∧ ∀ (i : Nat) (r : SignRequest E), requests[i]? = some r →
      ∃ res, out[i]? = some res ∧ Signed headers [r] chunks (fun _ => clock i) [res] := by
  obtain ⟨e, g⟩ := Signed.item law hs hset hh ht h hlen
  refine ⟨e, ?_⟩
  intro i r hr
  have hm := List.mem_of_getElem? hr
  have hd := (prepareSigning_decides law.toCaseLaw headers ht).ok_iff.1
    (by obtain ⟨s, _, _, h1, _⟩ := h; exact ⟨s, h1⟩)
  rw [signingRules_iff] at hd
  obtain ⟨hf, _, _, hv⟩ := hd
  have ht1 : ∀ q ∈ [r], TypedRequest q := by
    intro q hq; rw [List.mem_singleton.1 hq]; exact ht r hm
  obtain ⟨s, hs1⟩ := (prepareSigning_decides law.toCaseLaw headers ht1).ok_iff.2
    ((signingRules_iff headers [r]).2 ⟨hf, by simp, by simp, by
      intro q hq; rw [List.mem_singleton.1 hq]; exact hv r hm⟩)
  obtain ⟨_, _, s', ss, out1, k1, k2, k3, _⟩ := signing_run law hs hset hh ht1 hs1 chunks (fun _ => clock i) hlen
  have hsig : Signed headers [r] chunks (fun _ => clock i) out1 := ⟨s, s', ss, hs1, k1, k2⟩
  refine ⟨_, g i r hr, ?_⟩
  have := (Signed.item law hs hset hh ht1 hsig hlen).2 0 r rfl
  match out1, k3, this with
  | [x], _, this =>
    simp only [List.getElem?_cons_zero, Option.some.injEq] at this
    rw [this] at hsig
    exact hsig

/-! ## C61 -/

theorem hashChunks_append (l : List Bytes) (b b1 : BodyHasher) (s1 : List Stance) (l2 : List Bytes)
    (h : b.hashChunks l = some (b1, s1)) :
    b.hashChunks (l ++ l2) = (b1.hashChunks l2).map fun r => (r.1, s1 ++ r.2) := by
  induction l generalizing b b1 s1 with
  | nil =>
    simp [BodyHasher.hashChunks] at h
    rw [← h.1, h.2]; simp
  | cons c l ih =>
    simp only [BodyHasher.hashChunks] at h
    cases hc : b.hashChunk c with
    | none => rw [hc] at h; simp at h
    | some r =>
      obtain ⟨r1, r2⟩ := r
      rw [hc] at h
      simp only at h
      cases hc2 : r1.hashChunks l with
      | none => rw [hc2] at h; simp at h
      | some q =>
        obtain ⟨q1, q2⟩ := q
        rw [hc2] at h
        simp only [Option.some.injEq, Prod.mk.injEq] at h
        rw [List.cons_append, BodyHasher.hashChunks, hc]
        simp only
        rw [ih _ _ _ hc2, ← h.1, ← h.2]
        cases q1.hashChunks l2 <;> simp

/-- Once a body hasher has answered `Done`, more chunks change nothing. -/
theorem done_more (fail : Bool) (keys : List BodyHasherKey) (fed more : List Bytes) (bh : BodyHasher)
    (ss : List Stance) (h : (BodyHasher.build fail keys).hashChunks fed = some (bh, ss ++ [.done])) :
    ∃ bh', (BodyHasher.build fail keys).hashChunks (fed ++ more) =
        some (bh', ss ++ [.done] ++ more.map fun _ => .done) ∧ ∀ hash, bh'.finish hash = bh.finish hash := by
  have hne : fed ≠ [] := by
    rintro rfl
    simp [BodyHasher.hashChunks] at h
  obtain ⟨before, chunk, rfl⟩ : ∃ before chunk, fed = before ++ [chunk] :=
    ⟨fed.dropLast, fed.getLast hne, (List.dropLast_concat_getLast hne).symm⟩
  obtain ⟨b1, s1, g1, _⟩ := hashChunks_inv fail keys before [] _ (hasherInv_build fail keys)
  rw [hashChunks_append _ _ _ _ _ g1] at h
  rw [BodyHasher.hashChunks] at h
  cases hc : b1.hashChunk chunk with
  | none => rw [hc] at h; simp at h
  | some p =>
    obtain ⟨b2, st⟩ := p
    rw [hc] at h
    simp only [BodyHasher.hashChunks, Option.map_some, Option.some.injEq, Prod.mk.injEq] at h
    obtain ⟨rfl, h⟩ := h
    obtain ⟨rfl, e⟩ := List.append_inj' h rfl
    simp only [List.cons.injEq, and_true] at e
    subst e
    obtain ⟨bh', ss', k1, k2, k3, k4⟩ := C06_done_is_done (fun _ _ => []) fail keys before chunk b1 b2 s1 g1 hc more
    refine ⟨bh', ?_, ?_⟩
    · rw [List.append_assoc, hashChunks_append _ _ _ _ _ g1, List.cons_append, BodyHasher.hashChunks, hc]
      simp only [List.nil_append, k1, Option.map_some, Option.some.injEq, Prod.mk.injEq, true_and]
      have : ss' = more.map fun _ => Stance.done := by
        rw [List.map_const', ← k3]
        exact List.eq_replicate_of_mem k2
      rw [this]
      simp
    · intro hash
      obtain ⟨b4, s4, j1, _, _, j4⟩ := C06_done_is_done hash fail keys before chunk b1 b2 s1 g1 hc more
      rw [k1] at j1
      simp only [Option.some.injEq, Prod.mk.injEq] at j1
      rw [j1.1]
      exact j4

/-- C61, signer: if the last of the chunks fed so far was answered with `Done`, then any
further chunks are also answered with `Done`, and signing gives the same with or
without them. -/
theorem C61_signer (headers : List Field) (requests : List (SignRequest E)) (s s' : Signer E)
    (h : prepareSigning E headers requests = .ok s) (fed more : List Bytes) (ss : List Stance)
    (hfed : s.processBody fed = some (s', ss ++ [.done])) :
    ∃ s'', s.processBody (fed ++ more) = some (s'', ss ++ [.done] ++ more.map fun _ => .done) ∧
      ∀ clock, s''.sign clock = s'.sign clock := by
  obtain ⟨_, _, keys, e, _⟩ := prepareSigning_ok h
  unfold Signer.processBody at hfed ⊢
  rw [e] at hfed ⊢
  cases hb : (BodyHasher.build false (E.keySet keys)).hashChunks fed with
  | none => rw [hb] at hfed; simp at hfed
  | some p =>
    obtain ⟨bh, st⟩ := p
    rw [hb] at hfed
    simp only [Option.some.injEq, Prod.mk.injEq] at hfed
    obtain ⟨rfl, rfl⟩ := hfed
    obtain ⟨bh', g1, g2⟩ := done_more _ _ fed more bh ss hb
    rw [g1]
    refine ⟨_, rfl, ?_⟩
    intro clock
    unfold Signer.sign
    simp only [g2]

/-- C61, verifier: the same. -/
theorem C61_verifier (resolver : Resolver) (cfg : Config) (clock : Nat → Int) (headers : List Field)
    (v v' : Verifier) (asked : List Str) (h : verifyHeader E resolver headers cfg clock = some (some v, asked))
    (fed more : List Bytes) (ss : List Stance) (hfed : v.processBody fed = some (v', ss ++ [.done])) :
    ∃ v'', v.processBody (fed ++ more) = some (v'', ss ++ [.done] ++ more.map fun _ => .done) ∧
      v''.finish E = v'.finish E := by
  obtain ⟨fail, keys, e⟩ : ∃ fail keys, v.bodyHasher = BodyHasher.build fail keys := by
    unfold verifyHeader at h
    repeat' split at h
    all_goals first
      | cases h; done
      | (simp only [Option.some.injEq, Prod.mk.injEq] at h; obtain ⟨rfl, _⟩ := h; exact ⟨_, _, rfl⟩)
  unfold Verifier.processBody at hfed ⊢
  rw [e] at hfed ⊢
  cases hb : (BodyHasher.build fail keys).hashChunks fed with
  | none => rw [hb] at hfed; simp at hfed
  | some p =>
    obtain ⟨bh, st⟩ := p
    rw [hb] at hfed
    simp only [Option.some.injEq, Prod.mk.injEq] at hfed
    obtain ⟨rfl, rfl⟩ := hfed
    obtain ⟨bh', g1, g2⟩ := done_more _ _ fed more bh ss hb
    rw [g1]
    refine ⟨_, rfl, ?_⟩
    unfold Verifier.finish
    simp only [g2]

/-! ## C63 -/

/-- C63, apart from the times: the data of every produced signature satisfy what is required of a
signature. (Signatures and hash values are assumed not to be empty.) -/
theorem C63_invariants (law : IdnaLaw E.idna) (hs : SortLaw E.sortBy) (hset : SetLaw E.keySet)
    (hsign : SignLaw E.crypto) (hhash : ∀ a b, E.hash a b ≠ [])
    (headers : List Field) (requests : List (SignRequest E)) (hh : TypedHeaders headers)
    (ht : ∀ r ∈ requests, TypedRequest r) (chunks : List Bytes) (clock : Nat → Nat)
    (out : List (Except SigningError SigningOutput)) (h : Signed headers requests chunks clock out)
    (hlen : ∀ k, (codeBody k chunks.flatten).length < 2 ^ 64) (o : SigningOutput) (ho : .ok o ∈ out) :
    (∀ n ∈ o.signature.signedHeaders, ValidName n ∧ ';' ∉ n) ∧
    (∃ n ∈ o.signature.signedHeaders, lower n = c!"from") ∧
    (∀ i, o.signature.identity = some i → UnderDomain E.idna i.domain o.signature.domain) ∧
    o.signature.signatureData ≠ [] ∧ o.signature.bodyHash ≠ [] ∧
    (∀ l, o.signature.bodyLength = some l →
      l ≤ (codeBody o.signature.canonicalization.body chunks.flatten).length) := by
  obtain ⟨i, ho⟩ := List.getElem?_of_mem ho
  obtain ⟨e, _⟩ := Signed.item law hs hset hh ht h hlen
  have hlt : i < requests.length := by
    have := (List.getElem?_eq_some_iff.1 ho).1
    omega
  have hr : requests[i]? = some requests[i] := List.getElem?_eq_getElem hlt
  generalize requests[i] = r at hr
  obtain ⟨h1, h2, h3, part, h4, h5⟩ := signed_output law hs hset hh ht h hlen hr ho
  obtain ⟨n1, n2⟩ := namesToSign_fine h1 h2 hh h3
  obtain ⟨_, _, _, _, _, _, hp⟩ := produceSignature_spec law hs (sigData_fine h1 h2 hh h3 part (clock i))
    r.signingKey h2.keyType r.format h2.indent headers
  rcases hp with ⟨_, e⟩ | ⟨sig, _, hsig, _, _, e⟩
  · rw [h5] at e; cases e
  · rw [h5] at e
    injection e with e
    subst e
    refine ⟨n2, n1, h2.identity, ?_, hhash _ _, ?_⟩
    · show sig ≠ []
      cases hk : r.signingKey with
      | rsa k => rw [hk] at hsig; exact hsign.rsa_nonempty _ _ _ _ hsig
      | ed25519 k =>
        rw [hk] at hsig
        injection hsig with hsig
        rintro rfl
        have := congrArg List.length hsig
        rw [hsign.ed_length] at this
        cases this
    · intro l hl
      have hl : (if r.bodyLength = .noLimit then none else some part.length) = some l := hl
      rcases ite_eq_cases hl with ⟨_, e⟩ | ⟨_, e⟩
      · cases e
      · injection e with e
        subst e
        show part.length ≤ (codeBody r.canonicalization.body chunks.flatten).length
        unfold bodyToSign at h4
        split at h4
        · rcases ite_eq_cases h4 with ⟨_, e⟩ | ⟨_, e⟩
          · cases e
          · injection e with e
            rw [← e, List.length_take]
            exact Nat.min_le_right _ _
        · injection h4 with h4
          rw [← h4]
          exact Nat.le_refl _

/-- C63, the times, exactly: the expiration is after the timestamp unless the timestamp is
the greatest integer. -/
theorem C63_expiration_iff (law : IdnaLaw E.idna) (hs : SortLaw E.sortBy) (hset : SetLaw E.keySet)
    (headers : List Field) (requests : List (SignRequest E)) (hh : TypedHeaders headers)
    (ht : ∀ r ∈ requests, TypedRequest r) (chunks : List Bytes) (clock : Nat → Nat)
    (out : List (Except SigningError SigningOutput)) (h : Signed headers requests chunks clock out)
    (hlen : ∀ k, (codeBody k chunks.flatten).length < 2 ^ 64) (o : SigningOutput) (ho : .ok o ∈ out)
    (t x : Nat) (h1 : o.signature.timestamp = some t) (h2 : o.signature.expiration = some x) :
    t < x ↔ t < 2 ^ 64 - 1 := by
  obtain ⟨i, ho⟩ := List.getElem?_of_mem ho
  obtain ⟨e, _⟩ := Signed.item law hs hset hh ht h hlen
  have hlt : i < requests.length := by
    have := (List.getElem?_eq_some_iff.1 ho).1
    omega
  have hr : requests[i]? = some requests[i] := List.getElem?_eq_getElem hlt
  generalize requests[i] = r at hr
  obtain ⟨_, _, _, _, _, k6, _⟩ := C36_fields law hs hset headers requests hh ht chunks clock out h hlen i r hr o ho
  obtain ⟨_, hacc, _⟩ := signed_output law hs hset hh ht h hlen hr ho
  rw [h1, h2] at k6
  cases hd : r.validDuration with
  | none => rw [hd] at k6; cases k6
  | some d =>
    rw [hd] at k6
    simp only [Option.getD_some, Option.map_some, Option.some.injEq] at k6
    have : d ≠ 0 := by rintro rfl; exact hacc.duration hd
    omega

/-- C63, partial: the expiration is after the timestamp. Missing: a timestamp that is the
greatest integer, see `C63_violation`. -/
theorem C63_expiration_partial (law : IdnaLaw E.idna) (hs : SortLaw E.sortBy) (hset : SetLaw E.keySet)
    (headers : List Field) (requests : List (SignRequest E)) (hh : TypedHeaders headers)
    (ht : ∀ r ∈ requests, TypedRequest r) (chunks : List Bytes) (clock : Nat → Nat)
    (out : List (Except SigningError SigningOutput)) (h : Signed headers requests chunks clock out)
    (hlen : ∀ k, (codeBody k chunks.flatten).length < 2 ^ 64) (o : SigningOutput) (ho : .ok o ∈ out)
    (t x : Nat) (h1 : o.signature.timestamp = some t) (h2 : o.signature.expiration = some x)
    (hmax : t < 2 ^ 64 - 1) : t < x :=
  (C63_expiration_iff law hs hset headers requests hh ht chunks clock out h hlen o ho t x h1 h2).2 hmax

end Dkim
