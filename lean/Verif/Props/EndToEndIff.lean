import Verif.Props.TogetherExact
import Verif.Props.Tamper
import Verif.Props.Success

/-!
# Property C16: exactly when a signed message verifies

Whatever was done to a message after it was signed: the result for the produced field is
known, if published keys do not accept its signature for other data, and if the hash function
has no collision between the two bodies.
-/

namespace Dkim

open Spec

variable {E : Env}

/-- What is signed of a body is what is given back as covered by the signature. -/
theorem signedBody_part {r : SignRequest E} {headers : List Field} {body part : Bytes} {now : Nat} {sig : Bytes}
    (h : bodyToSign r body = some part) :
    signedBody (withSignature (sigData r headers part now) sig) body = part := by
  unfold bodyToSign at h
  unfold signedBody
  simp only [withSignature, sigData]
  cases hb : r.bodyLength with
  | noLimit =>
    rw [hb] at h
    simp only [Option.some.injEq] at h
    simpa using h
  | messageContent =>
    rw [hb] at h
    simp only [Option.some.injEq] at h
    simp [h]
  | exact n =>
    rw [hb] at h
    simp only at h
    split at h
    · cases h
    · next hlt =>
      injection h with h
      have hl : part.length = n := by rw [← h, List.length_take]; omega
      simp [hl, h]

/-- C16, exactly: a message is signed, and later verified, with the produced field somewhere in its
header. (Other fields, and the body, may have been changed in any way.) Let the key be published,
let the policy of the verifier accept the signature, and let the domain names be written in a form
that stands for the same name. Let no published key accept the signature for the header data of the
verified message, if these are not the signed data; and let the signed and the verified body not be
different with equal hashes. Then the signature is verified with success if and only if the library
can read it (see C37), the header data are those that were signed, the body is as it was signed,
and, if unsigned content is forbidden, there is none. -/
theorem C16_exactly (law : IdnaLaw E.idna) (hs : SortLaw E.sortBy) (hset : SetLaw E.keySet)
    (hord : OrderLaw E.lookupOrder) (hsign : SignLaw E.crypto) (hhash : ∀ a b, E.hash a b ≠ [])
    (headers : List Field) (requests : List (SignRequest E)) (hh : TypedHeaders headers)
    (ht : ∀ r ∈ requests, TypedRequest r) (chunks : List Bytes) (clock : Nat → Nat)
    (out : List (Except SigningError SigningOutput)) (h : Signed headers requests chunks clock out)
    (hlen : ∀ k, (codeBody k chunks.flatten).length < 2 ^ 64) (i : Nat) (hclock : clock i < 2 ^ 64)
    (r : SignRequest E) (hr : requests[i]? = some r) (o : SigningOutput) (ho : out[i]? = some (.ok o))
    (hk : KeptNames r) (original : Str) (hw : WithoutB o.headerValue original)
    (resolver : Resolver) (cfg : Config) (vclock : Nat → Int) (T : TypedTimes cfg vclock)
    (message : List Field) (chunks' : List Bytes) (results : List VerificationResult) (asked : List Str)
    (run : Run E resolver cfg vclock message chunks' results asked)
    (res : VerificationResult) (hres : res ∈ results)
    (hfield : message[res.index]? = some ⟨o.headerName, utf8 o.headerValue⟩)
    (hkey : KeyPublished resolver cfg r)
    (hpol : AllPass (signatureChecks E cfg (unixTime cfg (vclock res.index)) message o.signature))
    (input : List Field → Bytes)
    (hinput : input = fun fields =>
      headerHashInput r.canonicalization.header fields (namesToSign r headers) o.headerName original)
    (hother : ∀ d s txts txt record key, E.idna.toAscii r.domain = some d → E.idna.toAscii r.selector = some s →
      (resolver (keyName d s)).result = .ok txts → txt ∈ txts → TxtRecord E txt record →
      publicKey E.crypto (keyTypeOf r.algorithm) record.keyData = some key →
      verifyWith key (hashOf r.algorithm) (E.hash (hashOf r.algorithm) (input message))
        o.signature.signatureData = true → input message = input headers)
    (hbodies : E.hash (hashOf r.algorithm) (signedBody o.signature chunks'.flatten) =
        E.hash (hashOf r.algorithm) (signedBody o.signature chunks.flatten) →
      signedBody o.signature chunks'.flatten = signedBody o.signature chunks.flatten) :
    res.status = .success ↔
      Readable r headers (clock i) ∧ input message = input headers ∧
      signedBody o.signature chunks'.flatten = signedBody o.signature chunks.flatten ∧
      (cfg.forbidUnsignedContent = true → ∀ n, o.signature.bodyLength = some n →
        (codeBody r.canonicalization.body chunks'.flatten).length = n) := by
  have L : Lawful E := ⟨law.toCaseLaw, hord, hset⟩
  obtain ⟨k1, part, sg, k2, k3⟩ := C36_reflects law hs hset headers requests hh ht chunks clock out h hlen i r hr
    o ho
  have hname : lower o.headerName = c!"dkim-signature" := by
    rw [k1]; exact (signed_output law hs hset hh ht h hlen hr ho).2.1.headerName
  have hpart : signedBody o.signature chunks.flatten = part := by rw [k3]; exact signedBody_part k2
  have hbh : o.signature.bodyHash = E.hash (hashOf r.algorithm) part := by rw [k3]; rfl
  have hoc : o.signature.canonicalization = r.canonicalization := by rw [k3]; rfl
  -- What is known once the field can be read.
  have known : Readable r headers (clock i) → ∃ s, FieldSignature E ⟨o.headerName, utf8 o.headerValue⟩ o.headerValue s ∧
      s.algorithm = r.algorithm ∧ s.canonicalization = r.canonicalization ∧ s.signedHeaders = namesToSign r headers ∧
      E.idna.toAscii s.domain = E.idna.toAscii r.domain ∧ E.idna.toAscii s.selector = E.idna.toAscii r.selector ∧
      s.signatureData = o.signature.signatureData ∧ s.bodyHash = o.signature.bodyHash ∧
      s.bodyLength = o.signature.bodyLength ∧ s.timestamp = o.signature.timestamp ∧
      s.expiration = o.signature.expiration ∧
      (∀ j, s.identity = some j → ∃ k, r.identity = some k ∧ E.idna.toAscii j.domain = E.idna.toAscii k.domain) := by
    rintro ⟨hk, hc, hlocal, hq, hleft⟩
    obtain ⟨s, pi, _, s1, s2, _, _, s4⟩ := output_read law hs hset hsign hhash hh ht h hlen hclock hr ho hk hlocal hc hq
      hleft
    refine ⟨s, ⟨rfl, (sigFromStr_iff law.toCaseLaw E.pre _ _).1 s1⟩, ?_, ?_, ?_, ?_, ?_, s2.signatureData, s2.bodyHash,
      s2.bodyLength, s2.timestamp, s2.expiration, ?_⟩
    · rw [s2.algorithm]; show o.signature.algorithm = _; rw [k3]; rfl
    · rw [s2.canonicalization]; exact hoc
    · rw [s2.signedHeaders]; show o.signature.signedHeaders = _; rw [k3]; rfl
    · rw [s2.domain]; show E.idna.toAscii o.signature.domain = _; rw [k3]; rfl
    · rw [s2.selector]; show E.idna.toAscii o.signature.selector = _; rw [k3]; rfl
    · intro j hj
      have h5 := s2.identity
      rw [hj] at h5
      simp only [s4] at h5
      cases hri : r.identity with
      | none => rw [hri] at h5; simp at h5
      | some k =>
        rw [hri] at h5
        simp only [Option.map_some, Option.some.injEq, Prod.mk.injEq] at h5
        exact ⟨k, rfl, h5.2⟩
  have body : ∀ s : DkimSignature, s.canonicalization = r.canonicalization → s.bodyLength = o.signature.bodyLength →
      ∀ b, signedBody s b = signedBody o.signature b := by
    intro s e1 e2 b
    unfold signedBody
    rw [e1, e2, hoc]
  constructor
  · intro hsucc
    obtain ⟨f, sig, record, key, value, original', hf, _, _, S⟩ := C40_success_sound L T run res hres hsucc
    rw [hfield] at hf
    simp only [Option.some.injEq] at hf
    subst hf
    have ev : value = o.headerValue := (utf8_injective S.signature.1).symm
    subst ev
    have hparse := (sigFromStr_iff law.toCaseLaw E.pre _ _).2 S.signature.2
    obtain ⟨_, r2, r3, r4, r5⟩ := (C37_parses_exactly law hs hset hsign hhash headers requests hh ht chunks clock out h
      hlen i hclock r hr o ho).1 ⟨sig, hparse⟩
    have hread : Readable r headers (clock i) := ⟨hk, r2, r3, r4, r5⟩
    obtain ⟨s, hsig, a1, a2, a3, a4, a5, a6, a7, a8, _, _, _⟩ := known hread
    obtain ⟨_, es⟩ := fieldSignature_unique law.toCaseLaw S.signature hsig
    subst es
    have eo : original' = original := withoutB_unique hsig S.stripped hw
    subst eo
    obtain ⟨name, txts, ⟨d, sl, q1, q2, rfl⟩, t1, txt, t2, t3⟩ := S.answer
    have hv := S.verified
    have hkr := S.keyRead
    rw [a1] at hv hkr
    rw [a6] at hv
    unfold signedInput at hv
    rw [a2, a3] at hv
    have hsame : input message = input headers := by
      refine hother d sl txts txt record key (a4 ▸ q1) (a5 ▸ q2) t1 ?_ t3 hkr (by rw [hinput]; exact hv)
      rcases List.mem_append.1 (mem_firstTwoAndLast t2) with hm | hm
      · exact List.mem_of_mem_take hm
      · exact List.mem_of_getLast? (Option.mem_toList.1 hm)
    refine ⟨hread, hsame, hbodies ?_, ?_⟩
    · have hb := S.body_hash
      rw [body sig a2 a8, a1, a7, hbh] at hb
      rw [hb, hpart]
    · intro hf n hn
      have := (S.limitedHash n (a8.trans hn)).2.1 hf
      rw [← a2]
      exact this.symm
  · rintro ⟨hread, hsame, hb, hforbid⟩
    obtain ⟨s, hsig, a1, a2, a3, a4, a5, a6, a7, a8, a9, a10, a11⟩ := known hread
    obtain ⟨d, sl, txts, txt, record, key, p1, p2, p3, p4, p5, p6, p7, p8, p9, p10, p11, p12, p13⟩ := hkey
    have eo : original = makeOriginal o.headerValue := withoutB_unique hsig hw (withoutB_of hsig)
    have hsignd := (C14_reconstructed law hs hset headers requests hh ht chunks clock out h hlen i r hr o ho).2
    have hpass : AllPass (signatureChecks E cfg (unixTime cfg (vclock res.index)) message s) := by
      have := hpol
      unfold signatureChecks at this ⊢
      have e1 : o.signature.signedHeaders = namesToSign r headers := by rw [k3]; rfl
      have e2 : o.signature.algorithm = r.algorithm := by rw [k3]; rfl
      rw [a3, a8, a9, a10, a1, ← e1, ← e2]
      exact this
    unfold signatureChecks at hpass
    simp only [allPass_cons] at hpass
    obtain ⟨c1, c2, c3, c4, c5, c6, _⟩ := hpass
    have hnow : E.hash (hashOf s.algorithm) (signedBody s chunks'.flatten) = s.bodyHash := by
      rw [body s a2 a8, hb, hpart, a1, a7, hbh]
    refine (C40_success_complete L T run res hres _ hfield s record key o.headerValue original ?_ c3).1
    refine ⟨hname, hsig, hw, c1, c2, c4, c5, c6, ⟨_, txts, ⟨d, sl, a4.trans p1, a5.trans p2, rfl⟩, p3, txt, p4, p5⟩,
      by rw [a1]; exact p6, p7, by rw [a1]; exact p8, ?_, by rw [a1]; exact p10, ⟨p11, p12⟩, ?_, ?_, ?_⟩
    · intro hflag j hj
      obtain ⟨k, hk1, hk2⟩ := a11 j hj
      rw [hk2, a4]
      exact p9 hflag k hk1
    · have : signedInput message ⟨o.headerName, utf8 o.headerValue⟩ original s = input message := by
        rw [hinput]; unfold signedInput; rw [a2, a3]
      rw [a1, a6, this, hsame, hinput, eo]
      exact p13 _ _ _ hsignd
    · intro hn
      unfold signedBody at hnow
      rw [hn] at hnow
      exact hnow
    · intro n hn
      have hn' : o.signature.bodyLength = some n := a8 ▸ hn
      have hl : (signedBody o.signature chunks.flatten).length = n := by
        rw [hpart]
        have : o.signature.bodyLength = some part.length ∨ o.signature.bodyLength = none := by
          rw [k3]
          show (if r.bodyLength = .noLimit then none else some part.length) = _ ∨
            (if r.bodyLength = .noLimit then none else some part.length) = _
          split
          · exact .inr rfl
          · exact .inl rfl
        rcases this with e | e
        · rw [e] at hn'; injection hn'
        · rw [e] at hn'; cases hn'
      rw [← hb] at hl
      unfold signedBody at hl hnow
      rw [hn'] at hl
      rw [hn] at hnow
      simp only [List.length_take, hoc] at hl
      refine ⟨by rw [a2]; omega, ?_, hnow⟩
      intro hf
      rw [a2, hforbid hf n hn']

/-- C16, exactly, for the message as it was signed, with the produced field put on top: it is
verified with success if and only if the library can read the field, the request does not list
DKIM-Signature more often than the header had it, and, if unsigned content is forbidden, there
is none. -/
theorem C16_on_top_exactly (law : IdnaLaw E.idna) (hs : SortLaw E.sortBy) (hset : SetLaw E.keySet)
    (hord : OrderLaw E.lookupOrder) (hsign : SignLaw E.crypto) (hhash : ∀ a b, E.hash a b ≠ [])
    (headers : List Field) (requests : List (SignRequest E)) (hh : TypedHeaders headers)
    (ht : ∀ r ∈ requests, TypedRequest r) (chunks : List Bytes) (clock : Nat → Nat)
    (out : List (Except SigningError SigningOutput)) (h : Signed headers requests chunks clock out)
    (hlen : ∀ k, (codeBody k chunks.flatten).length < 2 ^ 64) (i : Nat) (hclock : clock i < 2 ^ 64)
    (r : SignRequest E) (hr : requests[i]? = some r) (o : SigningOutput) (ho : out[i]? = some (.ok o))
    (hk : KeptNames r) (original : Str) (hw : WithoutB o.headerValue original)
    (resolver : Resolver) (cfg : Config) (vclock : Nat → Int) (T : TypedTimes cfg vclock)
    (chunks' : List Bytes) (hsame : chunks'.flatten = chunks.flatten)
    (message : List Field) (hmessage : message = ⟨o.headerName, utf8 o.headerValue⟩ :: headers)
    (results : List VerificationResult) (asked : List Str)
    (run : Run E resolver cfg vclock message chunks' results asked)
    (res : VerificationResult) (hres : res ∈ results) (hidx : res.index = 0)
    (hkey : KeyPublished resolver cfg r)
    (hpol : AllPass (signatureChecks E cfg (unixTime cfg (vclock 0)) message o.signature))
    (hother : ∀ d s txts txt record key, E.idna.toAscii r.domain = some d → E.idna.toAscii r.selector = some s →
      (resolver (keyName d s)).result = .ok txts → txt ∈ txts → TxtRecord E txt record →
      publicKey E.crypto (keyTypeOf r.algorithm) record.keyData = some key →
      occurrences headers c!"DKIM-Signature" < mentions (namesToSign r headers) c!"DKIM-Signature" →
      verifyWith key (hashOf r.algorithm) (E.hash (hashOf r.algorithm)
        (headerHashInput r.canonicalization.header message (namesToSign r headers) o.headerName original))
        o.signature.signatureData = false) :
    res.status = .success ↔
      Readable r headers (clock i) ∧
      mentions (namesToSign r headers) c!"DKIM-Signature" ≤ occurrences headers c!"DKIM-Signature" ∧
      (cfg.forbidUnsignedContent = true → ∀ n, o.signature.bodyLength = some n →
        (codeBody r.canonicalization.body chunks.flatten).length = n) := by
  subst hmessage
  have hname : lower o.headerName = lower c!"DKIM-Signature" := by
    rw [(C36_reflects law hs hset headers requests hh ht chunks clock out h hlen i r hr o ho).1]
    exact (signed_output law hs hset hh ht h hlen hr ho).2.1.headerName
  have hdata : headerHashInput r.canonicalization.header (⟨o.headerName, utf8 o.headerValue⟩ :: headers)
        (namesToSign r headers) o.headerName original =
      headerHashInput r.canonicalization.header headers (namesToSign r headers) o.headerName original ↔
      mentions (namesToSign r headers) c!"DKIM-Signature" ≤ occurrences headers c!"DKIM-Signature" := by
    have e1 : sameName o.headerName = sameName c!"DKIM-Signature" := by funext m; simp [sameName, hname]
    rw [headerHashInput_top]
    simp only [mentions, occurrences, e1]
  have main := C16_exactly law hs hset hord hsign hhash headers requests hh ht chunks clock out h hlen i hclock r hr o
    ho hk original hw resolver cfg vclock T _ chunks' results asked run res hres (by rw [hidx]; rfl) hkey
    (by rw [hidx]; exact hpol) _ rfl
    (by
      intro d s txts txt record key a1 a2 a3 a4 a5 a6 a7
      refine hdata.2 (Nat.not_lt.1 fun hlt => ?_)
      have := hother d s txts txt record key a1 a2 a3 a4 a5 a6 hlt
      exact absurd (a7.symm.trans this) (by decide))
    (by rw [hsame]; exact fun _ => rfl)
  rw [main, hsame]
  refine and_congr_right fun _ => ?_
  constructor
  · rintro ⟨e, _, f⟩
    exact ⟨hdata.1 e, f⟩
  · rintro ⟨e, f⟩
    exact ⟨hdata.2 e, rfl, f⟩

/-- C62, exactly: the fields of several requests, put on top together in any order. For each of them
the result is as if it were alone. -/
theorem C62_exactly (law : IdnaLaw E.idna) (hs : SortLaw E.sortBy) (hset : SetLaw E.keySet)
    (hord : OrderLaw E.lookupOrder) (hsign : SignLaw E.crypto) (hhash : ∀ a b, E.hash a b ≠ [])
    (headers : List Field) (requests : List (SignRequest E)) (hh : TypedHeaders headers)
    (ht : ∀ r ∈ requests, TypedRequest r) (chunks : List Bytes) (clock : Nat → Nat) (outputs : List SigningOutput)
    (h : Signed headers requests chunks clock (outputs.map .ok))
    (hlen : ∀ k, (codeBody k chunks.flatten).length < 2 ^ 64)
    (top : List Field) (htop : top.Perm (outputs.map outputField)) (i : Nat) (hclock : clock i < 2 ^ 64)
    (r : SignRequest E) (hr : requests[i]? = some r) (o : SigningOutput) (ho : outputs[i]? = some o)
    (hk : KeptNames r) (original : Str) (hw : WithoutB o.headerValue original)
    (resolver : Resolver) (cfg : Config) (vclock : Nat → Int) (T : TypedTimes cfg vclock)
    (chunks' : List Bytes) (hsame : chunks'.flatten = chunks.flatten)
    (results : List VerificationResult) (asked : List Str)
    (run : Run E resolver cfg vclock (top ++ headers) chunks' results asked)
    (res : VerificationResult) (hres : res ∈ results) (hpos : top[res.index]? = some (outputField o))
    (hkey : KeyPublished resolver cfg r)
    (hpol : AllPass (signatureChecks E cfg (unixTime cfg (vclock res.index)) (top ++ headers) o.signature))
    (hother : ∀ d s txts txt record key, E.idna.toAscii r.domain = some d → E.idna.toAscii r.selector = some s →
      (resolver (keyName d s)).result = .ok txts → txt ∈ txts → TxtRecord E txt record →
      publicKey E.crypto (keyTypeOf r.algorithm) record.keyData = some key →
      occurrences headers c!"DKIM-Signature" < mentions (namesToSign r headers) c!"DKIM-Signature" →
      verifyWith key (hashOf r.algorithm) (E.hash (hashOf r.algorithm)
        (headerHashInput r.canonicalization.header (top ++ headers) (namesToSign r headers) o.headerName original))
        o.signature.signatureData = false) :
    res.status = .success ↔
      Readable r headers (clock i) ∧
      mentions (namesToSign r headers) c!"DKIM-Signature" ≤ occurrences headers c!"DKIM-Signature" ∧
      (cfg.forbidUnsignedContent = true → ∀ n, o.signature.bodyLength = some n →
        (codeBody r.canonicalization.body chunks.flatten).length = n) := by
  have ho' : (outputs.map (Except.ok (ε := SigningError)))[i]? = some (.ok o) := by simp [ho]
  have hdata : headerHashInput r.canonicalization.header (top ++ headers)
        (namesToSign r headers) o.headerName original =
      headerHashInput r.canonicalization.header headers (namesToSign r headers) o.headerName original ↔
      mentions (namesToSign r headers) c!"DKIM-Signature" ≤ occurrences headers c!"DKIM-Signature" := by
    apply headerHashInput_tops
    · rintro rfl
      simp at hpos
    · intro f hf
      obtain ⟨o, ho, rfl⟩ := List.mem_map.1 (htop.mem_iff.1 hf)
      exact outputField_name law hs hset hh ht h hlen o ho
  have main := C16_exactly law hs hset hord hsign hhash headers requests hh ht chunks clock _ h hlen i hclock r hr o
    ho' hk original hw resolver cfg vclock T _ chunks' results asked run res hres
    (by rw [List.getElem?_append_left (List.getElem?_eq_some_iff.1 hpos).1, hpos]; rfl) hkey hpol _ rfl
    (by
      intro d s txts txt record key a1 a2 a3 a4 a5 a6 a7
      refine hdata.2 (Nat.not_lt.1 fun hlt => ?_)
      have := hother d s txts txt record key a1 a2 a3 a4 a5 a6 hlt
      exact absurd (a7.symm.trans this) (by decide))
    (by rw [hsame]; exact fun _ => rfl)
  rw [main, hsame]
  refine and_congr_right fun _ => ?_
  constructor
  · rintro ⟨e, _, f⟩
    exact ⟨hdata.1 e, f⟩
  · rintro ⟨e, f⟩
    exact ⟨hdata.2 e, rfl, f⟩

theorem selectAux_above_lt (g : Field → Bytes) (hg : ∀ f, g f ≠ []) (headers : List Field) (names : List Str) :
    ∀ (above : List Field) (f : Field), f ∈ above → occurrences headers f.name < mentions names f.name →
    ((selectAux headers [] names).flatMap g).length < ((selectAux (above ++ headers) [] names).flatMap g).length := by
  intro above
  induction above with
  | nil => intro f hf; cases hf
  | cons f0 rest ih =>
    intro f hf hlt
    by_cases hin : ∃ f1 ∈ rest, lower f1.name = lower f.name
    · obtain ⟨f1, h1, h2⟩ := hin
      have e : sameName f1.name = sameName f.name := by funext m; simp [sameName, h2]
      refine Nat.lt_of_lt_of_le (ih f1 h1 ?_) (selectAux_cons_le g f0 (rest ++ headers) names [])
      simp only [mentions, occurrences, e] at hlt ⊢
      exact hlt
    · have hf0 : f = f0 := by
        rcases List.mem_cons.1 hf with h | h
        · exact h
        · exact absurd ⟨f, h, rfl⟩ hin
      subst hf0
      have hz : occurrences (rest ++ headers) f.name = occurrences headers f.name := by
        have : rest.countP (fun h => sameName f.name h.name) = 0 := by
          rw [List.countP_eq_zero]
          intro f1 h1 h2
          have h3 : lower f.name = lower f1.name := by simpa [sameName] using h2
          exact hin ⟨f1, h1, h3.symm⟩
        simp only [occurrences, List.countP_append, this, Nat.zero_add]
      refine Nat.lt_of_le_of_lt (selectAux_append_le g headers names [] rest)
        (selectAux_cons_lt g f (hg f) (rest ++ headers) names [] (by simp) ?_)
      rw [hz]
      simpa using hlt

/-- With further fields on top, the data that is hashed is the same exactly if no name of these fields
is listed more often than it occurs below. -/
theorem headerHashInput_above_iff (c : CanonAlg) (above headers : List Field) (names : List Str) (name value : Str) :
    headerHashInput c (above ++ headers) names name value = headerHashInput c headers names name value ↔
      ∀ f ∈ above, mentions names f.name ≤ occurrences headers f.name := by
  constructor
  · intro h f hf
    unfold headerHashInput at h
    rw [List.append_left_inj] at h
    refine Nat.le_of_not_lt fun hlt => ?_
    have := selectAux_above_lt (fun f => canonField c f.name f.body ++ b!"\r\n") (by simp) headers names above f hf hlt
    unfold selectedFields at h
    rw [h] at this
    exact absurd this (Nat.lt_irrefl _)
  · intro h
    unfold headerHashInput
    rw [selectedFields_above h]

/-- C95, exactly: the field in position `p` of the header is a signature made for the fields below it and the
same body. It is verified with success if and only if the library can read it, and the request lists
neither DKIM-Signature nor the name of a field further up more often than it occurred when the request was
handled (and, if unsigned content is forbidden, there is none). -/
theorem C95_exactly (law : IdnaLaw E.idna) (hs : SortLaw E.sortBy) (hset : SetLaw E.keySet)
    (hord : OrderLaw E.lookupOrder) (hsign : SignLaw E.crypto) (hhash : ∀ a b, E.hash a b ≠ [])
    (above headers : List Field) (requests : List (SignRequest E)) (hh : TypedHeaders headers)
    (ht : ∀ r ∈ requests, TypedRequest r) (chunks : List Bytes) (clock : Nat → Nat)
    (out : List (Except SigningError SigningOutput)) (h : Signed headers requests chunks clock out)
    (hlen : ∀ k, (codeBody k chunks.flatten).length < 2 ^ 64) (i : Nat) (hclock : clock i < 2 ^ 64)
    (r : SignRequest E) (hr : requests[i]? = some r) (o : SigningOutput) (ho : out[i]? = some (.ok o))
    (hk : KeptNames r) (original : Str) (hw : WithoutB o.headerValue original)
    (resolver : Resolver) (cfg : Config) (vclock : Nat → Int) (T : TypedTimes cfg vclock)
    (chunks' : List Bytes) (hsame : chunks'.flatten = chunks.flatten)
    (message : List Field) (hmessage : message = above ++ ⟨o.headerName, utf8 o.headerValue⟩ :: headers)
    (results : List VerificationResult) (asked : List Str)
    (run : Run E resolver cfg vclock message chunks' results asked)
    (res : VerificationResult) (hres : res ∈ results) (hidx : res.index = above.length)
    (hkey : KeyPublished resolver cfg r)
    (hpol : AllPass (signatureChecks E cfg (unixTime cfg (vclock above.length)) message o.signature))
    (hother : ∀ d s txts txt record key, E.idna.toAscii r.domain = some d → E.idna.toAscii r.selector = some s →
      (resolver (keyName d s)).result = .ok txts → txt ∈ txts → TxtRecord E txt record →
      publicKey E.crypto (keyTypeOf r.algorithm) record.keyData = some key →
      headerHashInput r.canonicalization.header message (namesToSign r headers) o.headerName original ≠
        headerHashInput r.canonicalization.header headers (namesToSign r headers) o.headerName original →
      verifyWith key (hashOf r.algorithm) (E.hash (hashOf r.algorithm)
        (headerHashInput r.canonicalization.header message (namesToSign r headers) o.headerName original))
        o.signature.signatureData = false) :
    res.status = .success ↔
      Readable r headers (clock i) ∧
      (∀ n, (lower n = c!"dkim-signature" ∨ ∃ g ∈ above, g.name = n) →
        mentions (namesToSign r headers) n ≤ occurrences headers n) ∧
      (cfg.forbidUnsignedContent = true → ∀ n, o.signature.bodyLength = some n →
        (codeBody r.canonicalization.body chunks.flatten).length = n) := by
  subst hmessage
  have hname : lower o.headerName = c!"dkim-signature" := by
    rw [(C36_reflects law hs hset headers requests hh ht chunks clock out h hlen i r hr o ho).1]
    exact (signed_output law hs hset hh ht h hlen hr ho).2.1.headerName
  have hdata : headerHashInput r.canonicalization.header (above ++ ⟨o.headerName, utf8 o.headerValue⟩ :: headers)
        (namesToSign r headers) o.headerName original =
      headerHashInput r.canonicalization.header headers (namesToSign r headers) o.headerName original ↔
      ∀ n, (lower n = c!"dkim-signature" ∨ ∃ g ∈ above, g.name = n) →
        mentions (namesToSign r headers) n ≤ occurrences headers n := by
    rw [List.append_cons, headerHashInput_above_iff]
    constructor
    · rintro h n (hn | ⟨g, hg, rfl⟩)
      · have e1 : sameName n = sameName o.headerName := by funext m; simp [sameName, hname, hn]
        have := h ⟨o.headerName, utf8 o.headerValue⟩ (by simp)
        simp only [mentions, occurrences, e1] at this ⊢
        exact this
      · exact h g (by simp [hg])
    · intro h f hf
      rcases List.mem_append.1 hf with hf | hf
      · exact h _ (.inr ⟨f, hf, rfl⟩)
      · rw [List.mem_singleton.1 hf]
        exact h _ (.inl hname)
  have main := C16_exactly law hs hset hord hsign hhash headers requests hh ht chunks clock out h hlen i hclock r hr o
    ho hk original hw resolver cfg vclock T _ chunks' results asked run res hres
    (by rw [hidx, List.getElem?_append_right (Nat.le_refl _), Nat.sub_self]; rfl) hkey
    (by rw [hidx]; exact hpol) _ rfl
    (by
      intro d s txts txt record key a1 a2 a3 a4 a5 a6 a7
      refine Decidable.byContradiction fun hne => ?_
      have := hother d s txts txt record key a1 a2 a3 a4 a5 a6 hne
      exact absurd (a7.symm.trans this) (by decide))
    (by rw [hsame]; exact fun _ => rfl)
  rw [main, hsame]
  refine and_congr_right fun _ => ?_
  constructor
  · rintro ⟨e, _, f⟩
    exact ⟨hdata.1 e, f⟩
  · rintro ⟨e, f⟩
    exact ⟨hdata.2 e, rfl, f⟩

/-! ## Concrete cases -/

theorem withoutB_of_read {value : Str} {sig : DkimSignature} (h : sigFromStr testEnv.idna testEnv.pre value = .ok sig) :
    WithoutB value (makeOriginal value) :=
  withoutB_of (E := testEnv) (f := ⟨[], utf8 value⟩) ⟨rfl, (sigFromStr_iff testEnv_idna.toCaseLaw _ _ _).1 h⟩

set_option maxRecDepth 100000 in
/-- Non-vacuity of `C16_exactly`: the hypotheses are met by a message that has another body when it is
verified. (The header data are the same, the bodies have different hashes.) The result is a failure. -/
example : ∃ o, Signed testHeaders [simpleRequest] [b!"ab", b!"c\r\n"] (fun _ => 1000) [.ok o] ∧
    WithoutB o.headerValue (makeOriginal o.headerValue) ∧
    KeyPublished (E := testEnv) testResolver .default simpleRequest ∧
    AllPass (signatureChecks testEnv .default (unixTime .default 1050)
      (⟨o.headerName, utf8 o.headerValue⟩ :: testHeaders) o.signature) ∧
    headerHashInput simpleRequest.canonicalization.header (⟨o.headerName, utf8 o.headerValue⟩ :: testHeaders)
        (namesToSign simpleRequest testHeaders) o.headerName (makeOriginal o.headerValue) =
      headerHashInput simpleRequest.canonicalization.header testHeaders
        (namesToSign simpleRequest testHeaders) o.headerName (makeOriginal o.headerValue) ∧
    testEnv.hash .sha256 (signedBody o.signature b!"abd\r\n") ≠
      testEnv.hash .sha256 (signedBody o.signature b!"abc\r\n") ∧
    ∃ results asked, Run testEnv testResolver .default (fun _ => 1050)
        (⟨o.headerName, utf8 o.headerValue⟩ :: testHeaders) [b!"abd\r\n"] results asked ∧
      results.map (fun r => (r.index, r.status)) =
        [(0, .failure .bodyHashMismatch)] := by
  refine ⟨_, ⟨_, _, _, rfl, rfl, rfl⟩, ?_, test_published _, ?_, ?_, ?_, run_of_statuses rfl⟩
  · exact withoutB_of_read rfl
  · refine (validateSignature_matches _ _ (by decide) _).passes ?_
    rfl
  · exact (headerHashInput_top _ _ _ _ _ _).2 (by decide)
  · simp only [ne_eq]
    decide

set_option maxRecDepth 100000 in
/-- Non-vacuity of `C16_on_top_exactly`: no published key accepts the signature for other data, in the
case where the request lists DKIM-Signature too often. (The other hypotheses are those of
`C16_violation_oversigning`, and, for the case of a success, of `test_end_to_end`.) -/
example : ∃ o, Signed testHeaders [oversigning] [b!"ab", b!"c\r\n"] (fun _ => 1000) [.ok o] ∧
    WithoutB o.headerValue (makeOriginal o.headerValue) ∧
    ∀ key : VerifyingKey testEnv.crypto, verifyWith key .sha256 (testEnv.hash .sha256
      (headerHashInput oversigning.canonicalization.header (⟨o.headerName, utf8 o.headerValue⟩ :: testHeaders)
        (namesToSign oversigning testHeaders) o.headerName (makeOriginal o.headerValue)))
      o.signature.signatureData = false := by
  refine ⟨_, ⟨_, _, _, rfl, rfl, rfl⟩, ?_, ?_⟩
  · exact withoutB_of_read rfl
  · rintro (n | ⟨⟩) <;> rfl

set_option maxRecDepth 100000 in
/-- Non-vacuity of `C62_exactly`: two fields on top, of which one lists DKIM-Signature too often. -/
example : ∃ o1 o2, Signed testHeaders [oversigning, simpleRequest] [b!"ab", b!"c\r\n"] (fun _ => 1000)
      ([o1, o2].map .ok) ∧
    WithoutB o1.headerValue (makeOriginal o1.headerValue) ∧ WithoutB o2.headerValue (makeOriginal o2.headerValue) ∧
    (∀ key : VerifyingKey testEnv.crypto, verifyWith key .sha256 (testEnv.hash .sha256
      (headerHashInput oversigning.canonicalization.header ([outputField o2, outputField o1] ++ testHeaders)
        (namesToSign oversigning testHeaders) o1.headerName (makeOriginal o1.headerValue)))
      o1.signature.signatureData = false) ∧
    ∃ results asked, Run testEnv testResolver .default (fun _ => 1050)
        ([outputField o2, outputField o1] ++ testHeaders) [b!"abc\r\n"] results asked ∧
      results.map (fun r => (r.index, r.status)) =
        [(0, .success), (1, .failure (.verificationFailure .verificationFailure))] := by
  refine ⟨_, _, ⟨_, _, _, rfl, rfl, rfl⟩, ?_, ?_, ?_, run_of_statuses rfl⟩
  · exact withoutB_of_read rfl
  · exact withoutB_of_read rfl
  · rintro (n | ⟨⟩) <;> rfl

set_option maxRecDepth 100000 in
/-- Non-vacuity of `C95_exactly`: a field From was added above, which the request lists twice although it
occurred once; then the result is a failure. With a field Received instead it is a success. -/
example : ∃ o, Signed testHeaders [simpleRequest] [b!"ab", b!"c\r\n"] (fun _ => 1000) [.ok o] ∧
    WithoutB o.headerValue (makeOriginal o.headerValue) ∧
    (∀ key : VerifyingKey testEnv.crypto, verifyWith key .sha256 (testEnv.hash .sha256
      (headerHashInput simpleRequest.canonicalization.header
        ([⟨c!"From", b!" z"⟩] ++ ⟨o.headerName, utf8 o.headerValue⟩ :: testHeaders)
        (namesToSign simpleRequest testHeaders) o.headerName (makeOriginal o.headerValue)))
      o.signature.signatureData = false) ∧
    (∃ results asked, Run testEnv testResolver .default (fun _ => 1050)
        ([⟨c!"From", b!" z"⟩] ++ ⟨o.headerName, utf8 o.headerValue⟩ :: testHeaders) [b!"abc\r\n"] results asked ∧
      results.map (fun r => (r.index, r.status)) =
        [(1, .failure (.verificationFailure .verificationFailure))]) ∧
    ∃ results asked, Run testEnv testResolver .default (fun _ => 1050)
        ([⟨c!"Received", b!" z"⟩] ++ ⟨o.headerName, utf8 o.headerValue⟩ :: testHeaders) [b!"abc\r\n"] results asked ∧
      results.map (fun r => (r.index, r.status)) = [(1, .success)] := by
  refine ⟨_, ⟨_, _, _, rfl, rfl, rfl⟩, ?_, ?_, run_of_statuses rfl, run_of_statuses rfl⟩
  · exact withoutB_of_read rfl
  · rintro (n | ⟨⟩) <;> rfl

end Dkim
