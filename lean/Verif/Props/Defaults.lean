import Verif.Props.AutoSigned
import Verif.Props.LineWidth
import Verif.Props.Reasons
import Verif.Props.VerifierPolicy

/-!
# Property C87: what the default settings mean

The defaults of the configuration of the verifier and of a request are spelled out as
what they guarantee.
-/

namespace Dkim

open Spec

variable {E : Env}

/-- C87: in the default configuration, success means that every From field is among the
signed data, that the signature is neither expired nor from the future, by more than five
minutes, that it does not use SHA-1, and that an RSA key has at least 1017 bits. -/
theorem C87_default_success (L : Lawful E) {resolver : Resolver} {clock : Nat → Int}
    (T : TypedTimes .default clock) {headers : List Field} {chunks : List Bytes} {results : List VerificationResult}
    {asked : List Str} (h : Run E resolver .default clock headers chunks results asked) (r : VerificationResult)
    (hr : r ∈ results) (hs : r.status = .success) :
    ∃ f sig record key original, headers[r.index]? = some f ∧ r.signature = some sig ∧ r.keyRecord = some record ∧
      (∀ g ∈ headers, lower g.name = c!"from" → ∃ before after, signedInput headers f original sig =
        before ++ (canonField sig.canonicalization.header g.name g.body ++ b!"\r\n") ++ after) ∧
      publicKey E.crypto (keyTypeOf sig.algorithm) record.keyData = some key ∧
      verifyWith key (hashOf sig.algorithm)
        (E.hash (hashOf sig.algorithm) (signedInput headers f original sig)) sig.signatureData = true ∧
      (∀ x, sig.expiration = some x → (clock r.index).toNat < x + 300) ∧
      (∀ t, sig.timestamp = some t → t ≤ (clock r.index).toNat + 300) ∧
      hashOf sig.algorithm ≠ .sha1 ∧
      (∀ k, key = .rsa k → 1017 ≤ E.crypto.rsaPkBits k) := by
  obtain ⟨f, sig, record, key, value, original, h1, h2, h3, h4⟩ := C40_success_sound L T h r hr hs
  obtain ⟨f', sig', _, _, value', original', g1, g2, g4, g5⟩ := C42_all_covered L T h r hr hs
  rw [h1] at g1; injection g1 with g1; subst g1
  rw [h2] at g2; injection g2 with g2; subst g2
  obtain ⟨ev, _⟩ := fieldSignature_unique L.idna h4.signature g4.signature
  subst ev
  have eo : original' = original := withoutB_unique h4.signature g4.stripped h4.stripped
  subst eo
  refine ⟨f, sig, record, key, original', h1, h2, h3, ?_, h4.keyRead, h4.verified, ?_, ?_, ?_, ?_⟩
  · intro g hg hn
    exact (g5 c!"From" (by simp [Config.default])).2 g hg hn
  · rcases h4.expired with he | he
    · cases he
    · exact he
  · rcases h4.future with he | he
    · cases he
    · exact he
  · exact C52_no_success L T h r hr (by rintro ⟨_, h⟩; cases h) sig h2 hs
  · rintro k rfl
    have := h4.size.2
    simp only [BitsAtLeast] at this
    have e : Config.default.minKeyBits = 1024 := rfl
    omega

/-- C87: in the default configuration there is a result for each DKIM-Signature field, up to ten. -/
theorem C87_default_ten (L : Lawful E) {resolver : Resolver} {clock : Nat → Int}
    (T : TypedTimes .default clock) {headers : List Field} {chunks : List Bytes} {results : List VerificationResult}
    {asked : List Str} (h : Run E resolver .default clock headers chunks results asked) :
    results.length = min 10 (headers.countP fun f => decide (IsDkimField f)) := by
  have h1 := congrArg List.length (C38_one_result_each L T h).1
  simp only [List.length_map] at h1
  rw [h1]
  unfold dkimFields
  rw [List.length_take, ← List.countP_eq_length_filter, positions, List.countP_map]
  have : ∀ (l : List Field) (k : Nat), (l.zipIdx k).countP ((fun p : Nat × Field => decide (IsDkimField p.2)) ∘
      fun p => (p.2, p.1)) = l.countP fun f => decide (IsDkimField f) := by
    intro l
    induction l with
    | nil => intro k; rfl
    | cons f l ih => intro k; rw [List.zipIdx_cons, List.countP_cons, List.countP_cons, ih]; rfl
  rw [this]
  rfl

/-- C87: nor does the default configuration object to anything else: there are unsigned From fields, or the signature
is expired or from the future, by five minutes, or it uses SHA-1, or its key is an RSA key of less than 1024 bits. -/
theorem C87_default_objects (L : Lawful E) {resolver : Resolver} {clock : Nat → Int}
    (T : TypedTimes .default clock) {headers : List Field} {chunks : List Bytes} {results : List VerificationResult}
    {asked : List Str} (h : Run E resolver .default clock headers chunks results asked) (r : VerificationResult)
    (hr : r ∈ results) (p : PolicyError) (hs : r.status = .failure (.policy p)) :
    ∃ sig, r.signature = some sig ∧
      ((p = .unsignedHeaderOccurrence ∧ mentions sig.signedHeaders c!"From" < occurrences headers c!"From") ∨
       (p = .signatureExpired ∧ ∃ x, sig.expiration = some x ∧ x + 300 ≤ (clock r.index).toNat) ∨
       (p = .timestampInFuture ∧ ∃ t, sig.timestamp = some t ∧ (clock r.index).toNat + 300 < t) ∨
       (p = .sha1HashAlgorithm ∧ hashOf sig.algorithm = .sha1) ∨
       (p = .keyTooSmall ∧ ∃ record k, r.keyRecord = some record ∧
         publicKey E.crypto (keyTypeOf sig.algorithm) record.keyData = some (.rsa k) ∧
         E.crypto.rsaPkBits k < 1024)) := by
  obtain ⟨f, _, hreason⟩ := C86_reason L T h r hr _ hs
  unfold Reason at hreason
  split at hreason
  · obtain ⟨_, h, _⟩ := hreason; cases h
  · exact hreason.elim
  · next sig hsig _ =>
    refine ⟨sig, hsig, ?_⟩
    rcases hreason with h | h
    · cases p with
      | requiredHeaderNotSigned => obtain ⟨n, hn, _⟩ := h; cases hn
      | unsignedHeaderOccurrence =>
        obtain ⟨n, hn, h⟩ := h
        rw [List.mem_singleton.1 hn] at h
        exact .inl ⟨rfl, h⟩
      | unsignedContent => exact h.elim
      | signatureExpired => exact .inr (.inl ⟨rfl, h.2⟩)
      | timestampInFuture => exact .inr (.inr (.inl ⟨rfl, h.2⟩))
      | sha1HashAlgorithm => exact .inr (.inr (.inr (.inl ⟨rfl, h.2⟩)))
      | keyTooSmall => exact h.elim
    · exact h.elim
  · next sig record hsig hrec =>
    refine ⟨sig, hsig, ?_⟩
    rcases hreason.2 with h | h
    · cases p with
      | keyTooSmall =>
        obtain ⟨k, h⟩ := h
        exact .inr (.inr (.inr (.inr ⟨rfl, record, k, hrec, h⟩)))
      | _ => exact h.elim
    · cases p with
      | unsignedContent => obtain ⟨hn, _⟩ := h; cases hn
      | _ => exact h.elim

/-- C87: the default configuration does not object to content after the signed part of the
body, nor does it require that any field is signed. -/
theorem C87_default_tolerates (L : Lawful E) {resolver : Resolver} {clock : Nat → Int}
    (T : TypedTimes .default clock) {headers : List Field} {chunks : List Bytes} {results : List VerificationResult}
    {asked : List Str} (h : Run E resolver .default clock headers chunks results asked) (r : VerificationResult)
    (hr : r ∈ results) :
    r.status ≠ .failure (.policy .unsignedContent) ∧ r.status ≠ .failure (.policy .requiredHeaderNotSigned) := by
  constructor
  all_goals
    intro hs
    obtain ⟨f, _, hreason⟩ := C86_reason L T h r hr _ hs
    unfold Reason at hreason
    split at hreason
    · obtain ⟨_, h, _⟩ := hreason; cases h
    · exact hreason.elim
    · rcases hreason with h | h
      · first
        | exact h.elim
        | (obtain ⟨n, hn, _⟩ := h; cases hn)
      · exact h.elim
    · rcases hreason.2 with h | h
      · exact h.elim
      · first
        | (obtain ⟨hn, _⟩ := h; cases hn)
        | exact h.elim

/-- C87: a request with all settings at their default gives a field named DKIM-Signature, of
which no line is longer than 79 characters unless it is a single item; canonicalization is
relaxed/simple, the whole body is signed, and the signature is valid for five days. -/
theorem C87_default_request (law : IdnaLaw E.idna) (hs : SortLaw E.sortBy) (hset : SetLaw E.keySet)
    (hsign : SignLaw E.crypto) (headers : List Field) (hh : TypedHeaders headers) (domain selector : Str)
    (alg : SigAlg) (key : SigningKey E.crypto) (ht : TypedRequest (SignRequest.new domain selector alg key))
    (chunks : List Bytes) (clock : Nat → Nat) (hclock : clock 0 < 2 ^ 63)
    (hlen : ∀ k, (codeBody k chunks.flatten).length < 2 ^ 64) (o : SigningOutput)
    (h : Signed headers [SignRequest.new domain selector alg key] chunks clock [.ok o]) :
    o.headerName = c!"DKIM-Signature" ∧
    o.signature.canonicalization = ⟨.relaxed, .simple⟩ ∧
    o.signature.bodyLength = none ∧
    o.signature.bodyHash = E.hash (hashOf alg) (codeBody .simple chunks.flatten) ∧
    o.signature.timestamp = some (clock 0) ∧
    o.signature.expiration = some (clock 0 + 5 * 86400) ∧
    o.signature.identity = none ∧ o.signature.copiedHeaders = [] ∧ o.signature.extTags = [] ∧
    o.signature.signedHeaders =
      ((headers.map (·.name)).filter fun n => signedByDefault.contains (lower n)).reverse ∧
    ∀ line ∈ lines (o.headerName ++ ':' :: o.headerValue), FitsLine 78 c!"\t" o.headerName o.signature line := by
  have htr : ∀ r ∈ [SignRequest.new domain selector alg key], TypedRequest r := by
    intro r hr
    rw [List.mem_singleton.1 hr]
    exact ht
  have hl := C49_default_order law hs hset hsign headers _ hh htr chunks clock _ h hlen 0 _ o rfl rfl rfl
  obtain ⟨hname, _⟩ := C36_reflects law hs hset headers _ hh htr chunks clock _ h hlen 0 _ rfl o rfl
  obtain ⟨⟨_, k2, _, _, k5, k6⟩, k7, _, _, k10, k11, _, k13, k14, _⟩ :=
    C36_fields law hs hset headers _ hh htr chunks clock _ h hlen 0 _ rfl o rfl
  have k10 : o.signature.timestamp = some (clock 0) := k10
  refine ⟨hname, k2, (k7 rfl).1, (k7 rfl).2, k10, ?_, k5, k14 rfl, k6, k13 rfl, hl⟩
  have e : (SignRequest.new (E := E) domain selector alg key).validDuration = some (60 * 60 * 24 * 5) := rfl
  rw [k11, e, k10]
  simp only [Option.map_some, Option.getD_some, Option.some.injEq]
  omega

/-- C87: the list of header fields that should not be signed contains just the ones named for
this purpose in RFC 6376, section 5.4.1, and none of them is signed by a request with all
settings at their default. -/
theorem C87_default_unsigned (law : IdnaLaw E.idna) (hs : SortLaw E.sortBy) (hset : SetLaw E.keySet)
    (hsign : SignLaw E.crypto) (headers : List Field) (hh : TypedHeaders headers) (domain selector : Str)
    (alg : SigAlg) (key : SigningKey E.crypto) (ht : TypedRequest (SignRequest.new domain selector alg key))
    (chunks : List Bytes) (clock : Nat → Nat) (hclock : clock 0 < 2 ^ 63)
    (hlen : ∀ k, (codeBody k chunks.flatten).length < 2 ^ 64) (o : SigningOutput)
    (h : Signed headers [SignRequest.new domain selector alg key] chunks clock [.ok o]) :
    (∀ n, n ∈ defaultUnsignedHeaders.map lower ↔
      n = c!"return-path" ∨ n = c!"received" ∨ n = c!"comments" ∨ n = c!"keywords") ∧
    ∀ n ∈ o.signature.signedHeaders, lower n ∉ defaultUnsignedHeaders.map lower := by
  have e : defaultUnsignedHeaders.map lower = [c!"return-path", c!"received", c!"comments", c!"keywords"] := by decide
  refine ⟨fun n => by rw [e]; simp, ?_⟩
  intro n hn
  rw [(C87_default_request law hs hset hsign headers hh domain selector alg key ht chunks clock hclock hlen o h
    ).2.2.2.2.2.2.2.2.2.1, List.mem_reverse, List.mem_filter] at hn
  intro hu
  have hd : ∀ m ∈ defaultUnsignedHeaders.map lower, signedByDefault.contains m = false := by decide
  rw [hd _ hu] at hn
  cases hn.2

/-- Non-vacuity of the first four: `test_success`; of `C87_default_objects` also `test_expired`. -/
example : ∃ results asked, Run testEnv testResolver .default (fun _ => 1500) testMessage testBody results asked ∧
    ∃ r ∈ results, r.index = 2 ∧ r.status = .success :=
  result_of_statuses test_success (by simp)

set_option maxRecDepth 100000 in
/-- Non-vacuity of the last two. -/
example : ∃ o, Signed testHeaders [SignRequest.new (E := testEnv) c!"example.com" c!"r" .rsaSha256 (.rsa ())] testBody
    (fun _ => 1000) [.ok o] :=
  ⟨_, _, _, _, rfl, rfl, rfl⟩

end Dkim
