import Verif.Spec.Reasons
import Verif.Props.VerifierCases
import Verif.Proofs.Tamper
import Verif.Props.Strip

/-!
# Property C53: tampering with a verified message
-/

namespace Dkim

open Spec

variable {E : Env}

/-- Two tag values agree: literally with simple canonicalization, except for whitespace with
relaxed. -/
def sameValue : CanonAlg → Str → Str → Prop
  | .simple, v, v' => v = v'
  | .relaxed, v, v' => unfws v = unfws v'

/-- Nothing that is signed differs between two messages, with the signatures in fields `f`
and `f'`. -/
structure Unchanged (headers headers' : List Field) (body body' : Bytes) (f f' : Field) (sig sig' : DkimSignature) :
    Prop where
  /-- The signatures have the same meaning where it determines what is signed. -/
  algorithm : sig.algorithm = sig'.algorithm
  canonicalization : sig.canonicalization = sig'.canonicalization
  signedHeaders : sig.signedHeaders = sig'.signedHeaders
  bodyLength : sig.bodyLength = sig'.bodyLength
  bodyHash : sig.bodyHash = sig'.bodyHash
  /-- The signed header fields have the same canonical content, in the same order. -/
  fields : (selectedFields headers sig.signedHeaders).map
        (fun g => covered sig.canonicalization.header g.name g.body)
      = (selectedFields headers' sig'.signedHeaders).map
        (fun g => covered sig'.canonicalization.header g.name g.body)
  /-- The signature fields have the same tags in the same order; the values other than
  that of `b=` agree. -/
  tags : ∃ value value' tags tags', f.body = utf8 value ∧ f'.body = utf8 value' ∧ ListText tags value ∧
    ListText tags' value' ∧ tags.map (·.1) = tags'.map (·.1) ∧
    ∀ n v v', n ≠ c!"b" → (n, v) ∈ tags → (n, v') ∈ tags' → sameValue sig.canonicalization.header v v'
  /-- The signature fields have the same canonical content, apart from the value of `b=`. -/
  signature : ∃ value value' original original', f.body = utf8 value ∧ f'.body = utf8 value' ∧
    WithoutB value original ∧ WithoutB value' original' ∧
    covered sig.canonicalization.header f.name (utf8 original)
      = covered sig'.canonicalization.header f'.name (utf8 original')
  /-- The signed parts of the bodies have the same canonical form. -/
  body : signedBody sig body = signedBody sig' body'

theorem Succeeded.body_hash {resolver : Resolver} {cfg : Config} {now : Int} {headers : List Field} {body : Bytes}
    {f : Field} {sig : DkimSignature} {record : KeyRecord} {key : VerifyingKey E.crypto} {value original : Str}
    (h : Succeeded E resolver cfg now headers body f sig record key value original) :
    E.hash (hashOf sig.algorithm) (signedBody sig body) = sig.bodyHash := by
  unfold signedBody
  cases hl : sig.bodyLength with
  | none => exact h.bodyHash hl
  | some n => exact (h.limitedHash n hl).2.2

/-- If equal data were signed, nothing but the bodies can differ. -/
theorem unchanged_of_input {headers headers' : List Field} {body body' : Bytes} {f f' : Field}
    {sig sig' : DkimSignature} {value value' original original' : Str} (ht : TypedHeaders headers)
    (ht' : TypedHeaders headers') (hm : ValidName f.name ∧ ValidBody f.body)
    (hm' : ValidName f'.name ∧ ValidBody f'.body) (hs : FieldSignature E f value sig)
    (hs' : FieldSignature E f' value' sig') (hw : WithoutB value original) (hw' : WithoutB value' original')
    (e : signedInput headers f original sig = signedInput headers' f' original' sig')
    (hb : sig.canonicalization = sig'.canonicalization → sig.bodyLength = sig'.bodyLength →
      sig.bodyHash = sig'.bodyHash → signedBody sig body = signedBody sig' body') :
    Unchanged headers headers' body body' f f' sig sig' := by
  obtain ⟨hv, tags, l1, n1, s1⟩ := hs
  obtain ⟨hv', tags', l1', n1', s1'⟩ := hs'
  have hfo : FoldsOnly (utf8 original) := foldsOnly_withoutB hw (hv ▸ hm.2.foldsOnly)
  have hfo' : FoldsOnly (utf8 original') := foldsOnly_withoutB hw' (hv' ▸ hm'.2.foldsOnly)
  have hlast := hashInput_last ht ht' hm.1 hm'.1 hfo hfo' e
  have hbare := canonField_bare hm.1 hm'.1 hlast
  -- the lists without b=
  have hempty : ∀ {tags : List (Str × Str)} {value original : Str} {sig : DkimSignature}, ListText tags value →
      (tags.map (·.1)).Nodup → SignatureOf E.idna E.pre tags sig → WithoutB value original →
      ListText (emptyB tags) original := by
    intro tags value original sig h1 h2 h3 ⟨pre, val, post, e1, h4, e2⟩
    obtain ⟨v, hv, _⟩ := h3.signatureData
    obtain ⟨pre', val', post', e3, h5, h6⟩ := listText_cut h1 h2 (List.mem_map_of_mem (f := (·.1)) hv)
    obtain ⟨rfl, rfl, rfl⟩ := (cut_of_bValue h1 h2 e1 h4).unique h5 (e1 ▸ e3)
    rw [e2]
    exact h6
  have t1 := hempty l1 n1 s1 hw
  have t1' := hempty l1' n1' s1' hw'
  have hsame : SameBareTags tags tags' := by
    have h1 := listText_unfws t1
    have h2 := listText_unfws t1'
    rw [hbare] at h1
    exact listText_unique h1 h2
  have halg := hsame.required n1' (bare_alg E.pre) (by decide) s1.algorithm s1'.algorithm
  have hbh := hsame.required n1' bare_base64 (by decide) s1.bodyHash s1'.bodyHash
  have hcanon := hsame.defaulting n1' bare_canon (by decide) s1.canonicalization s1'.canonicalization
  have hh := hsame.required n1' bare_headers (by decide) s1.signedHeaders s1'.signedHeaders
  have hl := hsame.optional n1' bare_decimal (by decide) s1.bodyLength s1'.bodyLength
  unfold signedInput at e
  rw [← dataHashInput_eq, ← dataHashInput_eq, hcanon] at e
  have hinj := C12_hash_input_injective _ headers headers' sig.signedHeaders sig'.signedHeaders f.name f'.name original
    original' ht ht' hm.1 hm'.1 hfo hfo' e
  refine ⟨halg, hcanon, hh, hl, hbh, ?_, ?_, ?_, hb hcanon hl hbh⟩
  · rw [hcanon]; exact hinj.1
  · refine ⟨value, value', tags, tags', hv, hv', l1, l1', hsame.names, ?_⟩
    intro n v v' hn hmv hmv'
    cases hc : sig.canonicalization.header with
    | relaxed =>
      obtain ⟨w, hw1, hw2⟩ := hsame.value hn hmv
      rw [nodup_fst n1' hw1 hmv'] at hw2
      exact hw2
    | simple =>
      have h2 := hinj.2
      rw [← hcanon, hc] at h2
      simp only [covered, Sum.inl.injEq, Prod.mk.injEq] at h2
      have e2 := utf8_injective h2.2
      rw [e2] at t1
      have e3 := listText_unique t1 t1'
      have h3 : (n, v) ∈ emptyB tags := by
        simp only [emptyB, List.mem_map]
        exact ⟨_, hmv, if_neg hn⟩
      rw [e3] at h3
      simp only [emptyB, List.mem_map] at h3
      obtain ⟨t, ht1, ht2⟩ := h3
      split at ht2
      · next e4 =>
        injection ht2 with e5 _
        exact absurd (e5.symm.trans e4) hn
      · exact nodup_fst n1' (ht2 ▸ ht1) hmv'
  · refine ⟨value, value', original, original', hv, hv', hw, hw', ?_⟩
    rw [hcanon]; exact hinj.2

/-- Two verifications that succeed with the same signature value and the same key. -/
def SameValueAndKey (E : Env) (headers headers' : List Field) (chunks chunks' : List Bytes) : Prop :=
  ∃ resolver resolver' cfg cfg' clock clock' results results' asked asked',
    TypedTimes cfg clock ∧ TypedTimes cfg' clock' ∧ TypedHeaders headers ∧ TypedHeaders headers' ∧
    Run E resolver cfg clock headers chunks results asked ∧
    Run E resolver' cfg' clock' headers' chunks' results' asked' ∧
    ∃ r ∈ results, ∃ r' ∈ results', r.status = .success ∧ r'.status = .success ∧
    ∃ sig sig' record record' key, r.signature = some sig ∧ r'.signature = some sig' ∧
      r.keyRecord = some record ∧ r'.keyRecord = some record' ∧
      publicKey E.crypto (keyTypeOf sig.algorithm) record.keyData = some key ∧
      publicKey E.crypto (keyTypeOf sig'.algorithm) record'.keyData = some key ∧
      sig.signatureData = sig'.signatureData

theorem typed_of_ok {headers : List Field} (h : headers.all Field.ok = true) : TypedHeaders headers := by
  intro f hf
  have := List.all_eq_true.1 h f hf
  simp only [Field.ok, Bool.and_eq_true] at this
  exact ⟨(fieldNameOk_iff _).1 this.1, (fieldBodyOk_iff _).1 this.2⟩

set_option maxRecDepth 100000 in
/-- Non-vacuity: the hypotheses of C53 are met by messages that differ in whitespace, or
in unsigned parts; and, as the hash function of the test environment is weak, by messages
with different content of a signed field. -/
theorem test_same_signature :
    SameValueAndKey testEnv testMessage (⟨c!"X", b!" y"⟩ :: ⟨c!"DKIM-Signature", utf8 testSig1⟩ ::
      [⟨c!"FROM", b!"\r\n  me "⟩, ⟨c!"Subject", b!" a"⟩]) testBody [b!"abc\r\n\r\n"] ∧
    SameValueAndKey testEnv testMessage
      [⟨c!"DKIM-Signature", utf8 testSig1⟩, ⟨c!"From", b!" nb"⟩, ⟨c!"Subject", b!" a"⟩] testBody testBody :=
  ⟨⟨testResolver, testResolver, .default, .default, fun _ => 1500, fun _ => 1500, _, _, _, _,
      typed_default (by decide) _ rfl, typed_default (by decide) _ rfl, typed_of_ok (by decide), typed_of_ok (by decide),
      ⟨_, _, _, rfl, rfl, rfl⟩, ⟨_, _, _, rfl, rfl, rfl⟩, _, List.mem_cons_self, _, List.mem_cons_self, rfl, rfl,
      _, _, _, _, .rsa (1017 : Nat), rfl, rfl, rfl, rfl, rfl, rfl, rfl⟩,
    ⟨testResolver, testResolver, .default, .default, fun _ => 1500, fun _ => 1500, _, _, _, _,
      typed_default (by decide) _ rfl, typed_default (by decide) _ rfl, typed_of_ok (by decide), typed_of_ok (by decide),
      ⟨_, _, _, rfl, rfl, rfl⟩, ⟨_, _, _, rfl, rfl, rfl⟩, _, List.mem_cons_self, _, List.mem_cons_self, rfl, rfl,
      _, _, _, _, .rsa (1017 : Nat), rfl, rfl, rfl, rfl, rfl, rfl, rfl⟩⟩

/-- C53: two verifications succeed, maybe with different messages, configurations, times
and DNS answers, with the same signature value and the same public key. Then nothing that
is signed differs; or the two inputs of the header hash are different and have the same
hash; or the signed parts of the two bodies are different and have the same hash; or the
key accepts the signature value for two different hashes. -/
theorem C53_tampering (L : Lawful E) {resolver resolver' : Resolver} {cfg cfg' : Config} {clock clock' : Nat → Int}
    (T : TypedTimes cfg clock) (T' : TypedTimes cfg' clock') {headers headers' : List Field}
    (H : TypedHeaders headers) (H' : TypedHeaders headers') {chunks chunks' : List Bytes}
    {results results' : List VerificationResult} {asked asked' : List Str}
    (run : Run E resolver cfg clock headers chunks results asked)
    (run' : Run E resolver' cfg' clock' headers' chunks' results' asked')
    (r r' : VerificationResult) (hr : r ∈ results) (hr' : r' ∈ results') (hs : r.status = .success)
    (hs' : r'.status = .success) (sig sig' : DkimSignature) (hsig : r.signature = some sig)
    (hsig' : r'.signature = some sig') (record record' : KeyRecord) (hrec : r.keyRecord = some record)
    (hrec' : r'.keyRecord = some record') (key : VerifyingKey E.crypto)
    (hkey : publicKey E.crypto (keyTypeOf sig.algorithm) record.keyData = some key)
    (hkey' : publicKey E.crypto (keyTypeOf sig'.algorithm) record'.keyData = some key)
    (hdata : sig.signatureData = sig'.signatureData) :
    ∃ f f' value value' original original', headers[r.index]? = some f ∧ headers'[r'.index]? = some f' ∧
      FieldSignature E f value sig ∧ FieldSignature E f' value' sig' ∧
      WithoutB value original ∧ WithoutB value' original' ∧
      let alg := hashOf sig.algorithm
      let alg' := hashOf sig'.algorithm
      let input := signedInput headers f original sig
      let input' := signedInput headers' f' original' sig'
      let part := signedBody sig chunks.flatten
      let part' := signedBody sig' chunks'.flatten
      Unchanged headers headers' chunks.flatten chunks'.flatten f f' sig sig' ∨
      (alg = alg' ∧ input ≠ input' ∧ E.hash alg input = E.hash alg input') ∨
      (alg = alg' ∧ part ≠ part' ∧ E.hash alg part = E.hash alg part') ∨
      ((alg, E.hash alg input) ≠ (alg', E.hash alg' input') ∧
        verifyWith key alg (E.hash alg input) sig.signatureData = true ∧
        verifyWith key alg' (E.hash alg' input') sig.signatureData = true) := by
  obtain ⟨f, s, rec, k, value, original, hf, e1, e2, S⟩ := C40_success_sound L T run r hr hs
  obtain ⟨f', s', rec', k', value', original', hf', e1', e2', S'⟩ := C40_success_sound L T' run' r' hr' hs'
  rw [hsig] at e1; injection e1 with e1; subst e1
  rw [hsig'] at e1'; injection e1' with e1'; subst e1'
  rw [hrec] at e2; injection e2 with e2; subst e2
  rw [hrec'] at e2'; injection e2' with e2'; subst e2'
  have ek : k = key := by have := S.keyRead; rw [hkey] at this; injection this with this; exact this.symm
  have ek' : k' = key := by have := S'.keyRead; rw [hkey'] at this; injection this with this; exact this.symm
  subst ek
  subst ek'
  refine ⟨f, f', value, value', original, original', hf, hf', S.signature, S'.signature, S.stripped, S'.stripped, ?_⟩
  by_cases hh : (hashOf sig.algorithm, E.hash (hashOf sig.algorithm) (signedInput headers f original sig)) =
      (hashOf sig'.algorithm, E.hash (hashOf sig'.algorithm) (signedInput headers' f' original' sig'))
  · simp only [Prod.mk.injEq] at hh
    by_cases hi : signedInput headers f original sig = signedInput headers' f' original' sig'
    · by_cases hp : sig.bodyHash = sig'.bodyHash ∧
          signedBody sig chunks.flatten ≠ signedBody sig' chunks'.flatten
      · refine .inr (.inr (.inl ⟨hh.1, hp.2, ?_⟩))
        have h1 := S'.body_hash
        rw [← hh.1] at h1
        rw [S.body_hash, h1, hp.1]
      · refine .inl (unchanged_of_input H H' (H f (List.mem_of_getElem? hf)) (H' f' (List.mem_of_getElem? hf')) S.signature
          S'.signature S.stripped S'.stripped hi ?_)
        intro _ _ h1
        exact Decidable.byContradiction fun h2 => hp ⟨h1, h2⟩
    · exact .inr (.inl ⟨hh.1, hi, by rw [hh.2, hh.1]⟩)
  · exact .inr (.inr (.inr ⟨hh, S.verified, by rw [hdata]; exact S'.verified⟩))

end Dkim
