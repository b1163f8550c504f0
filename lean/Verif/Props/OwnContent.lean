import Verif.Props.Tamper
import Verif.Props.Refold
import Verif.Props.Domain
import Verif.Proofs.Refold

/-!
# Property C97: a signature protects its own content
-/

namespace Dkim

open Spec

variable {E : Env}

/-- Two signatures mean the same. Values of extension tags, the meaning of which is not known,
agree (literally with simple canonicalization, except for whitespace with relaxed). -/
structure SameMeaning (sig sig' : DkimSignature) : Prop where
  algorithm : sig.algorithm = sig'.algorithm
  signatureData : sig.signatureData = sig'.signatureData
  bodyHash : sig.bodyHash = sig'.bodyHash
  canonicalization : sig.canonicalization = sig'.canonicalization
  domain : sig.domain = sig'.domain
  signedHeaders : sig.signedHeaders = sig'.signedHeaders
  identity : sig.identity = sig'.identity
  selector : sig.selector = sig'.selector
  bodyLength : sig.bodyLength = sig'.bodyLength
  timestamp : sig.timestamp = sig'.timestamp
  expiration : sig.expiration = sig'.expiration
  copiedHeaders : sig.copiedHeaders = sig'.copiedHeaders
  extNames : sig.extTags.map (·.1) = sig'.extTags.map (·.1)
  extValues : ∀ n v v', (n, v) ∈ sig.extTags → (n, v') ∈ sig'.extTags →
    sameValue sig.canonicalization.header v v'

/-! ## Meaning of values without whitespace -/

theorem bare_domain {ix : Idna} (blank : BlankLaw ix) (b : Bool) :
    Bare (fun v d : Str => d = v ∧ ValidDomain b ix v) := by
  rintro v v' x x' e ⟨rfl, h⟩ ⟨rfl, h'⟩
  rwa [unfws_of_clean (validDomain_clean blank h), unfws_of_clean (validDomain_clean blank h')] at e

theorem bare_identity (ix : Idna) : Bare (IdentityText ix) := by
  rintro v v' x x' e ⟨h, hq⟩ ⟨h', hq'⟩
  rw [e] at hq
  have h1 := (C28_identity_exact ix (identityText x) x).2 ⟨h, rfl⟩
  have h2 := (C28_identity_exact ix (identityText x') x').2 ⟨h', rfl⟩
  rw [utf8_injective (qpBytes_unique hq hq'), h2] at h1
  exact (Option.some.inj h1).symm

theorem bare_copied : Bare CopiedText := by
  intro v v' x x' e h h'
  exact ((copied_congr e).1 h).unique h'

theorem sameBareTags_of {tags : List (Str × Str)} : ∀ {tags' : List (Str × Str)},
    tags.map (·.1) = tags'.map (·.1) →
    (∀ n v v', n ≠ c!"b" → (n, v) ∈ tags → (n, v') ∈ tags' → unfws v = unfws v') → SameBareTags tags tags' := by
  induction tags with
  | nil =>
    intro tags' h _
    cases tags' with
    | nil => rfl
    | cons t tags' => simp at h
  | cons t tags ih =>
    intro tags' h hv
    cases tags' with
    | nil => simp at h
    | cons t' tags' =>
      obtain ⟨n, v⟩ := t
      obtain ⟨n', v'⟩ := t'
      simp only [List.map_cons, List.cons.injEq] at h
      obtain ⟨rfl, h⟩ := h
      have h1 := ih h fun m x x' hm hx hx' => hv m x x' hm (.tail _ hx) (.tail _ hx')
      unfold SameBareTags bareTags emptyB at h1 ⊢
      simp only [List.map_cons, h1]
      congr 1
      by_cases hb : n = c!"b"
      · simp [hb]
      · simp [hb, hv n v v' hb (.head _) (.head _)]

theorem sameValue_unfws {alg : CanonAlg} {v v' : Str} (h : sameValue alg v v') : unfws v = unfws v' := by
  cases alg with
  | simple => exact congrArg unfws h
  | relaxed => exact h

/-- From equal tags to equal meaning. -/
theorem sameMeaning_of_unchanged (blank : BlankLaw E.idna) {headers headers' : List Field} {body body' : Bytes}
    {f f' : Field} {sig sig' : DkimSignature} {value value' : Str} (hs : FieldSignature E f value sig)
    (hs' : FieldSignature E f' value' sig') (u : Unchanged headers headers' body body' f f' sig sig') :
    SameMeaning { sig with signatureData := sig'.signatureData } sig' := by
  obtain ⟨hv, tags, l1, n1, s1⟩ := hs
  obtain ⟨hv', tags', l1', n1', s1'⟩ := hs'
  obtain ⟨w, w', ts, ts', e1, e2, m1, m2, hnames, hvals⟩ := u.tags
  obtain rfl := utf8_injective (hv.symm.trans e1)
  obtain rfl := utf8_injective (hv'.symm.trans e2)
  obtain rfl := listText_unique l1 m1
  obtain rfl := listText_unique l1' m2
  have hsame := sameBareTags_of hnames fun n v v' hn h h' => sameValue_unfws (hvals n v v' hn h h')
  refine ⟨u.algorithm, rfl, u.bodyHash, u.canonicalization, ?_, u.signedHeaders, ?_, ?_, u.bodyLength, ?_, ?_, ?_, ?_, ?_⟩
  · exact hsame.required n1' (bare_domain blank true) (by decide) s1.domain s1'.domain
  · exact hsame.optional n1' (bare_identity E.idna) (by decide) s1.identity s1'.identity
  · exact hsame.required n1' (bare_domain blank false) (by decide) s1.selector s1'.selector
  · exact hsame.optional n1' bare_decimal (by decide) s1.timestamp s1'.timestamp
  · exact hsame.optional n1' bare_decimal (by decide) s1.expiration s1'.expiration
  · exact hsame.defaulting n1' bare_copied (by decide) s1.copiedHeaders s1'.copiedHeaders
  · have e : ∀ l : List (Str × Str), (l.filter fun t => !knownTags.contains t.1).map (·.1)
        = (l.map (·.1)).filter fun n => !knownTags.contains n := by
      intro l
      rw [List.filter_map]
      rfl
    simp only [s1.extTags, s1'.extTags]
    rw [e, e, hnames]
  · intro n v v' h h'
    simp only [s1.extTags] at h
    rw [List.mem_filter] at h
    rw [s1'.extTags, List.mem_filter] at h'
    refine hvals n v v' ?_ h.1 h'.1
    rintro rfl
    exact absurd h.2 (by simp [knownTags])

/-- C97: two verifications succeed, maybe with different messages, configurations, times and DNS
answers, with the same signature value and the same public key. Then the two signatures mean the
same: they are from the same domain and selector, for the same identity, of the same time, and so
on; or the two inputs of the header hash are different and have the same hash; or the key accepts the
signature value for two different hashes. -/
theorem C97_own_content (L : Lawful E) (blank : BlankLaw E.idna) {resolver resolver' : Resolver} {cfg cfg' : Config}
    {clock clock' : Nat → Int} (T : TypedTimes cfg clock) (T' : TypedTimes cfg' clock') {headers headers' : List Field}
    (H : TypedHeaders headers) (H' : TypedHeaders headers') {chunks chunks' : List Bytes}
    {results results' : List VerificationResult} {asked asked' : List Str}
    (run : Run E resolver cfg clock headers chunks results asked)
    (run' : Run E resolver' cfg' clock' headers' chunks' results' asked')
    (r r' : VerificationResult) (hr : r ∈ results) (hr' : r' ∈ results') (hs : r.status = .success)
    (hs' : r'.status = .success) (sig sig' : DkimSignature) (hsig : r.signature = some sig)
    (hsig' : r'.signature = some sig') (record record' : KeyRecord) (hrec : r.keyRecord = some record)
    (hrec' : r'.keyRecord = some record') (key : VerifyingKey E.crypto)
    (hkey : publicKey E.crypto (keyTypeOf sig.algorithm) record.keyData = some key)
    (hkey' : publicKey E.crypto (keyTypeOf sig'.algorithm) record'.keyData = some key)
    (hdata : sig.signatureData = sig'.signatureData) :
    ∃ f f' value value' original original', headers[r.index]? = some f ∧ headers'[r'.index]? = some f' ∧
      FieldSignature E f value sig ∧ FieldSignature E f' value' sig' ∧
      WithoutB value original ∧ WithoutB value' original' ∧
      let alg := hashOf sig.algorithm
      let alg' := hashOf sig'.algorithm
      let input := signedInput headers f original sig
      let input' := signedInput headers' f' original' sig'
      SameMeaning sig sig' ∨
      (alg = alg' ∧ input ≠ input' ∧ E.hash alg input = E.hash alg input') ∨
      ((alg, E.hash alg input) ≠ (alg', E.hash alg' input') ∧
        verifyWith key alg (E.hash alg input) sig.signatureData = true ∧
        verifyWith key alg' (E.hash alg' input') sig.signatureData = true) := by
  obtain ⟨f, s, rec, k, value, original, hf, e1, e2, S⟩ := C40_success_sound L T run r hr hs
  obtain ⟨f', s', rec', k', value', original', hf', e1', e2', S'⟩ := C40_success_sound L T' run' r' hr' hs'
  rw [hsig] at e1; injection e1 with e1; subst e1
  rw [hsig'] at e1'; injection e1' with e1'; subst e1'
  rw [hrec] at e2; injection e2 with e2; subst e2
  rw [hrec'] at e2'; injection e2' with e2'; subst e2'
  have ek : k = key := by have := S.keyRead; rw [hkey] at this; injection this with this; exact this.symm
  have ek' : k' = key := by have := S'.keyRead; rw [hkey'] at this; injection this with this; exact this.symm
  subst ek
  subst ek'
  refine ⟨f, f', value, value', original, original', hf, hf', S.signature, S'.signature, S.stripped, S'.stripped, ?_⟩
  by_cases hh : (hashOf sig.algorithm, E.hash (hashOf sig.algorithm) (signedInput headers f original sig)) =
      (hashOf sig'.algorithm, E.hash (hashOf sig'.algorithm) (signedInput headers' f' original' sig'))
  · simp only [Prod.mk.injEq] at hh
    by_cases hi : signedInput headers f original sig = signedInput headers' f' original' sig'
    · have hsame := sameMeaning_of_unchanged blank S.signature S'.signature (body := []) (body' := [])
        (unchanged_of_input H H' (H f (List.mem_of_getElem? hf)) (H' f' (List.mem_of_getElem? hf')) S.signature
          S'.signature S.stripped S'.stripped hi
          fun h1 h2 _ => by simp only [signedBody, h1, h2])
      rw [← hdata] at hsame
      exact .inl hsame
    · exact .inr (.inl ⟨hh.1, hi, by rw [hh.2, hh.1]⟩)
  · exact .inr (.inr ⟨hh, S.verified, by rw [hdata]; exact S'.verified⟩)

set_option maxRecDepth 100000 in
/-- Non-vacuity: the hypotheses are met by a message and one in which the signature field is folded in another
way. -/
theorem test_own_content : BlankLaw testEnv.idna ∧ SameValueAndKey testEnv testMessage
    (⟨c!"DKIM-Signature", b!" \r\n\t" ++ utf8 testSig1⟩ :: [⟨c!"From", b!" me"⟩, ⟨c!"Subject", b!" a"⟩])
    testBody testBody :=
  ⟨asciiIdna_blank, ⟨testResolver, testResolver, .default, .default, fun _ => 1500, fun _ => 1500, _, _, _, _,
      typed_default (by decide) _ rfl, typed_default (by decide) _ rfl, typed_of_ok (by decide), typed_of_ok (by decide),
      ⟨_, _, _, rfl, rfl, rfl⟩, ⟨_, _, _, rfl, rfl, rfl⟩, _, List.mem_cons_self, _, List.mem_cons_self, rfl, rfl,
      _, _, _, _, .rsa (1017 : Nat), rfl, rfl, rfl, rfl, rfl, rfl, rfl⟩⟩

end Dkim
