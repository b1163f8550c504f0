import Verif.Spec.Rfc8616Valid
import Verif.Props.Rfc8616
import Verif.Props.RfcSigned

/-!
# Property C106: what is valid according to RFC 8616 is accepted, and the converse

`Spec.Rfc8616.Valid` is what RFC 6376 and RFC 8616 say about valid signatures.
-/

namespace Dkim

open Spec

variable {E : Env}

/-- C106: with names in ASCII, what is valid according to RFC 6376 alone is valid. -/
theorem C106_extends {resolver : Resolver} {headers : List Field} {body : Bytes} {f : Field} {value : Str}
    {s : DkimSignature} {txts : List (Except IoErr Bytes)} {txt : Str} {record : KeyRecord}
    {key : VerifyingKey E.crypto} (h : Rfc.Valid E resolver headers body f value s txts txt record key)
    (hd : Rfc.AsciiForm E.idna s.domain) (hsel : Rfc.AsciiForm E.idna s.selector)
    (hi : ∀ i, s.identity = some i → Rfc.AsciiForm E.idna i.domain) :
    Rfc8616.Valid E resolver headers body f value s (lower s.domain) (lower s.selector) txts txt record key :=
  { h with
    signature := by
      obtain ⟨tags, h1, h2, h3⟩ := h.signature
      exact ⟨tags, h1, h2, C105_extends E.idna E.pre tags s h3 hd hsel hi⟩
    domainForm := hd.1
    selectorForm := hsel.1
    fits := { h.fits with
      noSubdomains := fun hn i hi' => by rw [(hi i hi').1, hd.1, h.fits.noSubdomains hn i hi'] } }

/-- C106: a signature that is valid according to the RFCs is accepted, if it is within the limits of
C105 and of the configured policy, and the body is regular (see C90). -/
theorem C106_valid_accepted (L : Lawful E) {resolver : Resolver} {cfg : Config} {clock : Nat → Int}
    (T : TypedTimes cfg clock) {headers : List Field} {chunks : List Bytes} {results : List VerificationResult}
    {asked : List Str} (h : Run E resolver cfg clock headers chunks results asked) (i : Nat) (f : Field)
    (hf : (i, f) ∈ dkimFields cfg.maxSignatures headers) (value : Str) (s : DkimSignature) (d sel : Str)
    (txts : List (Except IoErr Bytes)) (txt : Str) (record : KeyRecord) (key : VerifyingKey E.crypto)
    (hv : Rfc8616.Valid E resolver headers chunks.flatten f value s d sel txts txt record key)
    (hp : Policy E cfg (clock i) headers chunks.flatten s txts txt key) (hl : Rfc8616.Limits E.idna s)
    (hw : SingleFws value ∧ SingleFws txt) (hb : Regular s.canonicalization.body chunks.flatten) :
    ∃ r ∈ results, r.index = i ∧ r.status = .success ∧ r.signature = some s := by
  obtain ⟨tags, t1, t2, t3⟩ := hv.signature
  obtain ⟨rtags, u1, u2, u3⟩ := hv.record
  obtain ⟨original, o1, o2⟩ := hv.verified
  have hparse := C105_reads_rfc E.idna L.idna E.pre value tags s t1 t2 hw.1 t3 hl
  have hrec := C101_reads_rfc E.lossy E.pre txt rtags record u1 u2 hw.2 u3
    ⟨List.ne_nil_of_mem hv.fits.hashAlgorithm, by
      rcases hv.fits.serviceType with h | h <;> exact List.ne_nil_of_mem h⟩
  have hindex : i ∈ results.map (·.index) := by
    rw [(C38_one_result_each L T h).1]
    exact List.mem_map.2 ⟨_, hf, rfl⟩
  obtain ⟨r, hr, rfl⟩ := List.mem_map.1 hindex
  obtain ⟨f1, f2⟩ := mem_dkimFields hf
  rw [regular_iff] at hb
  refine ⟨r, hr, rfl, C40_success_complete L T h r hr f f1 s record key value original ?_ hp.memory⟩
  exact {
    named := f2
    signature := ⟨hv.text, (C30_parse_exact E.idna L.idna E.pre value s).1 hparse⟩
    stripped := o1
    required := hp.required
    unsigned := hp.unsigned
    expired := hp.expired
    future := hp.future
    sha1 := hp.sha1
    answer := by
      refine ⟨_, txts, ⟨d, sel, hv.domainForm, hv.selectorForm, rfl⟩, hv.answer, _, hp.tried, ?_⟩
      obtain ⟨rtags, v1, v2, v3⟩ := (C33_parse_exact E.lossy E.pre txt record).1 hrec
      exact ⟨txt, rtags, rfl, v1, v2, v3⟩
    keyType := hv.fits.keyType
    keyData := hv.fits.notRevoked
    hashAlgorithm := hv.fits.hashAlgorithm
    identity := hv.fits.noSubdomains
    keyRead := by rw [← hv.fits.keyType]; exact hv.keyRead
    size := hp.keySize
    verified := o2
    bodyHash := by
      intro hn
      have := hv.bodyHash
      unfold Rfc.hashedBody at this
      rw [hn] at this
      rw [hb]
      exact this
    limitedHash := by
      intro n hn
      have := hv.bodyHash
      unfold Rfc.hashedBody at this
      rw [hn] at this
      rw [hb]
      exact ⟨hv.bodyLength n hn, fun hu => hp.unsignedContent hu n hn, this⟩ }

/-- C106: conversely, a signature that is accepted is within the policy, and is valid according to
the RFCs, if the texts of the signature and of the key record are according to the RFCs where the
library does not insist on this (see C105 and C101), and the body is regular. -/
theorem C106_accepted_valid (L : Lawful E) {resolver : Resolver} {cfg : Config} {clock : Nat → Int}
    (T : TypedTimes cfg clock) {headers : List Field} {chunks : List Bytes} {results : List VerificationResult}
    {asked : List Str} (h : Run E resolver cfg clock headers chunks results asked) (r : VerificationResult)
    (hr : r ∈ results) (hs : r.status = .success)
    (hb : ∀ s, r.signature = some s → Regular s.canonicalization.body chunks.flatten) :
    ∃ f value s tags d sel txts txt record rtags key, headers[r.index]? = some f ∧ IsDkimField f ∧
      r.signature = some s ∧ r.keyRecord = some record ∧ FieldSignature E f value s ∧ ListText tags value ∧
      ListText rtags txt ∧ TxtRecord E (.ok (utf8 txt)) record ∧
      (E.idna.toAscii s.domain = some d ∧ E.idna.toAscii s.selector = some sel ∧
        (resolver (sel ++ c!"._domainkey." ++ d ++ c!".")).result = .ok txts) ∧
      Policy E cfg (clock r.index) headers chunks.flatten s txts txt key ∧
      (Rfc8616.Strict E.idna tags s → Rfc.StrictRecord rtags →
        Rfc8616.Valid E resolver headers chunks.flatten f value s d sel txts txt record key) := by
  obtain ⟨f, s, record, key, value, original, k1, k2, k3, k⟩ := C40_success_sound L T h r hr hs
  obtain ⟨v1, tags, t1, t2, t3⟩ := k.signature
  obtain ⟨name, txts, ⟨d, sel, e1, e2, rfl⟩, q2, txt, q3, q4⟩ := k.answer
  obtain ⟨txt, rtags, rfl, u1, u2, u3⟩ := q4
  have hbody := (regular_iff _ _).1 (hb s k2)
  refine ⟨f, value, s, tags, d, sel, txts, txt, record, rtags, key, k1, k.named, k2, k3, k.signature, t1, u1,
    ⟨txt, rtags, rfl, u1, u2, u3⟩, ⟨e1, e2, q2⟩, ?_, ?_⟩
  · exact {
      required := k.required
      unsigned := k.unsigned
      expired := k.expired
      future := k.future
      sha1 := k.sha1
      tried := q3
      keySize := k.size
      unsignedContent := by
        intro hu n hn
        rw [← hbody]
        exact (k.limitedHash n hn).2.1 hu
      memory := (h.judged L T hr k1).success_fits hs k2 }
  · intro d4 d5
    exact {
      text := v1
      signature := ⟨tags, rfcListText_of t1, t2,
        (intlSignature_iff (fun _ _ _ hm => listText_values t1 _ hm) t2 t3).2 d4⟩
      domainForm := e1
      selectorForm := e2
      answer := q2
      found := mem_of_firstTwoAndLast q3
      record := ⟨rtags, rfcListText_of u1, u2, (rfcRecord_iff (fun _ hm => listText_values u1 _ hm) u2 u3).2 d5⟩
      fits := {
        keyType := k.keyType
        hashAlgorithm := k.hashAlgorithm
        notRevoked := k.keyData
        serviceType := by
          have hn : record.serviceTypes ≠ [] := u3.serviceTypes.elim (by decide) (fun _ _ h => h.2)
          cases e : record.serviceTypes with
          | nil => exact absurd e hn
          | cons t _ => cases t <;> simp
        noSubdomains := k.identity }
      keyRead := by rw [k.keyType]; exact k.keyRead
      verified := ⟨original, k.stripped, k.verified⟩
      bodyLength := fun n hn => by rw [← hbody]; exact (k.limitedHash n hn).1
      bodyHash := by
        unfold Rfc.hashedBody
        rw [← hbody]
        cases e : s.bodyLength with
        | none => exact k.bodyHash e
        | some n => exact (k.limitedHash n e).2.2 }

/-- C106: both directions together, for a field that is a signature by the grammar of the RFCs, if
the records that are tried are according to the grammar where the library does not insist on this. -/
theorem C106_success_iff (L : Lawful E) {resolver : Resolver} {cfg : Config} {clock : Nat → Int}
    (T : TypedTimes cfg clock) {headers : List Field} {chunks : List Bytes} {results : List VerificationResult}
    {asked : List Str} (h : Run E resolver cfg clock headers chunks results asked) (r : VerificationResult)
    (hr : r ∈ results) (f : Field) (hf : headers[r.index]? = some f) (value : Str) (hv : f.body = utf8 value)
    (tags : List (Str × Str)) (ht : RfcListText tags value) (hn : (tags.map (·.1)).Nodup) (s : DkimSignature)
    (hs : Rfc8616.Signature E.idna E.pre tags s) (hl : Rfc8616.Limits E.idna s) (hw : SingleFws value)
    (hb : Regular s.canonicalization.body chunks.flatten)
    (hrec : ∀ d sel txts txt, E.idna.toAscii s.domain = some d → E.idna.toAscii s.selector = some sel →
      (resolver (sel ++ c!"._domainkey." ++ d ++ c!".")).result = .ok txts →
      .ok (utf8 txt) ∈ firstTwoAndLast txts →
        SingleFws txt ∧ ∀ rtags, ListText rtags txt → Rfc.StrictRecord rtags) :
    r.status = .success ↔ ∃ d sel txts txt record key,
      Rfc8616.Valid E resolver headers chunks.flatten f value s d sel txts txt record key ∧
      Policy E cfg (clock r.index) headers chunks.flatten s txts txt key := by
  have hparse := C105_reads_rfc E.idna L.idna E.pre value tags s ht hn hw hs hl
  constructor
  · intro hst
    obtain ⟨f', s', _, _, value', _, k1, k2, _, k⟩ := C40_success_sound L T h r hr hst
    have same : ∀ value' s', FieldSignature E f value' s' → value' = value ∧ s' = s := by
      intro value' s' h
      have e : value' = value := utf8_injective (h.1.symm.trans hv)
      subst e
      have h2 := (sigFromStr_iff L.idna E.pre _ _).2 h.2
      rw [hparse] at h2
      injection h2 with h2
      exact ⟨rfl, h2.symm⟩
    rw [hf, Option.some.injEq] at k1
    subst k1
    obtain ⟨rfl, rfl⟩ := same _ _ k.signature
    obtain ⟨f', value, s, tags', d, sel, txts, txt, record, rtags, key, h1, _, h3, _, h5, h6, h10, _, ⟨e1, e2, h8⟩,
      h11, h12⟩ := C106_accepted_valid L T h r hr hst (by
        intro s hs'
        rw [k2] at hs'
        injection hs' with hs'
        subst hs'
        exact hb)
    rw [hf, Option.some.injEq] at h1
    subst h1
    obtain ⟨rfl, rfl⟩ := same _ _ h5
    obtain rfl := listText_unique h6 (rfcListText_single ht hw)
    exact ⟨d, sel, txts, txt, record, key, h12 ((C105_read_exactly E.idna L.idna E.pre _ _ hparse _ h6).1 hs)
      ((hrec d sel txts txt e1 e2 h8 h11.tried).2 rtags h10), h11⟩
  · rintro ⟨d, sel, txts, txt, record, key, h1, h2⟩
    have hm : (r.index, f) ∈ dkimFields cfg.maxSignatures headers := by
      have : r.index ∈ results.map (·.index) := List.mem_map.2 ⟨r, hr, rfl⟩
      rw [(C38_one_result_each L T h).1] at this
      obtain ⟨⟨i, f'⟩, h3, h4⟩ := List.mem_map.1 this
      have h4 : i = r.index := h4
      subst h4
      have := (mem_dkimFields h3).1
      rw [hf, Option.some.injEq] at this
      subst this
      exact h3
    obtain ⟨r', h3, h4, h5, _⟩ := C106_valid_accepted L T h r.index f hm value s d sel txts txt record key h1 h2 hl
      ⟨hw, (hrec d sel txts txt h1.domainForm h1.selectorForm h1.answer h2.tried).1⟩ hb
    have : r' = r := nodup_map_inj (C38_one_result_each L T h).2.1 h3 hr h4
    rw [← this]
    exact h5

/-- A request for a signature in the grammar of the RFCs. -/
structure Spec.IntlRequest (r : SignRequest E) : Prop where
  domain : Rfc8616.DomainName E.idna (writtenName E.idna r.format.asciiOnly r.domain)
  selector : Rfc8616.Selector E.idna (writtenName E.idna r.format.asciiOnly r.selector)
  identity : ∀ j, r.identity = some j → Rfc8616.DomainName E.idna (writtenName E.idna r.format.asciiOnly j.domain)
  query : ∀ v, (c!"q", v) ∈ r.extTags → ∃ ms, Rfc8616.QueryMethods ms v ∧ ∃ m ∈ ms, lower m = c!"dns/txt"

/-- C106: the field that the signer produces, whatever the format, if copied header fields are not
folded inside encoded characters (see C102), put on top of the message or below other added fields, is
a signature that is valid according to the RFCs, with every key record by the RFC that can be used for
it and has the public key of the signing key. -/
theorem C106_signed_valid (law : IdnaLaw E.idna) (hs : SortLaw E.sortBy) (hset : SetLaw E.keySet)
    (hord : OrderLaw E.lookupOrder) (hsign : SignLaw E.crypto) (hhash : ∀ a b, E.hash a b ≠ [])
    (headers : List Field) (requests : List (SignRequest E)) (hh : TypedHeaders headers)
    (ht : ∀ r ∈ requests, TypedRequest r) (chunks : List Bytes) (clock : Nat → Nat)
    (out : List (Except SigningError SigningOutput))
    (h : Signed headers requests chunks clock out)
    (hlen : ∀ k, (codeBody k chunks.flatten).length < 2 ^ 64 ∧ (codeBody k chunks.flatten).length ≤ E.usizeMax)
    (i : Nat) (hclock : clock i < 2 ^ 64)
    (r : SignRequest E) (hr : requests[i]? = some r) (o : SigningOutput) (ho : out[i]? = some (.ok o))
    (hread : Readable r headers (clock i)) (hrfc : IntlRequest r)
    (htime : ∀ t, o.signature.timestamp = some t ∨ o.signature.expiration = some t → t < 10 ^ 12)
    (hnames : CopyableNames r headers)
    (hcopies : r.copyHeaders = true → ∀ tags v, ListText tags o.headerValue → (c!"z", v) ∈ tags → Rfc.OctetsWhole v)
    (hbody : Regular r.canonicalization.body chunks.flatten)
    (above : List Field)
    (hcover : ∀ n, (lower n = c!"dkim-signature" ∨ ∃ g ∈ above, g.name = n) →
      mentions (namesToSign r headers) n ≤ occurrences headers n) :
    ∃ s, sigFromStr E.idna E.pre o.headerValue = .ok s ∧
      ∀ (resolver : Resolver) (d sel : Str) (txts : List (Except IoErr Bytes)) (txt : Str) (record : KeyRecord)
        (key : VerifyingKey E.crypto),
        E.idna.toAscii s.domain = some d → E.idna.toAscii s.selector = some sel →
        (resolver (sel ++ c!"._domainkey." ++ d ++ c!".")).result = .ok txts →
        .ok (utf8 txt) ∈ txts →
        (∃ tags, RfcListText tags txt ∧ (tags.map (·.1)).Nodup ∧ Rfc.Record E.lossy E.pre tags record) →
        Rfc8616.KeyFits E.idna s record → publicKey E.crypto record.keyType record.keyData = some key →
        BitsAtLeast key (if E.pre then 512 else 1024) → KeyPair r.signingKey key →
        Rfc8616.Valid E resolver (above ++ ⟨o.headerName, utf8 o.headerValue⟩ :: headers) chunks.flatten
          ⟨o.headerName, utf8 o.headerValue⟩ o.headerValue s d sel txts txt record key := by
  have L : Lawful E := ⟨law.toCaseLaw, hord, hset⟩
  have hl := fun k => (hlen k).1
  obtain ⟨hk, hc, hlocal, hq, hleft⟩ := hread
  obtain ⟨g1, g2, _⟩ := output_tags law hs hset hh ht h hl hr ho
  obtain ⟨s, cz, s1, s2, s3, s4, s5, s6, _⟩ := output_read_written law hs hset hsign hhash hh ht h hl hclock hr ho
    (hk.readable g1 g2) hlocal hc hq hleft
  obtain ⟨⟨f1, f2, f3, f4, f5, f6⟩, f7, f8, f9, _, _, _, _, f10, _⟩ :=
    C36_fields law hs hset headers requests hh ht chunks clock out h hl i r hr o ho
  refine ⟨s, s1, ?_⟩
  intro resolver d sel txts txt record key hd hsel hans hfound hrec hfits hpk hbits hpair
  obtain ⟨rtags, r1, r2, r3⟩ := hrec
  obtain ⟨txt', t1⟩ := listText_of_rfc r1
  have hro : RecordOf E.lossy E.pre rtags record := rfcRecord (fun t h => listText_values t1 t h) r3
    ⟨List.ne_nil_of_mem hfits.hashAlgorithm, by
      rcases hfits.serviceType with h | h <;> exact List.ne_nil_of_mem h⟩
  have ealg : s.algorithm = r.algorithm := by rw [s5.algorithm]; exact f1
  have T : TypedTimes (anyPolicy (above.countP (fun g => decide (IsDkimField g)) + 1)) (fun _ => 0) :=
    ⟨fun _ => by decide, nofun⟩
  have d1 := hd
  have d2 := hsel
  rw [s2, hk.domain.1] at d1
  rw [s3, hk.selector.1] at d2
  have trec : TxtRecord E (.ok (utf8 txt')) record := ⟨txt', rtags, rfl, t1, r2, hro⟩
  have usize : ∀ n, o.signature.bodyLength = some n → n ≤ E.usizeMax := by
    intro n hn
    refine Nat.le_trans ?_ (hlen r.canonicalization.body).2
    cases e : r.bodyLength with
    | noLimit => rw [(f7 e).1] at hn; cases hn
    | messageContent =>
      rw [(f8 e).1] at hn
      cases hn
      exact Nat.le_refl _
    | exact m =>
      rw [(f9 m e).1] at hn
      injection hn with hn
      subst hn
      exact (f9 _ e).2.1
  obtain ⟨results, asked, hrun, res, hres, hidx, hst⟩ := C16_sign_verify_partial law hs hset hord hsign hhash headers
    requests hh ht chunks clock out h hl i hclock r hr o ho ⟨hk, hc, hlocal, hq, hleft⟩
    (fun _ => ⟨0, .ok [.ok (utf8 txt')]⟩) _ _ T above chunks rfl (Nat.lt_succ_self _) hcover
    (by
      refine ⟨_, _, _, _, record, key, d1, d2, rfl, List.mem_cons_self, trec, ealg ▸ hfits.keyType, hfits.notRevoked,
        ealg ▸ hfits.hashAlgorithm, ?_, ?_, hbits, ?_, hpair⟩
      · intro hn j hj
        have e := hfits.noSubdomains hn ⟨dropEmpty j.localPart, writtenName E.idna r.format.asciiOnly j.domain⟩
          (by rw [s4, hj]; rfl)
        rw [← (hk.identity j hj).1, e, s2, hk.domain.1]
      · rw [← ealg, ← hfits.keyType]
        exact hpk
      · cases key with
        | rsa k => exact Nat.zero_le _
        | ed25519 k => trivial)
    (by
      refine ⟨?_, nofun⟩
      unfold signatureChecks
      simp only [allPass_cons]
      exact ⟨nofun, nofun, usize, .inl rfl, .inl rfl, fun _ => .inl rfl, allPass_nil⟩)
  have hfield : (above ++ ⟨o.headerName, utf8 o.headerValue⟩ :: headers)[res.index]? =
      some ⟨o.headerName, utf8 o.headerValue⟩ := by
    rw [hidx]
    simp
  have hsig : ∀ s', res.signature = some s' → s' = s := by
    intro s' hs'
    obtain ⟨f, s'', _, _, value, _, k1, k2, _, k⟩ := C40_success_sound L T hrun res hres hst
    rw [hs', Option.some.injEq] at k2
    subst k2
    rw [hfield, Option.some.injEq] at k1
    subst k1
    have e : o.headerValue = value := utf8_injective k.signature.1
    subst e
    have := (sigFromStr_iff L.idna E.pre _ _).2 k.signature.2
    rw [s1] at this
    injection this with this
    exact this.symm
  obtain ⟨f, value, s', tags, _, _, txts', txt'', record', rtags', key', h1, h2, h3, h4, h5, h6, h10, h9, ⟨_, _, h8⟩,
    h11, h12⟩ := C106_accepted_valid L T hrun res hres hst (by
      intro s' hs'
      rw [hsig s' hs', s5.canonicalization]
      show Regular o.signature.canonicalization.body _
      rw [f2]
      exact hbody)
  rw [hfield, Option.some.injEq] at h1
  subst h1
  obtain rfl := hsig _ h3
  have e : o.headerValue = value := utf8_injective h5.1
  subst e
  have e : txts' = [.ok (utf8 txt')] := by injection h8 with h8; exact h8.symm
  subst e
  have e : txt'' = txt' := by
    have := h11.tried
    simp only [firstTwoAndLast, List.mem_singleton, Except.ok.injEq] at this
    exact utf8_injective this
  subst e
  obtain rfl := txtRecord_unique h9 trec
  obtain rfl := listText_unique h10 t1
  have ident : ∀ j, s'.identity = some j → Rfc8616.DomainName E.idna j.domain := by
    intro j hj
    rw [s4] at hj
    obtain ⟨i, hi, rfl⟩ := Option.map_eq_some_iff.1 hj
    exact hrfc.identity i hi
  have rfcSig : Rfc8616.Signature E.idna E.pre tags s' := by
    exact (C105_folding_exactly law hs hset headers requests hh ht chunks clock out h hl i r hr o ho s' s1
      (s2 ▸ hrfc.domain) (s3 ▸ hrfc.selector) ident hrfc.query htime
      (copyable_produced law hs hset hh ht h hl hr ho hnames) tags h6).2 fun v hv =>
        hcopies (copying_produced law hs hset hh ht h hl hr ho h6 hv) tags v h6 hv
  have v := h12 ((C105_read_exactly E.idna L.idna E.pre _ _ s1 tags h6).1 rfcSig)
    ((rfcRecord_iff (fun t h => listText_values t1 t h) r2 hro).1 r3)
  have e : key = key' := by
    have := v.keyRead
    rw [hpk] at this
    injection this
  subst e
  exact ⟨rfl, v.signature, hd, hsel, hans, hfound, ⟨_, r1, r2, r3⟩, hfits, hpk, v.verified, v.bodyLength, v.bodyHash⟩

/-! ### Examples -/

theorem bookEnv_lawful : Lawful bookEnv := ⟨bookIdna_law.toCaseLaw, testEnv_order, testEnv_set⟩

def bookRecord : Str := c!"v=DKIM1; k=ed25519; p=BA==; t=s"

def bookResolver : Resolver := fun name =>
  ⟨0, if name = c!"sel._domainkey.xn--bcher-kva.example." then .ok [.ok (utf8 bookRecord)] else .error .notFound⟩

theorem bookRecord_strict : ∀ rtags, ListText rtags bookRecord → Rfc.StrictRecord rtags := by
  have hr' : parseTagList bookRecord =
    .ok [⟨c!"v", c!"DKIM1"⟩, ⟨c!"k", c!"ed25519"⟩, ⟨c!"p", c!"BA=="⟩, ⟨c!"t", c!"s"⟩] := by rfl
  intro rtags h10
  have e := listText_unique h10 ((C22_tag_list_exact _ _).1 hr').1
  subst e
  refine ⟨?_, ?_, ?_, ?_⟩ <;> intro v hv <;> simp at hv
  subst hv
  exact ⟨[c!"s"], .one _ (.one 's' (by unfold letter; decide))⟩

theorem book_typed : TypedRequest bookRequest where
  domain := (isValidDomainString_iff _ _ _).1 (by decide)
  selector := (isValidDomainString_iff _ _ _).1 (by decide)
  identity := by
    rintro i ⟨⟩
    exact (isValidDomainString_iff _ _ _).1 (by decide)
  names := nofun
  length := nofun
  timestamp := by
    rintro n ⟨⟩
    decide
  duration := by
    rintro n ⟨⟩
    decide
  width := by decide
  sha1 := nofun

theorem book_readable : Readable bookRequest testHeaders 1000 := by
  refine ⟨⟨⟨by decide, by decide⟩, ⟨by decide, by decide⟩, ?_⟩, nofun, ?_, ?_, ?_⟩
  · rintro j ⟨⟩
    exact ⟨by decide, by decide⟩
  · rintro j l ⟨⟩ ⟨⟩
    exact .inr ((isLocalPart_iff _).1 rfl)
  · intro v hv
    simp [bookRequest] at hv
  · intro _
    exact ⟨by rintro t ⟨⟩; decide, by decide⟩

theorem book_intl : IntlRequest bookRequest where
  domain := book_domain
  selector := book_selector
  identity := by
    rintro j ⟨⟩
    obtain ⟨a, ⟨_, h1, _⟩, h2⟩ := book_domain
    cases h1
    refine ⟨c!"xn--bcher-kva.example", ⟨?_, rfl, rfl⟩, h2⟩
    unfold Rfc8616.NameChar Rfc.LetDig letter digit
    decide
  query := by
    intro v hv
    simp [bookRequest] at hv

set_option maxRecDepth 100000 in
/-- Non-vacuity: a request for a domain name with a U-label, and with an identity whose local-part is
outside of ASCII and whose domain name is given with an A-label; the signature is verified. -/
theorem book_run : ∃ o s record, Signed testHeaders [bookRequest] testBody (fun _ => 1000) [.ok o] ∧
    (o.signature.timestamp = some 1000 ∧ o.signature.expiration = some 433000) ∧
    sigFromStr bookEnv.idna bookEnv.pre o.headerValue = .ok s ∧
    (s.algorithm = .ed25519Sha256 ∧ s.domain = c!"Bücher.example" ∧ s.selector = c!"sel" ∧
      s.identity.map (fun i => (i.localPart, i.domain)) = some (some c!"jü=n", c!"bücher.example") ∧
      s.bodyLength = some 5 ∧ s.copiedHeaders = []) ∧
    recordFromStr bookEnv.lossy bookEnv.pre bookRecord = .ok record ∧
    (record.keyType = .ed25519 ∧ record.hashAlgorithms = [.sha256] ∧ record.keyData = [4] ∧
      record.serviceTypes = [.any] ∧ record.flags = [.noSubdomains]) ∧
    statuses bookEnv bookResolver .default 1500 (⟨o.headerName, utf8 o.headerValue⟩ :: testHeaders) testBody =
      some [(0, .success)] :=
  ⟨_, _, _, ⟨_, _, _, rfl, rfl, rfl⟩, by decide, rfl, by decide, rfl, by decide, by rfl⟩

theorem testBody_regular (k : CanonAlg) : Regular k testBody.flatten := by
  apply C90_regular k _ ⟨b!"abc", rfl⟩
  rw [blankLines_simple_iff]
  intro h
  exact absurd (h b!"abc" (by decide)) (by decide)

/-- The signature is valid, and meets all the conditions of the theorems. -/
theorem book_valid : ∃ o s record key results asked r tags,
    Signed testHeaders [bookRequest] testBody (fun _ => 1000) [.ok o] ∧
    (RfcListText tags o.headerValue ∧ (tags.map (·.1)).Nodup ∧ Rfc8616.Signature bookEnv.idna bookEnv.pre tags s) ∧
    Run bookEnv bookResolver .default (fun _ => 1500) (⟨o.headerName, utf8 o.headerValue⟩ :: testHeaders) testBody
      results asked ∧ r ∈ results ∧ r.index = 0 ∧ r.status = .success ∧
    Rfc8616.Valid bookEnv bookResolver (⟨o.headerName, utf8 o.headerValue⟩ :: testHeaders) testBody.flatten
      ⟨o.headerName, utf8 o.headerValue⟩ o.headerValue s c!"xn--bcher-kva.example" c!"sel" [.ok (utf8 bookRecord)]
      bookRecord record key ∧
    Policy bookEnv .default 1500 (⟨o.headerName, utf8 o.headerValue⟩ :: testHeaders) testBody.flatten s
      [.ok (utf8 bookRecord)] bookRecord key ∧
    Rfc8616.Limits bookEnv.idna s ∧ SingleFws o.headerValue ∧ SingleFws bookRecord := by
  have T := typed_default (t := 1500) (by decide) Config.default rfl
  obtain ⟨o, s, record, h1, ⟨h2, h3⟩, h4, ⟨h5, d1, d2, d3, d4, d5⟩, h6, ⟨h7, h8, h9, h10, h11⟩, h12⟩ := book_run
  obtain ⟨results, asked, hrun, r, hr, hi, hs⟩ := result_of_statuses h12 (i := 0) (s := .success) (by simp)
  obtain ⟨f, value, s', tags, d, sel, txts, txt, record', rtags, key, k1, k2, k3, k4, k5, k6, k7, k8, ⟨k9, k10, k11⟩, k12,
    k13⟩ := C106_accepted_valid bookEnv_lawful T hrun r hr hs fun s _ => testBody_regular _
  rw [hi, List.getElem?_cons_zero, Option.some.injEq] at k1
  subst k1
  have e : o.headerValue = value := utf8_injective k5.1
  subst e
  have e : s' = s := by
    have := (sigFromStr_iff bookEnv_lawful.idna bookEnv.pre _ _).2 k5.2
    rw [h4] at this
    injection this with this
    exact this.symm
  subst e
  have e : d = c!"xn--bcher-kva.example" := by
    rw [d1] at k9
    cases k9
    rfl
  subst e
  have e : sel = c!"sel" := by
    rw [d2] at k10
    cases k10
    rfl
  subst e
  have e : txts = [.ok (utf8 bookRecord)] := by
    have : (bookResolver (c!"sel" ++ c!"._domainkey." ++ c!"xn--bcher-kva.example" ++ c!".")).result =
      .ok [.ok (utf8 bookRecord)] := by rfl
    rw [this] at k11
    injection k11 with k11
    exact k11.symm
  subst e
  have e : txt = bookRecord := by
    have := k12.tried
    simp only [firstTwoAndLast, List.mem_singleton, Except.ok.injEq] at this
    exact utf8_injective this
  subst e
  have ident : ∀ j, s'.identity = some j → j.domain = c!"bücher.example" := by
    intro j hj
    rw [hj] at d3
    simp only [Option.map_some, Option.some.injEq, Prod.mk.injEq] at d3
    exact d3.2
  have hsig : Rfc8616.Signature bookEnv.idna bookEnv.pre tags s' := by
    refine C105_produced_plain (E := bookEnv) bookIdna_law testEnv_sort testEnv_set testHeaders [bookRequest] testHeaders_typed
      (by simpa using book_typed) testBody (fun _ => 1000) _ h1 (by intro k; cases k <;> decide) 0 bookRequest rfl rfl o
      rfl s' h4 (d1 ▸ book_domain) (d2 ▸ book_selector) (fun j hj => ident j hj ▸ book_intl.identity _ rfl) book_intl.query
      ?_ tags k6
    rw [h2, h3]
    intro t ht
    rcases ht with ht | ht <;> injection ht with ht <;> omega
  refine ⟨o, s', record', key, results, asked, r, tags, h1, ⟨rfcListText_of k6, ?_, hsig⟩, hrun, hr, hi, hs,
    k13 ((C105_read_exactly _ bookEnv_lawful.idna _ _ _ h4 _ k6).1 hsig) (bookRecord_strict _ k7), k12, ?_,
    listText_single k6, listText_single k7⟩
  · obtain ⟨tags', g1, g2, _⟩ := (C30_parse_exact _ bookEnv_lawful.idna _ _ _).1 h4
    rwa [listText_unique k6 g1]
  · have num : Rfc.NotNumeric c!"xn--bcher-kva.example" :=
      notNumeric_of (before := c!"xn--bcher-kva") (last := c!"example") (by decide)
        ⟨'e', by decide, by unfold digit; decide⟩
    refine ⟨?_, ?_, ?_, by simp [d4], by simp [d5]⟩
    · rw [d1]
      rintro a ⟨⟩
      exact ⟨fitsDns_short (by decide), num⟩
    · rw [d2]
      rintro a ⟨⟩
      exact fitsDns_short (by decide)
    · intro i a hi
      rw [ident i hi]
      rintro ⟨⟩
      exact ⟨fitsDns_short (by decide), num⟩

/-- Non-vacuity of `C106_success_iff`. -/
example : ∃ (o : SigningOutput) (s : DkimSignature) (results : List VerificationResult) (asked : List Str)
    (r : VerificationResult) (record : KeyRecord) (key : VerifyingKey bookEnv.crypto), Run bookEnv bookResolver .default (fun _ => 1500)
      (⟨o.headerName, utf8 o.headerValue⟩ :: testHeaders) testBody results asked ∧ r ∈ results ∧
    (r.status = .success ↔ ∃ d sel txts txt record key,
      Rfc8616.Valid bookEnv bookResolver (⟨o.headerName, utf8 o.headerValue⟩ :: testHeaders) testBody.flatten
        ⟨o.headerName, utf8 o.headerValue⟩ o.headerValue s d sel txts txt record key ∧
      Policy bookEnv .default 1500 (⟨o.headerName, utf8 o.headerValue⟩ :: testHeaders) testBody.flatten s txts txt key) ∧
    Rfc8616.Valid bookEnv bookResolver (⟨o.headerName, utf8 o.headerValue⟩ :: testHeaders) testBody.flatten
      ⟨o.headerName, utf8 o.headerValue⟩ o.headerValue s c!"xn--bcher-kva.example" c!"sel" [.ok (utf8 bookRecord)]
      bookRecord record key := by
  have T := typed_default (t := 1500) (by decide) Config.default rfl
  obtain ⟨o, s, record, key, results, asked, r, tags, h1, ⟨h2, h3, h4⟩, h5, h6, h7, h8, h9, h10, h11, h12, h13⟩ := book_valid
  refine ⟨o, s, results, asked, r, record, key, h5, h6, ?_, h9⟩
  refine C106_success_iff bookEnv_lawful T h5 r h6 _ (by rw [h7]; rfl) _ rfl tags h2 h3 s h4 h11 h12 (testBody_regular _) ?_
  intro d sel txts txt e1 e2 e3 e4
  rw [h9.domainForm, Option.some.injEq] at e1
  rw [h9.selectorForm, Option.some.injEq] at e2
  subst e1 e2
  rw [h9.answer] at e3
  injection e3 with e3
  subst e3
  have : txt = bookRecord := by
    simp only [firstTwoAndLast, List.mem_singleton, Except.ok.injEq] at e4
    exact utf8_injective e4
  subst this
  exact ⟨h13, bookRecord_strict⟩

/-- Non-vacuity of `C106_signed_valid`. -/
example : ∃ (o : SigningOutput) (s : DkimSignature), sigFromStr bookEnv.idna bookEnv.pre o.headerValue = .ok s ∧
    ∃ record key, Rfc8616.KeyFits bookEnv.idna s record ∧
      publicKey bookEnv.crypto record.keyType record.keyData = some key ∧ KeyPair bookRequest.signingKey key ∧
      Rfc8616.Valid bookEnv bookResolver (⟨o.headerName, utf8 o.headerValue⟩ :: testHeaders) testBody.flatten
        ⟨o.headerName, utf8 o.headerValue⟩ o.headerValue s c!"xn--bcher-kva.example" c!"sel" [.ok (utf8 bookRecord)]
        bookRecord record key := by
  obtain ⟨o, s, record, h1, ⟨h2, h3⟩, h4, ⟨h5, d1, d2, d3, d4, d5⟩, h6, ⟨h7, h8, h9, h10, h11⟩, h12⟩ := book_run
  obtain ⟨s', e, h⟩ := C106_signed_valid (E := bookEnv) bookIdna_law testEnv_sort testEnv_set testEnv_order testEnv_sign
    (fun a b => by simp [bookEnv, testEnv]) testHeaders [bookRequest] testHeaders_typed (by simpa using book_typed) testBody
    (fun _ => 1000) _ h1 (by intro k; cases k <;> decide) 0 (by decide) bookRequest rfl o rfl book_readable book_intl
    (by
      rw [h2, h3]
      intro t ht
      rcases ht with ht | ht <;> injection ht with ht <;> omega) nofun nofun (testBody_regular _) []
    (by
      rintro n (hn | ⟨g, hg, rfl⟩)
      · have : mentions (namesToSign bookRequest testHeaders) n = 0 := by
          simp only [mentions, List.countP_eq_zero, sameName, hn]
          decide
        omega
      · cases hg)
  rw [h4] at e
  injection e with e
  subst e
  have hfits : Rfc8616.KeyFits bookEnv.idna s record := by
    refine ⟨?_, ?_, ?_, ?_, ?_⟩
    · rw [h7, h5]; rfl
    · rw [h8, h5]; decide
    · rw [h9]; decide
    · rw [h10]; simp
    · intro _ i hi
      rw [hi] at d3
      simp only [Option.map_some, Option.some.injEq, Prod.mk.injEq] at d3
      rw [d3.2, d1]
      rfl
  have hp : publicKey bookEnv.crypto record.keyType record.keyData = some (.ed25519 ()) := by
    rw [h7, h9]
    rfl
  refine ⟨o, s, h4, record, .ed25519 (), hfits, hp, test_keyPair, ?_⟩
  obtain ⟨rtags, g1, g2, g3⟩ := (C33_parse_exact _ _ _ _).1 h6
  exact h bookResolver _ _ _ bookRecord record _ (by rw [d1]; rfl) (by rw [d2]; rfl) (by rfl) (by simp)
    ⟨rtags, rfcListText_of g1, g2, (C101_read_exactly _ _ _ _ h6 _ g1).2 (bookRecord_strict _ g1)⟩ hfits hp trivial
    test_keyPair

end Dkim
