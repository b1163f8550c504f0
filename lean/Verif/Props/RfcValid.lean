import Verif.Spec.RfcValid
import Verif.Props.Rfc
import Verif.Props.RfcRecord
import Verif.Props.RfcWritten
import Verif.Props.RfcBody
import Verif.Props.Success
import Verif.Props.EndToEnd

/-!
# Property C103: what is valid according to the RFC is accepted, and the converse

`Spec.Rfc.Valid` is what RFC 6376 says about valid signatures.
-/

namespace Dkim

open Spec

variable {E : Env}

theorem rfcListText_of {tags : List (Str × Str)} {s : Str} (h : ListText tags s) : RfcListText tags s := by
  induction h with
  | last n v s h => exact .last n v s (specText_rfc h)
  | lastSemicolon n v s h => exact .lastSemicolon n v s (specText_rfc h)
  | more n v s tags r h _ ih => exact .more n v s tags r (specText_rfc h) ih

theorem mem_of_firstTwoAndLast {α : Type} {l : List α} {a : α} (h : a ∈ firstTwoAndLast l) : a ∈ l := by
  rcases List.mem_append.1 (mem_firstTwoAndLast h) with h | h
  · exact List.mem_of_mem_take h
  · rw [Option.mem_toList] at h
    exact List.mem_of_getLast? h

theorem Spec.Defaulting.elim {α : Type} {tags : List (Str × Str)} {n : Str} {P : Str → α → Prop} {d x : α}
    {Q : α → Prop} (h : Defaulting tags n P d x) (hd : Q d) (hp : ∀ v y, P v y → Q y) : Q x := by
  rcases h with ⟨v, _, h⟩ | ⟨_, rfl⟩
  · exact hp v x h
  · exact hd

/-- What the library asks of a valid signature beyond the RFC, apart from the limits on names: the
policy of the configuration, and limits of sizes. -/
structure Spec.Policy (E : Env) (cfg : Config) (now : Int) (headers : List Field) (body : Bytes) (s : DkimSignature)
    (txts : List (Except IoErr Bytes)) (txt : Str) (key : VerifyingKey E.crypto) : Prop where
  required : ∀ h ∈ cfg.headersRequired, ∃ n ∈ s.signedHeaders, lower n = lower h
  unsigned : ∀ h ∈ cfg.headersForbiddenUnsigned, occurrences headers h ≤ mentions s.signedHeaders h
  expired : cfg.allowExpired = true ∨ ∀ x, s.expiration = some x → unixTime cfg now < x + cfg.timeTolerance
  future : cfg.allowTimestampInFuture = true ∨
    ∀ t, s.timestamp = some t → t ≤ unixTime cfg now + cfg.timeTolerance
  sha1 : E.pre = true → cfg.allowSha1 = true ∨ hashOf s.algorithm ≠ .sha1
  /-- only three key records are tried -/
  tried : .ok (utf8 txt) ∈ firstTwoAndLast txts
  keySize : BitsAtLeast key (if E.pre then 512 else 1024) ∧ BitsAtLeast key cfg.minKeyBits
  unsignedContent : cfg.forbidUnsignedContent = true →
    ∀ n, s.bodyLength = some n → n = (rfcBody s.canonicalization.body body).length
  memory : ∀ n, s.bodyLength = some n → n ≤ E.usizeMax

/-- C103: a signature that is valid according to RFC 6376 is accepted, if it is within the limits of
C100 and of the configured policy, and the body is regular (see C90). -/
theorem C103_valid_accepted (L : Lawful E) {resolver : Resolver} {cfg : Config} {clock : Nat → Int}
    (T : TypedTimes cfg clock) {headers : List Field} {chunks : List Bytes} {results : List VerificationResult}
    {asked : List Str} (h : Run E resolver cfg clock headers chunks results asked) (i : Nat) (f : Field)
    (hf : (i, f) ∈ dkimFields cfg.maxSignatures headers) (value : Str) (s : DkimSignature)
    (txts : List (Except IoErr Bytes)) (txt : Str) (record : KeyRecord) (key : VerifyingKey E.crypto)
    (hv : Rfc.Valid E resolver headers chunks.flatten f value s txts txt record key)
    (hp : Policy E cfg (clock i) headers chunks.flatten s txts txt key) (hl : Rfc.Limits E.idna s)
    (hw : SingleFws value ∧ SingleFws txt) (hb : Regular s.canonicalization.body chunks.flatten) :
    ∃ r ∈ results, r.index = i ∧ r.status = .success ∧ r.signature = some s := by
  obtain ⟨tags, t1, t2, t3⟩ := hv.signature
  obtain ⟨rtags, u1, u2, u3⟩ := hv.record
  obtain ⟨original, o1, o2⟩ := hv.verified
  have hparse := C100_reads_rfc E.idna L.idna E.pre value tags s t1 t2 hw.1 t3 hl
  have hrec := C101_reads_rfc E.lossy E.pre txt rtags record u1 u2 hw.2 u3
    ⟨List.ne_nil_of_mem hv.fits.hashAlgorithm, by
      rcases hv.fits.serviceType with h | h <;> exact List.ne_nil_of_mem h⟩
  have hindex : i ∈ results.map (·.index) := by
    rw [(C38_one_result_each L T h).1]
    exact List.mem_map.2 ⟨_, hf, rfl⟩
  obtain ⟨r, hr, rfl⟩ := List.mem_map.1 hindex
  obtain ⟨f1, f2⟩ := mem_dkimFields hf
  rw [regular_iff] at hb
  refine ⟨r, hr, rfl, C40_success_complete L T h r hr f f1 s record key value original ?_ hp.memory⟩
  exact {
    named := f2
    signature := ⟨hv.text, (C30_parse_exact E.idna L.idna E.pre value s).1 hparse⟩
    stripped := o1
    required := hp.required
    unsigned := hp.unsigned
    expired := hp.expired
    future := hp.future
    sha1 := hp.sha1
    answer := by
      refine ⟨_, txts, ⟨lower s.domain, lower s.selector, hl.domain.2.2.1, hl.selector.2.1, rfl⟩, hv.answer, _, hp.tried, ?_⟩
      obtain ⟨rtags, v1, v2, v3⟩ := (C33_parse_exact E.lossy E.pre txt record).1 hrec
      exact ⟨txt, rtags, rfl, v1, v2, v3⟩
    keyType := hv.fits.keyType
    keyData := hv.fits.notRevoked
    hashAlgorithm := hv.fits.hashAlgorithm
    identity := by
      intro hn j hj
      rw [hl.domain.2.2.1, (hl.identity j hj).2.2.1, hv.fits.noSubdomains hn j hj]
    keyRead := by rw [← hv.fits.keyType]; exact hv.keyRead
    size := hp.keySize
    verified := o2
    bodyHash := by
      intro hn
      have := hv.bodyHash
      unfold Rfc.hashedBody at this
      rw [hn] at this
      rw [hb]
      exact this
    limitedHash := by
      intro n hn
      have := hv.bodyHash
      unfold Rfc.hashedBody at this
      rw [hn] at this
      rw [hb]
      exact ⟨hv.bodyLength n hn, fun hu => hp.unsignedContent hu n hn, this⟩ }

/-- C103: conversely, a signature that is accepted is within the policy, and is valid according to
RFC 6376, if the texts of the signature and of the key record are according to the RFC where the
library does not insist on this (see C102 and C101), and the body is regular. -/
theorem C103_accepted_valid (L : Lawful E) {resolver : Resolver} {cfg : Config} {clock : Nat → Int}
    (T : TypedTimes cfg clock) {headers : List Field} {chunks : List Bytes} {results : List VerificationResult}
    {asked : List Str} (h : Run E resolver cfg clock headers chunks results asked) (r : VerificationResult)
    (hr : r ∈ results) (hs : r.status = .success)
    (hb : ∀ s, r.signature = some s → Regular s.canonicalization.body chunks.flatten) :
    ∃ f value s tags txts txt record rtags key, headers[r.index]? = some f ∧ IsDkimField f ∧
      r.signature = some s ∧ r.keyRecord = some record ∧ FieldSignature E f value s ∧ ListText tags value ∧
      (∃ name, QueryFor E s name ∧ (resolver name).result = .ok txts) ∧ TxtRecord E (.ok (utf8 txt)) record ∧
      ListText rtags txt ∧ Policy E cfg (clock r.index) headers chunks.flatten s txts txt key ∧
      (Rfc.AsciiForm E.idna s.domain → Rfc.AsciiForm E.idna s.selector →
        (∀ i, s.identity = some i → Rfc.AsciiForm E.idna i.domain) → Rfc.Strict tags s → Rfc.StrictRecord rtags →
        Rfc.Valid E resolver headers chunks.flatten f value s txts txt record key) := by
  obtain ⟨f, s, record, key, value, original, k1, k2, k3, k⟩ := C40_success_sound L T h r hr hs
  obtain ⟨v1, tags, t1, t2, t3⟩ := k.signature
  obtain ⟨name, txts, q1, q2, txt, q3, q4⟩ := k.answer
  obtain ⟨txt, rtags, rfl, u1, u2, u3⟩ := q4
  have hbody := (regular_iff _ _).1 (hb s k2)
  refine ⟨f, value, s, tags, txts, txt, record, rtags, key, k1, k.named, k2, k3, k.signature, t1, ⟨name, q1, q2⟩,
    ⟨txt, rtags, rfl, u1, u2, u3⟩, u1, ?_, ?_⟩
  · exact {
      required := k.required
      unsigned := k.unsigned
      expired := k.expired
      future := k.future
      sha1 := k.sha1
      tried := q3
      keySize := k.size
      unsignedContent := by
        intro hu n hn
        rw [← hbody]
        exact (k.limitedHash n hn).2.1 hu
      memory := (h.judged L T hr k1).success_fits hs k2 }
  · intro d1 d2 d3 d4 d5
    exact {
      text := v1
      signature := ⟨tags, rfcListText_of t1, t2,
        (rfcSignature_iff (fun _ _ _ hm => listText_values t1 _ hm) t2 t3 d1 d3).2 d4⟩
      answer := by
        obtain ⟨d, sel, e1, e2, rfl⟩ := q1
        rw [d1.1, Option.some.injEq] at e1
        rw [d2.1, Option.some.injEq] at e2
        subst e1 e2
        exact q2
      found := mem_of_firstTwoAndLast q3
      record := ⟨rtags, rfcListText_of u1, u2, (rfcRecord_iff (fun _ hm => listText_values u1 _ hm) u2 u3).2 d5⟩
      fits := {
        keyType := k.keyType
        hashAlgorithm := k.hashAlgorithm
        notRevoked := k.keyData
        serviceType := by
          have hn : record.serviceTypes ≠ [] := u3.serviceTypes.elim (by decide) (fun _ _ h => h.2)
          cases e : record.serviceTypes with
          | nil => exact absurd e hn
          | cons t _ => cases t <;> simp
        noSubdomains := by
          intro hn j hj
          have e := k.identity hn j hj
          rw [(d3 j hj).1, d1.1, Option.some.injEq] at e
          exact e }
      keyRead := by rw [k.keyType]; exact k.keyRead
      verified := ⟨original, k.stripped, k.verified⟩
      bodyLength := fun n hn => by rw [← hbody]; exact (k.limitedHash n hn).1
      bodyHash := by
        unfold Rfc.hashedBody
        rw [← hbody]
        cases e : s.bodyLength with
        | none => exact k.bodyHash e
        | some n => exact (k.limitedHash n e).2.2 }

/-- C103: both directions together, for a field that is a signature by the grammar of the RFC, if the
records that are tried are according to the grammar where the library does not insist on this. -/
theorem C103_success_iff (L : Lawful E) {resolver : Resolver} {cfg : Config} {clock : Nat → Int}
    (T : TypedTimes cfg clock) {headers : List Field} {chunks : List Bytes} {results : List VerificationResult}
    {asked : List Str} (h : Run E resolver cfg clock headers chunks results asked) (r : VerificationResult)
    (hr : r ∈ results) (f : Field) (hf : headers[r.index]? = some f) (value : Str) (hv : f.body = utf8 value)
    (tags : List (Str × Str)) (ht : RfcListText tags value) (hn : (tags.map (·.1)).Nodup) (s : DkimSignature)
    (hs : Rfc.Signature E.pre tags s) (hl : Rfc.Limits E.idna s) (hw : SingleFws value)
    (hb : Regular s.canonicalization.body chunks.flatten)
    (hrec : ∀ txts txt,
      (resolver (lower s.selector ++ c!"._domainkey." ++ lower s.domain ++ c!".")).result = .ok txts →
      .ok (utf8 txt) ∈ firstTwoAndLast txts →
        SingleFws txt ∧ ∀ rtags, ListText rtags txt → Rfc.StrictRecord rtags) :
    r.status = .success ↔ ∃ txts txt record key,
      Rfc.Valid E resolver headers chunks.flatten f value s txts txt record key ∧
      Policy E cfg (clock r.index) headers chunks.flatten s txts txt key := by
  have hparse := C100_reads_rfc E.idna L.idna E.pre value tags s ht hn hw hs hl
  constructor
  · intro hst
    obtain ⟨f', s', _, _, value', _, k1, k2, _, k⟩ := C40_success_sound L T h r hr hst
    have same : ∀ value' s', FieldSignature E f value' s' → value' = value ∧ s' = s := by
      intro value' s' h
      have e : value' = value := utf8_injective (h.1.symm.trans hv)
      subst e
      have h2 := (sigFromStr_iff L.idna E.pre _ _).2 h.2
      rw [hparse] at h2
      injection h2 with h2
      exact ⟨rfl, h2.symm⟩
    rw [hf, Option.some.injEq] at k1
    subst k1
    obtain ⟨rfl, rfl⟩ := same _ _ k.signature
    obtain ⟨f', value, s, tags', txts, txt, record, rtags, key, h1, _, h3, _, h5, h6, ⟨name, h7, h8⟩, _, h10, h11, h12⟩ :=
      C103_accepted_valid L T h r hr hst (by
        intro s hs'
        rw [k2] at hs'
        injection hs' with hs'
        subst hs'
        exact hb)
    rw [hf, Option.some.injEq] at h1
    subst h1
    obtain ⟨rfl, rfl⟩ := same _ _ h5
    obtain ⟨d, sel, e1, e2, rfl⟩ := h7
    rw [hl.domain.2.2.1, Option.some.injEq] at e1
    rw [hl.selector.2.1, Option.some.injEq] at e2
    subst e1 e2
    obtain rfl := listText_unique h6 (rfcListText_single ht hw)
    have hi := fun i hi => (hl.identity i hi).2.2
    exact ⟨txts, txt, record, key, h12 hl.domain.2.2 hl.selector.2 hi
      ((C102_read_exactly E.idna L.idna E.pre _ _ hparse hl.domain.2.2 hi _ h6).1 hs)
      ((hrec txts txt h8 h11.tried).2 rtags h10), h11⟩
  · rintro ⟨txts, txt, record, key, h1, h2⟩
    have hm : (r.index, f) ∈ dkimFields cfg.maxSignatures headers := by
      have : r.index ∈ results.map (·.index) := List.mem_map.2 ⟨r, hr, rfl⟩
      rw [(C38_one_result_each L T h).1] at this
      obtain ⟨⟨i, f'⟩, h3, h4⟩ := List.mem_map.1 this
      have h4 : i = r.index := h4
      subst h4
      have := (mem_dkimFields h3).1
      rw [hf, Option.some.injEq] at this
      subst this
      exact h3
    obtain ⟨r', h3, h4, h5, _⟩ := C103_valid_accepted L T h r.index f hm value s txts txt record key h1 h2 hl
      ⟨hw, (hrec txts txt h1.answer h2.tried).1⟩ hb
    have : r' = r := nodup_map_inj (C38_one_result_each L T h).2.1 h3 hr h4
    rw [← this]
    exact h5

/-! ## Non-vacuity -/

theorem exampleName : Rfc.DomainName c!"example.com" :=
  ⟨[c!"example", c!"com"], by decide, by
    intro l hl
    simp only [List.mem_cons, List.not_mem_nil, or_false] at hl
    rcases hl with rfl | rfl <;> exact subDomain_alnum (by decide) (by decide), rfl⟩

theorem exampleSelector : Rfc.Selector c!"e" :=
  ⟨[c!"e"], by decide, by
    intro l hl
    simp only [List.mem_cons, List.not_mem_nil, or_false] at hl
    rcases hl with rfl
    exact subDomain_alnum (by decide) (by decide), rfl⟩

set_option maxRecDepth 100000 in
theorem testSig2_parsed {s : DkimSignature} (h : sigFromStr testEnv.idna testEnv.pre testSig2 = .ok s) :
    (s.domain = c!"example.com" ∧ s.selector = c!"e" ∧ s.identity = none) ∧ s.bodyLength = some 2 ∧
      s.copiedHeaders = [] := by
  have : (match sigFromStr testEnv.idna testEnv.pre testSig2 with
    | .ok s => some (s.domain, s.selector, s.identity, s.bodyLength, s.copiedHeaders)
    | _ => none) = some (c!"example.com", c!"e", none, some 2, []) := by rfl
  rw [h] at this
  simp only [Option.some.injEq, Prod.mk.injEq] at this
  exact ⟨⟨this.1, this.2.1, this.2.2.1⟩, this.2.2.2⟩

set_option maxRecDepth 100000 in
theorem testSig2_tags : ∃ tags, ListText tags testSig2 ∧ (∀ v, (c!"i", v) ∉ tags) ∧ (∀ v, (c!"z", v) ∉ tags) ∧
    (∀ v, (c!"q", v) ∉ tags) ∧ ∀ v, ((c!"l", v) ∈ tags ∨ (c!"t", v) ∈ tags ∨ (c!"x", v) ∈ tags) →
      v.length ≤ 12 ∧ ∀ c ∈ v, digit c := by
  have : ∃ tags, parseTagList testSig2 = .ok tags ∧
      tags.all (fun t => decide (t.name ≠ c!"i" ∧ t.name ≠ c!"z" ∧ t.name ≠ c!"q") &&
        (decide (t.name ≠ c!"l" ∧ t.name ≠ c!"t" ∧ t.name ≠ c!"x") ||
          (decide (t.value.length ≤ 12) && t.value.all (fun c => decide (48 ≤ c.toNat ∧ c.toNat ≤ 57))))) = true := ⟨_, rfl, by rfl⟩
  obtain ⟨tags, h1, h2⟩ := this
  refine ⟨_, ((C22_tag_list_exact _ _).1 h1).1, ?_⟩
  simp only [List.all_eq_true, Bool.and_eq_true, Bool.or_eq_true, decide_eq_true_eq] at h2
  have hm : ∀ n v, (n, v) ∈ tags.map (fun t => (t.name, t.value)) → ∃ t ∈ tags, t.name = n ∧ t.value = v := by
    intro n v h
    obtain ⟨t, ht, e⟩ := List.mem_map.1 h
    injection e with e1 e2
    exact ⟨t, ht, e1, e2⟩
  refine ⟨fun v h => ?_, fun v h => ?_, fun v h => ?_, fun v h => ?_⟩
  · obtain ⟨t, ht, h3, _⟩ := hm _ _ h
    exact (h2 t ht).1.1 h3
  · obtain ⟨t, ht, h3, _⟩ := hm _ _ h
    exact (h2 t ht).1.2.1 h3
  · obtain ⟨t, ht, h3, _⟩ := hm _ _ h
    exact (h2 t ht).1.2.2 h3
  · have : ∃ t ∈ tags, (t.name = c!"l" ∨ t.name = c!"t" ∨ t.name = c!"x") ∧ t.value = v := by
      rcases h with h | h | h <;> obtain ⟨t, ht, h3, h4⟩ := hm _ _ h
      · exact ⟨t, ht, .inl h3, h4⟩
      · exact ⟨t, ht, .inr (.inl h3), h4⟩
      · exact ⟨t, ht, .inr (.inr h3), h4⟩
    obtain ⟨t, ht, h3, rfl⟩ := this
    rcases (h2 t ht).2 with h4 | h4
    · rcases h3 with h3 | h3 | h3
      · exact absurd h3 h4.1
      · exact absurd h3 h4.2.1
      · exact absurd h3 h4.2.2
    · exact h4

set_option maxRecDepth 100000 in
/-- Non-vacuity: the second signature of `testMessage`, which has a body length, a timestamp and an
expiration time, meets the conditions of both theorems. -/
theorem test_valid : ∃ results asked r s txts record key,
    Run testEnv testResolver .default (fun _ => 1500) testMessage testBody results asked ∧ r ∈ results ∧
    r.index = 2 ∧ r.status = .success ∧ r.signature = some s ∧
    (2, ⟨c!"dkim-signature", utf8 testSig2⟩) ∈ dkimFields Config.default.maxSignatures testMessage ∧
    Rfc.Valid testEnv testResolver testMessage testBody.flatten ⟨c!"dkim-signature", utf8 testSig2⟩ testSig2 s txts
      c!"v=DKIM1; k=ed25519; p=BA==" record key ∧
    Policy testEnv .default 1500 testMessage testBody.flatten s txts c!"v=DKIM1; k=ed25519; p=BA==" key ∧
    Rfc.Limits testEnv.idna s ∧ (SingleFws testSig2 ∧ SingleFws c!"v=DKIM1; k=ed25519; p=BA==") ∧
    Regular s.canonicalization.body testBody.flatten ∧ txts = [.ok b!"v=DKIM1; k=ed25519; p=BA=="] ∧
    ∀ rtags, ListText rtags c!"v=DKIM1; k=ed25519; p=BA==" → Rfc.StrictRecord rtags := by
  have T := typed_default (t := 1500) (by decide) Config.default rfl
  have hreg : ∀ k, Regular k testBody.flatten := by
    intro k
    apply C90_regular k _ ⟨b!"abc", rfl⟩
    rw [blankLines_simple_iff]
    intro h
    exact absurd (h b!"abc" (by decide)) (by decide)
  obtain ⟨results, asked, h, r, hr, hi, hs⟩ := result_of_statuses test_success (i := 2) (s := .success) (by simp)
  obtain ⟨f, value, s, tags, txts, txt, record, rtags, key, h1, h2, h3, h4, h5, h6, ⟨name, h7, h8⟩, h9, h10, h11, h12⟩ :=
    C103_accepted_valid testEnv_lawful T h r hr hs fun s _ => hreg _
  rw [hi] at h1
  have e : f = ⟨c!"dkim-signature", utf8 testSig2⟩ := by
    have : testMessage[2]? = some ⟨c!"dkim-signature", utf8 testSig2⟩ := rfl
    rw [this] at h1
    exact (Option.some.inj h1).symm
  subst e
  have e : testSig2 = value := utf8_injective h5.1
  subst e
  obtain ⟨⟨d1, d2, d3⟩, d4, d5⟩ := testSig2_parsed
    ((sigFromStr_iff testEnv_lawful.idna testEnv.pre testSig2 s).2 h5.2)
  have a1 : Rfc.AsciiForm testEnv.idna s.domain := d1 ▸ asciiForm_plain exampleName
  have a2 : Rfc.AsciiForm testEnv.idna s.selector := by rw [d2]; exact ⟨by decide, rfl⟩
  have e : txts = [.ok b!"v=DKIM1; k=ed25519; p=BA=="] := by
    obtain ⟨d, sel, g1, g2, rfl⟩ := h7
    rw [a1.1, Option.some.injEq] at g1
    rw [a2.1, Option.some.injEq] at g2
    subst g1 g2
    rw [d1, d2] at h8
    have : (testResolver (keyName (lower c!"example.com") (lower c!"e"))).result =
      .ok [.ok b!"v=DKIM1; k=ed25519; p=BA=="] := by rfl
    rw [this] at h8
    injection h8 with h8
    exact h8.symm
  subst e
  have e : txt = c!"v=DKIM1; k=ed25519; p=BA==" := by
    have := h11.tried
    simp only [firstTwoAndLast, List.mem_singleton, Except.ok.injEq] at this
    exact utf8_injective (this.trans (by decide))
  subst e
  obtain ⟨tags', t1, t2, t3, t4, t5⟩ := testSig2_tags
  have e := listText_unique h6 t1
  subst e
  have hr' : parseTagList c!"v=DKIM1; k=ed25519; p=BA==" =
    .ok [⟨c!"v", c!"DKIM1"⟩, ⟨c!"k", c!"ed25519"⟩, ⟨c!"p", c!"BA=="⟩] := by rfl
  have strict : ∀ rtags, ListText rtags c!"v=DKIM1; k=ed25519; p=BA==" → Rfc.StrictRecord rtags := by
    intro rtags h10
    have e := listText_unique h10 ((C22_tag_list_exact _ _).1 hr').1
    subst e
    refine ⟨?_, ?_, ?_, ?_⟩ <;> intro v hv <;>
      simp only [List.map_cons, List.map_nil, List.mem_cons, List.not_mem_nil, or_false, Prod.mk.injEq] at hv <;>
      exact absurd hv (by simp)
  refine ⟨results, asked, r, s, _, record, key, h, hr, hi, hs, h3, List.mem_of_getElem? (i := 1) (by rfl), ?_, h11, ?_,
    ⟨listText_single h6, listText_single h10⟩, hreg _, rfl, strict⟩
  · refine h12 a1 a2 (by simp [d3]) ?_ ?_
    · exact ⟨d1 ▸ exampleName, d2 ▸ exampleSelector, by simp [d3],
        fun v hv => ⟨Nat.le_trans (t5 v (.inl hv)).1 (by decide), (t5 v (.inl hv)).2⟩,
        fun v hv => t5 v (.inr (.inl hv)), fun v hv => t5 v (.inr (.inr hv)),
        fun v hv => absurd hv (t4 v), fun v hv => absurd hv (t3 v)⟩
    · exact strict _ h10
  · refine ⟨⟨fitsDns_short (by rw [d1]; decide), ?_, a1⟩, ⟨fitsDns_short (by rw [d2]; decide), a2⟩, by simp [d3],
      by simp [d4], by simp [d5]⟩
    rw [d1]
    exact notNumeric_of (before := c!"example") (last := c!"com") (by decide)
      ⟨'c', by decide, by unfold digit; decide⟩

end Dkim
