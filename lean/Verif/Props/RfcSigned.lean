import Verif.Props.RfcValid
import Verif.Props.RfcFolding

/-!
# Property C104: what is signed is valid according to the RFC

Any verifier that follows RFC 6376 accepts what the library signs.
-/

namespace Dkim

open Spec

variable {E : Env}

theorem listText_of_rfc {tags : List (Str × Str)} {s : Str} (h : RfcListText tags s) : ∃ s', ListText tags s' := by
  have one : ∀ {n v s}, RfcSpecText n v s → ∃ s', SpecText n v s' := by
    intro n v s h
    cases h with
    | value f1 _ f2 f3 _ f4 h1 h2 h3 h4 h5 h6 => exact ⟨_, .value f1 n f2 f3 v f4 h1 h2 h3 h4 h5 h6⟩
    | empty f1 _ f2 f3 f4 h1 h2 h3 h4 h5 => exact ⟨_, .empty f1 n f2 f3 h1 h2 h3 h4⟩
  induction h with
  | last n v s h =>
    obtain ⟨s', h'⟩ := one h
    exact ⟨_, .last n v s' h'⟩
  | lastSemicolon n v s h =>
    obtain ⟨s', h'⟩ := one h
    exact ⟨_, .lastSemicolon n v s' h'⟩
  | more n v s tags r h _ ih =>
    obtain ⟨s', h'⟩ := one h
    obtain ⟨r', ih'⟩ := ih
    exact ⟨_, .more n v s' tags r' h' ih'⟩

/-- A request for a signature in the grammar of the RFC: ASCII output with names by the RFC. -/
structure Spec.RfcRequest (r : SignRequest E) : Prop where
  ascii : r.format.asciiOnly = true
  domain : Rfc.DomainName (writtenName E.idna true r.domain) ∧ Rfc.AsciiForm E.idna (writtenName E.idna true r.domain)
  selector : Rfc.Selector (writtenName E.idna true r.selector) ∧
    Rfc.AsciiForm E.idna (writtenName E.idna true r.selector)
  identity : ∀ j, r.identity = some j → Rfc.DomainName (writtenName E.idna true j.domain) ∧
    Rfc.AsciiForm E.idna (writtenName E.idna true j.domain)
  query : ∀ v, (c!"q", v) ∈ r.extTags → ∃ ms, Rfc.QueryMethods ms v ∧ ∃ m ∈ ms, lower m = c!"dns/txt"

/-- A configuration without policy. -/
def anyPolicy (n : Nat) : Config :=
  { Config.default with
    maxSignatures := n, headersForbiddenUnsigned := [], minKeyBits := 0, allowSha1 := true, allowExpired := true,
    allowTimestampInFuture := true }

/-- C104: the field that the signer produces, if copied header fields are not folded inside encoded
characters (see C102), put on top of the message or below other added fields,
is a signature that is valid according to RFC 6376, with every key record by the RFC that can be used
for it and has the public key of the signing key. -/
theorem C104_signed_valid (law : IdnaLaw E.idna) (hs : SortLaw E.sortBy) (hset : SetLaw E.keySet)
    (hord : OrderLaw E.lookupOrder) (hsign : SignLaw E.crypto) (hhash : ∀ a b, E.hash a b ≠ [])
    (headers : List Field) (requests : List (SignRequest E)) (hh : TypedHeaders headers)
    (ht : ∀ r ∈ requests, TypedRequest r) (chunks : List Bytes) (clock : Nat → Nat)
    (out : List (Except SigningError SigningOutput))
    (h : Signed headers requests chunks clock out)
    (hlen : ∀ k, (codeBody k chunks.flatten).length < 2 ^ 64 ∧ (codeBody k chunks.flatten).length ≤ E.usizeMax)
    (i : Nat) (hclock : clock i < 2 ^ 64)
    (r : SignRequest E) (hr : requests[i]? = some r) (o : SigningOutput) (ho : out[i]? = some (.ok o))
    (hread : Readable r headers (clock i)) (hrfc : RfcRequest r)
    (htime : ∀ t, o.signature.timestamp = some t ∨ o.signature.expiration = some t → t < 10 ^ 12)
    (hnames : CopyableNames r headers)
    (hcopies : r.copyHeaders = true → ∀ tags v, ListText tags o.headerValue → (c!"z", v) ∈ tags → Rfc.OctetsWhole v)
    (hbody : Regular r.canonicalization.body chunks.flatten)
    (above : List Field)
    (hcover : ∀ n, (lower n = c!"dkim-signature" ∨ ∃ g ∈ above, g.name = n) →
      mentions (namesToSign r headers) n ≤ occurrences headers n) :
    ∃ s, sigFromStr E.idna E.pre o.headerValue = .ok s ∧
      ∀ (resolver : Resolver) (txts : List (Except IoErr Bytes)) (txt : Str) (record : KeyRecord)
        (key : VerifyingKey E.crypto),
        (resolver (lower s.selector ++ c!"._domainkey." ++ lower s.domain ++ c!".")).result = .ok txts →
        .ok (utf8 txt) ∈ txts →
        (∃ tags, RfcListText tags txt ∧ (tags.map (·.1)).Nodup ∧ Rfc.Record E.lossy E.pre tags record) →
        Rfc.KeyFits s record → publicKey E.crypto record.keyType record.keyData = some key →
        BitsAtLeast key (if E.pre then 512 else 1024) → KeyPair r.signingKey key →
        Rfc.Valid E resolver (above ++ ⟨o.headerName, utf8 o.headerValue⟩ :: headers) chunks.flatten
          ⟨o.headerName, utf8 o.headerValue⟩ o.headerValue s txts txt record key := by
  have L : Lawful E := ⟨law.toCaseLaw, hord, hset⟩
  have hl := fun k => (hlen k).1
  obtain ⟨hk, hc, hlocal, hq, hleft⟩ := hread
  obtain ⟨g1, g2, _⟩ := output_tags law hs hset hh ht h hl hr ho
  obtain ⟨s, cz, s1, s2, s3, s4, s5, s6, _⟩ := output_read_written law hs hset hsign hhash hh ht h hl hclock hr ho
    (hk.readable g1 g2) hlocal hc hq hleft
  obtain ⟨⟨f1, f2, f3, f4, f5, f6⟩, f7, f8, f9, _, _, _, _, f10, _⟩ :=
    C36_fields law hs hset headers requests hh ht chunks clock out h hl i r hr o ho
  rw [hrfc.ascii] at s2 s3 s4
  refine ⟨s, s1, ?_⟩
  intro resolver txts txt record key hans hfound hrec hfits hpk hbits hpair
  obtain ⟨rtags, r1, r2, r3⟩ := hrec
  obtain ⟨txt', t1⟩ := listText_of_rfc r1
  have hro : RecordOf E.lossy E.pre rtags record := rfcRecord (fun t h => listText_values t1 t h) r3
    ⟨List.ne_nil_of_mem hfits.hashAlgorithm, by
      rcases hfits.serviceType with h | h <;> exact List.ne_nil_of_mem h⟩
  have ealg : s.algorithm = r.algorithm := by rw [s5.algorithm]; exact f1
  have T : TypedTimes (anyPolicy (above.countP (fun g => decide (IsDkimField g)) + 1)) (fun _ => 0) :=
    ⟨fun _ => by decide, nofun⟩
  have k1 := hk.domain.1
  have k2 := hk.selector.1
  rw [hrfc.ascii] at k1 k2
  have d1 := hrfc.domain.2.1
  have d2 := hrfc.selector.2.1
  rw [k1] at d1
  rw [k2] at d2
  have trec : TxtRecord E (.ok (utf8 txt')) record := ⟨txt', rtags, rfl, t1, r2, hro⟩
  have usize : ∀ n, o.signature.bodyLength = some n → n ≤ E.usizeMax := by
    intro n hn
    refine Nat.le_trans ?_ (hlen r.canonicalization.body).2
    cases e : r.bodyLength with
    | noLimit => rw [(f7 e).1] at hn; cases hn
    | messageContent =>
      rw [(f8 e).1] at hn
      cases hn
      exact Nat.le_refl _
    | exact m =>
      rw [(f9 m e).1] at hn
      injection hn with hn
      subst hn
      exact (f9 _ e).2.1
  obtain ⟨results, asked, hrun, res, hres, hidx, hst⟩ := C16_sign_verify_partial law hs hset hord hsign hhash headers
    requests hh ht chunks clock out h hl i hclock r hr o ho ⟨hk, hc, hlocal, hq, hleft⟩
    (fun _ => ⟨0, .ok [.ok (utf8 txt')]⟩) _ _ T above chunks rfl (Nat.lt_succ_self _) hcover
    (by
      refine ⟨_, _, _, _, record, key, d1, d2, rfl, List.mem_cons_self, trec, ealg ▸ hfits.keyType, hfits.notRevoked,
        ealg ▸ hfits.hashAlgorithm, ?_, ?_, hbits, ?_, hpair⟩
      · intro hn j hj
        have k3 := (hk.identity j hj).1
        have e := hfits.noSubdomains hn ⟨dropEmpty j.localPart, writtenName E.idna true j.domain⟩ (by rw [s4, hj]; rfl)
        rw [hrfc.ascii] at k3
        rw [← k3, (hrfc.identity j hj).2.1, d1, ← s2, ← e]
      · rw [← ealg, ← hfits.keyType]
        exact hpk
      · cases key with
        | rsa k => exact Nat.zero_le _
        | ed25519 k => trivial)
    (by
      refine ⟨?_, nofun⟩
      unfold signatureChecks
      simp only [allPass_cons]
      exact ⟨nofun, nofun, usize, .inl rfl, .inl rfl, fun _ => .inl rfl, allPass_nil⟩)
  have hfield : (above ++ ⟨o.headerName, utf8 o.headerValue⟩ :: headers)[res.index]? =
      some ⟨o.headerName, utf8 o.headerValue⟩ := by
    rw [hidx]
    simp
  have hsig : ∀ s', res.signature = some s' → s' = s := by
    intro s' hs'
    obtain ⟨f, s'', _, _, value, _, k1, k2, _, k⟩ := C40_success_sound L T hrun res hres hst
    rw [hs', Option.some.injEq] at k2
    subst k2
    rw [hfield, Option.some.injEq] at k1
    subst k1
    have e : o.headerValue = value := utf8_injective k.signature.1
    subst e
    have := (sigFromStr_iff L.idna E.pre _ _).2 k.signature.2
    rw [s1] at this
    injection this with this
    exact this.symm
  obtain ⟨f, value, s', tags, txts', txt'', record', rtags', key', h1, h2, h3, h4, h5, h6, ⟨name, h7, h8⟩, h9, h10, h11,
    h12⟩ := C103_accepted_valid L T hrun res hres hst (by
      intro s' hs'
      rw [hsig s' hs', s5.canonicalization]
      show Regular o.signature.canonicalization.body _
      rw [f2]
      exact hbody)
  rw [hfield, Option.some.injEq] at h1
  subst h1
  obtain rfl := hsig _ h3
  have e : o.headerValue = value := utf8_injective h5.1
  subst e
  have e : txts' = [.ok (utf8 txt')] := by injection h8 with h8; exact h8.symm
  subst e
  have e : txt'' = txt' := by
    have := h11.tried
    simp only [firstTwoAndLast, List.mem_singleton, Except.ok.injEq] at this
    exact utf8_injective this
  subst e
  obtain rfl := txtRecord_unique h9 trec
  obtain rfl := listText_unique h10 t1
  have ident : ∀ j, s'.identity = some j → Rfc.DomainName j.domain ∧ Rfc.AsciiForm E.idna j.domain := by
    intro j hj
    rw [s4] at hj
    obtain ⟨i, hi, rfl⟩ := Option.map_eq_some_iff.1 hj
    exact hrfc.identity i hi
  have rfcSig : Rfc.Signature E.pre tags s' := by
    exact (C102_folding_exactly law hs hset headers requests hh ht chunks clock out h hl i r hr o ho hrfc.ascii s' s1
      (s2 ▸ hrfc.domain) (s3 ▸ hrfc.selector.1) ident hrfc.query htime
      (copyable_produced law hs hset hh ht h hl hr ho hnames) tags h6).2 fun v hv =>
        hcopies (copying_produced law hs hset hh ht h hl hr ho h6 hv) tags v h6 hv
  have v := h12 (s2 ▸ hrfc.domain.2) (s3 ▸ hrfc.selector.2) (fun j hj => (ident j hj).2)
    ((C102_read_exactly E.idna L.idna E.pre _ _ s1 (s2 ▸ hrfc.domain.2) (fun j hj => (ident j hj).2) tags h6).1 rfcSig)
    ((rfcRecord_iff (fun t h => listText_values t1 t h) r2 hro).1 r3)
  have e : key = key' := by
    have := v.keyRead
    rw [hpk] at this
    injection this
  subst e
  exact ⟨rfl, v.signature, hans, hfound, ⟨_, r1, r2, r3⟩, hfits, hpk, v.verified, v.bodyLength, v.bodyHash⟩

/-- The request of the examples, with ASCII output, with or without copies. -/
def plainAscii (copy : Bool) : SignRequest testEnv := { asciiRequest with copyHeaders := copy }

/-- The key of `plainAscii`, with many tags, and two FWS after an empty value. -/
def asciiRecord : Str := c!"n= \r\n \r\n ; h=sha1 : sha256; k=ed25519; p=BA==; t=y"

def asciiResolver : Resolver := fun name =>
  ⟨0, if name = c!"sel._domainkey.example.com." then .ok [.ok b!"x", .ok b!"y", .ok (utf8 asciiRecord), .ok b!"z"]
    else .error .notFound⟩

set_option maxRecDepth 100000 in
/-- Non-vacuity: a request with an identity, a body length, times and an extension tag; and a record
that this library does not even read, and that is not among those that it tries. -/
theorem test_signed_valid (copy : Bool) : ∃ o s record,
    Signed testHeaders [plainAscii copy] testBody (fun _ => 1000) [.ok o] ∧ TypedHeaders testHeaders ∧
    TypedRequest (plainAscii copy) ∧ Readable (plainAscii copy) testHeaders 1000 ∧ RfcRequest (plainAscii copy) ∧
    (∀ t, o.signature.timestamp = some t ∨ o.signature.expiration = some t → t < 10 ^ 12) ∧
    (∀ n, (lower n = c!"dkim-signature" ∨ ∃ g ∈ [(⟨c!"Received", b!" z"⟩ : Field)], g.name = n) →
      mentions (namesToSign (plainAscii copy) testHeaders) n ≤ occurrences testHeaders n) ∧
    sigFromStr testEnv.idna testEnv.pre o.headerValue = .ok s ∧
    (∃ tags, RfcListText tags asciiRecord ∧ (tags.map (·.1)).Nodup ∧
      Rfc.Record testEnv.lossy testEnv.pre tags record) ∧
    Rfc.KeyFits s record ∧ publicKey testEnv.crypto record.keyType record.keyData = some (.ed25519 ()) ∧
    (s.domain = c!"Example.com" ∧ s.selector = c!"sel") ∧
    ∃ tags, ListText tags o.headerValue ∧ tags.filter (fun t => t.1 = c!"z") =
      if copy then [(c!"z", c!"from:=20me|Subject:=20a=3B=0D=0A=20b")] else [] := by
  have run : ∃ o s record, Signed testHeaders [plainAscii copy] testBody (fun _ => 1000) [.ok o] ∧
      (o.signature.timestamp = some 1000 ∧ o.signature.expiration = some 433000) ∧
      sigFromStr testEnv.idna testEnv.pre o.headerValue = .ok s ∧
      (s.algorithm = .ed25519Sha256 ∧ s.domain = c!"Example.com" ∧ s.selector = c!"sel") ∧
      recordFromStr testEnv.lossy testEnv.pre c!"n=; h=sha1 : sha256; k=ed25519; p=BA==; t=y" = .ok record ∧
      (record.keyType = .ed25519 ∧ record.hashAlgorithms = [.sha256] ∧ record.keyData = [4] ∧
        record.serviceTypes = [.any] ∧ record.flags = [.testing]) ∧
      ∃ tags, parseTagList o.headerValue = .ok tags ∧
        (tags.map fun t => (t.name, t.value)).filter (fun t => t.1 = c!"z") =
          if copy then [(c!"z", c!"from:=20me|Subject:=20a=3B=0D=0A=20b")] else [] := by
    cases copy <;>
      exact ⟨_, _, _, ⟨_, _, _, rfl, rfl, rfl⟩, by decide, rfl, by decide, rfl, by decide, _, rfl, by decide⟩
  obtain ⟨o, s, record, h1, ⟨h2, h3⟩, h4, ⟨h5, d1, d2⟩, h6, ⟨h7, h8, h9, h10, h11⟩, tags, h12, h13⟩ := run
  have typed : TypedRequest (plainAscii copy) := by cases copy <;> exact typed_of_check (by decide)
  refine ⟨o, s, record, h1, testHeaders_typed, typed, ?_, ?_, ?_, ?_, h4, ?_, ?_, ?_, ⟨d1, d2⟩,
    _, ((C22_tag_list_exact _ _).1 h12).1, h13⟩
  · refine ⟨testEnv_kept typed, ?_, ?_, ?_, ?_⟩
    · intro _ f hf _
      exact test_readable f hf
    · rintro j l ⟨⟩ ⟨⟩
      exact .inr ((isLocalPart_iff _).1 rfl)
    · intro v hv
      simp [plainAscii, asciiRequest, testRequest] at hv
    · intro _
      exact ⟨by rintro t ⟨⟩; decide, fun _ => by decide⟩
  · refine ⟨rfl, ⟨name_example.1, asciiForm_plain name_example.1⟩, ⟨name_example.2.2, by cases copy <;> decide, rfl⟩, ?_, ?_⟩
    · rintro j ⟨⟩
      exact ⟨name_example.2.1, asciiForm_plain name_example.2.1⟩
    · intro v hv
      simp [plainAscii, asciiRequest, testRequest] at hv
  · rw [h2, h3]
    intro t ht
    rcases ht with ht | ht <;> injection ht with ht <;> omega
  · rintro n (hn | ⟨g, hg, rfl⟩)
    · have : mentions (namesToSign (plainAscii copy) testHeaders) n = 0 := by
        simp only [mentions, List.countP_eq_zero, sameName, hn]
        cases copy <;> decide
      omega
    · rw [List.mem_singleton.1 hg]
      cases copy <;> decide
  · have hp : parseTagList c!"n=; h=sha1 : sha256; k=ed25519; p=BA==; t=y" =
      .ok (ofPairs [(c!"n", []), (c!"h", c!"sha1 : sha256"), (c!"k", c!"ed25519"), (c!"p", c!"BA=="), (c!"t", c!"y")]) := by
      rfl
    have hp' : parseTagList c!" h=sha1 : sha256; k=ed25519; p=BA==; t=y" =
      .ok (ofPairs [(c!"h", c!"sha1 : sha256"), (c!"k", c!"ed25519"), (c!"p", c!"BA=="), (c!"t", c!"y")]) := by
      rfl
    obtain ⟨l1, l2⟩ := (C22_tag_list_exact _ _).1 hp
    refine ⟨_, .more c!"n" [] c!"n= \r\n \r\n " _ _ (.empty [] c!"n" [] c!" \r\n " c!"\r\n " (.inl rfl) ⟨'n', [], rfl, by decide, nofun⟩
      (.inl rfl) (.inr (.folded [' '] [' '] (by simp [wsp]) (by simp) (by simp [wsp])))
      (.inr (.folded [] [' '] nofun (by simp) (by simp [wsp]))))
      ((C22_rfc_exactly _ _).1 hp').1, by decide, (C101_read_exactly _ _ _ _ h6 _ l1).2 ⟨?_, ?_, ?_, ?_⟩⟩ <;> intro v hv <;>
      simp [ofPairs] at hv <;> subst hv
    · exact ⟨[c!"sha1", c!"sha256"], .more c!"sha1" c!" " c!" " _ c!"sha256"
        (.more 's' c!"ha" '1' (by unfold letter; decide) (by decide) (by decide)) fws_space fws_space
        (.one _ (.more 's' c!"ha25" '6' (by unfold letter; decide) (by decide) (by decide)))⟩
    · nofun
    · exact ⟨[c!"y"], .one _ (.one 'y' (by unfold letter; decide))⟩
  · refine ⟨?_, ?_, ?_, ?_, ?_⟩
    · rw [h7, h5]; rfl
    · rw [h8, h5]; decide
    · rw [h9]; decide
    · rw [h10]; simp
    · rw [h11]
      intro h
      exact absurd h (by decide)
  · rw [h7, h9]
    rfl

set_option maxRecDepth 100000 in
/-- The signature is valid according to the RFC, below another field, without copies and with
copies, in which octets are encoded and none is split. -/
example (copy : Bool) : ∃ o s record, Signed testHeaders [plainAscii copy] testBody (fun _ => 1000) [.ok o] ∧
    Rfc.Valid testEnv asciiResolver (⟨c!"Received", b!" z"⟩ :: ⟨o.headerName, utf8 o.headerValue⟩ :: testHeaders)
      testBody.flatten ⟨o.headerName, utf8 o.headerValue⟩ o.headerValue s
      [.ok b!"x", .ok b!"y", .ok (utf8 asciiRecord), .ok b!"z"] asciiRecord record (.ed25519 ()) := by
  obtain ⟨o, s, record, h1, h2, h3, h4, h5, h6, h7, h8, h9, h10, h11, ⟨d1, d2⟩, tags, h12, h13⟩ := test_signed_valid copy
  refine ⟨o, s, record, h1, ?_⟩
  obtain ⟨s', e, h⟩ := C104_signed_valid testEnv_idna testEnv_sort testEnv_set testEnv_order testEnv_sign (fun a b => by simp [testEnv])
    testHeaders [plainAscii copy] h2 (by simpa using h3) testBody (fun _ => 1000) _ h1
    (by intro k; cases k <;> decide) 0 (by decide) (plainAscii copy) rfl o rfl h4 h5 h6
    (by
      have h : ∀ f ∈ testHeaders, '=' ∉ f.name ∧ '|' ∉ f.name := by decide
      exact fun _ f hf _ => h f hf)
    (by
      intro hc tags' v hl hv
      obtain rfl := listText_unique hl h12
      have hc : copy = true := hc
      subst hc
      have : (c!"z", v) ∈ tags'.filter (fun t => t.1 = c!"z") := List.mem_filter.2 ⟨hv, by simp⟩
      rw [h13] at this
      simp only [if_true, List.mem_singleton, Prod.mk.injEq, true_and] at this
      rw [this]
      exact octetsWhole_line (by decide))
    (by
      apply C90_regular _ _ ⟨b!"abc", rfl⟩
      rw [blankLines_simple_iff]
      intro h
      exact absurd (h b!"abc" (by decide)) (by decide)) [⟨c!"Received", b!" z"⟩] h7
  rw [h8] at e
  injection e with e
  subst e
  exact h asciiResolver _ asciiRecord record _ (by rw [d1, d2]; rfl) (by simp) h9 h10 h11 trivial test_keyPair

end Dkim
