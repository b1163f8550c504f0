import Verif.Proofs.RelayHeaders
import Verif.Props.VerifierCases

/-!
# Property C116: what relays do to a message
-/

namespace Dkim

open Spec

variable {E : Env}

/-- C116: if the signature of a message succeeds, it succeeds also after any number of changes that relays make,
if it is still among the signatures that are evaluated, at the same time. -/
theorem C116_relayed (L : Lawful E) (blank : BlankLaw E.idna) {resolver : Resolver} {cfg : Config}
    {clock clock' : Nat → Int} (T : TypedTimes cfg clock) (T' : TypedTimes cfg clock') {m m' : Mail}
    {chunks chunks' : List Bytes} {results results' : List VerificationResult} {asked asked' : List Str}
    (h : Run E resolver cfg clock m.headers chunks results asked)
    (h' : Run E resolver cfg clock' m'.headers chunks' results' asked')
    (hbody : chunks.flatten = m.body) (hbody' : chunks'.flatten = m'.body)
    (htime : clock m.above.length = clock' m'.above.length)
    (r : VerificationResult) (hr : r ∈ results) (hi : r.index = m.above.length) (hs : r.status = .success)
    (sig : DkimSignature) (hsig : r.signature = some sig)
    (hrel : Relayed sig.signedHeaders cfg.headersForbiddenUnsigned sig.canonicalization m m')
    (hmax : m'.above.countP (fun g => decide (IsDkimField g)) < cfg.maxSignatures) :
    ∃ r' ∈ results', r'.index = m'.above.length ∧ r'.status = .success ∧
      ∃ ext, r'.signature = some { sig with extTags := ext } ∧ (ext = sig.extTags ∨ SameTags sig.extTags ext) := by
  have hf : m.headers[r.index]? = some m.field := by rw [hi]; simp [Mail.headers]
  have hfit := (h.judged L T hr hf).success_fits hs hsig
  obtain ⟨f, sig₀, record, key, value, original, hf1, h1, h2, h3⟩ := C40_success_sound L T h r hr hs
  rw [hf, Option.some.injEq] at hf1
  subst hf1
  rw [hsig, Option.some.injEq] at h1
  subst h1
  rw [hbody, hi] at h3
  obtain ⟨ext, record', key', value', original', he, hs'⟩ :=
    relayed_good L blank hrel ⟨sig.extTags, record, key, value, original, .inl rfl, h3⟩
  obtain ⟨r', hr', hi'⟩ := (verify_judged L T' h').2.1 _ _ (dkimFields_at (below := m'.below) hs'.named hmax)
  refine ⟨r', hr', hi', ?_⟩
  have hf' : m'.headers[r'.index]? = some m'.field := by rw [hi']; simp [Mail.headers]
  rw [htime, ← hi', ← hbody'] at hs'
  obtain ⟨g1, g2⟩ := (h'.judged L T' hr' hf').success_of L.idna hs' hfit
  exact ⟨g1, ext, g2, he⟩

/-- C116: nor do the changes make a signature succeed that does not succeed without them, if it is evaluated. -/
theorem C116_not_created (L : Lawful E) (blank : BlankLaw E.idna) {resolver : Resolver} {cfg : Config}
    {clock clock' : Nat → Int} (T : TypedTimes cfg clock) (T' : TypedTimes cfg clock') {m m' : Mail}
    {chunks chunks' : List Bytes} {results results' : List VerificationResult} {asked asked' : List Str}
    (h : Run E resolver cfg clock m.headers chunks results asked)
    (h' : Run E resolver cfg clock' m'.headers chunks' results' asked')
    (hbody : chunks.flatten = m.body) (hbody' : chunks'.flatten = m'.body)
    (htime : clock m.above.length = clock' m'.above.length)
    (r r' : VerificationResult) (hr : r ∈ results) (hr' : r' ∈ results') (hi : r.index = m.above.length)
    (hi' : r'.index = m'.above.length) (sig : DkimSignature) (hsig : r'.signature = some sig)
    (hrel : Relayed sig.signedHeaders cfg.headersForbiddenUnsigned sig.canonicalization m m')
    (hs : r.status ≠ .success) : r'.status ≠ .success := by
  intro hs'
  have hmax : m.above.countP (fun g => decide (IsDkimField g)) < cfg.maxSignatures := by
    obtain ⟨f, hf, -⟩ := (verify_judged L T h).1 r hr
    rw [hi] at hf
    exact dkimFields_above hf
  obtain ⟨r₀, hr₀, hi₀, g, -⟩ := C116_relayed L blank T' T h' h hbody' hbody htime.symm r' hr' hi' hs' sig hsig
    hrel.symm hmax
  have hf : m.headers[r.index]? = some m.field := by rw [hi]; simp [Mail.headers]
  have hf₀ : m.headers[r₀.index]? = some m.field := by rw [hi₀]; simp [Mail.headers]
  have j := h.judged L T hr hf
  have j₀ := h.judged L T hr₀ hf₀
  rw [hi₀] at j₀
  rw [hi] at j
  rw [j.unique L.idna j₀] at hs
  exact hs g

/-- C116: the condition about the number of signatures above is needed: a signature with as many above it as are
evaluated has no result. -/
theorem C116_pushed_out (L : Lawful E) {resolver : Resolver} {cfg : Config} {clock : Nat → Int}
    (T : TypedTimes cfg clock) {m : Mail} {chunks : List Bytes} {results : List VerificationResult} {asked : List Str}
    (h : Run E resolver cfg clock m.headers chunks results asked)
    (hmax : cfg.maxSignatures ≤ m.above.countP fun g => decide (IsDkimField g)) :
    ∀ r ∈ results, r.index ≠ m.above.length := by
  intro r hr hi
  obtain ⟨f, hf, -⟩ := (verify_judged L T h).1 r hr
  rw [hi] at hf
  have := dkimFields_above hf
  omega

/-- C116: the changes of the body are all there are: two bodies that end with CRLF have the same canonical form
exactly if one comes from the other by such changes. -/
theorem C116_bodies (alg : CanonAlg) (chunks chunks' : List Bytes) (hend : b!"\r\n" <:+ chunks.flatten)
    (hend' : b!"\r\n" <:+ chunks'.flatten) :
    canonBody alg chunks = canonBody alg chunks' ↔ BodyChanged alg chunks.flatten chunks'.flatten := by
  rw [canonBody_codeBody, canonBody_codeBody, Option.some.injEq]
  exact ⟨changed_of_codeBody hend hend', bodyChanged_codeBody⟩

/-- C116: the changes of the header are all there are: two headers without unsigned instances of the names that are to
be signed completely give the same data for the signature exactly if one comes from the other by such changes. -/
theorem C116_headers (signed guarded : List Str) (alg : CanonAlg) (x y : List Field) (hx : TypedHeaders x)
    (hy : TypedHeaders y) (hgx : ∀ n ∈ guarded, occurrences x n ≤ mentions signed n)
    (hgy : ∀ n ∈ guarded, occurrences y n ≤ mentions signed n) :
    canonHeaders alg x signed = canonHeaders alg y signed ↔ HeaderChanged signed guarded alg x y :=
  ⟨fun h => changed_of_instances hgx hgy fun n _ => instances_of_canonHeaders hx hy h n,
    fun h => canonHeaders_of_instances (headerChanged_same h).fields⟩

/-- C116: a message that is signed as in C16 and then relayed verifies, by any number of changes that relays make. -/
theorem C116_signed (law : IdnaLaw E.idna) (blank : BlankLaw E.idna) (hsort : SortLaw E.sortBy)
    (hset : SetLaw E.keySet) (hord : OrderLaw E.lookupOrder) (hsign : SignLaw E.crypto)
    (hhash : ∀ a b, E.hash a b ≠ []) (headers : List Field) (requests : List (SignRequest E))
    (hh : TypedHeaders headers) (ht : ∀ r ∈ requests, TypedRequest r) (chunks : List Bytes) (clock : Nat → Nat)
    (out : List (Except SigningError SigningOutput)) (h : Signed headers requests chunks clock out)
    (hlen : ∀ k, (codeBody k chunks.flatten).length < 2 ^ 64) (i : Nat) (hclock : clock i < 2 ^ 64)
    (r : SignRequest E) (hr : requests[i]? = some r) (o : SigningOutput) (ho : out[i]? = some (.ok o))
    (hread : Readable r headers (clock i))
    (resolver : Resolver) (cfg : Config) (vclock : Nat → Int) (T : TypedTimes cfg vclock)
    (hcover : ∀ n, lower n = c!"dkim-signature" → mentions (namesToSign r headers) n ≤ occurrences headers n)
    (hkey : KeyPublished resolver cfg r)
    (m' : Mail) (hrel : Relayed (namesToSign r headers) cfg.headersForbiddenUnsigned r.canonicalization
      ⟨[], ⟨o.headerName, utf8 o.headerValue⟩, headers, chunks.flatten⟩ m')
    (hpol : PolicyAccepts cfg (vclock m'.above.length) (⟨o.headerName, utf8 o.headerValue⟩ :: headers)
      chunks.flatten r o.signature)
    (hmax : m'.above.countP (fun g => decide (IsDkimField g)) < cfg.maxSignatures)
    (chunks' : List Bytes) (hbody' : chunks'.flatten = m'.body) (results : List VerificationResult)
    (asked : List Str) (hrun : Run E resolver cfg vclock m'.headers chunks' results asked) :
    ∃ res ∈ results, res.index = m'.above.length ∧ res.status = .success := by
  have L : Lawful E := ⟨law.toCaseLaw, hord, hset⟩
  have T₀ : TypedTimes cfg (fun _ => vclock m'.above.length) := ⟨fun _ => T.1 _, T.2⟩
  obtain ⟨results₀, asked₀, h₀, res, hres, hidx, hsucc⟩ := C16_sign_verify_partial law hsort hset hord hsign hhash
    headers requests hh ht chunks clock out h hlen i hclock r hr o ho hread resolver cfg
    (fun _ => vclock m'.above.length) T₀ [] chunks rfl (by simp; omega)
    (by
        rintro n (hn | ⟨g, hg, _⟩)
        · exact hcover n hn
        · cases hg) hkey hpol
  obtain ⟨f, sig, record, key, value, original, h1, h2, -, h4⟩ := C40_success_sound L T₀ h₀ res hres hsucc
  rw [hidx] at h1
  have hf : f = ⟨o.headerName, utf8 o.headerValue⟩ := (Option.some.inj h1).symm
  subst hf
  obtain ⟨hk, hc, hlocal, hq, hleft⟩ := hread
  obtain ⟨s, pi, _, s1, s2, -⟩ := output_read law hsort hset hsign hhash hh ht h hlen hclock hr ho hk hlocal hc hq hleft
  obtain ⟨-, part, sg, -, k3⟩ := C36_reflects law hsort hset headers requests hh ht chunks clock out h hlen i r hr o ho
  have ecanon : s.canonicalization = r.canonicalization := by
    rw [s2.canonicalization]; show o.signature.canonicalization = _; rw [k3]; rfl
  have enames : s.signedHeaders = namesToSign r headers := by
    rw [s2.signedHeaders]; show o.signature.signedHeaders = _; rw [k3]; rfl
  have es : sig = s := (fieldSignature_unique L.idna h4.signature
    (v' := o.headerValue) (s' := s) ⟨rfl, (sigFromStr_iff law.toCaseLaw E.pre _ _).1 s1⟩).2
  subst es
  obtain ⟨r', hr', hi', hs', -⟩ := C116_relayed L blank T₀ T
    (m := ⟨[], ⟨o.headerName, utf8 o.headerValue⟩, headers, chunks.flatten⟩) (m' := m') h₀ hrun rfl hbody' rfl res hres
    hidx hsucc sig h2 (by rw [enames, ecanon]; exact hrel) hmax
  exact ⟨r', hr', hi', hs'⟩

/-! ### Such a case -/

/-- Two headers as in `C116_headers`: reordered, folded differently, with a further unsigned field, and with a further
instance of a name on top. -/
example : ∃ x y : List Field, x ≠ y ∧ TypedHeaders x ∧ TypedHeaders y ∧
    (∀ n ∈ [c!"from"], occurrences x n ≤ mentions [c!"From", c!"To"] n) ∧
    (∀ n ∈ [c!"from"], occurrences y n ≤ mentions [c!"From", c!"To"] n) ∧
    HeaderChanged [c!"From", c!"To"] [c!"from"] .relaxed x y := by
  have typed : ∀ x : List Field, x.all Field.ok = true → TypedHeaders x := by
    intro x h f hf
    have := List.all_eq_true.1 h f hf
    simp only [Field.ok, Bool.and_eq_true] at this
    exact ⟨(fieldNameOk_iff _).1 this.1, (fieldBodyOk_iff _).1 this.2⟩
  have t1 := typed [⟨c!"From", b!" me"⟩, ⟨c!"To", b!" a b"⟩] (by decide)
  have t2 := typed [⟨c!"To", b!" c"⟩, ⟨c!"to", b!" a\r\n b"⟩, ⟨c!"X", b!" d"⟩, ⟨c!"From", b!"me "⟩] (by decide)
  refine ⟨_, _, by decide, t1, t2, by decide, by decide, ?_⟩
  exact (C116_headers _ _ _ _ _ t1 t2 (by decide) (by decide)).1 (by decide)


/-- The message of `testMessage`, seen from its first signature. -/
def testMail : Mail :=
  ⟨[], ⟨c!"DKIM-Signature", utf8 testSig1⟩,
    [⟨c!"From", b!" me"⟩, ⟨c!"dkim-signature", utf8 testSig2⟩, ⟨c!"Subject", b!" a"⟩], b!"abc\r\n"⟩

/-- The first signature, folded differently. -/
def refoldedSig1 : Str :=
  c!"\r\n  v=1;\ta=rsa-sha256; d=example.com; s=r; c=relaxed/simple; h=From:Subject; bh=" ++
    encodeBase64 [88, 5] ++ c!"; b=" ++ encodeBase64 (List.replicate 128 14)

/-- The message as it arrives: there are a trace field and a field named From, folded differently, above the
signature, which is folded differently, too, and the body has two more lines. -/
def arrivedMail : Mail :=
  ⟨[⟨c!"Received", b!" from b by c"⟩, ⟨c!"FROM", b!"\r\n\t me "⟩], ⟨c!"dkim-signature", utf8 refoldedSig1⟩,
    [⟨c!"dkim-signature", utf8 testSig2⟩, ⟨c!"Subject", b!" a"⟩], b!"abc\r\n\r\n\r\n"⟩

set_option maxRecDepth 100000 in
theorem testSig1_refolded : Refold testSig1 refoldedSig1 := by
  have piece : ∀ {f g : Str} (w : Str) {s t : Str}, Fws f → Fws g → w ≠ [] →
      (w.all fun c => !(c == ' ' || c == '\t' || c == '\r' || c == '\n')) = true → Refold s t →
      Refold (f ++ (w ++ s)) (g ++ (w ++ t)) := by
    intro f g w s t hf hg hn hw h
    have hw' : ∀ c ∈ w, ¬ fwsChar c := by
      intro c hc
      have := List.all_eq_true.1 hw c hc
      simpa [fwsChar, and_assoc] using this
    refine .fws _ _ _ _ hf hg ?_ (h.clean_append hw')
    intro c r e
    cases w with
    | nil => exact absurd rfl hn
    | cons d w =>
      injection e with e _
      rw [← e]
      exact hw' d (by simp)
  have sp : Fws c!" " := .plain _ (by decide) (by simp [wsp])
  have tab : Fws c!"\t" := .plain _ (by decide) (by simp [wsp])
  have f1 : Fws c!"\r\n  " := .folded [] c!"  " (by simp) (by decide) (by simp [wsp])
  have f2 : Fws c!"\r\n\t" := .folded [] c!"\t" (by simp) (by decide) (by simp [wsp])
  have h := piece c!"v=1;" sp f1 (by decide) rfl <| piece c!"a=rsa-sha256;" sp tab (by decide) rfl <|
    piece c!"d=example.com;" sp sp (by decide) rfl <| piece c!"s=r;" sp sp (by decide) rfl <|
    piece c!"c=relaxed/simple;" sp sp (by decide) rfl <| piece c!"h=From:Subject;" f2 sp (by decide) rfl <|
    piece (c!"bh=" ++ encodeBase64 [88, 5] ++ c!";") sp sp (by decide) rfl <|
    piece (c!"b=" ++ encodeBase64 (List.replicate 128 14)) f2 sp (by simp) rfl .nil
  exact h

theorem testMail_arrived {signed : List Str} (hs : signed = [c!"From", c!"Subject"]) :
    Relayed signed Config.default.headersForbiddenUnsigned ⟨.relaxed, .simple⟩ testMail arrivedMail := by
  subst hs
  have h1 : Relayed [c!"From", c!"Subject"] Config.default.headersForbiddenUnsigned ⟨.relaxed, .simple⟩ testMail
      ⟨[⟨c!"From", b!" me"⟩], ⟨c!"DKIM-Signature", utf8 testSig1⟩,
        [⟨c!"dkim-signature", utf8 testSig2⟩, ⟨c!"Subject", b!" a"⟩], b!"abc\r\n"⟩ :=
    .step _ _ _ (.same _) (.down [] _ _ _ _ (by decide))
  have h2 := h1.step _ _ _ (.onTop _ ⟨c!"Received", b!" from b by c"⟩ (by decide) (by decide))
  have h3 := h2.step _ _ _ (.above _ _ _ _ _ (.refold [⟨c!"Received", b!" from b by c"⟩] [] ⟨c!"From", b!" me"⟩
    ⟨c!"FROM", b!"\r\n\t me "⟩ [b!"me"] rfl (by decide)
    (Spaced.last b!" " b!"me" [] (by decide) (by decide) (by decide) (by decide))
    (Spaced.last b!"\r\n\t " b!"me" b!" " (by decide) (by decide) (by decide) (by decide))))
  have h4 := h3.step _ _ _ (.signature _ _ c!"dkim-signature" _ _ _ _ rfl (by decide) testSig1_refolded)
  exact h4.step _ _ _ (.body _ _ _ _ _ (.blank .simple b!"abc\r\n" b!"\r\n\r\n" ⟨b!"abc", rfl⟩
    ⟨[[], []], by simp [blankLine], rfl⟩))

set_option maxRecDepth 100000 in
/-- C116: the first signature of the message succeeds, hence also that of the message as it arrives. -/
theorem test_arrived : ∃ results asked, Run testEnv testResolver .default (fun _ => 1500) arrivedMail.headers
    [arrivedMail.body] results asked ∧ ∃ r ∈ results, r.index = 2 ∧ r.status = .success := by
  have T := typed_default (t := 1500) (by decide) Config.default rfl
  obtain ⟨results, asked, h, r, hr, hi, hs⟩ := result_of_statuses test_success (i := 0) (s := .success) (by simp)
  obtain ⟨f, sig, record, key, value, original, h1, h2, h3, h4⟩ := C40_success_sound testEnv_lawful T h r hr hs
  rw [hi] at h1
  have hf : f = ⟨c!"DKIM-Signature", utf8 testSig1⟩ := (Option.some.inj h1).symm
  subst hf
  have hv : value = testSig1 := utf8_injective h4.signature.1.symm
  subst hv
  have h5 := (sigFromStr_iff testEnv_lawful.idna testEnv.pre testSig1 sig).2 h4.signature.2
  have h6 : (match sigFromStr testEnv.idna testEnv.pre testSig1 with
    | .ok s => some (s.signedHeaders, s.canonicalization)
    | _ => none) = some ([c!"From", c!"Subject"], ⟨.relaxed, .simple⟩) := by rfl
  rw [h5] at h6
  simp only [Option.some.injEq, Prod.mk.injEq] at h6
  obtain ⟨results', asked', h'⟩ := run_exists testEnv_lawful testResolver .default (fun _ => 1500) T
    arrivedMail.headers (by decide) ⟨_, List.mem_append_right _ (List.mem_cons_self ..), by decide⟩ [arrivedMail.body]
  refine ⟨results', asked', h', ?_⟩
  obtain ⟨r', hr', hi', hs', -⟩ := C116_relayed testEnv_lawful asciiIdna_blank T T (m := testMail) (m' := arrivedMail)
    h h' rfl (by simp) rfl r hr hi hs sig h2 (by rw [h6.2]; exact testMail_arrived h6.1) (by decide)
  exact ⟨r', hr', hi', hs'⟩

set_option maxRecDepth 100000 in
/-- The same by evaluation. The second signature, which is for a header as it is, fails: there the folding of From
matters. -/
theorem test_arrived_both : statuses testEnv testResolver .default 1500 arrivedMail.headers [arrivedMail.body]
    = some [(2, .success), (3, .failure (.verificationFailure .verificationFailure))] := by
  rfl

set_option maxRecDepth 100000 in
/-- The first signature of the message when only one is evaluated and there is another one on top: it has no result. -/
example : statuses testEnv testResolver { Config.default with maxSignatures := 1 } 1500
    (⟨c!"DKIM-Signature", b!" v=1"⟩ :: testMail.headers) [testMail.body] =
      (statuses testEnv testResolver .default 1500 (⟨c!"DKIM-Signature", b!" v=1"⟩ :: testMail.headers)
        [testMail.body]).map (·.take 1) ∧
    (statuses testEnv testResolver .default 1500 (⟨c!"DKIM-Signature", b!" v=1"⟩ :: testMail.headers)
        [testMail.body]).map (·.drop 1) = some [(1, .success), (3, .success)] :=
  ⟨by rfl, by rfl⟩

/-- Changes of a body with relaxed canonicalization. -/
example : BodyStep .relaxed b!"a b\r\nc\r\n" b!"a \t b\r\nc\r\n" ∧
    BodyStep .relaxed b!"a \t b\r\nc\r\n" b!"a \t b \r\nc\r\n" ∧
    canonBody .relaxed [b!"a b\r\nc\r\n"] = canonBody .relaxed [b!"a \t b \r\nc\r\n"] :=
  ⟨.run b!"a" b!" " b!" \t " b!"b\r\nc\r\n" (by decide) (by decide) (by decide) (by decide),
    .trailing b!"a \t b" b!" " b!"c\r\n" (by decide), by decide⟩

/-- Bodies that do not end with CRLF are not covered by C116_bodies: a last line of whitespace counts as a line (C03),
and the blank lines before it do not. -/
example : canonBody .relaxed [b!"a\r\n "] = canonBody .relaxed [b!"a\r\n\r\n "] ∧
    canonBody .relaxed [b!"a\r\n "] ≠ canonBody .relaxed [b!"a\r\n \r\n"] := by
  constructor <;> decide

theorem simple_relayed (f : Field) : Relayed (namesToSign simpleRequest testHeaders)
    Config.default.headersForbiddenUnsigned simpleRequest.canonicalization ⟨[], f, testHeaders, b!"abc\r\n"⟩
    ⟨[⟨c!"Received", b!" z"⟩], f, testHeaders, b!"abc\r\n\r\n"⟩ := by
  have e : mentions (namesToSign simpleRequest testHeaders) c!"Received" = 0 := by decide
  have h1 := Relayed.step _ _ _ (.same ⟨[], f, testHeaders, b!"abc\r\n"⟩)
    (RelayStep.onTop (signed := namesToSign simpleRequest testHeaders)
      (guarded := Config.default.headersForbiddenUnsigned) (alg := simpleRequest.canonicalization) _
      ⟨c!"Received", b!" z"⟩ (by rw [e]; exact Nat.zero_le _) (by decide))
  exact h1.step _ _ _ (.body _ _ _ _ _ (.blank _ b!"abc\r\n" b!"\r\n" ⟨b!"abc", rfl⟩
    ⟨[[]], by simp [blankLine], rfl⟩))

set_option maxRecDepth 100000 in
/-- The hypotheses of C116_signed are met, for a message that gets a trace field and blank lines. -/
theorem test_signed_relayed : ∃ o,
    Signed testHeaders [simpleRequest] [b!"ab", b!"c\r\n"] (fun _ => 1000) [.ok o] ∧
    TypedHeaders testHeaders ∧ TypedRequest simpleRequest ∧ Readable simpleRequest testHeaders 1000 ∧
    (∀ n, lower n = c!"dkim-signature" →
      mentions (namesToSign simpleRequest testHeaders) n ≤ occurrences testHeaders n) ∧
    KeyPublished (E := testEnv) testResolver .default simpleRequest ∧
    PolicyAccepts .default 1050 (⟨o.headerName, utf8 o.headerValue⟩ :: testHeaders) b!"abc\r\n" simpleRequest
      o.signature ∧
    Relayed (namesToSign simpleRequest testHeaders) Config.default.headersForbiddenUnsigned
      simpleRequest.canonicalization ⟨[], ⟨o.headerName, utf8 o.headerValue⟩, testHeaders, b!"abc\r\n"⟩
      ⟨[⟨c!"Received", b!" z"⟩], ⟨o.headerName, utf8 o.headerValue⟩, testHeaders, b!"abc\r\n\r\n"⟩ := by
  obtain ⟨o, h1, h2, h3, h4, h5, -, -⟩ := test_end_to_end
  refine ⟨_, ⟨_, _, _, rfl, rfl, rfl⟩, h2, h3, h4, fun n hn => h5 n (.inl hn), test_published _, ⟨?_, ?_⟩, ?_⟩
  · refine (validateSignature_matches _ _ (by decide) _).passes ?_
    rfl
  · intro _ n hn
    cases hn
  · exact simple_relayed _

end Dkim
