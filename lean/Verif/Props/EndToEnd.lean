import Verif.Props.RereadCases
import Verif.Props.VerifierCases

/-!
# Property C16: signing, then verifying
-/

namespace Dkim

open Spec

variable {E : Env}

/-- A public key belongs to a signing key: it accepts the signatures made with it. -/
def KeyPair {C : Crypto} (sk : SigningKey C) (pk : VerifyingKey C) : Prop :=
  ∀ h data sig, signWith sk h data = some sig → verifyWith pk h data sig = true

/-- The DNS returns a usable key record for the signing key, among the records that are
tried. -/
def KeyPublished (resolver : Resolver) (cfg : Config) (r : SignRequest E) : Prop :=
  ∃ d s txts txt record key, E.idna.toAscii r.domain = some d ∧ E.idna.toAscii r.selector = some s ∧
    (resolver (keyName d s)).result = .ok txts ∧ txt ∈ firstTwoAndLast txts ∧ TxtRecord E txt record ∧
    record.keyType = keyTypeOf r.algorithm ∧ record.keyData ≠ [] ∧
    hashOf r.algorithm ∈ record.hashAlgorithms ∧
    (.noSubdomains ∈ record.flags → ∀ i, r.identity = some i →
      E.idna.toAscii i.domain = E.idna.toAscii r.domain) ∧
    publicKey E.crypto (keyTypeOf r.algorithm) record.keyData = some key ∧
    BitsAtLeast key (if E.pre then 512 else 1024) ∧ BitsAtLeast key cfg.minKeyBits ∧
    KeyPair r.signingKey key

/-- The policy of the verifier accepts the signature. -/
def PolicyAccepts (cfg : Config) (now : Int) (headers : List Field) (body : Bytes) (r : SignRequest E)
    (sig : DkimSignature) : Prop :=
  AllPass (signatureChecks E cfg (unixTime cfg now) headers sig) ∧
  (cfg.forbidUnsignedContent = true → ∀ n, r.bodyLength = .exact n →
    n = (codeBody r.canonicalization.body body).length)

/-- What a request has to satisfy, besides being accepted, for the library to read the
signature (see C37). -/
def Readable (r : SignRequest E) (headers : List Field) (now : Nat) : Prop :=
  KeptNames r ∧ ReadableNames r headers ∧ (∀ j l, r.identity = some j → j.localPart = some l → l = [] ∨ LocalPart l) ∧
  (∀ v, (c!"q", v) ∈ r.extTags → QueryText v) ∧ TimeLeft r now

theorem mem_firstTwoAndLast {α : Type} {l : List α} {a : α} (h : a ∈ firstTwoAndLast l) :
    a ∈ l.take 2 ++ l.getLast?.toList := by
  match l with
  | [] => exact h
  | [b] => simpa [firstTwoAndLast] using h
  | [b, c] => simp [firstTwoAndLast] at h ⊢; exact h
  | b :: c :: d :: rest =>
    simp only [firstTwoAndLast, List.mem_cons, List.not_mem_nil, or_false] at h
    simp only [List.take_succ_cons, List.take_zero, List.mem_append, List.mem_cons, List.not_mem_nil, or_false]
    rcases h with rfl | rfl | h
    · exact .inl (.inl rfl)
    · exact .inl (.inr rfl)
    · refine .inr ?_
      rw [List.getLast?_cons_cons, List.getLast?_cons_cons, List.getLast?_eq_some_getLast (List.cons_ne_nil d rest)]
      simp [h]

/-- A run of the verifier, if there is a signature to evaluate. -/
theorem run_exists (L : Lawful E) (resolver : Resolver) (cfg : Config) (clock : Nat → Int)
    (T : TypedTimes cfg clock) (headers : List Field) (hm : cfg.maxSignatures ≠ 0)
    (hd : ∃ f ∈ headers, IsDkimField f) (chunks : List Bytes) :
    ∃ results asked, Run E resolver cfg clock headers chunks results asked := by
  obtain ⟨o, asked, h1, h2⟩ := C50_no_panic L resolver cfg clock T headers
  have h3 := (C38_verifier_exists L resolver cfg clock T headers o asked h1).1.2 ⟨hm, hd⟩
  cases o with
  | none => exact absurd rfl h3
  | some v =>
    obtain ⟨v', ss, results, g1, g2⟩ := h2 v rfl chunks
    exact ⟨results, asked, v, v', ss, h1, g1, g2⟩

/-- A signature field is evaluated if there are fewer than the maximum above it. -/
theorem dkimFields_at {max : Nat} {above below : List Field} {f : Field} (hf : IsDkimField f)
    (hm : above.countP (fun g => decide (IsDkimField g)) < max) :
    (above.length, f) ∈ dkimFields max (above ++ f :: below) := by
  unfold dkimFields positions
  have e : ((above ++ f :: below).zipIdx.map fun p => (p.2, p.1)).filter (fun p => decide (IsDkimField p.2)) =
      (above.zipIdx.map fun p => (p.2, p.1)).filter (fun p => decide (IsDkimField p.2)) ++
        (above.length, f) :: ((below.zipIdx (above.length + 1)).map fun p => (p.2, p.1)).filter
          (fun p => decide (IsDkimField p.2)) := by
    rw [List.zipIdx_append, List.map_append, List.filter_append, List.zipIdx_cons, List.map_cons,
      List.filter_cons_of_pos (by simpa using hf)]
    simp
  rw [e, List.take_append]
  refine List.mem_append_right _ ?_
  have hl : ((above.zipIdx.map fun p => (p.2, p.1)).filter (fun p => decide (IsDkimField p.2))).length =
      above.countP fun g => decide (IsDkimField g) := by
    rw [← List.countP_eq_length_filter, List.countP_map]
    conv => rhs; rw [← List.zipIdx_map_fst 0 above, List.countP_map]
    rfl
  rw [hl, List.mem_take_iff_getElem]
  exact ⟨0, by simp; omega, rfl⟩

/-- Fields above that are not covered leave the selection as it is. -/
theorem selectAux_above (above headers : List Field) : ∀ (names earlier : List Str),
    (∀ g ∈ above, earlier.countP (sameName g.name) + mentions names g.name ≤ occurrences headers g.name) →
    selectAux (above ++ headers) earlier names = selectAux headers earlier names := by
  intro names
  induction names with
  | nil => intro earlier _; rfl
  | cons n ns ih =>
    intro earlier h
    rw [selectAux, selectAux, ih (n :: earlier) (by
      intro g hg
      have := h g hg
      unfold mentions at this ⊢
      rw [List.countP_cons] at this ⊢
      omega)]
    congr 2
    unfold fromBottom
    rw [List.reverse_append, List.filter_append]
    by_cases hlt : earlier.countP (sameName n) < (headers.reverse.filter fun f => sameName f.name n).length
    · rw [List.getElem?_append_left hlt]
    · rw [List.getElem?_append_right (by omega), List.getElem?_eq_none (l := headers.reverse.filter _) (by omega),
        List.getElem?_eq_none]
      have : above.reverse.filter (fun f => sameName f.name n) = [] := by
        rw [List.filter_eq_nil_iff]
        intro g hg hgn
        have hg : g ∈ above := List.mem_reverse.1 hg
        have e : lower g.name = lower n := by simpa [sameName] using hgn
        have hh := h g hg
        have e1 : earlier.countP (sameName g.name) = earlier.countP (sameName n) := by
          congr 1; funext m; simp [sameName, e]
        have e2 : 1 ≤ mentions (n :: ns) g.name := by
          unfold mentions
          rw [List.countP_cons]
          simp [sameName, e]
        have e3 : occurrences headers g.name = (headers.reverse.filter fun f => sameName f.name n).length := by
          unfold occurrences
          rw [List.countP_eq_length_filter, List.filter_reverse, List.length_reverse]
          congr 2
          funext m
          simp only [sameName, e, Bool.beq_comm]
        omega
      rw [this]
      simp

theorem selectedFields_above {above headers : List Field} {names : List Str}
    (h : ∀ g ∈ above, mentions names g.name ≤ occurrences headers g.name) :
    selectedFields (above ++ headers) names = selectedFields headers names :=
  selectAux_above above headers names [] (by simpa using h)

theorem bodyStatus_signed {cfg : Config} {r : SignRequest E} {headers : List Field} {body body' part : Bytes}
    {now : Nat} (hp : bodyToSign r body = some part) (hbody : codeBody r.canonicalization.body body' =
      codeBody r.canonicalization.body body)
    (hpol : cfg.forbidUnsignedContent = true → ∀ n, r.bodyLength = .exact n →
      n = (codeBody r.canonicalization.body body).length)
    {s : DkimSignature} (h1 : s.algorithm = r.algorithm) (h2 : s.canonicalization = r.canonicalization)
    (h3 : s.bodyLength = (sigData r headers part now).bodyLength)
    (h4 : s.bodyHash = (sigData r headers part now).bodyHash) :
    bodyStatus E cfg s body' = .success := by
  unfold bodyStatus
  simp only [h1, h2, h3, h4, hbody, sigData]
  unfold bodyToSign at hp
  cases hb : r.bodyLength with
  | noLimit =>
    rw [hb] at hp
    simp only [Option.some.injEq] at hp
    simp [hp]
  | messageContent =>
    rw [hb] at hp
    simp only [Option.some.injEq] at hp
    simp [hp]
  | exact n =>
    rw [hb] at hp
    simp only at hp
    split at hp
    · cases hp
    · next hlt =>
      injection hp with hp
      have hl : part.length = n := by rw [← hp, List.length_take]; omega
      simp only [reduceCtorEq, if_false, hl]
      rw [if_neg hlt, if_neg, hp, if_pos rfl]
      rintro ⟨ha, hc⟩
      have := hpol hc n hb
      omega

/-- A signed message that is verified: what was signed is the same in the verified
message, up to canonicalization. -/
theorem sign_verify (law : IdnaLaw E.idna) (hs : SortLaw E.sortBy) (hset : SetLaw E.keySet)
    (hord : OrderLaw E.lookupOrder) (hsign : SignLaw E.crypto) (hhash : ∀ a b, E.hash a b ≠ [])
    {headers : List Field} {requests : List (SignRequest E)} (hh : TypedHeaders headers)
    (ht : ∀ r ∈ requests, TypedRequest r) {chunks : List Bytes} {clock : Nat → Nat}
    {out : List (Except SigningError SigningOutput)}
    (h : Signed headers requests chunks clock out)
    (hlen : ∀ k, (codeBody k chunks.flatten).length < 2 ^ 64) {i : Nat} (hclock : clock i < 2 ^ 64)
    {r : SignRequest E} (hr : requests[i]? = some r) {o : SigningOutput} (ho : out[i]? = some (.ok o))
    (hread : Readable r headers (clock i))
    {resolver : Resolver} {cfg : Config} {vclock : Nat → Int} (T : TypedTimes cfg vclock)
    {above below : List Field} {chunks' : List Bytes}
    (hmax : above.countP (fun g => decide (IsDkimField g)) < cfg.maxSignatures)
    (hfields : (selectedFields (above ++ ⟨o.headerName, utf8 o.headerValue⟩ :: below) (namesToSign r headers)).map
        (fun g => canonField r.canonicalization.header g.name g.body)
      = (selectedFields headers (namesToSign r headers)).map
        (fun g => canonField r.canonicalization.header g.name g.body))
    (hbody : codeBody r.canonicalization.body chunks'.flatten = codeBody r.canonicalization.body chunks.flatten)
    (hkey : KeyPublished resolver cfg r)
    (hpol : PolicyAccepts cfg (vclock above.length) (above ++ ⟨o.headerName, utf8 o.headerValue⟩ :: below)
      chunks.flatten r o.signature) :
    ∃ results asked, Run E resolver cfg vclock (above ++ ⟨o.headerName, utf8 o.headerValue⟩ :: below) chunks'
        results asked ∧
      ∃ res ∈ results, res.index = above.length ∧ res.status = .success := by
  have L : Lawful E := ⟨law.toCaseLaw, hord, hset⟩
  obtain ⟨hk, hc, hlocal, hq, hleft⟩ := hread
  obtain ⟨s, pi, _, s1, s2, _, _, s4⟩ := output_read law hs hset hsign hhash hh ht h hlen hclock hr ho hk hlocal hc hq hleft
  obtain ⟨k1, part, sg, k2, k3⟩ := C36_reflects law hs hset headers requests hh ht chunks clock out h hlen i r hr
    o ho
  have hname : lower o.headerName = c!"dkim-signature" := by
    rw [k1]; exact (signed_output law hs hset hh ht h hlen hr ho).2.1.headerName
  have ealg : s.algorithm = r.algorithm := by rw [s2.algorithm]; show o.signature.algorithm = _; rw [k3]; rfl
  have ecanon : s.canonicalization = r.canonicalization := by
    rw [s2.canonicalization]; show o.signature.canonicalization = _; rw [k3]; rfl
  have enames : s.signedHeaders = namesToSign r headers := by
    rw [s2.signedHeaders]; show o.signature.signedHeaders = _; rw [k3]; rfl
  have edom : E.idna.toAscii s.domain = E.idna.toAscii r.domain := by
    rw [s2.domain]; show E.idna.toAscii o.signature.domain = _; rw [k3]; rfl
  have esel : E.idna.toAscii s.selector = E.idna.toAscii r.selector := by
    rw [s2.selector]; show E.idna.toAscii o.signature.selector = _; rw [k3]; rfl
  generalize hf : (⟨o.headerName, utf8 o.headerValue⟩ : Field) = f at *
  have hdk : IsDkimField f := by rw [← hf]; exact hname
  have hsig : FieldSignature E f o.headerValue s := by
    refine ⟨by rw [← hf], (sigFromStr_iff law.toCaseLaw E.pre _ _).1 s1⟩
  obtain ⟨results, asked, hrun⟩ := run_exists L resolver cfg vclock T (above ++ f :: below) (by omega)
    ⟨f, by simp, hdk⟩ chunks'
  refine ⟨results, asked, hrun, ?_⟩
  obtain ⟨res, hres, hidx⟩ := (verify_judged L T hrun).2.1 _ _ (dkimFields_at (below := below) hdk hmax)
  refine ⟨res, hres, hidx, ?_⟩
  obtain ⟨d, sl, txts, txt, record, key, p1, p2, p3, p4, p5, p6, p7, p8, p9, p10, p11, p12, p13⟩ := hkey
  have hpass : AllPass (signatureChecks E cfg (unixTime cfg (vclock res.index)) (above ++ f :: below) s) := by
    have := hpol.1
    rw [hidx]
    unfold signatureChecks at this ⊢
    rw [s2.signedHeaders, s2.bodyLength, s2.expiration, s2.timestamp, s2.algorithm]
    exact this
  have hqf : QueryFor E s (keyName d sl) := ⟨d, sl, edom.trans p1, esel.trans p2, rfl⟩
  have hne : txts ≠ [] := by rintro rfl; simp [firstTwoAndLast] at p4
  obtain ⟨original, w1, w2⟩ := C41_records_tried L T hrun res hres f (by rw [hidx]; simp) o.headerValue s hsig hpass
    _ hqf txts p3 hne
  have eo : original = makeOriginal o.headerValue := withoutB_unique hsig w1 (withoutB_of hsig)
  subst eo
  rcases w2 with ⟨_, _, _, _, _, _, _, e⟩ | ⟨w3, _⟩
  · rw [e]
    refine bodyStatus_signed (headers := headers) (now := clock i) k2 hbody hpol.2 ealg ecanon ?_ ?_
    · rw [s2.bodyLength]; show o.signature.bodyLength = _; rw [k3]; rfl
    · rw [s2.bodyHash]; show o.signature.bodyHash = _; rw [k3]; rfl
  · refine absurd ?_ (w3 txt (mem_firstTwoAndLast p4) record)
    refine ⟨p5, ?_⟩
    have hsignd := (C14_reconstructed law hs hset headers requests hh ht chunks clock out h hlen i r hr o ho).2
    have hinput : signedInput (above ++ f :: below) f (makeOriginal o.headerValue) s =
        headerHashInput r.canonicalization.header headers (namesToSign r headers) o.headerName
          (makeOriginal o.headerValue) := by
      unfold signedInput headerHashInput
      have e0 : f.name = o.headerName := by rw [← hf]
      rw [enames, ecanon, e0]
      congr 1
      have e1 : ∀ l : List Field, (l.flatMap fun g => canonField r.canonicalization.header g.name g.body ++ b!"\r\n")
          = (l.map fun g => canonField r.canonicalization.header g.name g.body).flatMap (· ++ b!"\r\n") := by
        intro l; rw [List.flatMap_map]
      rw [e1, e1, hfields]
    unfold recordChecks
    simp only [allPass_cons]
    rw [ealg, p10, hinput]
    refine ⟨p6, p7, p8, ?_, by simp, ?_, ?_, ?_, allPass_nil⟩
    · intro hflag j hj
      have h5 := s2.identity
      rw [hj] at h5
      simp only [s4] at h5
      cases hri : r.identity with
      | none => rw [hri] at h5; simp at h5
      | some k =>
        rw [hri] at h5
        simp only [Option.map_some, Option.some.injEq, Prod.mk.injEq] at h5
        rw [h5.2, edom]
        exact p9 hflag k hri
    · rintro k ⟨⟩; exact p11
    · rintro k ⟨⟩; exact p12
    · rintro k ⟨⟩
      have : s.signatureData = o.signature.signatureData := s2.signatureData
      rw [this]
      exact p13 _ _ _ hsignd

/-- C16 holds if, besides the conditions in the claim, the library can read the produced
signature (see C37), and the request does not ask for more occurrences of the name
DKIM-Signature to be signed than the header has. The field may also be put below other
added fields (for example, other signatures), of which the same is required. The body may
be chunked differently. -/
theorem C16_sign_verify_partial (law : IdnaLaw E.idna) (hs : SortLaw E.sortBy) (hset : SetLaw E.keySet)
    (hord : OrderLaw E.lookupOrder) (hsign : SignLaw E.crypto) (hhash : ∀ a b, E.hash a b ≠ [])
    (headers : List Field) (requests : List (SignRequest E)) (hh : TypedHeaders headers)
    (ht : ∀ r ∈ requests, TypedRequest r) (chunks : List Bytes) (clock : Nat → Nat)
    (out : List (Except SigningError SigningOutput))
    (h : Signed headers requests chunks clock out)
    (hlen : ∀ k, (codeBody k chunks.flatten).length < 2 ^ 64) (i : Nat) (hclock : clock i < 2 ^ 64)
    (r : SignRequest E) (hr : requests[i]? = some r) (o : SigningOutput) (ho : out[i]? = some (.ok o))
    (hread : Readable r headers (clock i))
    (resolver : Resolver) (cfg : Config) (vclock : Nat → Int) (T : TypedTimes cfg vclock)
    (above : List Field) (chunks' : List Bytes) (hbody : chunks'.flatten = chunks.flatten)
    (hmax : above.countP (fun g => decide (IsDkimField g)) < cfg.maxSignatures)
    (hcover : ∀ n, (lower n = c!"dkim-signature" ∨ ∃ g ∈ above, g.name = n) →
      mentions (namesToSign r headers) n ≤ occurrences headers n)
    (hkey : KeyPublished resolver cfg r)
    (hpol : PolicyAccepts cfg (vclock above.length) (above ++ ⟨o.headerName, utf8 o.headerValue⟩ :: headers)
      chunks.flatten r o.signature) :
    ∃ results asked, Run E resolver cfg vclock (above ++ ⟨o.headerName, utf8 o.headerValue⟩ :: headers) chunks'
        results asked ∧
      ∃ res ∈ results, res.index = above.length ∧ res.status = .success := by
  refine sign_verify law hs hset hord hsign hhash hh ht h hlen hclock hr ho hread T hmax ?_ (by rw [hbody]) hkey
    hpol
  have hname : lower o.headerName = c!"dkim-signature" := by
    rw [(C36_reflects law hs hset headers requests hh ht chunks clock out h hlen i r hr o ho).1]
    exact (signed_output law hs hset hh ht h hlen hr ho).2.1.headerName
  have e : ∀ f : Field, above ++ f :: headers = (above ++ [f]) ++ headers := by simp
  rw [e, selectedFields_above]
  intro g hg
  rcases List.mem_append.1 hg with hg | hg
  · exact hcover _ (.inr ⟨g, hg, rfl⟩)
  · rw [List.mem_singleton.1 hg]
    exact hcover _ (.inl hname)

/-- C16 also holds for a message that was changed on its way, if the signed fields and
the body still have the same canonical form. -/
theorem C16_relayed_partial (law : IdnaLaw E.idna) (hs : SortLaw E.sortBy) (hset : SetLaw E.keySet)
    (hord : OrderLaw E.lookupOrder) (hsign : SignLaw E.crypto) (hhash : ∀ a b, E.hash a b ≠ [])
    (headers : List Field) (requests : List (SignRequest E)) (hh : TypedHeaders headers)
    (ht : ∀ r ∈ requests, TypedRequest r) (chunks : List Bytes) (clock : Nat → Nat)
    (out : List (Except SigningError SigningOutput))
    (h : Signed headers requests chunks clock out)
    (hlen : ∀ k, (codeBody k chunks.flatten).length < 2 ^ 64) (i : Nat) (hclock : clock i < 2 ^ 64)
    (r : SignRequest E) (hr : requests[i]? = some r) (o : SigningOutput) (ho : out[i]? = some (.ok o))
    (hread : Readable r headers (clock i))
    (resolver : Resolver) (cfg : Config) (vclock : Nat → Int) (T : TypedTimes cfg vclock)
    (above below : List Field) (chunks' : List Bytes)
    (hmax : above.countP (fun g => decide (IsDkimField g)) < cfg.maxSignatures)
    (hfields : (selectedFields (above ++ ⟨o.headerName, utf8 o.headerValue⟩ :: below) (namesToSign r headers)).map
        (fun g => canonField r.canonicalization.header g.name g.body)
      = (selectedFields headers (namesToSign r headers)).map
        (fun g => canonField r.canonicalization.header g.name g.body))
    (hbody : codeBody r.canonicalization.body chunks'.flatten = codeBody r.canonicalization.body chunks.flatten)
    (hkey : KeyPublished resolver cfg r)
    (hpol : PolicyAccepts cfg (vclock above.length) (above ++ ⟨o.headerName, utf8 o.headerValue⟩ :: below)
      chunks.flatten r o.signature) :
    ∃ results asked, Run E resolver cfg vclock (above ++ ⟨o.headerName, utf8 o.headerValue⟩ :: below) chunks'
        results asked ∧
      ∃ res ∈ results, res.index = above.length ∧ res.status = .success :=
  sign_verify law hs hset hord hsign hhash hh ht h hlen hclock hr ho hread T hmax hfields hbody hkey hpol

/-! ## Concrete cases -/

/-- A request to sign From, the first two times it occurs, and Subject. -/
def simpleRequest : SignRequest testEnv :=
  { testRequest with
    identity := some ⟨some c!"a", c!"example.com"⟩
    selector := c!"e"
    timestamp := .now
    validDuration := some 100
    headerSelection := .manual [c!"From", c!"Subject", c!"From"] }

theorem testEnv_kept {r : SignRequest testEnv} (ht : TypedRequest r) : KeptNames r where
  domain := Consistent.kept ht.domain (asciiIdna_consistent _) _
  selector := Consistent.kept ht.selector (asciiIdna_consistent _) _
  identity j hj := Consistent.kept (ht.identity j hj) (asciiIdna_consistent _) _

theorem test_readable : ∀ f ∈ testHeaders, ReadableName f.name := by
  have h : ∀ f ∈ testHeaders, ';' ∉ f.name ∧ '=' ∉ f.name ∧ '|' ∉ f.name := by decide
  exact fun f hf => readableName_plain (testHeaders_typed f hf).1 (h f hf)

theorem test_keyPair : KeyPair (C := testEnv.crypto) (.ed25519 ()) (.ed25519 ()) := by
  intro h data sig e
  injection e with e
  subst e
  exact decide_eq_true rfl

set_option maxRecDepth 100000 in
theorem test_published (cfg : Config) : KeyPublished (E := testEnv) testResolver cfg simpleRequest :=
  ⟨c!"example.com", c!"e", _, .ok b!"v=DKIM1; k=ed25519; p=BA==", _, .ed25519 (), rfl, rfl, rfl,
    List.mem_cons_self, (txtRecord_iff _ _).2 rfl, rfl, by decide, by decide, by decide, rfl, trivial, trivial,
    test_keyPair⟩

set_option maxRecDepth 100000 in
/-- Non-vacuity: the hypotheses of C16 are met, with a strict configuration, an additional
field on top, and another chunking of the body. -/
theorem test_end_to_end : ∃ o, Signed testHeaders [simpleRequest] [b!"ab", b!"c\r\n"] (fun _ => 1000) [.ok o] ∧
    TypedHeaders testHeaders ∧ TypedRequest simpleRequest ∧ Readable simpleRequest testHeaders 1000 ∧
    (∀ n, (lower n = c!"dkim-signature" ∨ ∃ g ∈ [(⟨c!"Received", b!" z"⟩ : Field)], g.name = n) →
      mentions (namesToSign simpleRequest testHeaders) n ≤ occurrences testHeaders n) ∧
    KeyPublished (E := testEnv) testResolver { Config.default with forbidUnsignedContent := true } simpleRequest ∧
    PolicyAccepts { Config.default with forbidUnsignedContent := true } 1050
      ([⟨c!"Received", b!" z"⟩] ++ ⟨o.headerName, utf8 o.headerValue⟩ :: testHeaders) b!"abc\r\n" simpleRequest
      o.signature := by
  refine ⟨_, ⟨_, _, _, rfl, rfl, rfl⟩, testHeaders_typed, typed_of_check (by decide), ?_, ?_, test_published _, ?_, ?_⟩
  · refine ⟨testEnv_kept (typed_of_check (by decide)), fun _ f hf _ => test_readable f hf, ?_, ?_, ?_⟩
    · rintro j l ⟨⟩ ⟨⟩
      exact .inr ((isLocalPart_iff _).1 rfl)
    · intro v hv
      simp [simpleRequest, testRequest] at hv
    · intro _
      exact ⟨by rintro t ⟨⟩, by decide⟩
  · rintro n (hn | ⟨g, hg, rfl⟩)
    · have : mentions (namesToSign simpleRequest testHeaders) n = 0 := by
        simp only [mentions, namesToSign, simpleRequest, List.countP_eq_zero, sameName, hn]
        decide
      omega
    · rw [List.mem_singleton.1 hg]
      decide
  · refine (validateSignature_matches _ _ (by decide) _).passes ?_
    rfl
  · intro _ n hn
    cases hn

/-- A request to also sign the name DKIM-Signature, which does not occur in the header. -/
def oversigning : SignRequest testEnv :=
  { simpleRequest with headerSelection := .manual [c!"From", c!"DKIM-Signature"] }

set_option maxRecDepth 100000 in
/-- C16 is violated: a request that lists DKIM-Signature once more than it occurs is
accepted and signed; but then the verifier takes the new signature field for a signed
field. -/
theorem C16_violation_oversigning : ∃ o,
    Signed testHeaders [oversigning] [b!"ab", b!"c\r\n"] (fun _ => 1000) [.ok o] ∧
    TypedHeaders testHeaders ∧ TypedRequest oversigning ∧ Readable oversigning testHeaders 1000 ∧
    KeyPublished (E := testEnv) testResolver .default oversigning ∧
    PolicyAccepts .default 1050 (⟨o.headerName, utf8 o.headerValue⟩ :: testHeaders) b!"abc\r\n" oversigning
      o.signature ∧
    ∃ results asked, Run testEnv testResolver .default (fun _ => 1050)
        (⟨o.headerName, utf8 o.headerValue⟩ :: testHeaders) [b!"ab", b!"c\r\n"] results asked ∧
      results.map (fun r => (r.index, r.status)) =
        [(0, .failure (.verificationFailure .verificationFailure))] := by
  refine ⟨_, ⟨_, _, _, rfl, rfl, rfl⟩, testHeaders_typed, typed_of_check (by decide), ?_, ?_, ⟨?_, ?_⟩,
    run_of_statuses rfl⟩
  · refine ⟨testEnv_kept (typed_of_check (by decide)), fun _ f hf _ => test_readable f hf, ?_, ?_, ?_⟩
    · rintro j l ⟨⟩ ⟨⟩
      exact .inr ((isLocalPart_iff _).1 rfl)
    · intro v hv
      simp [oversigning, simpleRequest, testRequest] at hv
    · intro _
      exact ⟨by rintro t ⟨⟩, by decide⟩
  · exact test_published _
  · refine (validateSignature_matches _ _ (by decide) _).passes ?_
    rfl
  · intro _ n hn
    cases hn

end Dkim
