import Verif.Props.EndToEnd

/-!
# Property C78: what is signed with the default selection of headers verifies

C16 has exceptions, which come from unusual requests. With the default selection of
header fields and without an `i=` local part, a fixed timestamp, an extension tag `q=`
or a fixed body length there are none.
-/

namespace Dkim

open Spec

variable {E : Env}

/-- A request in which the settings that can make a signature unverifiable have their
default. Canonicalization, copied header fields, format, duration and extension tags
other than `q=` are free. -/
structure Spec.AutoRequest (r : SignRequest E) : Prop where
  selection : r.headerSelection = .auto
  identity : ∀ i, r.identity = some i → i.localPart = none
  length : ∀ n, r.bodyLength ≠ .exact n
  timestamp : r.timestamp = .now
  extTags : ∀ v, (c!"q", v) ∉ r.extTags
  algorithm : r.algorithm ≠ .rsaSha1

theorem mem_namesToSign_auto {r : SignRequest E} (ha : AutoRequest r) {headers : List Field} {n : Str}
    (hn : n ∈ namesToSign r headers) : lower n ∈ signedByDefault := by
  unfold namesToSign at hn
  rw [ha.selection] at hn
  simpa using (List.mem_filter.1 (List.mem_reverse.1 hn)).2

theorem mentions_auto {r : SignRequest E} (ha : AutoRequest r) (headers : List Field) (n : Str) :
    mentions (namesToSign r headers) n = if lower n ∈ signedByDefault then occurrences headers n else 0 := by
  unfold mentions occurrences namesToSign
  rw [ha.selection]
  simp only [List.countP_reverse, List.countP_filter, List.countP_map]
  split
  · next hm =>
    refine List.countP_congr fun f _ => ?_
    simp only [Function.comp, Bool.and_eq_true, sameName_iff]
    constructor
    · exact fun h => h.1
    · intro h; exact ⟨h, by simpa [← h] using hm⟩
  · next hm =>
    refine List.countP_eq_zero.2 fun f _ => ?_
    simp only [Function.comp, Bool.and_eq_true, sameName_iff]
    rintro ⟨h1, h2⟩
    exact hm (by rw [h1]; simpa using h2)

theorem special_lower {c : Char} (d : Char) (hd : d = ';' ∨ d = '=' ∨ d = '|') (h : c = d) : c.toLower = d := by
  subst h
  rcases hd with rfl | rfl | rfl <;> decide

theorem readable_auto {r : SignRequest E} (hk : KeptNames r) (ha : AutoRequest r) {headers : List Field}
    (hh : TypedHeaders headers) {now : Nat} (hnow : now < 2 ^ 63) : Readable r headers now := by
  refine ⟨hk, ?_, ?_, fun v hv => absurd hv (ha.extTags v), ?_⟩
  · rintro _ f hf ⟨n, hn, e⟩
    have hm := mem_namesToSign_auto ha hn
    rw [e] at hm
    refine readableName_plain (hh f hf).1 ?_
    have hall : ∀ m ∈ signedByDefault, ∀ d ∈ [';', '=', '|'], d ∉ m := by decide
    have key : ∀ d, (d = ';' ∨ d = '=' ∨ d = '|') → d ∉ f.name := by
      intro d hd hc
      refine hall _ hm d (by simpa using hd) ?_
      exact List.mem_map.2 ⟨d, hc, special_lower d hd rfl⟩
    exact ⟨key _ (.inl rfl), key _ (.inr (.inl rfl)), key _ (.inr (.inr rfl))⟩
  · intro j l hj hl
    rw [ha.identity j hj] at hl
    cases hl
  · intro _
    refine ⟨fun t h => ?_, fun _ => by omega⟩
    rw [ha.timestamp] at h
    cases h

/-- The field name of C16 that is added is not signed by default. -/
theorem auto_verify (law : IdnaLaw E.idna) (hs : SortLaw E.sortBy) (hset : SetLaw E.keySet)
    (hord : OrderLaw E.lookupOrder) (hsign : SignLaw E.crypto) (hhash : ∀ a b, E.hash a b ≠ [])
    {headers : List Field} {requests : List (SignRequest E)} (hh : TypedHeaders headers)
    (ht : ∀ r ∈ requests, TypedRequest r) {chunks : List Bytes} {clock : Nat → Nat}
    {out : List (Except SigningError SigningOutput)} (h : Signed headers requests chunks clock out)
    (hlen : ∀ k, (codeBody k chunks.flatten).length < 2 ^ 64)
    {i : Nat} (hclock : clock i < 2 ^ 63)
    {r : SignRequest E} (hr : requests[i]? = some r) (hk : KeptNames r) (ha : AutoRequest r)
    (husize : r.bodyLength = .messageContent →
      (codeBody r.canonicalization.body chunks.flatten).length ≤ E.usizeMax)
    {o : SigningOutput} (ho : out[i]? = some (.ok o))
    {resolver : Resolver} {cfg : Config} {vclock : Nat → Int} (T : TypedTimes cfg vclock)
    (hreq : cfg.headersRequired = []) (hforb : cfg.headersForbiddenUnsigned = [c!"From"])
    {above : List Field} {chunks' : List Bytes} (hbody : chunks'.flatten = chunks.flatten)
    (hmax : above.countP (fun g => decide (IsDkimField g)) < cfg.maxSignatures)
    (habove : ∀ g ∈ above, lower g.name ∉ signedByDefault)
    (hkey : KeyPublished resolver cfg r)
    (hexp : cfg.allowExpired = true ∨ ∀ d, r.validDuration = some d →
      unixTime cfg (vclock above.length) < clock i + d + cfg.timeTolerance)
    (hfut : cfg.allowTimestampInFuture = true ∨ clock i ≤ unixTime cfg (vclock above.length) + cfg.timeTolerance) :
    ∃ results asked, Run E resolver cfg vclock (above ++ ⟨o.headerName, utf8 o.headerValue⟩ :: headers) chunks'
        results asked ∧
      ∃ res ∈ results, res.index = above.length ∧ res.status = .success := by
  obtain ⟨k1, part, sg, k2, k3⟩ := C36_reflects law hs hset headers requests hh ht chunks clock out h hlen i r hr
    o ho
  have hname : lower o.headerName = c!"dkim-signature" := by
    rw [k1]; exact (signed_output law hs hset hh ht h hlen hr ho).2.1.headerName
  have ht64 : unixTime cfg (vclock above.length) < 2 ^ 63 := by
    unfold unixTime
    split
    · next t e => have := T.fixed t e; omega
    · have := T.clock above.length; omega
  refine C16_sign_verify_partial law hs hset hord hsign hhash headers requests hh ht chunks clock out h hlen i
    (by omega) r hr o ho (readable_auto hk ha hh hclock) resolver cfg vclock T above chunks' hbody hmax ?_ hkey ?_
  · intro n hn
    rw [mentions_auto ha]
    split
    · exact Nat.le_refl _
    · exact Nat.zero_le _
  · refine ⟨?_, fun _ n hn => absurd hn (ha.length n)⟩
    unfold signatureChecks
    simp only [allPass_cons]
    rw [k3]
    refine ⟨by rw [hreq]; simp, ?_, ?_, ?_, ?_, ?_, allPass_nil⟩
    · rw [hforb]
      intro n hn
      rw [List.mem_singleton] at hn
      subst hn
      show _ ≤ mentions (namesToSign r headers) _
      rw [mentions_auto ha, if_pos (by decide)]
      have e : ∀ l : List Field, (∀ g ∈ l, lower g.name ∉ signedByDefault) →
          occurrences (l ++ headers) c!"From" = occurrences headers c!"From" := by
        intro l hl
        unfold occurrences
        rw [List.countP_append, List.countP_eq_zero.2, Nat.zero_add]
        intro g hg
        rw [sameName_iff]
        intro e
        exact hl g hg (by rw [← e]; decide)
      have := e (above ++ [⟨o.headerName, utf8 o.headerValue⟩]) (by
        intro g hg
        rcases List.mem_append.1 hg with hg | hg
        · exact habove g hg
        · rw [List.mem_singleton.1 hg]
          show lower o.headerName ∉ _
          rw [hname]
          decide)
      rw [List.append_assoc] at this
      exact Nat.le_of_eq this
    · intro n hn
      have hn : (if r.bodyLength = .noLimit then none else some part.length) = some n := hn
      split at hn
      · cases hn
      · next hl =>
        cases hn
        have hp : part = codeBody r.canonicalization.body chunks.flatten := by
          unfold bodyToSign at k2
          revert k2
          cases hb : r.bodyLength with
          | exact m => exact absurd hb (ha.length m)
          | noLimit => intro k2; exact (Option.some.inj k2).symm
          | messageContent => intro k2; exact (Option.some.inj k2).symm
        rw [hp]
        refine husize ?_
        cases hb : r.bodyLength with
        | exact m => exact absurd hb (ha.length m)
        | noLimit => exact absurd hb hl
        | messageContent => rfl
    · rcases hexp with hexp | hexp
      · exact .inl hexp
      · refine .inr fun x hx => ?_
        have hx : (r.validDuration.map fun d =>
          min (2 ^ 64 - 1) ((match r.timestamp with | .exact t => t | _ => clock i) + d)) = some x := hx
        rw [ha.timestamp] at hx
        obtain ⟨d, hd, e⟩ := Option.map_eq_some_iff.1 hx
        have := hexp d hd
        simp only at e
        omega
    · rcases hfut with hfut | hfut
      · exact .inl hfut
      · refine .inr fun t hx => ?_
        have hx : (match r.timestamp with | .none => none | .now => some (clock i) | .exact t => some t) = some t := hx
        rw [ha.timestamp] at hx
        cases hx
        exact hfut
    · intro _
      refine .inr ?_
      show hashOf r.algorithm ≠ _
      have := ha.algorithm
      revert this
      cases r.algorithm <;> simp [hashOf]

/-- C78: a message signed with the default selection of header fields, with the field put
on top (or below other added fields that are not signed by default), is verified
successfully in the default configuration, in the time from five minutes before it was
signed to five minutes after the signature expires, if the form in which its domain names
are written stands for the same names. -/
theorem C78_auto_verifies_partial (law : IdnaLaw E.idna) (hs : SortLaw E.sortBy) (hset : SetLaw E.keySet)
    (hord : OrderLaw E.lookupOrder) (hsign : SignLaw E.crypto) (hhash : ∀ a b, E.hash a b ≠ [])
    (headers : List Field) (requests : List (SignRequest E)) (hh : TypedHeaders headers)
    (ht : ∀ r ∈ requests, TypedRequest r) (chunks : List Bytes) (clock : Nat → Nat)
    (out : List (Except SigningError SigningOutput)) (h : Signed headers requests chunks clock out)
    (hlen : ∀ k, (codeBody k chunks.flatten).length < 2 ^ 64)
    (i : Nat) (hclock : clock i < 2 ^ 63)
    (r : SignRequest E) (hr : requests[i]? = some r) (hk : KeptNames r) (ha : AutoRequest r)
    (husize : r.bodyLength = .messageContent →
      (codeBody r.canonicalization.body chunks.flatten).length ≤ E.usizeMax)
    (o : SigningOutput) (ho : out[i]? = some (.ok o))
    (resolver : Resolver) (hkey : KeyPublished resolver .default r)
    (vclock : Nat → Int) (hv : ∀ k, vclock k < 2 ^ 63)
    (above : List Field) (habove : ∀ g ∈ above, lower g.name ∉ signedByDefault)
    (hmax : above.countP (fun g => decide (IsDkimField g)) < 10)
    (hearly : clock i ≤ vclock above.length + 300)
    (hlate : ∀ d, r.validDuration = some d → vclock above.length < clock i + d + 300)
    (chunks' : List Bytes) (hbody : chunks'.flatten = chunks.flatten) :
    ∃ results asked,
      Run E resolver .default vclock (above ++ ⟨o.headerName, utf8 o.headerValue⟩ :: headers) chunks' results asked ∧
      ∃ res ∈ results, res.index = above.length ∧ res.status = .success := by
  refine auto_verify law hs hset hord hsign hhash hh ht h hlen hclock hr hk ha husize ho ⟨hv, fun _ e => by cases e⟩ rfl rfl hbody
    hmax habove hkey (.inr ?_) (.inr ?_)
  · intro d hd
    have := hlate d hd
    show (vclock above.length).toNat < clock i + d + 300
    omega
  · show clock i ≤ (vclock above.length).toNat + 300
    omega

/-! ## The default request -/

theorem new_typed {d s : Str} {a : SigAlg} {k : SigningKey E.crypto} (hd : ValidDomain true E.idna d)
    (hs : ValidDomain false E.idna s) (ha : a ≠ .rsaSha1) (v : Option Nat) (hv : ∀ n, v = some n → n < 2 ^ 64) :
    TypedRequest { SignRequest.new d s a k with validDuration := v } where
  domain := hd
  selector := hs
  identity := by intro i h; cases h
  names := by intro ns h; cases h
  length := by intro n h; cases h
  timestamp := by intro n h; cases h
  duration := hv
  width := by show 1 ≤ OutputFormat.default.lineWidth; decide
  sha1 := fun h => absurd h ha

theorem new_kept {d s : Str} {a : SigAlg} {k : SigningKey E.crypto} (hd : KeptName E.idna false d)
    (hs : KeptName E.idna false s) (v : Option Nat) :
    KeptNames { SignRequest.new d s a k with validDuration := v } where
  domain := hd
  selector := hs
  identity := by intro i h; cases h

theorem new_auto {d s : Str} {a : SigAlg} {k : SigningKey E.crypto} (ha : a ≠ .rsaSha1) (v : Option Nat) :
    AutoRequest { SignRequest.new d s a k with validDuration := v } where
  selection := rfl
  identity := by intro i h; cases h
  length := by intro n h; cases h
  timestamp := rfl
  extTags := by intro v h; cases h
  algorithm := ha

theorem new_valid {d s : Str} {a : SigAlg} {k : SigningKey E.crypto} (hk : typeOfKey k = keyTypeOf a)
    (v : Option Nat) (hv : v ≠ some 0) : ValidRequest { SignRequest.new d s a k with validDuration := v } := by
  unfold ValidRequest requestRules
  simp only [List.forall_mem_cons, List.not_mem_nil, false_imp_iff, implies_true, and_true]
  refine ⟨hk, nofun, nofun, nofun, hv, ⟨by exact List.nodup_nil, nofun⟩, ?_, ⟨?_, ?_⟩, nofun⟩
  · show lower OutputFormat.default.headerName = _; decide
  · show OutputFormat.default.indentation ≠ _; decide
  show ∀ c ∈ c!"\t", wsp c
  intro c hc
  rw [List.mem_singleton] at hc
  subst hc
  unfold wsp
  decide

/-- C78: a request that is made of a domain, a selector, an algorithm and a suitable key,
with all settings left at their default, is always accepted for a message with a From
field, and signing does not panic; it succeeds unless the RSA primitive fails. -/
theorem C78_default_signs (law : IdnaLaw E.idna) (hs : SortLaw E.sortBy) (hset : SetLaw E.keySet)
    (headers : List Field) (hh : TypedHeaders headers) (hfrom : HasFrom headers) (domain selector : Str)
    (hd : ValidDomain true E.idna domain) (hsel : ValidDomain false E.idna selector) (alg : SigAlg)
    (halg : alg ≠ .rsaSha1) (key : SigningKey E.crypto) (hkey : typeOfKey key = keyTypeOf alg)
    (chunks : List Bytes) (clock : Nat → Nat) (hlen : ∀ k, (codeBody k chunks.flatten).length < 2 ^ 64) :
    ∃ res, Signed headers [SignRequest.new domain selector alg key] chunks clock [res] ∧
      ((∃ o, res = .ok o) ∨
        (res = .error .signingFailure ∧ ∃ data, signWith key (hashOf alg) data = none)) := by
  have ht : ∀ r ∈ [SignRequest.new domain selector alg key], TypedRequest r := by
    intro r hr
    rw [List.mem_singleton.1 hr]
    exact new_typed hd hsel halg _ (by rintro n ⟨⟩; decide)
  obtain ⟨s, h1⟩ := (C34_accepts law.toCaseLaw headers _ ht).2 ⟨hfrom, by simp, by simp, by
    intro r hr
    rw [List.mem_singleton.1 hr]
    exact new_valid hkey _ (by decide)⟩
  obtain ⟨s', ss, out, h2, h3, h4, h5⟩ := C35_results law hs hset headers _ s hh ht h1 chunks clock hlen
  obtain ⟨res, g1, g2, g3⟩ := h5 0 _ rfl
  have eout : out = [res] := by
    match out, h4, g1 with
    | [x], _, g1 => simpa using g1
  refine ⟨res, ⟨s, s', ss, h1, h2, by rw [h3, eout]⟩, ?_⟩
  cases res with
  | ok o => exact .inl ⟨o, rfl⟩
  | error e =>
    refine .inr ?_
    rcases g3 e rfl with rfl | ⟨rfl, v, hv⟩
    · have := g2.1 rfl
      cases this
    · exact ⟨rfl, _, hv⟩

/-! ## Concrete cases -/

/-- A request with non-default settings, with automatic header selection. -/
def autoRequest : SignRequest testEnv :=
  { SignRequest.new c!"example.com" c!"e" .ed25519Sha256 (.ed25519 ()) with
    canonicalization := ⟨.simple, .relaxed⟩
    copyHeaders := true
    bodyLength := .messageContent
    extTags := [(c!"r", c!"y")] }

set_option maxRecDepth 100000 in
/-- Non-vacuity: the hypotheses of `C78_auto_verifies_partial` are met. -/
example : ∃ o, Signed testHeaders [autoRequest] [b!"ab", b!"c\r\n"] (fun _ => 1000) [.ok o] ∧
    TypedHeaders testHeaders ∧ TypedRequest autoRequest ∧ KeptNames autoRequest ∧ AutoRequest autoRequest ∧
    (∀ k, (codeBody k [b!"ab", b!"c\r\n"].flatten).length ≤ testEnv.usizeMax) ∧
    KeyPublished (E := testEnv) testResolver .default autoRequest ∧
    ∀ g ∈ [(⟨c!"Received", b!" z"⟩ : Field)], lower g.name ∉ signedByDefault := by
  refine ⟨_, ⟨_, _, _, rfl, rfl, rfl⟩, testHeaders_typed, typed_of_check (by decide),
    testEnv_kept (typed_of_check (by decide)), ?_, ?_, ?_, by decide⟩
  · exact ⟨rfl, nofun, nofun, rfl, by intro v; simp [autoRequest], by decide⟩
  · intro k; cases k <;> decide
  · exact ⟨c!"example.com", c!"e", _, .ok b!"v=DKIM1; k=ed25519; p=BA==", _, .ed25519 (), rfl, rfl, rfl,
      List.mem_cons_self, (txtRecord_iff _ _).2 rfl, rfl, by decide, by decide, nofun, rfl, trivial, trivial,
      test_keyPair⟩

end Dkim
