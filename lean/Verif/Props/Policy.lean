import Verif.Spec.Policy
import Verif.Props.MonotoneCases
import Verif.Props.Reasons
import Verif.Props.Results

/-!
# Property C109: the verification policy only adds policy errors, and can be turned off
-/

namespace Dkim

open Spec

variable {E : Env}

/-- C109: a policy error is not reported if its setting is turned off, whatever the other settings
are. -/
theorem C109_turned_off (L : Lawful E) {resolver : Resolver} {cfg : Config} {clock : Nat → Int}
    (T : TypedTimes cfg clock) {headers : List Field} {chunks : List Bytes} {results : List VerificationResult}
    {asked : List Str} (h : Run E resolver cfg clock headers chunks results asked) (p : PolicyError)
    (hoff : TurnedOff cfg p) (r : VerificationResult) (hr : r ∈ results) :
    r.status ≠ .failure (.policy p) := by
  intro hs
  obtain ⟨f, _, hreason⟩ := C86_reason L T h r hr _ hs
  unfold Reason at hreason
  split at hreason
  · obtain ⟨k, e, _⟩ := hreason
    cases e
  · exact hreason
  · rcases hreason with hreason | hreason
    · cases p <;> simp only [DueToSignature, TurnedOff] at hreason hoff
      · simp [hoff] at hreason
      · simp [hoff] at hreason
      · simp [hoff] at hreason
      · simp [hoff] at hreason
      · simp [hoff] at hreason
    · cases hreason
  · rcases hreason.2 with hreason | hreason
    · cases p <;> simp only [DueToRecord, TurnedOff] at hreason hoff
      obtain ⟨k, _, hk⟩ := hreason
      omega
    · cases p <;> simp only [DueToBody, TurnedOff] at hreason hoff
      simp [hoff] at hreason

/-- C109: with all of the settings turned off, the result `policy` is not reported. -/
theorem C109_no_policy (L : Lawful E) {resolver : Resolver} {cfg : Config} {clock : Nat → Int}
    (T : TypedTimes cfg clock) {headers : List Field} {chunks : List Bytes} {results : List VerificationResult}
    {asked : List Str} (h : Run E resolver cfg clock headers chunks results asked) (hoff : ∀ p, TurnedOff cfg p)
    (r : VerificationResult) (hr : r ∈ results) : r.status.toDkimResult ≠ .policy := by
  intro hs
  have key : ∃ p, r.status = .failure (.policy p) := by
    cases hst : r.status with
    | success => rw [hst] at hs; cases hs
    | failure e =>
      rw [hst] at hs
      cases e <;> simp only [VerificationStatus.toDkimResult] at hs
      all_goals first
        | exact ⟨_, rfl⟩
        | cases hs
        | (rename_i k; cases k <;> cases hs)
        | (rename_i k; obtain ⟨k, _⟩ := k; cases k <;> cases hs)
  obtain ⟨p, hp⟩ := key
  exact C109_turned_off L T h p (hoff p) r hr hp

theorem signatureChecks_lenient {cfg cfg' : Config} (hc : NowhereStricter cfg cfg') {now : Int} {headers : List Field}
    {sig : DkimSignature} :
    (AllPass (signatureChecks E cfg (unixTime cfg now) headers sig) →
      AllPass (signatureChecks E cfg' (unixTime cfg' now) headers sig)) ∧
    ∀ e, FirstFailure (signatureChecks E cfg (unixTime cfg now) headers sig) e → (∀ p, e ≠ .policy p) →
      FirstFailure (signatureChecks E cfg' (unixTime cfg' now) headers sig) e := by
  have ht : unixTime cfg' now = unixTime cfg now := by simp only [unixTime, hc.clock]
  rw [ht]
  have hreq : (∀ h ∈ cfg.headersRequired, ∃ n ∈ sig.signedHeaders, lower n = lower h) →
      ∀ h ∈ cfg'.headersRequired, ∃ n ∈ sig.signedHeaders, lower n = lower h := by
    intro h n hn
    obtain ⟨m, hm, e⟩ := hc.required n hn
    obtain ⟨k, hk, e'⟩ := h m hm
    exact ⟨k, hk, e'.trans e⟩
  have huns : (∀ h ∈ cfg.headersForbiddenUnsigned, occurrences headers h ≤ mentions sig.signedHeaders h) →
      ∀ h ∈ cfg'.headersForbiddenUnsigned, occurrences headers h ≤ mentions sig.signedHeaders h := by
    intro h n hn
    obtain ⟨m, hm, e⟩ := hc.unsigned n hn
    have es : sameName n = sameName m := by
      funext k
      rw [Bool.eq_iff_iff, sameName_iff, sameName_iff, e]
    have := h m hm
    simp only [occurrences, mentions, es] at this ⊢
    exact this
  unfold signatureChecks
  constructor
  · simp only [allPass_cons]
    rintro ⟨c1, c2, c3, c4, c5, c6, c7⟩
    refine ⟨hreq c1, huns c2, c3, ?_, ?_, fun hp => (c6 hp).imp_left hc.sha1, c7⟩
    · rcases c4 with g | g
      · exact .inl (hc.expired g)
      · refine .inr fun x hx => ?_
        have := g x hx
        have := hc.tolerance
        omega
    · rcases c5 with g | g
      · exact .inl (hc.future g)
      · refine .inr fun x hx => ?_
        have := g x hx
        have := hc.tolerance
        omega
  · intro e h hp
    simp only [firstFailure_cons] at h ⊢
    rcases h with ⟨_, rfl⟩ | ⟨c1, ⟨_, rfl⟩ | ⟨c2, ⟨c3, rfl⟩ | ⟨c3, ⟨_, rfl⟩ | ⟨c4, ⟨_, rfl⟩ | ⟨c5, ⟨_, rfl⟩ | ⟨_, h⟩⟩⟩⟩⟩⟩
    · exact absurd rfl (hp _)
    · exact absurd rfl (hp _)
    · exact .inr ⟨hreq c1, .inr ⟨huns c2, .inl ⟨c3, rfl⟩⟩⟩
    · exact absurd rfl (hp _)
    · exact absurd rfl (hp _)
    · exact absurd rfl (hp _)
    · exact absurd h firstFailure_nil

/-- C109: the settings of the policy other than the key size only add policy errors. Under a configuration that
is nowhere stricter, and has the same limits for signatures and key sizes, a result is the same, or it
was a policy error. -/
theorem C109_only_policy (L : Lawful E) {resolver : Resolver} {cfg cfg' : Config} {clock : Nat → Int}
    (T : TypedTimes cfg clock) (T' : TypedTimes cfg' clock) {headers : List Field} {chunks chunks' : List Bytes}
    {results results' : List VerificationResult} {asked asked' : List Str}
    (h : Run E resolver cfg clock headers chunks results asked)
    (h' : Run E resolver cfg' clock headers chunks' results' asked') (hbody : chunks.flatten = chunks'.flatten)
    (hc : NowhereStricter cfg cfg') (hbits : cfg'.minKeyBits = cfg.minKeyBits)
    (hmax : cfg'.maxSignatures = cfg.maxSignatures) (r : VerificationResult) (hr : r ∈ results) :
    (∃ p, r.status = .failure (.policy p)) ∨ r ∈ results' := by
  obtain ⟨f, hf, hj⟩ := (verify_judged L T h).1 r hr
  rw [← hmax] at hf
  have hrec : ∀ original sig txt t, Outcome E cfg headers f original sig txt t ↔
      Outcome E cfg' headers f original sig txt t := by
    intro original sig txt t
    have : recordChecks E cfg' headers f original sig = recordChecks E cfg headers f original sig := by
      funext rec
      unfold recordChecks
      rw [hbits]
    unfold Outcome
    rw [this]
  suffices hs : (∃ p, r.status = .failure (.policy p)) ∨
      Judged E resolver cfg' (clock r.index) headers chunks'.flatten r.index f r by
    rcases hs with hs | hs
    · exact .inl hs
    · exact .inr ((C82_exactly L T' h' r.index f hf r).2 hs).1
  rw [← hbody]
  generalize r.index = i at hj hf ⊢
  have hsc := fun sig => signatureChecks_lenient (E := E) hc (now := clock i) (headers := headers) (sig := sig)
  cases hj with
  | unparsed e h1 h2 => exact .inr (.unparsed e h1 h2)
  | rejected v s e h1 h2 =>
    by_cases he : ∃ p, e = .policy p
    · obtain ⟨p, rfl⟩ := he
      exact .inl ⟨p, rfl⟩
    · exact .inr (.rejected v s e h1 ((hsc s).2 e h2 fun p hp => he ⟨p, hp⟩))
  | noAnswer v s n e h1 h2 h3 h4 => exact .inr (.noAnswer v s n e h1 ((hsc s).1 h2) h3 h4)
  | noRecords v s n h1 h2 h3 h4 => exact .inr (.noRecords v s n h1 ((hsc s).1 h2) h3 h4)
  | verified v o s n ts before after txt rec h1 h2 h3 h4 h5 h6 h7 h8 =>
    have hb : (∃ p, bodyStatus E cfg s chunks.flatten = .failure (.policy p)) ∨
        bodyStatus E cfg s chunks.flatten = bodyStatus E cfg' s chunks.flatten := by
      unfold bodyStatus
      cases s.bodyLength with
      | none => exact .inr rfl
      | some n =>
        simp only
        split
        · exact .inr rfl
        · split
          · exact .inl ⟨_, rfl⟩
          · next hn =>
            have hn' : ¬ (n < (codeBody s.canonicalization.body chunks.flatten).length ∧
                cfg'.forbidUnsignedContent = true) := fun hn' => hn ⟨hn'.1, hc.content hn'.2⟩
            rw [if_neg hn']
            exact .inr rfl
    rcases hb with hb | hb
    · exact .inl hb
    · rw [hb]
      refine .inr (.verified v o s n ts before after txt rec h1 h2 ((hsc s).1 h3) h4 h5 h6 ?_ ((hrec ..).1 h8))
      intro t ht
      obtain ⟨e, r, g⟩ := h7 t ht
      exact ⟨e, r, (hrec ..).1 g⟩
  | unverified v o s n ts before txt e rec h1 h2 h3 h4 h5 h6 h7 h8 =>
    refine .inr (.unverified v o s n ts before txt e rec h1 h2 ((hsc s).1 h3) h4 h5 h6 ?_ ((hrec ..).1 h8))
    intro t ht
    obtain ⟨e, r, g⟩ := h7 t ht
    exact ⟨e, r, (hrec ..).1 g⟩

/-! ## Concrete cases -/

/-- A configuration with everything turned off. -/
def noPolicy : Config :=
  { Config.default with
    headersForbiddenUnsigned := [], minKeyBits := 0, allowSha1 := true, allowExpired := true,
    allowTimestampInFuture := true }

set_option maxRecDepth 100000 in
/-- Non-vacuity of `C109_no_policy`. -/
example : (∀ p, TurnedOff noPolicy p) ∧ ∃ results asked,
    Run testEnv testResolver noPolicy (fun _ => 2300) testMessage testBody results asked ∧ results ≠ [] := by
  refine ⟨by intro p; cases p <;> rfl, ?_⟩
  obtain ⟨results, asked, h, r, hr, _⟩ := result_of_statuses (E := testEnv) (resolver := testResolver) (cfg := noPolicy)
    (now := 2300) (headers := testMessage) (chunks := testBody) (l := [(0, .success), (2, .success)]) (by rfl)
    (i := 0) (s := .success) (by simp)
  exact ⟨results, asked, h, List.ne_nil_of_mem hr⟩

set_option maxRecDepth 100000 in
/-- Non-vacuity of `C109_only_policy`: one result is a policy error, and a success if the setting is turned off;
the other is the same. -/
example : NowhereStricter .default { Config.default with allowExpired := true } ∧
    statuses testEnv testResolver .default 2300 testMessage testBody =
      some [(0, .success), (2, .failure (.policy .signatureExpired))] ∧
    statuses testEnv testResolver { Config.default with allowExpired := true } 2300 testMessage testBody =
      some [(0, .success), (2, .success)] :=
  ⟨⟨Nat.le_refl _, fun n h => ⟨n, h, rfl⟩, fun n h => ⟨n, h, rfl⟩, Nat.le_refl _, id, id, fun _ => rfl, id, Nat.le_refl _,
    rfl⟩, by rfl, by rfl⟩

/-- An answer with a key that is small, and a revoked key. -/
def smallFirst : Resolver := fun _ => ⟨0, .ok [.ok b!"p=Ag==", .ok b!"p="]⟩

set_option maxRecDepth 100000 in
/-- The key size is different: a rejection because of it can be hidden by the failure of a later key record. -/
theorem C109_key_size_hidden :
    statuses testEnv smallFirst .default 1500 testMessage testBody = some [(0, .success), (2, .failure .wrongKeyType)] ∧
    statuses testEnv smallFirst { Config.default with minKeyBits := 1025 } 1500 testMessage testBody =
      some [(0, .failure .keyRevoked), (2, .failure .wrongKeyType)] := ⟨by rfl, by rfl⟩

end Dkim
