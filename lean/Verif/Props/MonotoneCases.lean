import Verif.Props.Monotone

/-!
# Concrete cases for C57 to C59, C70, C72 and C75
-/

namespace Dkim

open Spec

set_option maxRecDepth 100000 in
theorem testSig1_parsed (value : Str) (sig : DkimSignature)
    (h : FieldSignature testEnv ⟨c!"DKIM-Signature", utf8 testSig1⟩ value sig) :
    sig.signedHeaders = [c!"From", c!"Subject"] ∧ sig.canonicalization = ⟨.relaxed, .simple⟩ ∧
    testEnv.idna.toAscii sig.domain = some c!"example.com" ∧ testEnv.idna.toAscii sig.selector = some ['r'] := by
  have hv : value = testSig1 := utf8_injective h.1.symm
  subst hv
  have h5 := (sigFromStr_iff testEnv_lawful.idna testEnv.pre testSig1 sig).2 h.2
  have : (match sigFromStr testEnv.idna testEnv.pre testSig1 with
    | .ok s => some (s.signedHeaders, s.canonicalization, testEnv.idna.toAscii s.domain, testEnv.idna.toAscii s.selector)
    | _ => none) = some ([c!"From", c!"Subject"], ⟨.relaxed, .simple⟩, some c!"example.com", some ['r']) := by rfl
  rw [h5] at this
  simp only [Option.some.injEq, Prod.mk.injEq] at this
  exact this

/-- The fields in another order, with other whitespace, and with a further Subject above; the
other signature is gone; the body has another empty line at the end. -/
def testRearranged : List Field :=
  [⟨c!"subject", b!" above"⟩, ⟨c!"SUBJECT", b!"\r\n\ta \t"⟩, ⟨c!"DKIM-Signature", utf8 testSig1⟩,
   ⟨c!"from", b!"  me"⟩]

set_option maxRecDepth 100000 in
/-- C57: the first signature of `testMessage` has the same result in a rearranged message. -/
example : ∃ results results' asked asked' r r',
    Run testEnv testResolver .default (fun _ => 1500) testMessage testBody results asked ∧
    Run testEnv testResolver .default (fun _ => 1500) testRearranged [b!"abc\r\n\r", b!"\n"] results' asked' ∧
    r ∈ results ∧ r' ∈ results' ∧ r.index = 0 ∧ r'.index = 2 ∧ r.status = .success ∧
    r' = { r with index := 2 } := by
  have T := typed_default (t := 1500) (by decide) Config.default rfl
  have e : statuses testEnv testResolver .default 1500 testRearranged [b!"abc\r\n\r", b!"\n"]
      = some [(2, .success)] := by rfl
  obtain ⟨results, asked, h, r, hr, hi, hs⟩ := result_of_statuses test_success (i := 0) (s := .success) (by simp)
  obtain ⟨results', asked', h', r', hr', hi', hs'⟩ := result_of_statuses e (i := 2) (s := .success) (by simp)
  refine ⟨results, results', asked, asked', r, r', h, h', hr, hr', hi, hi', hs, ?_⟩
  have := C57_canonical testEnv_lawful T T h h' r r' hr hr' ⟨c!"DKIM-Signature", utf8 testSig1⟩
    (by rw [hi]; rfl) (by rw [hi']; rfl) rfl ?_
  · rwa [hi'] at this
  · intro value sig hsig
    obtain ⟨h1, h2, -⟩ := testSig1_parsed value sig hsig
    constructor
    · intro n hn
      simp only [Config.default, List.mem_singleton] at hn
      subst hn
      rfl
    · intro n hn
      rw [h1] at hn
      simp only [canonicalInstances, h1, h2]
      simp only [List.mem_cons, List.not_mem_nil, or_false] at hn
      rcases hn with rfl | rfl <;> rfl
    · rw [h2]
      rfl

set_option maxRecDepth 100000 in
/-- C75: the first signature of `testMessage` has the same result if another signature is
put on top, the second signature is removed, and two signed fields change places. -/
example : ∃ results results' asked asked' r r',
    Run testEnv testResolver .default (fun _ => 1500) testMessage testBody results asked ∧
    Run testEnv testResolver .default (fun _ => 1500)
      [⟨c!"DKIM-Signature", b!"x"⟩, ⟨c!"Subject", b!" a"⟩, ⟨c!"To", b!" you"⟩, ⟨c!"DKIM-Signature", utf8 testSig1⟩,
       ⟨c!"From", b!" me"⟩] testBody results' asked' ∧
    r ∈ results ∧ r' ∈ results' ∧ r.index = 0 ∧ r'.index = 3 ∧ r.status = .success ∧
    r' = { r with index := 3 } := by
  have T := typed_default (t := 1500) (by decide) Config.default rfl
  have e : statuses testEnv testResolver .default 1500
      [⟨c!"DKIM-Signature", b!"x"⟩, ⟨c!"Subject", b!" a"⟩, ⟨c!"To", b!" you"⟩, ⟨c!"DKIM-Signature", utf8 testSig1⟩,
       ⟨c!"From", b!" me"⟩] testBody
      = some [(0, .failure (.dkimSignatureFormat ⟨.tagListFormat, none, none, none, none, none⟩)),
          (3, .success)] := by rfl
  obtain ⟨results, asked, h, r, hr, hi, hs⟩ := result_of_statuses test_success (i := 0) (s := .success) (by simp)
  obtain ⟨results', asked', h', r', hr', hi', hs'⟩ := result_of_statuses e (i := 3) (s := .success) (by simp)
  refine ⟨results, results', asked, asked', r, r', h, h', hr, hr', hi, hi', hs, ?_⟩
  have := C75_unsigned_fields testEnv_lawful T T h h' r r' hr hr' ⟨c!"DKIM-Signature", utf8 testSig1⟩
    (by rw [hi]; rfl) (by rw [hi']; rfl) rfl rfl ?_
  · rwa [hi'] at this
  · intro value sig hsig n hn
    obtain ⟨h1, -⟩ := testSig1_parsed value sig hsig
    rw [h1] at hn
    simp only [Config.default, List.mem_append, List.mem_cons, List.not_mem_nil, or_false] at hn
    rcases hn with (rfl | rfl) | rfl <;> rfl

/-- A configuration that is stricter than the default. -/
def strictConfig : Config :=
  { Config.default with
    maxSignatures := 1, headersRequired := [c!"Subject", c!"from"],
    headersForbiddenUnsigned := [c!"From", c!"subject", c!"To"], timeTolerance := 0 }

set_option maxRecDepth 100000 in
/-- C58: the first signature succeeds under it, and under the default. -/
example : NowhereStricter strictConfig .default ∧ ∃ results results' asked asked' r,
    Run testEnv testResolver strictConfig (fun _ => 1500) testMessage testBody results asked ∧
    Run testEnv testResolver .default (fun _ => 1500) testMessage testBody results' asked' ∧
    r ∈ results ∧ r.status = .success ∧ ∃ r' ∈ results', r'.index = r.index ∧ r'.status = .success := by
  have hc : NowhereStricter strictConfig .default := by
    constructor
    · decide
    · nofun
    · intro n hn
      simp only [Config.default, List.mem_singleton] at hn
      subst hn
      exact ⟨c!"From", .head _, rfl⟩
    · decide
    · decide
    · decide
    · decide
    · decide
    · decide
    · rfl
  refine ⟨hc, ?_⟩
  have e : statuses testEnv testResolver strictConfig 1500 testMessage testBody = some [(0, .success)] := by rfl
  obtain ⟨results, asked, h, r, hr, hi, hs⟩ := result_of_statuses e (i := 0) (s := .success) (by simp)
  obtain ⟨results', asked', h', -⟩ := result_of_statuses test_success (i := 0) (s := .success) (by simp)
  obtain ⟨r', h1, h2, h3, -⟩ := C58_monotone testEnv_lawful (typed_default (by decide) _ rfl)
    (typed_default (by decide) _ rfl) h h' rfl hc r hr hs
  exact ⟨results, results', asked, asked', r, h, h', hr, hs, r', h1, h2, h3⟩

set_option maxRecDepth 100000 in
/-- C59: the second signature succeeds at 700 and 2299, so at 1999; it has expired at 2300,
so it does not succeed at 100000 (with the time fixed by configuration). -/
example :
    (∃ results asked, Run testEnv testResolver (Config.default.at none) (fun _ => 1999) testMessage testBody results
      asked ∧ ∃ r ∈ results, r.index = 2 ∧ r.status = .success) ∧
    (∃ results asked, Run testEnv testResolver (Config.default.at (some 100000)) (fun _ => 0) testMessage testBody
      results asked ∧ ∃ r ∈ results, r.index = 2 ∧ r.status ≠ .success) := by
  have T : ∀ t : Int, t < 2 ^ 63 → TypedTimes (Config.default.at none) (fun _ => t) :=
    fun t h => typed_default h _ rfl
  obtain ⟨results₁, asked₁, h₁, r₁, hr₁, hi₁, hs₁⟩ :=
    result_of_statuses (cfg := Config.default.at none) test_future.1 (i := 2) (s := .success) (by simp)
  obtain ⟨results₃, asked₃, h₃, r₃, hr₃, hi₃, hs₃⟩ :=
    result_of_statuses (cfg := Config.default.at none) test_expired.1 (i := 2) (s := .success) (by simp)
  obtain ⟨results₄, asked₄, h₄, r₄, hr₄, hi₄, hs₄⟩ :=
    result_of_statuses (cfg := Config.default.at none) test_expired.2 (i := 2) (by simp; rfl)
  have e₂ : ∃ l, statuses testEnv testResolver (Config.default.at none) 1999 testMessage testBody = some l ∧
      l.map (·.1) = [0, 2] := ⟨_, rfl, rfl⟩
  have e₅ : ∃ l, statuses testEnv testResolver (Config.default.at (some 100000)) 0 testMessage testBody = some l ∧
      l.map (·.1) = [0, 2] := ⟨_, rfl, rfl⟩
  obtain ⟨l, e₂, m⟩ := e₂
  obtain ⟨l₅, e₅, m₅⟩ := e₅
  constructor
  · have : 2 ∈ l.map (·.1) := by rw [m]; simp
    obtain ⟨⟨_, s⟩, hm, rfl⟩ := List.mem_map.1 this
    obtain ⟨results₂, asked₂, h₂, r₂, hr₂, hi₂, -⟩ := result_of_statuses e₂ hm
    refine ⟨results₂, asked₂, h₂, r₂, hr₂, hi₂, ?_⟩
    exact C59_interval testEnv_lawful (T _ (by decide)) (T _ (by decide)) (T _ (by decide)) h₁ h₂ h₃ rfl r₁ r₂ r₃ hr₁ hr₂
      hr₃ (hi₁.trans hi₂.symm) (hi₃.trans hi₂.symm) (by decide) (by decide) hs₁ hs₃
  · have : 2 ∈ l₅.map (·.1) := by rw [m₅]; simp
    obtain ⟨⟨_, s⟩, hm, rfl⟩ := List.mem_map.1 this
    obtain ⟨results₅, asked₅, h₅, r₅, hr₅, hi₅, -⟩ := result_of_statuses e₅ hm
    refine ⟨results₅, asked₅, h₅, r₅, hr₅, hi₅, ?_⟩
    exact C59_expired_for_good testEnv_lawful (T _ (by decide)) ⟨fun _ => by decide, fun t h => by cases h; decide⟩ h₄ h₅ r₄
      r₅ hr₄ hr₅ ⟨c!"dkim-signature", utf8 testSig2⟩ (by rw [hi₄]; rfl) (by rw [hi₅]; rfl) (by decide) hs₄

/-- Answers in which the key record stands last, after useless ones. -/
def crowdedResolver : Resolver := fun _ =>
  ⟨0, .ok [.ok b!"v=spf1", .error .other, .ok b!"", .ok b!"p=", .ok b!"p=Ag=="]⟩

/-- Answers with other key records that say the same. -/
def similarResolver : Resolver := fun name =>
  ⟨5, if name = c!"r._domainkey.example.com." then
      .ok [.ok b!"nonsense", .ok b!"v=DKIM1; t=y; h=sha1:sha256; n=hi; s=*:email; x=y; p=Ag=="]
    else (testResolver name).result⟩

set_option maxRecDepth 100000 in
/-- C70: the first signature succeeds also if its key record comes last of five. -/
example : ∃ results results' asked asked' r r',
    Run testEnv testResolver .default (fun _ => 1500) testMessage testBody results asked ∧
    Run testEnv crowdedResolver .default (fun _ => 1500) testMessage testBody results' asked' ∧
    r ∈ results ∧ r' ∈ results' ∧ r.index = 0 ∧ r'.index = 0 ∧ r.status = .success ∧ r'.status = .success := by
  have T := typed_default (t := 1500) (by decide) Config.default rfl
  have e : ∃ l, statuses testEnv crowdedResolver .default 1500 testMessage testBody = some l ∧
      l.map (·.1) = [0, 2] := ⟨_, rfl, rfl⟩
  obtain ⟨l, e, m⟩ := e
  have : 0 ∈ l.map (·.1) := by rw [m]; simp
  obtain ⟨⟨i0, s⟩, hm, h0⟩ := List.mem_map.1 this
  obtain ⟨results', asked', h', r', hr', hi', -⟩ := result_of_statuses e hm
  obtain ⟨results, asked, h, r, hr, hi, hs⟩ := result_of_statuses test_success (i := 0) (s := .success) (by simp)
  have hi' : r'.index = 0 := hi'.trans h0
  refine ⟨results, results', asked, asked', r, r', h, h', hr, hr', hi, hi', hs, ?_⟩
  obtain ⟨f, sig, record, key, value, original, g1, g2, g3, g4⟩ := C40_success_sound testEnv_lawful T h r hr hs
  rw [hi] at g1
  cases g1
  obtain ⟨-, -, hd, hsel⟩ := testSig1_parsed value sig g4.signature
  have hrec : TxtRecord testEnv (.ok b!"p=Ag==") record := by
    obtain ⟨name, txts, ⟨d, s, e1, e2, rfl⟩, a2, txt, a3, a4⟩ := g4.answer
    rw [hd, Option.some.injEq] at e1
    rw [hsel, Option.some.injEq] at e2
    subst e1 e2
    have : (testResolver (keyName c!"example.com" ['r'])).result = .ok [.ok b!"nonsense", .ok b!"p=Ag=="] := rfl
    rw [this, Except.ok.injEq] at a2
    subst a2
    simp only [firstTwoAndLast, List.mem_cons, List.not_mem_nil, or_false] at a3
    rcases a3 with rfl | rfl
    · exact absurd ((txtRecord_iff _ _).1 a4) (by nofun)
    · exact a4
  exact (C70_one_record_enough testEnv_lawful T h h' rfl r r' hr hr' (hi'.trans hi.symm) hs sig record g2 g3
    (keyName c!"example.com" ['r']) ⟨_, _, hd, hsel, rfl⟩ _ rfl (.ok b!"p=Ag==") hrec (.inr (.inr rfl))).1

set_option maxRecDepth 100000 in
/-- C72: the statuses are the same with key records that say the same. -/
example : ∃ results results' asked asked',
    Run testEnv testResolver .default (fun _ => 1500) testMessage testBody results asked ∧
    Run testEnv similarResolver .default (fun _ => 1500) testMessage testBody results' asked' ∧
    ∀ r ∈ results, ∀ r' ∈ results', r'.index = r.index → r'.status = r.status := by
  have T := typed_default (t := 1500) (by decide) Config.default rfl
  have e : ∃ l, statuses testEnv similarResolver .default 1500 testMessage testBody = some l := ⟨_, rfl⟩
  obtain ⟨l, e⟩ := e
  obtain ⟨results', asked', h', -⟩ := run_of_statuses e
  obtain ⟨results, asked, h, -⟩ := run_of_statuses test_success
  refine ⟨results, results', asked, asked', h, h', fun r hr r' hr' hi => ?_⟩
  have refl : ∀ l, SimilarAnswer testEnv l l := by
    intro l
    induction l with
    | nil => exact .nil
    | cons t l ih => exact .cons _ _ _ _ (.inl rfl) ih
  refine (C72_relevant_parts testEnv_lawful T h h' rfl ?_ r r' hr hr' hi).1
  intro name
  unfold similarResolver
  by_cases hn : name = c!"r._domainkey.example.com."
  · subst hn
    refine SimilarAnswer.cons _ _ _ _ (.inl rfl) (.cons _ _ _ _ (.inr ⟨_, _, (txtRecord_iff _ _).2 rfl,
      (txtRecord_iff _ _).2 rfl, ?_⟩) .nil)
    constructor
    · rfl
    · rfl
    · intro a; cases a <;> decide
    · decide
  · simp only [if_neg hn]
    cases (testResolver name).result with
    | error e => rfl
    | ok l => exact refl l

end Dkim
