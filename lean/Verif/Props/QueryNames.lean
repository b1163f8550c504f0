import Verif.Props.Work

/-!
# Property C91: the form of the DNS names asked
-/

namespace Dkim

open Spec

variable {E : Env}

/-- The label between selector and domain. -/
theorem domainkey_label : Label c!"_domainkey" := by
  refine ⟨by decide, by decide, ?_, ?_, ?_⟩
  · intro c hc
    simp only [List.mem_cons, List.not_mem_nil, or_false] at hc
    rcases hc with rfl | rfl | rfl | rfl | rfl | rfl | rfl | rfl | rfl | rfl <;> simp [letter]
  · intro r h
    simp at h
  · intro r h
    have := congrArg List.getLast? h
    simp at this

/-- C91: every name asked is absolute and consists of valid labels, those of the selector and
the domain with `_domainkey` between them; the last one is not all digits; there are at most
519 characters with the final dot. -/
theorem C91_form (L : Lawful E) {resolver : Resolver} {cfg : Config} {clock : Nat → Int}
    (T : TypedTimes cfg clock) {headers : List Field} {chunks : List Bytes} {results : List VerificationResult}
    {asked : List Str} (h : Run E resolver cfg clock headers chunks results asked) (name : Str)
    (hn : name ∈ asked) :
    ∃ selector domain : List Str, name = joinDots (selector ++ c!"_domainkey" :: domain) ++ c!"." ∧
      selector ≠ [] ∧ domain ≠ [] ∧ (∀ l ∈ selector ++ c!"_domainkey" :: domain, Label l) ∧
      (∃ c ∈ domain.getLast?.getD [], ¬ digit c) ∧
      (joinDots selector).length ≤ 253 ∧ (joinDots domain).length ≤ 253 ∧
      name.length = (joinDots selector).length + (joinDots domain).length + 13 := by
  obtain ⟨pairs, _, rfl, h2⟩ := C48_queries L T h
  rw [List.mem_map] at hn
  obtain ⟨⟨d, s⟩, hp, rfl⟩ := hn
  obtain ⟨i, f, value, sig, _, g2, _, g4, g5⟩ := (h2 d s).1 hp
  obtain ⟨_, tags, _, _, hs⟩ := g2
  obtain ⟨_, _, rfl, a, ha, _, hd1, hd2, lsd, lastd, hd3, hd4, hd5, hd6⟩ := hs.domain
  obtain ⟨_, _, rfl, b, hb, _, hs1, hs2, lss, lasts, hs3, hs4, hs5, _⟩ := hs.selector
  rw [g4, Option.some.injEq] at ha
  rw [g5, Option.some.injEq] at hb
  subst ha hb
  have ejoin : joinDots ((lss ++ [lasts]) ++ c!"_domainkey" :: (lsd ++ [lastd])) =
      s ++ c!"._domainkey." ++ d := by
    rw [joinDots_append _ _ (by simp) (by simp), joinDots_cons _ _ (by simp), hs3, hd3]
    simp
  refine ⟨lss ++ [lasts], lsd ++ [lastd], ?_, by simp, by simp, ?_, ?_, by rw [← hs3]; exact hs2,
    by rw [← hd3]; exact hd2, ?_⟩
  · rw [ejoin]
  · intro l hl
    simp only [List.mem_append, List.mem_cons, List.not_mem_nil, or_false] at hl
    rcases hl with (hl | rfl) | rfl | hl | rfl
    · exact hs4 l hl
    · exact hs5
    · exact domainkey_label
    · exact hd4 l hl
    · exact hd5
  · rw [List.getLast?_concat]
    exact hd6 rfl
  · rw [← hs3, ← hd3]
    simp only [List.length_append, List.length_cons, List.length_nil]
    omega

/-- C91 (partial): a name is short enough for the DNS, that is, has at most 254 characters with
the final dot, exactly if selector and domain have at most 241 characters together in ASCII
form. Missing from the full claim: longer selectors and domains, see `C91_violation`. -/
theorem C91_length_partial (L : Lawful E) {resolver : Resolver} {cfg : Config} {clock : Nat → Int}
    (T : TypedTimes cfg clock) {headers : List Field} {chunks : List Bytes} {results : List VerificationResult}
    {asked : List Str} (h : Run E resolver cfg clock headers chunks results asked) :
    (∀ name ∈ asked, name.length ≤ 254) ↔
      ∀ d s, LookedUp E cfg clock headers d s → s.length + d.length ≤ 241 := by
  obtain ⟨pairs, _, rfl, h2⟩ := C48_queries L T h
  constructor
  · intro hall d s hl
    have := hall _ (List.mem_map.2 ⟨(d, s), (h2 d s).2 hl, rfl⟩)
    simp only [List.length_append, List.length_cons, List.length_nil] at this
    omega
  · intro hall name hn
    rw [List.mem_map] at hn
    obtain ⟨⟨d, s⟩, hp, rfl⟩ := hn
    have := hall d s ((h2 d s).1 hp)
    simp only [List.length_append, List.length_cons, List.length_nil]
    omega

/-- A selector of 249 characters. -/
def longSelector : Str := (List.replicate 124 c!"s.").flatten ++ c!"s"

def longMessage : List Field :=
  [⟨c!"DKIM-Signature", utf8 (c!"v=1; a=rsa-sha256; d=example.com; h=from; bh=WAU=; b=Cg==; s=" ++ longSelector)⟩,
   ⟨c!"From", b!" me"⟩]

set_option maxRecDepth 100000 in
/-- C91: the violation: a name is asked that is too long for the DNS. -/
theorem C91_violation : ∃ (resolver : Resolver) (cfg : Config) (clock : Nat → Int) (headers : List Field)
    (chunks : List Bytes) (results : List VerificationResult) (asked : List Str), Lawful testEnv ∧
    TypedTimes cfg clock ∧ Run testEnv resolver cfg clock headers chunks results asked ∧
    ∃ name ∈ asked, 254 < name.length := by
  refine ⟨testResolver, .default, fun _ => 1500, longMessage, [], _, _, testEnv_lawful,
    typed_default (by decide) _ rfl, ⟨_, _, _, rfl, rfl, rfl⟩, ?_⟩
  decide

set_option maxRecDepth 100000 in
/-- Non-vacuity: a run that asks for two names. -/
example : ∃ results asked, Run testEnv testResolver .default (fun _ => 1500) testMessage testBody results asked ∧
    c!"r._domainkey.example.com." ∈ asked ∧ ∀ name ∈ asked, name.length ≤ 254 :=
  ⟨_, _, ⟨_, _, _, rfl, rfl, rfl⟩, by decide, by decide⟩

end Dkim
