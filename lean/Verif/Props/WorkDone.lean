import Verif.Proofs.Work
import Verif.Props.VerifierCases

/-!
# C111: Key records are parsed once, signatures are checked only where nothing else is wrong

`verifyHeaderW` is `verify_header` with the list of its expensive steps: the texts parsed as key
records, and the checks of signatures with keys.
-/

namespace Dkim

open Spec

variable {E : Env}

/-- The steps are those of `verify_header`: without them the result is the same. -/
theorem C111_same (resolver : Resolver) (headers : List Field) (cfg : Config) (clock : Nat → Int) :
    (verifyHeaderW E resolver headers cfg clock).map (·.1) = verifyHeader E resolver headers cfg clock :=
  verifyHeaderW_erase resolver headers cfg clock

/-- The signature in each considered field is checked with exactly the specified records, in order;
and no other signature is checked. -/
theorem C111_checks (L : Lawful E) {resolver : Resolver} {headers : List Field} {cfg : Config} {clock : Nat → Int}
    (ht : TypedTimes cfg clock) {v : Option Verifier} {asked : List Str} {w : List Work}
    (h : verifyHeaderW E resolver headers cfg clock = some ((v, asked), w)) :
    (∀ i f, (i, f) ∈ dkimFields cfg.maxSignatures headers →
      FieldChecks E resolver cfg (clock i) headers f (checkedWith i w)) ∧
    ∀ i r, .check i r ∈ w → ∃ f, (i, f) ∈ dkimFields cfg.maxSignatures headers := by
  refine ⟨fun i f hf => ?_, fun i r hr => ?_⟩
  · rw [verifyHeaderW_checkedWith L.idna L.order h hf]
    exact fieldChecks_of L.idna resolver ht headers i f
  · refine verifyHeaderW_indexes L.idna L.order h (r := r) ?_
    exact List.mem_filterMap.2 ⟨_, hr, rfl⟩

/-- There are at most three checks for each considered field, so at most three times the maximum
number of signatures. -/
theorem C111_check_bound (L : Lawful E) {resolver : Resolver} {headers : List Field} {cfg : Config}
    {clock : Nat → Int} (ht : TypedTimes cfg clock) {v : Option Verifier} {asked : List Str} {w : List Work}
    (h : verifyHeaderW E resolver headers cfg clock = some ((v, asked), w)) :
    (∀ i, (checkedWith i w).length ≤ 3) ∧
    checkCount w ≤ 3 * (dkimFields cfg.maxSignatures headers).length ∧
    checkCount w ≤ 3 * cfg.maxSignatures := by
  obtain ⟨h1, h2⟩ := C111_checks L ht h
  have each : ∀ i, (checkedWith i w).length ≤ 3 := by
    intro i
    by_cases hi : ∃ f, (i, f) ∈ dkimFields cfg.maxSignatures headers
    · obtain ⟨f, hf⟩ := hi
      exact fieldChecks_length (h1 i f hf)
    · have : checkedWith i w = [] := by
        rw [checkedWith, List.filterMap_eq_nil_iff]
        intro a ha
        cases a with
        | parse t => rfl
        | check j r =>
          simp only
          have hne : j ≠ i := fun e => hi (h2 i r (e ▸ ha))
          rw [if_neg hne]
      rw [this]
      decide
  have total : checkCount w ≤ 3 * (dkimFields cfg.maxSignatures headers).length := by
    rw [checkCount_eq, ← List.length_map (f := fun p : Nat × Field => p.1)]
    refine length_le_of_each ?_ ?_
    · intro p hp
      obtain ⟨f, hf⟩ := verifyHeaderW_indexes L.idna L.order h hp
      exact List.mem_map.2 ⟨_, hf, rfl⟩
    · intro i
      have := each i
      rw [checkedWith_eq, List.length_map] at this
      exact this
  exact ⟨each, total, Nat.le_trans total (Nat.mul_le_mul_left 3 (dkimFields_length_le _ _))⟩

/-- Of the answer to each lookup, the texts of the first two records and the last are parsed, at
most once each and in order, and no other text is parsed; so at most three texts for each lookup. -/
theorem C111_parsed {resolver : Resolver} {headers : List Field} {cfg : Config} {clock : Nat → Int}
    {v : Option Verifier} {asked : List Str} {w : List Work}
    (h : verifyHeaderW E resolver headers cfg clock = some ((v, asked), w)) :
    (∃ parts : List (List Str), parsedTexts w = parts.flatten ∧ parts.length = asked.length ∧
      ∀ (k : Nat) (name : Str) (part : List Str), asked[k]? = some name → parts[k]? = some part →
        part <+: answerTexts (resolver name).result) ∧
    (parsedTexts w).length ≤ 3 * asked.length := by
  have main : ∃ parts : List (List Str), parsedTexts w = parts.flatten ∧ parts.length = asked.length ∧
      ∀ (k : Nat) (name : Str) (part : List Str), asked[k]? = some name → parts[k]? = some part →
        part <+: answerTexts (resolver name).result := by
    rcases verifyHeaderW_inv h with ⟨_, rfl, rfl⟩ | ⟨m, tasks', _, h2, rfl⟩
    · exact ⟨[], rfl, rfl, by simp⟩
    obtain ⟨parts, g1, g2, g3⟩ := verifyResultsW_parse h2
    refine ⟨parts, g1, by rw [g2, List.length_map], ?_⟩
    intro k name part hk hp
    rw [List.getElem?_map, Option.map_eq_some_iff] at hk
    obtain ⟨q, hq, rfl⟩ := hk
    have := g3 k q part hq hp
    unfold replied at hq
    rw [List.getElem?_map, Option.map_eq_some_iff] at hq
    obtain ⟨l, _, rfl⟩ := hq
    simp only at this ⊢
    rw [textsIn_lookUp] at this
    exact this
  refine ⟨main, ?_⟩
  obtain ⟨parts, h1, h2, h3⟩ := main
  rw [h1, ← h2]
  refine flatten_length_le ?_
  intro part hp
  obtain ⟨k, hk⟩ := List.getElem?_of_mem hp
  have hlt : k < asked.length := by
    rw [← h2]
    exact (List.getElem?_eq_some_iff.1 hk).1
  have := h3 k asked[k] part (List.getElem?_eq_getElem hlt) hk
  exact Nat.le_trans this.length_le (answerTexts_length _)

/-! ## A case -/

/-- Twice the same signature, so the same key. -/
def twiceSigned : List Field :=
  [⟨c!"DKIM-Signature", utf8 testSig1⟩, ⟨c!"From", b!" me"⟩,
   ⟨c!"DKIM-Signature", utf8 testSig1⟩, ⟨c!"Subject", b!" a"⟩]

set_option maxRecDepth 100000 in
/-- One lookup is made. Its two records are parsed once, for the first signature; of these the
second is used to check both signatures. -/
theorem twice_work : ∃ v r, verifyHeaderW testEnv testResolver twiceSigned .default (fun _ => 1500) =
    some ((some v, [c!"r._domainkey.example.com."]),
      [.parse c!"nonsense", .parse c!"p=Ag==", .check 0 r, .check 2 r]) := ⟨_, _, by rfl⟩

example : ∃ w, ∃ v r, w = [Work.parse c!"nonsense", .parse c!"p=Ag==", .check 0 r, .check 2 r] ∧
    verifyHeaderW testEnv testResolver twiceSigned .default (fun _ => 1500) =
      some ((some v, [c!"r._domainkey.example.com."]), w) ∧
    (∀ i f, (i, f) ∈ dkimFields 10 twiceSigned →
      FieldChecks testEnv testResolver .default 1500 twiceSigned f (checkedWith i w)) ∧
    checkedWith 0 w = [r] ∧ checkedWith 2 w = [r] ∧ checkCount w ≤ 6 ∧
    (parsedTexts w).length ≤ 3 := by
  obtain ⟨v, r, h⟩ := twice_work
  have ht := typed_default (t := 1500) (by decide) .default rfl
  have hb := (C111_check_bound testEnv_lawful ht h).2.1
  exact ⟨_, v, r, rfl, h, (C111_checks testEnv_lawful ht h).1, rfl, rfl, hb, (C111_parsed h).2⟩

end Dkim
