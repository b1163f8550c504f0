import Verif.Spec.Signer
import Verif.Proofs.Signature
import Verif.Proofs.TagList

/-!
# Validation of signing requests: helper lemmas for C34
-/

namespace Dkim

open Spec

variable {E : Env} {α : Type}

/-- The result is a success if all rules hold, else the error of the first violated
rule. -/
def Decides (rules : List Rule) (res : Res RequestError α) : Prop :=
  (∃ a, res = .ok a ∧ ∀ q ∈ rules, q.holds) ∨ ∃ e, res = .err e ∧ FirstViolated rules e

theorem Decides.cons {q : Rule} {rules : List Rule} {res : Res RequestError α}
    (h1 : ¬ q.holds → res = .err q.error) (h2 : q.holds → Decides rules res) : Decides (q :: rules) res := by
  by_cases h : q.holds
  · rcases h2 h with ⟨a, e, ha⟩ | ⟨e, h3, b, r, c, h4, h5, h6, h7⟩
    · refine .inl ⟨a, e, ?_⟩
      intro p hp
      rcases List.mem_cons.1 hp with rfl | hp
      · exact h
      · exact ha p hp
    · refine .inr ⟨e, h3, q :: b, r, c, by simp [h4], ?_, h6, h7⟩
      intro p hp
      rcases List.mem_cons.1 hp with rfl | hp
      · exact h
      · exact h5 p hp
  · exact .inr ⟨_, h1 h, [], q, rules, rfl, by simp, h, rfl⟩

theorem Decides.nil {a : α} {res : Res RequestError α} (h : res = .ok a) : Decides [] res :=
  .inl ⟨a, h, by simp⟩

/-- First the rules of `res`, then those of what follows. -/
theorem Decides.append {β : Type} {r1 r2 : List Rule} {x : Res RequestError α} {y : Res RequestError β}
    (h1 : Decides r1 x) (he : ∀ e, x = .err e → y = .err e) (h2 : ∀ a, x = .ok a → Decides r2 y) :
    Decides (r1 ++ r2) y := by
  rcases h1 with ⟨a, e, ha⟩ | ⟨e, h3, b, r, c, h4, h5, h6, h7⟩
  · rcases h2 a e with ⟨a', e', ha'⟩ | ⟨e', h3, b, r, c, h4, h5, h6, h7⟩
    · refine .inl ⟨a', e', ?_⟩
      intro p hp
      rcases List.mem_append.1 hp with hp | hp
      · exact ha p hp
      · exact ha' p hp
    · refine .inr ⟨e', h3, r1 ++ b, r, c, by simp [h4], ?_, h6, h7⟩
      intro p hp
      rcases List.mem_append.1 hp with hp | hp
      · exact ha p hp
      · exact h5 p hp
  · exact .inr ⟨e, he e h3, b, r, c ++ r2, by simp [h4], h5, h6, h7⟩

theorem firstViolated_not_all {rules : List Rule} {e : RequestError} (h : FirstViolated rules e) :
    ¬ ∀ q ∈ rules, q.holds := by
  obtain ⟨b, r, c, rfl, _, h2, _⟩ := h
  intro h
  exact h2 (h r (by simp))

theorem firstViolated_unique {rules : List Rule} {e e' : RequestError} (h : FirstViolated rules e)
    (h' : FirstViolated rules e') : e = e' := by
  induction rules with
  | nil => obtain ⟨b, r, c, h1, _⟩ := h; simp at h1
  | cons q rules ih =>
    obtain ⟨b, r, c, h1, h2, h3, h4⟩ := h
    obtain ⟨b', r', c', h1', h2', h3', h4'⟩ := h'
    cases b with
    | nil =>
      cases b' with
      | nil =>
        simp only [List.nil_append, List.cons.injEq] at h1 h1'
        rw [← h4, ← h4', ← h1.1, ← h1'.1]
      | cons p b' =>
        simp only [List.nil_append, List.cons_append, List.cons.injEq] at h1 h1'
        exact absurd (h2' p (by simp)) (by rw [← h1'.1, h1.1]; exact h3)
    | cons p b =>
      cases b' with
      | nil =>
        simp only [List.nil_append, List.cons_append, List.cons.injEq] at h1 h1'
        exact absurd (h2 p (by simp)) (by rw [← h1.1, h1'.1]; exact h3')
      | cons p' b' =>
        simp only [List.cons_append, List.cons.injEq] at h1 h1'
        exact ih ⟨b, r, c, h1.2, fun q hq => h2 q (List.mem_cons_of_mem _ hq), h3, h4⟩
          ⟨b', r', c', h1'.2, fun q hq => h2' q (List.mem_cons_of_mem _ hq), h3', h4'⟩

theorem Decides.ok_iff {rules : List Rule} {res : Res RequestError α} (h : Decides rules res) :
    (∃ a, res = .ok a) ↔ ∀ q ∈ rules, q.holds := by
  rcases h with ⟨a, e, ha⟩ | ⟨e, h3, hf⟩
  · exact ⟨fun _ => ha, fun _ => ⟨a, e⟩⟩
  · constructor
    · rintro ⟨a, e⟩
      rw [h3] at e
      cases e
    · exact fun h => absurd h (firstViolated_not_all hf)

theorem Decides.err_iff {rules : List Rule} {res : Res RequestError α} (h : Decides rules res)
    (e : RequestError) : res = .err e ↔ FirstViolated rules e := by
  rcases h with ⟨a, e', ha⟩ | ⟨e', h3, hf⟩
  · constructor
    · intro h
      rw [h] at e'
      cases e'
    · exact fun h => absurd ha (firstViolated_not_all h)
  · constructor
    · intro h
      rw [h3] at h
      injection h with h
      rwa [← h]
    · intro h
      rw [h3, firstViolated_unique hf h]

theorem Decides.no_panic {rules : List Rule} {res : Res RequestError α} (h : Decides rules res) :
    res ≠ .panic := by
  rcases h with ⟨a, e, _⟩ | ⟨e, h, _⟩
  · rw [e]; simp
  · rw [h]; simp

/-! ## The single checks -/

theorem isTagName_iff (s : Str) : isTagName s = true ↔ TagName s := by
  unfold isTagName
  constructor
  · intro h
    split at h
    · next n e =>
      obtain ⟨h1, h2, _⟩ := stripTagName_some e
      rw [h1, List.append_nil]
      exact h2
    · cases h
  · intro h
    have := stripTagName_name (r := []) h (by intro c r e; cases e)
    rw [List.append_nil] at this
    rw [this]

theorem isTagValue_iff (s : Str) : isTagValue s = true ↔ TagValue s := by
  unfold isTagValue TagValue
  rw [Bool.or_eq_true, List.isEmpty_iff]
  refine or_congr Iff.rfl ?_
  constructor
  · intro h
    split at h
    · next n e =>
      obtain ⟨h1, h2⟩ := stripTagValue_some e
      rw [h1, List.append_nil]
      exact h2
    · cases h
  · intro h
    have := stripTagValue_value (x := []) h (by intro c r e; cases e) (by decide)
    rw [List.append_nil] at this
    rw [this]

theorem isOutputTag_iff (n : Str) : isOutputTag n = true ↔ n ∈ writtenTags := by
  unfold isOutputTag writtenTags
  rw [List.contains_iff_mem]

theorem badExtTags_iff (seen : List Str) (tags : List (Str × Str)) :
    badExtTags seen tags = false ↔ ((tags.map (·.1)).Nodup ∧ ∀ t ∈ tags, t.1 ∉ seen) ∧
      ∀ t ∈ tags, TagName t.1 ∧ TagValue t.2 ∧ t.1 ∉ writtenTags := by
  induction tags generalizing seen with
  | nil => simp [badExtTags]
  | cons t tags ih =>
    obtain ⟨n, v⟩ := t
    have e1 : (!isTagName n) = false ↔ TagName n := by rw [← isTagName_iff]; simp
    have e2 : (!isTagValue v) = false ↔ TagValue v := by rw [← isTagValue_iff]; simp
    have e3 : isOutputTag n = false ↔ n ∉ writtenTags := by rw [← isOutputTag_iff]; simp
    have e4 : seen.contains n = false ↔ n ∉ seen := by simp
    rw [badExtTags, Bool.or_eq_false_iff, Bool.or_eq_false_iff, Bool.or_eq_false_iff, Bool.or_eq_false_iff,
      ih, e1, e2, e3, e4]
    simp only [List.map_cons, List.nodup_cons, List.mem_cons, forall_eq_or_imp, List.mem_map, not_or,
      not_exists, not_and]
    constructor
    · rintro ⟨⟨⟨⟨h1, h2⟩, h3⟩, h4⟩, ⟨h5, h6⟩, h7⟩
      exact ⟨⟨⟨fun x hx e => (h6 x hx).1 e, h5⟩, h1, fun x hx => (h6 x hx).2⟩, ⟨h2, h3, h4⟩, h7⟩
    · rintro ⟨⟨⟨h6, h5⟩, h1, h6'⟩, ⟨h2, h3, h4⟩, h7⟩
      exact ⟨⟨⟨⟨h1, h2⟩, h3⟩, h4⟩, ⟨h5, fun x hx => ⟨fun e => h6 x hx e, h6' x hx⟩⟩, h7⟩

theorem any_from_iff (ns : List Str) :
    (ns.any fun n => fieldNameEq n c!"From") = true ↔ ∃ n ∈ ns, lower n = c!"from" := by
  simp [from_iff]

theorem headerName_iff (n : Str) : eqIgnoreCase n dkimSignatureName = true ↔ lower n = c!"dkim-signature" := by
  rw [eqIgnoreCase_eq, sameName_iff]
  have : lower dkimSignatureName = c!"dkim-signature" := by decide
  rw [this]

theorem isWspChar_iff' (c : Char) : isWspChar c = true ↔ wsp c := by
  simp [isWspChar, wsp]

theorem indent_iff (i : Str) : (i.isEmpty || i.any fun c => !isWspChar c) = false ↔
    i ≠ [] ∧ ∀ c ∈ i, wsp c := by
  rw [Bool.or_eq_false_iff]
  simp [← isWspChar_iff']

theorem zeroDuration_iff (d : Option Nat) : zeroDuration d = true ↔ d = some 0 := by
  cases d with
  | none => simp [zeroDuration]
  | some n => simp [zeroDuration]

theorem requestKey_iff (r : SignRequest E) : (∃ k, requestKey r = some k) ↔
    ∀ n, r.bodyLength = .exact n → n ≤ E.usizeMax := by
  unfold requestKey
  cases h : r.bodyLength with
  | noLimit => simp [BodyLength.toUsize]
  | messageContent => simp [BodyLength.toUsize]
  | exact n =>
    simp only [BodyLength.toUsize, Env.toUsize]
    by_cases hn : n ≤ E.usizeMax
    · simp [hn]
    · simp [hn]

theorem keyType_eq {C : Crypto} (k : SigningKey C) : k.keyType = typeOfKey k := by cases k <;> rfl
theorem algKeyType_eq (a : SigAlg) : a.keyType = keyTypeOf a := by cases a <;> rfl
theorem algHash_eq (a : SigAlg) : a.hashAlg = hashOf a := by cases a <;> rfl

/-- What happens to one request in `prepareLoop` before the next is looked at. -/
def checkRequest (r : SignRequest E) : Res RequestError BodyHasherKey :=
  match validateRequest r with
  | .err e => .err e
  | .panic => .panic
  | .ok () =>
    match requestKey r with
    | none => .err .overflow
    | some key => .ok key

theorem checkRequest_decides (law : CaseLaw E.idna) {r : SignRequest E} (ht : TypedRequest r) :
    Decides (requestRules r) (checkRequest r) := by
  unfold requestRules checkRequest validateRequest
  rw [keyType_eq, algKeyType_eq]
  refine .cons (fun h => by rw [if_pos h]) (fun h => ?_)
  rw [if_neg (by simpa using h)]
  have sel : ∀ ns, r.headerSelection = .manual ns → checkSelection r.headerSelection =
      if (ns.any fun n => fieldNameEq n c!"From") = false then some .fromHeaderNotSigned
      else if (ns.any fun n => n.contains ';') = true then some .invalidSignedFieldName else none := by
    intro ns h
    rw [h, checkSelection]
    simp
  refine .cons (fun h => ?_) (fun hfrom => .cons (fun h => ?_) (fun hsemi => ?_))
  · simp only [Classical.not_forall] at h
    obtain ⟨ns, hs, hn⟩ := h
    rw [sel ns hs, if_pos]
    rw [← Bool.not_eq_true, any_from_iff]
    exact hn
  · simp only [Classical.not_forall] at h
    obtain ⟨ns, hs, hn⟩ := h
    rw [sel ns hs, if_neg, if_pos]
    · simpa using hn
    · rw [Bool.not_eq_false, any_from_iff]
      exact hfrom ns hs
  have hsel : checkSelection r.headerSelection = none := by
    cases e : r.headerSelection with
    | auto => rfl
    | manual ns =>
      rw [← e, sel ns e, if_neg, if_neg]
      · simpa using hsemi ns e
      · rw [Bool.not_eq_false, any_from_iff]
        exact hfrom ns e
  rw [hsel]
  simp only
  have hdom : ∃ b, domainMismatch E.idna r.identity r.domain = some b ∧
      (b = false ↔ ∀ i, r.identity = some i → UnderDomain E.idna i.domain r.domain) := by
    cases e : r.identity with
    | none => exact ⟨false, rfl, by simp⟩
    | some i =>
      obtain ⟨x, h1, h2⟩ := eqOrSubdomainOf_spec law (ht.identity i e) ht.domain
      refine ⟨!x, by simp [domainMismatch, h1], ?_⟩
      rw [Bool.not_eq_false', h2]
      simp
  obtain ⟨b, hb, hb2⟩ := hdom
  rw [hb]
  refine .cons (fun h => ?_) (fun hd => ?_)
  · rw [← hb2] at h
    cases b with
    | false => exact absurd rfl h
    | true => rfl
  rw [← hb2] at hd
  subst hd
  simp only
  refine .cons (fun h => ?_) (fun hz => ?_)
  · rw [if_pos]
    rw [zeroDuration_iff]
    simpa using h
  rw [if_neg (by rw [zeroDuration_iff]; exact hz)]
  have hext := badExtTags_iff [] r.extTags
  simp only [List.not_mem_nil, not_false_eq_true, implies_true, and_true] at hext
  refine .cons (fun h => ?_) (fun hx => ?_)
  · rw [← hext, Bool.not_eq_false] at h
    rw [if_pos h]
  rw [← hext] at hx
  rw [hx, if_neg (by simp)]
  refine .cons (fun h => ?_) (fun hn => ?_)
  · rw [← headerName_iff, Bool.not_eq_true] at h
    rw [h]
    rfl
  rw [← headerName_iff] at hn
  rw [hn]
  simp only [Bool.not_true, Bool.false_eq_true, if_false]
  refine .cons (fun h => ?_) (fun hi => ?_)
  · rw [← indent_iff, Bool.not_eq_false] at h
    rw [if_pos h]
  rw [← indent_iff] at hi
  rw [hi]
  simp only [Bool.false_eq_true, if_false]
  refine .cons (fun h => ?_) (fun ho => ?_)
  · rw [← requestKey_iff] at h
    cases e : requestKey r with
    | none => rfl
    | some k => exact absurd ⟨k, e⟩ h
  rw [← requestKey_iff] at ho
  obtain ⟨k, hk⟩ := ho
  rw [hk]
  exact .nil rfl

theorem prepareLoop_cons (i : Nat) (r : SignRequest E) (rest : List (SignRequest E)) :
    prepareLoop E i (r :: rest) = if i ≥ 10 then .err .tooManyRequests else
      match checkRequest r with
      | .err e => .err e
      | .panic => .panic
      | .ok key =>
        match prepareLoop E (i + 1) rest with
        | .ok (tasks, keys) => .ok (r :: tasks, key :: keys)
        | .err e => .err e
        | .panic => .panic := by
  rw [prepareLoop]
  unfold checkRequest
  split
  · rfl
  · cases validateRequest r with
    | err e => rfl
    | panic => rfl
    | ok x =>
      cases x
      simp only
      cases requestKey r <;> rfl

theorem prepareLoop_decides (law : CaseLaw E.idna) {rs : List (SignRequest E)}
    (ht : ∀ r ∈ rs, TypedRequest r) (i : Nat) : Decides (requestsRules i rs) (prepareLoop E i rs) := by
  induction rs generalizing i with
  | nil => exact .nil rfl
  | cons r rs ih =>
    rw [prepareLoop_cons]
    refine .cons (fun h => ?_) (fun h => ?_)
    · rw [if_pos (by simpa using h)]
    · rw [if_neg (by simpa using h)]
      refine .append (checkRequest_decides law (ht r (by simp))) ?_ ?_
      · intro e he
        rw [he]
      · intro a ha
        rw [ha]
        simp only
        have := ih (fun r hr => ht r (List.mem_cons_of_mem _ hr)) (i + 1)
        rcases this with ⟨⟨x, y⟩, e, hh⟩ | ⟨e, h3, hf⟩
        · rw [e]
          exact .inl ⟨_, rfl, hh⟩
        · rw [h3]
          exact .inr ⟨e, rfl, hf⟩

theorem prepareLoop_ok {rs ts : List (SignRequest E)} {ks : List BodyHasherKey} {i : Nat}
    (h : prepareLoop E i rs = .ok (ts, ks)) : ts = rs ∧ ∀ r ∈ rs, ∃ k, requestKey r = some k ∧ k ∈ ks := by
  induction rs generalizing i ts ks with
  | nil =>
    rw [prepareLoop] at h
    injection h with h
    injection h with h1 h2
    exact ⟨h1.symm, by simp⟩
  | cons r rs ih =>
    rw [prepareLoop_cons] at h
    rcases ite_eq_cases h with ⟨_, h⟩ | ⟨_, h⟩
    · cases h
    · split at h
      · cases h
      · cases h
      · next key ek =>
        split at h
        · next ts' ks' e =>
          injection h with h
          injection h with h1 h2
          obtain ⟨g1, g2⟩ := ih e
          subst g1
          refine ⟨h1.symm, ?_⟩
          intro q hq
          rcases List.mem_cons.1 hq with rfl | hq
          · refine ⟨key, ?_, by rw [← h2]; simp⟩
            unfold checkRequest at ek
            split at ek
            · cases ek
            · cases ek
            · split at ek
              · cases ek
              · next k e2 =>
                injection ek with ek
                rw [e2, ek]
          · obtain ⟨k, hk1, hk2⟩ := g2 q hq
            exact ⟨k, hk1, by rw [← h2]; exact List.mem_cons_of_mem _ hk2⟩
        · cases h
        · cases h

theorem hasFrom_iff (headers : List Field) :
    (headers.any fun f => fieldNameEq f.name c!"From") = true ↔ HasFrom headers := by
  simp [HasFrom, from_iff]

theorem prepareSigning_decides (law : CaseLaw E.idna) (headers : List Field) {rs : List (SignRequest E)}
    (ht : ∀ r ∈ rs, TypedRequest r) : Decides (signingRules headers rs) (prepareSigning E headers rs) := by
  unfold prepareSigning signingRules
  refine .cons (fun h => ?_) (fun h => ?_)
  · rw [← hasFrom_iff, Bool.not_eq_true] at h
    rw [h]
    rfl
  rw [← hasFrom_iff] at h
  rw [h]
  simp only [Bool.not_true, Bool.false_eq_true, if_false]
  refine .append (prepareLoop_decides law ht 0) ?_ ?_
  · intro e he
    rw [he]
  · rintro ⟨ts, ks⟩ ha
    rw [ha]
    simp only
    obtain ⟨rfl, _⟩ := prepareLoop_ok ha
    refine .cons (fun h => ?_) (fun h => ?_)
    · rw [if_pos (by simpa using h)]
    · rw [if_neg (by simpa using h)]
      exact .nil rfl

end Dkim
