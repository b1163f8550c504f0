import Verif.Props.Success

/-!
# Property C67: bounds on the work of the verifier
-/

namespace Dkim

open Spec

variable {E : Env}

theorem nodup_subset_length {α : Type} : ∀ {p l : List α}, p.Nodup → p ⊆ l → p.length ≤ l.length := by
  intro p
  induction p with
  | nil => intro l _ _; simp
  | cons a p ih =>
    intro l hn hs
    rw [List.nodup_cons] at hn
    obtain ⟨l1, l2, rfl⟩ := List.append_of_mem (hs (.head _))
    have : p ⊆ l1 ++ l2 := by
      intro x hx
      have := hs (.tail _ hx)
      simp only [List.mem_append, List.mem_cons] at this ⊢
      rcases this with h | rfl | h
      · exact .inl h
      · exact absurd hx hn.1
      · exact .inr h
    have := ih hn.2 this
    simp only [List.length_cons, List.length_append] at this ⊢
    omega

/-- C67: there are at most as many results as configured, and at most as many queries as
results. -/
theorem C67_bounded (L : Lawful E) {resolver : Resolver} {cfg : Config} {clock : Nat → Int}
    (T : TypedTimes cfg clock) {headers : List Field} {chunks : List Bytes} {results : List VerificationResult}
    {asked : List Str} (h : Run E resolver cfg clock headers chunks results asked) :
    results.length ≤ cfg.maxSignatures ∧ asked.length ≤ results.length := by
  obtain ⟨_, h2, keys, h3, h4, h5⟩ := h.eq L T
  have hl : results.length = (dkimFields cfg.maxSignatures headers).length := by rw [h2, List.length_map]
  refine ⟨?_, ?_⟩
  · rw [hl, dkimFields, List.length_take]
    exact Nat.min_le_left _ _
  · rw [h3, List.length_map, hl]
    have : keys ⊆ (dkimFields cfg.maxSignatures headers).filterMap fun p => taskKey E (start E headers cfg clock p) := by
      intro k hk
      rw [List.mem_filterMap]
      exact (h5 k).1 hk
    exact Nat.le_trans (nodup_subset_length h4 this) (List.length_filterMap_le _ _)

theorem keyName_shift {x d d' : Str} (hx : x ≠ [])
    (e : c!"._domainkey." ++ d = x ++ (c!"._domainkey." ++ d')) : c!"._domainkey" <+: x := by
  by_cases hlen : 11 ≤ x.length
  · refine ⟨x.drop 11, ?_⟩
    have := congrArg (List.take 11) e
    rw [List.take_append_of_le_length (by simp), List.take_append_of_le_length hlen] at this
    rw [show (c!"._domainkey" : Str) = List.take 11 c!"._domainkey." from rfl, this, List.take_append_drop]
  · exfalso
    have h1 : (c!"._domainkey." ++ d)[x.length]? = some '.' := by
      rw [e, List.getElem?_append_right (Nat.le_refl _), Nat.sub_self]
      rfl
    rw [List.getElem?_append_left (by simp; omega)] at h1
    have h2 : 0 < x.length := List.length_pos_iff.2 hx
    have : ∀ k, k < 11 → 0 < k → (c!"._domainkey.")[k]? ≠ some '.' := by decide
    exact this _ (by omega) h2 h1

theorem keyName_inj {d s d' s' : Str} (hs : ¬ c!"._domainkey" <:+: s) (hs' : ¬ c!"._domainkey" <:+: s')
    (e : keyName d s = keyName d' s') : d = d' ∧ s = s' := by
  have e : s ++ (c!"._domainkey." ++ (d ++ ['.'])) = s' ++ (c!"._domainkey." ++ (d' ++ ['.'])) := by
    simpa [keyName] using e
  rcases List.append_eq_append_iff.1 e with ⟨x, rfl, e'⟩ | ⟨x, rfl, e'⟩
  · by_cases hx : x = []
    · subst hx
      simp only [List.nil_append, List.append_cancel_left_eq] at e'
      exact ⟨List.append_cancel_right e', by simp⟩
    · exact absurd ((keyName_shift hx e').isInfix.trans (List.suffix_append _ _).isInfix) hs'
  · by_cases hx : x = []
    · subst hx
      simp only [List.nil_append, List.append_cancel_left_eq] at e'
      exact ⟨(List.append_cancel_right e').symm, by simp⟩
    · exact absurd ((keyName_shift hx e').isInfix.trans (List.suffix_append _ _).isInfix) hs

/-- C67, partial: no name is queried twice, if no selector of the signatures contains the
label `_domainkey` after another one. Missing: other selectors, for which the claim is false, see
`C67_violation`. -/
theorem C67_once_partial (L : Lawful E) {resolver : Resolver} {cfg : Config} {clock : Nat → Int}
    (T : TypedTimes cfg clock) {headers : List Field} {chunks : List Bytes} {results : List VerificationResult}
    {asked : List Str} (h : Run E resolver cfg clock headers chunks results asked)
    (hsel : ∀ i f value sig s, (i, f) ∈ dkimFields cfg.maxSignatures headers → FieldSignature E f value sig →
      E.idna.toAscii sig.selector = some s → ¬ c!"._domainkey" <:+: s) : asked.Nodup := by
  obtain ⟨_, h2, keys, h3, h4, h5⟩ := h.eq L T
  have hk : ∀ k ∈ keys, ¬ c!"._domainkey" <:+: k.2 := by
    intro k hk
    obtain ⟨⟨i, f⟩, hp, hk⟩ := (h5 k).1 hk
    rcases start_cases L.idna headers cfg clock i f with ⟨e, h, _⟩ | ⟨v, s, e, h, _⟩ | ⟨v, sig, h, hs, hc⟩
    · rw [h] at hk; simp [taskKey, VerifyTask.failed] at hk
    · rw [h] at hk; simp [taskKey, VerifyTask.failed] at hk
    · rw [h] at hk
      simp only [taskKey, VerifyTask.started, if_true] at hk
      split at hk
      · next a b ha hb =>
        simp only [Option.some.injEq] at hk
        subst hk
        exact hsel i f v sig b hp hs hb
      · simp at hk
  rw [h3]
  clear h2 h3 h5
  induction keys with
  | nil => exact List.nodup_nil
  | cons k keys ih =>
    rw [List.nodup_cons] at h4
    rw [List.map_cons, List.nodup_cons]
    refine ⟨?_, ih h4.2 fun k hk' => hk k (.tail _ hk')⟩
    intro hm
    obtain ⟨k', hk', e⟩ := List.mem_map.1 hm
    obtain ⟨e1, e2⟩ := keyName_inj (hk k' (.tail _ hk')) (hk k (.head _)) e
    have : k' = k := Prod.ext e1 e2
    exact h4.1 (this ▸ hk')

/-- The pair of ASCII domain and selector of a signature that passes the initial checks, for
which therefore a query is made. -/
def Spec.LookedUp (E : Env) (cfg : Config) (clock : Nat → Int) (headers : List Field) (d s : Str) : Prop :=
  ∃ i f value sig, (i, f) ∈ dkimFields cfg.maxSignatures headers ∧ FieldSignature E f value sig ∧
    AllPass (signatureChecks E cfg (unixTime cfg (clock i)) headers sig) ∧
    E.idna.toAscii sig.domain = some d ∧ E.idna.toAscii sig.selector = some s

theorem keyName_clash {d s d' s' : Str} (hne : (d, s) ≠ (d', s')) (hlen : s.length ≤ s'.length)
    (e : keyName d s = keyName d' s') :
    ∃ m, s' = s ++ c!"._domainkey" ++ m ∧ '.' :: d = m ++ c!"._domainkey." ++ d' := by
  have e : s ++ (c!"._domainkey." ++ (d ++ ['.'])) = s' ++ (c!"._domainkey." ++ (d' ++ ['.'])) := by
    simpa [keyName] using e
  have key : ∀ x, s' = s ++ x →
      c!"._domainkey." ++ (d ++ ['.']) = x ++ (c!"._domainkey." ++ (d' ++ ['.'])) →
      ∃ m, s' = s ++ c!"._domainkey" ++ m ∧ '.' :: d = m ++ c!"._domainkey." ++ d' := by
    intro x hx e'
    by_cases h0 : x = []
    · subst h0
      simp only [List.nil_append, List.append_cancel_left_eq] at e'
      exact absurd (Prod.ext (List.append_cancel_right e') (by simpa using hx.symm)) hne
    · obtain ⟨m, rfl⟩ := keyName_shift h0 e'
      refine ⟨m, by rw [hx, List.append_assoc], ?_⟩
      have e2 : c!"._domainkey" ++ (('.' :: d) ++ ['.'])
          = c!"._domainkey" ++ ((m ++ c!"._domainkey." ++ d') ++ ['.']) := by
        simpa using e'
      exact List.append_cancel_right (List.append_cancel_left e2)
  rcases List.append_eq_append_iff.1 e with ⟨x, hx, e'⟩ | ⟨x, hx, e'⟩
  · exact key x hx e'
  · have : x = [] := by
      have := congrArg List.length hx
      rw [List.length_append] at this
      exact List.length_eq_zero_iff.1 (by omega)
    subst this
    exact key [] (by simpa using hx.symm) (by simpa using e'.symm)

theorem not_nodup_map {α β : Type} {f : α → β} : ∀ {l : List α}, l.Nodup →
    (¬ (l.map f).Nodup ↔ ∃ a ∈ l, ∃ b ∈ l, a ≠ b ∧ f a = f b) := by
  intro l
  induction l with
  | nil => intro _; simp
  | cons a l ih =>
    intro hn
    rw [List.nodup_cons] at hn
    rw [List.map_cons, List.nodup_cons]
    constructor
    · intro h
      by_cases hm : f a ∈ l.map f
      · obtain ⟨b, hb, e⟩ := List.mem_map.1 hm
        exact ⟨a, .head _, b, .tail _ hb, fun e' => hn.1 (e' ▸ hb), e.symm⟩
      · obtain ⟨x, hx, y, hy, h1, h2⟩ := (ih hn.2).1 fun h' => h ⟨hm, h'⟩
        exact ⟨x, .tail _ hx, y, .tail _ hy, h1, h2⟩
    · rintro ⟨x, hx, y, hy, h1, h2⟩ ⟨h3, h4⟩
      rcases List.mem_cons.1 hx with e | hx' <;> rcases List.mem_cons.1 hy with e' | hy'
      · exact h1 (e.trans e'.symm)
      · exact h3 (List.mem_map.2 ⟨y, hy', by rw [← h2, e]⟩)
      · exact h3 (List.mem_map.2 ⟨x, hx', by rw [h2, e']⟩)
      · exact (ih hn.2).2 ⟨x, hx', y, hy', h1, h2⟩ h4

/-- C67, exactly: a name is queried twice if and only if the selector of one signature is that
of another continued by the label `_domainkey` (and maybe more labels), and the domains make up
for the difference. -/
theorem C67_once_exactly (L : Lawful E) {resolver : Resolver} {cfg : Config} {clock : Nat → Int}
    (T : TypedTimes cfg clock) {headers : List Field} {chunks : List Bytes} {results : List VerificationResult}
    {asked : List Str} (h : Run E resolver cfg clock headers chunks results asked) :
    ¬ asked.Nodup ↔ ∃ d s d' s' m, LookedUp E cfg clock headers d s ∧ LookedUp E cfg clock headers d' s' ∧
      s' = s ++ c!"._domainkey" ++ m ∧ '.' :: d = m ++ c!"._domainkey." ++ d' := by
  obtain ⟨pairs, hn, ha, hp⟩ := C48_queries L T h
  rw [ha, not_nodup_map hn]
  constructor
  · rintro ⟨⟨d, s⟩, h1, ⟨d', s'⟩, h2, hne, e⟩
    rcases Nat.le_total s.length s'.length with hl | hl
    · obtain ⟨m, e1, e2⟩ := keyName_clash hne hl e
      exact ⟨d, s, d', s', m, (hp d s).1 h1, (hp d' s').1 h2, e1, e2⟩
    · obtain ⟨m, e1, e2⟩ := keyName_clash (Ne.symm hne) hl e.symm
      exact ⟨d', s', d, s, m, (hp d' s').1 h2, (hp d s).1 h1, e1, e2⟩
  · rintro ⟨d, s, d', s', m, h1, h2, e1, e2⟩
    refine ⟨(d, s), (hp d s).2 h1, (d', s'), (hp d' s').2 h2, ?_, ?_⟩
    · intro e
      have := congrArg (fun p => p.2.length) e
      simp only [e1, List.length_append] at this
      have h11 : (c!"._domainkey").length = 11 := rfl
      omega
    · simp only [e1]
      have : c!"._domainkey." ++ d = c!"._domainkey" ++ ('.' :: d) := by simp
      rw [List.append_assoc s c!"._domainkey." d, this, e2]
      simp

/-! ## At most three records -/

/-- What of an answer can matter. -/
def Spec.relevantAnswer : Except IoErr (List (Except IoErr Bytes)) → Except IoErr (List (Except IoErr Bytes))
  | .error e => .error e
  | .ok l => .ok (firstTwoAndLast l)

theorem Spec.Judged.relevant {resolver resolver' : Resolver} {cfg : Config} {now : Int} {headers : List Field}
    {body : Bytes} {i : Nat} {f : Field} {r : VerificationResult}
    (h : ∀ name, relevantAnswer (resolver name).result = relevantAnswer (resolver' name).result)
    (hj : Judged E resolver cfg now headers body i f r) : Judged E resolver' cfg now headers body i f r := by
  have hok : ∀ {name l}, (resolver name).result = .ok l → ∃ l', (resolver' name).result = .ok l' ∧
      firstTwoAndLast l = firstTwoAndLast l' := by
    intro name l e
    have := h name
    rw [e] at this
    cases hr : (resolver' name).result with
    | error e' => rw [hr] at this; cases this
    | ok l' =>
      rw [hr] at this
      simp only [relevantAnswer, Except.ok.injEq] at this
      exact ⟨l', rfl, this⟩
  cases hj with
  | unparsed e h1 h2 => exact .unparsed e h1 h2
  | rejected v s e h1 h2 => exact .rejected v s e h1 h2
  | noAnswer v s n e h1 h2 h3 h4 =>
    refine .noAnswer v s n e h1 h2 h3 ?_
    have := h n
    rw [h4] at this
    cases hr : (resolver' n).result with
    | ok l => rw [hr] at this; cases this
    | error e' =>
      rw [hr] at this
      cases this
      rfl
  | noRecords v s n h1 h2 h3 h4 =>
    obtain ⟨l', g1, g2⟩ := hok h4
    have : l' = [] := firstTwoAndLast_nil g2.symm
    subst this
    exact .noRecords v s n h1 h2 h3 g1
  | verified v o s n ts before after txt rec h1 h2 h3 h4 h5 h6 h7 h8 =>
    obtain ⟨l', g1, g2⟩ := hok h5
    exact .verified v o s n l' before after txt rec h1 h2 h3 h4 g1 (g2 ▸ h6) h7 h8
  | unverified v o s n ts before txt e rec h1 h2 h3 h4 h5 h6 h7 h8 =>
    obtain ⟨l', g1, g2⟩ := hok h5
    exact .unverified v o s n l' before txt e rec h1 h2 h3 h4 g1 (g2 ▸ h6) h7 h8

/-- C67: only the first two and the last record of each answer can influence the
results. -/
theorem C67_three_records (L : Lawful E) {resolver resolver' : Resolver} {cfg : Config} {clock : Nat → Int}
    (T : TypedTimes cfg clock) {headers : List Field} {chunks chunks' : List Bytes}
    {results results' : List VerificationResult} {asked asked' : List Str}
    (h : Run E resolver cfg clock headers chunks results asked)
    (h' : Run E resolver' cfg clock headers chunks' results' asked') (hbody : chunks.flatten = chunks'.flatten)
    (hans : ∀ name, relevantAnswer (resolver name).result = relevantAnswer (resolver' name).result) :
    results = results' := by
  obtain ⟨_, e, _⟩ := h.eq L T
  obtain ⟨_, e', _⟩ := h'.eq L T
  rw [e, e', ← hbody]
  apply List.map_congr_left
  rintro ⟨i, f⟩ _
  exact ((resultFor_judged L.idna resolver T headers chunks.flatten i f).relevant hans).unique L.idna
    (resultFor_judged L.idna resolver' T headers chunks.flatten i f)

/-! ## Concrete cases -/

/-- Two signatures with different domains and selectors, for which the same name is
queried. -/
def collidingMessage : List Field :=
  [⟨c!"DKIM-Signature", b!"v=1; a=rsa-sha256; d=example.com; s=a._domainkey.b; h=From; bh=AAAA; b=AAAA"⟩,
   ⟨c!"From", b!" me"⟩,
   ⟨c!"DKIM-Signature", b!"v=1; a=rsa-sha256; d=b._domainkey.example.com; s=a; h=From; bh=AAAA; b=AAAA"⟩]

set_option maxRecDepth 100000 in
/-- C67: the violation: a name is queried twice. -/
theorem C67_violation : ∃ (resolver : Resolver) (cfg : Config) (clock : Nat → Int) (headers : List Field)
    (chunks : List Bytes) (results : List VerificationResult) (asked : List Str), Lawful testEnv ∧
    TypedTimes cfg clock ∧ Run testEnv resolver cfg clock headers chunks results asked ∧ ¬ asked.Nodup := by
  refine ⟨testResolver, .default, fun _ => 1500, collidingMessage, [], _, _, testEnv_lawful,
    typed_default (by decide) _ rfl, ⟨_, _, _, rfl, rfl, rfl⟩, ?_⟩
  decide

/-- An answer with more than three records, and another that differs in the middle. -/
example : relevantAnswer (.ok [.ok b!"a", .ok b!"b", .ok b!"c", .ok b!"d"]) =
    relevantAnswer (.ok [.ok b!"a", .ok b!"b", .error .other, .ok b!"x", .ok b!"d"]) := rfl

set_option maxRecDepth 100000 in
/-- A run with two results and two queries. -/
example : ∃ results asked, Run testEnv testResolver .default (fun _ => 1500) testMessage testBody results asked ∧
    results.length = 2 ∧ asked = [c!"r._domainkey.example.com.", c!"e._domainkey.example.com."] :=
  ⟨_, _, ⟨_, _, _, rfl, rfl, rfl⟩, rfl, rfl⟩

end Dkim
