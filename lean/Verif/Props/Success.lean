import Verif.Props.Reported

/-!
# The specification of a result is complete

`Judged` leaves no choice, and `Succeeded` is not only necessary for success (C40) but
also sufficient.
-/

namespace Dkim

open Spec

variable {E : Env}

/-! ## `Judged` is functional -/

theorem fieldDefect_unique (law : CaseLaw E.idna) {f : Field} {e e' : SigError} (h : FieldDefect E f e)
    (h' : FieldDefect E f e') : e = e' := by
  rcases h with ⟨h1, rfl⟩ | ⟨s, h1, h2⟩
  · rcases h' with ⟨_, rfl⟩ | ⟨s, h1', _⟩
    · rfl
    · exact absurd h1' (h1 s)
  · rcases h' with ⟨h1', rfl⟩ | ⟨s', h1', h2'⟩
    · exact absurd h1 (h1' s)
    · have := utf8_injective (h1.symm.trans h1')
      subst this
      exact signatureError_unique law h2 h2'

theorem txtDefect_unique {txt : Except IoErr Bytes} {k k' : RecordError} (h : TxtDefect E txt k)
    (h' : TxtDefect E txt k') : k = k' := by
  rcases h with ⟨h1, rfl⟩ | ⟨s, h1, h2⟩
  · rcases h' with ⟨_, rfl⟩ | ⟨s, h1', _⟩
    · rfl
    · exact absurd h1' (h1 s)
  · rcases h' with ⟨h1', rfl⟩ | ⟨s', h1', h2'⟩
    · exact absurd h1 (h1' s)
    · rw [h1, Except.ok.injEq] at h1'
      have := utf8_injective h1'
      subst this
      rw [← C55_first_defect (fun _ => [])] at h2 h2'
      rw [h2] at h2'
      injection h2'

theorem outcome_unique {cfg : Config} {headers : List Field} {f : Field} {original : Str} {sig : DkimSignature}
    {txt : Except IoErr Bytes} {e e' : VerificationError} {r r' : Option KeyRecord}
    (h : Outcome E cfg headers f original sig txt (.failed e r))
    (h' : Outcome E cfg headers f original sig txt (.failed e' r')) : e = e' ∧ r = r' := by
  cases r with
  | none =>
    cases r' with
    | none =>
      obtain ⟨_, k, rfl, h1⟩ := h
      obtain ⟨_, k', rfl, h1'⟩ := h'
      rw [txtDefect_unique h1 h1']
      exact ⟨rfl, rfl⟩
    | some r' => exact absurd h'.1 (h.1 _)
  | some r =>
    cases r' with
    | none => exact absurd h.1 (h'.1 _)
    | some r' =>
      have := txtRecord_unique h.1 h'.1
      subst this
      exact ⟨firstFailure_unique h.2 h'.2, rfl⟩

/-- Two ways to split a list at the first element with a property are the same. -/
theorem split_first_unique {α : Type} {p : α → Prop} {a a' b b' : List α} {x x' : α}
    (e : a ++ x :: b = a' ++ x' :: b') (ha : ∀ y ∈ a, ¬ p y) (ha' : ∀ y ∈ a', ¬ p y) (hx : p x) (hx' : p x') :
    a = a' ∧ x = x' ∧ b = b' := by
  rw [List.append_eq_append_iff] at e
  rcases e with ⟨c, rfl, hc⟩ | ⟨c, rfl, hc⟩
  · cases c with
    | nil =>
      simp only [List.nil_append, List.cons.injEq] at hc
      simp [hc.1, hc.2]
    | cons y c =>
      simp only [List.cons_append, List.cons.injEq] at hc
      exact absurd hx (ha' x (by simp [hc.1]))
  · cases c with
    | nil =>
      simp only [List.nil_append, List.cons.injEq] at hc
      simp [hc.1, hc.2]
    | cons y c =>
      simp only [List.cons_append, List.cons.injEq] at hc
      exact absurd hx' (ha x' (by simp [hc.1]))

theorem allPass_or_fails (cs : List Check) : AllPass cs ∨ ∃ e, FirstFailure cs e := by
  induction cs with
  | nil => exact .inl allPass_nil
  | cons c cs ih =>
    by_cases hc : c.holds
    · rcases ih with h | ⟨e, h⟩
      · exact .inl (allPass_cons.2 ⟨hc, h⟩)
      · exact .inr ⟨e, firstFailure_cons.2 (.inr ⟨hc, h⟩)⟩
    · exact .inr ⟨_, firstFailure_cons.2 (.inl ⟨hc, rfl⟩)⟩

/-- The result for a field is determined by the specification. -/
theorem Spec.Judged.unique (law : CaseLaw E.idna) {resolver : Resolver} {cfg : Config} {now : Int}
    {headers : List Field} {body : Bytes} {i : Nat} {f : Field} {r r' : VerificationResult}
    (hj : Judged E resolver cfg now headers body i f r) (hj' : Judged E resolver cfg now headers body i f r') :
    r = r' := by
  cases hj with
  | unparsed e h1 h2 =>
    cases hj' with
    | unparsed e' h1' h2' => rw [fieldDefect_unique law h2 h2']
    | rejected v s e h => exact absurd h (h1 _ _)
    | noAnswer v s n e h => exact absurd h (h1 _ _)
    | noRecords v s n h => exact absurd h (h1 _ _)
    | verified v o s n ts before after txt rec h => exact absurd h (h1 _ _)
    | unverified v o s n ts before txt e rec h => exact absurd h (h1 _ _)
  | rejected v s e h1 h2 => exact (hj'.of_firstFailure law h1 h2).symm
  | noAnswer v s n e h1 h2 h3 h4 =>
    cases hj' with
    | unparsed e' h1' h2' => exact absurd h1 (h1' _ _)
    | rejected v' s' e' h1' h2' =>
      obtain ⟨rfl, rfl⟩ := fieldSignature_unique law h1 h1'
      exact absurd h2' h2.not_firstFailure
    | noAnswer v' s' n' e' h1' h2' h3' h4' =>
      obtain ⟨rfl, rfl⟩ := fieldSignature_unique law h1 h1'
      rw [queryFor_unique h3 h3', h4', Except.error.injEq] at h4
      rw [h4]
    | noRecords v' s' n' h1' h2' h3' h4' =>
      obtain ⟨rfl, rfl⟩ := fieldSignature_unique law h1 h1'
      rw [queryFor_unique h3 h3', h4'] at h4
      cases h4
    | verified v' o' s' n' ts' before' after' txt' rec' h1' h2' h3' h4' h5' h6' h7' h8' =>
      obtain ⟨rfl, rfl⟩ := fieldSignature_unique law h1 h1'
      rw [queryFor_unique h3 h4', h5'] at h4
      cases h4
    | unverified v' o' s' n' ts' before' txt' e' rec' h1' h2' h3' h4' h5' h6' h7' h8' =>
      obtain ⟨rfl, rfl⟩ := fieldSignature_unique law h1 h1'
      rw [queryFor_unique h3 h4', h5'] at h4
      cases h4
  | noRecords v s n h1 h2 h3 h4 =>
    cases hj' with
    | unparsed e' h1' h2' => exact absurd h1 (h1' _ _)
    | rejected v' s' e' h1' h2' =>
      obtain ⟨rfl, rfl⟩ := fieldSignature_unique law h1 h1'
      exact absurd h2' h2.not_firstFailure
    | noAnswer v' s' n' e' h1' h2' h3' h4' =>
      obtain ⟨rfl, rfl⟩ := fieldSignature_unique law h1 h1'
      rw [queryFor_unique h3 h3', h4'] at h4
      cases h4
    | noRecords v' s' n' h1' h2' h3' h4' =>
      obtain ⟨rfl, rfl⟩ := fieldSignature_unique law h1 h1'
      rfl
    | verified v' o' s' n' ts' before' after' txt' rec' h1' h2' h3' h4' h5' h6' h7' h8' =>
      obtain ⟨rfl, rfl⟩ := fieldSignature_unique law h1 h1'
      rw [queryFor_unique h3 h4', h5', Except.ok.injEq] at h4
      subst h4
      simp [firstTwoAndLast] at h6'
    | unverified v' o' s' n' ts' before' txt' e' rec' h1' h2' h3' h4' h5' h6' h7' h8' =>
      obtain ⟨rfl, rfl⟩ := fieldSignature_unique law h1 h1'
      rw [queryFor_unique h3 h4', h5', Except.ok.injEq] at h4
      subst h4
      simp [firstTwoAndLast] at h6'
  | verified v o s n ts before after txt rec h1 h2 h3 h4 h5 h6 h7 h8 =>
    cases hj' with
    | unparsed e' h1' h2' => exact absurd h1 (h1' _ _)
    | rejected v' s' e' h1' h2' =>
      obtain ⟨rfl, rfl⟩ := fieldSignature_unique law h1 h1'
      exact absurd h2' h3.not_firstFailure
    | noAnswer v' s' n' e' h1' h2' h3' h4' =>
      obtain ⟨rfl, rfl⟩ := fieldSignature_unique law h1 h1'
      rw [queryFor_unique h4 h3', h4'] at h5
      cases h5
    | noRecords v' s' n' h1' h2' h3' h4' =>
      obtain ⟨rfl, rfl⟩ := fieldSignature_unique law h1 h1'
      rw [queryFor_unique h4 h3', h4', Except.ok.injEq] at h5
      subst h5
      simp [firstTwoAndLast] at h6
    | verified v' o' s' n' ts' before' after' txt' rec' h1' h2' h3' h4' h5' h6' h7' h8' =>
      obtain ⟨rfl, rfl⟩ := fieldSignature_unique law h1 h1'
      have := withoutB_unique h1 h2 h2'
      subst this
      rw [queryFor_unique h4 h4', h5', Except.ok.injEq] at h5
      subst h5
      rw [h6] at h6'
      obtain ⟨-, e, -⟩ := split_first_unique (p := fun t => ∃ r, Outcome E cfg headers f o s t (.verified r)) h6'
        (fun t ht ⟨r, hr⟩ => by obtain ⟨e, r', h⟩ := h7 t ht; exact outcome_exclusive h hr)
        (fun t ht ⟨r, hr⟩ => by obtain ⟨e, r', h⟩ := h7' t ht; exact outcome_exclusive h hr) ⟨_, h8⟩ ⟨_, h8'⟩
      subst e
      rw [txtRecord_unique h8.1 h8'.1]
    | unverified v' o' s' n' ts' before' txt' e' rec' h1' h2' h3' h4' h5' h6' h7' h8' =>
      obtain ⟨rfl, rfl⟩ := fieldSignature_unique law h1 h1'
      have := withoutB_unique h1 h2 h2'
      subst this
      rw [queryFor_unique h4 h4', h5', Except.ok.injEq] at h5
      subst h5
      exfalso
      have hm : txt ∈ before' ++ [txt'] := by rw [← h6', h6]; simp
      rw [List.mem_append, List.mem_singleton] at hm
      rcases hm with hm | rfl
      · obtain ⟨e, r, ho⟩ := h7' txt hm
        exact outcome_exclusive ho h8
      · exact outcome_exclusive h8' h8
  | unverified v o s n ts before txt e rec h1 h2 h3 h4 h5 h6 h7 h8 =>
    cases hj' with
    | unparsed e' h1' h2' => exact absurd h1 (h1' _ _)
    | rejected v' s' e' h1' h2' =>
      obtain ⟨rfl, rfl⟩ := fieldSignature_unique law h1 h1'
      exact absurd h2' h3.not_firstFailure
    | noAnswer v' s' n' e' h1' h2' h3' h4' =>
      obtain ⟨rfl, rfl⟩ := fieldSignature_unique law h1 h1'
      rw [queryFor_unique h4 h3', h4'] at h5
      cases h5
    | noRecords v' s' n' h1' h2' h3' h4' =>
      obtain ⟨rfl, rfl⟩ := fieldSignature_unique law h1 h1'
      rw [queryFor_unique h4 h3', h4', Except.ok.injEq] at h5
      subst h5
      simp [firstTwoAndLast] at h6
    | verified v' o' s' n' ts' before' after' txt' rec' h1' h2' h3' h4' h5' h6' h7' h8' =>
      obtain ⟨rfl, rfl⟩ := fieldSignature_unique law h1 h1'
      have := withoutB_unique h1 h2 h2'
      subst this
      rw [queryFor_unique h4 h4', h5', Except.ok.injEq] at h5
      subst h5
      exfalso
      have hm : txt' ∈ before ++ [txt] := by rw [← h6, h6']; simp
      rw [List.mem_append, List.mem_singleton] at hm
      rcases hm with hm | rfl
      · obtain ⟨e, r, ho⟩ := h7 txt' hm
        exact outcome_exclusive ho h8'
      · exact outcome_exclusive h8 h8'
    | unverified v' o' s' n' ts' before' txt' e' rec' h1' h2' h3' h4' h5' h6' h7' h8' =>
      obtain ⟨rfl, rfl⟩ := fieldSignature_unique law h1 h1'
      have := withoutB_unique h1 h2 h2'
      subst this
      rw [queryFor_unique h4 h4', h5', Except.ok.injEq] at h5
      subst h5
      rw [h6, List.append_singleton_inj] at h6'
      obtain ⟨-, rfl⟩ := h6'
      obtain ⟨rfl, rfl⟩ := outcome_unique h8 h8'
      rfl

/-! ## C40, completeness -/

theorem bodyStatus_success_of {cfg : Config} {sig : DkimSignature} {body : Bytes}
    (h1 : sig.bodyLength = none →
      E.hash (hashOf sig.algorithm) (codeBody sig.canonicalization.body body) = sig.bodyHash)
    (h2 : ∀ n, sig.bodyLength = some n → n ≤ (codeBody sig.canonicalization.body body).length ∧
      (cfg.forbidUnsignedContent = true → n = (codeBody sig.canonicalization.body body).length) ∧
      E.hash (hashOf sig.algorithm) ((codeBody sig.canonicalization.body body).take n) = sig.bodyHash) :
    bodyStatus E cfg sig body = .success := by
  unfold bodyStatus
  cases hl : sig.bodyLength with
  | none => simp only [h1 hl, if_true]
  | some n =>
    obtain ⟨g1, g2, g3⟩ := h2 n hl
    simp only [g3, if_true]
    rw [if_neg (by omega), if_neg]
    rintro ⟨a, b⟩
    have := g2 b
    omega

/-- Enough for success. -/
theorem Spec.Judged.success_of (law : CaseLaw E.idna) {resolver : Resolver} {cfg : Config} {now : Int}
    {headers : List Field} {body : Bytes} {i : Nat} {f : Field} {r : VerificationResult}
    (h : Judged E resolver cfg now headers body i f r) {sig : DkimSignature} {record : KeyRecord}
    {key : VerifyingKey E.crypto} {value original : Str}
    (hs : Succeeded E resolver cfg now headers body f sig record key value original)
    (hu : ∀ n, sig.bodyLength = some n → n ≤ E.usizeMax) : r.status = .success ∧ r.signature = some sig := by
  obtain ⟨name, txts, a1, a2, txt, a3, a4⟩ := hs.answer
  have hpass : AllPass (signatureChecks E cfg (unixTime cfg now) headers sig) := by
    unfold signatureChecks
    simp only [allPass_cons]
    exact ⟨hs.required, hs.unsigned, hu, hs.expired, hs.future, hs.sha1, allPass_nil⟩
  have hrec : AllPass (recordChecks E cfg headers f original sig record) := by
    unfold recordChecks
    simp only [allPass_cons]
    refine ⟨hs.keyType, hs.keyData, hs.hashAlgorithm, hs.identity, ?_, ?_, ?_, ?_, allPass_nil⟩
    · rw [hs.keyRead]; simp
    all_goals
      intro k hk
      rw [hs.keyRead, Option.some.injEq] at hk
      subst hk
    · exact hs.size.1
    · exact hs.size.2
    · exact hs.verified
  have hfirst : ∀ l : List (Except IoErr Bytes), txt ∈ l → ∃ before t after rec, l = before ++ t :: after ∧
      (∀ t ∈ before, ∀ r, ¬ Outcome E cfg headers f original sig t (.verified r)) ∧
      Outcome E cfg headers f original sig t (.verified rec) := by
    intro l
    induction l with
    | nil => nofun
    | cons t l ih =>
      intro hm
      by_cases ht : ∃ r, Outcome E cfg headers f original sig t (.verified r)
      · obtain ⟨rec, ht⟩ := ht
        exact ⟨[], t, l, rec, rfl, nofun, ht⟩
      · rcases List.mem_cons.1 hm with rfl | hm
        · exact absurd ⟨record, a4, hrec⟩ ht
        · obtain ⟨b, t', a, rec, rfl, g1, g2⟩ := ih hm
          refine ⟨t :: b, t', a, rec, rfl, ?_, g2⟩
          intro u hu r hr
          rcases List.mem_cons.1 hu with rfl | hu
          · exact ht ⟨r, hr⟩
          · exact g1 u hu r hr
  obtain ⟨before, t, after, rec, g1, g2, g3⟩ := hfirst _ a3
  have hv : HeaderVerified E resolver cfg now headers f sig rec :=
    ⟨value, original, name, txts, before, t, after, hs.signature, hs.stripped, hpass, a1, a2, g1, g2, g3⟩
  obtain ⟨h1, h2⟩ := h.of_headerVerified law hv
  rw [h1]
  exact ⟨bodyStatus_success_of hs.bodyHash hs.limitedHash, h2⟩

/-- C40: conversely, if everything is in order, the result has status Success. -/
theorem C40_success_complete (L : Lawful E) {resolver : Resolver} {cfg : Config} {clock : Nat → Int}
    (T : TypedTimes cfg clock) {headers : List Field} {chunks : List Bytes} {results : List VerificationResult}
    {asked : List Str} (h : Run E resolver cfg clock headers chunks results asked) (r : VerificationResult)
    (hr : r ∈ results) (f : Field) (hf : headers[r.index]? = some f) (sig : DkimSignature) (record : KeyRecord)
    (key : VerifyingKey E.crypto) (value original : Str)
    (hs : Succeeded E resolver cfg (clock r.index) headers chunks.flatten f sig record key value original)
    (hu : ∀ n, sig.bodyLength = some n → n ≤ E.usizeMax) : r.status = .success ∧ r.signature = some sig :=
  (h.judged L T hr hf).success_of L.idna hs hu

/-- The body length of a signature that succeeds fits the machine. -/
theorem Spec.Judged.success_fits {resolver : Resolver} {cfg : Config} {now : Int}
    {headers : List Field} {body : Bytes} {i : Nat} {f : Field} {r : VerificationResult}
    (h : Judged E resolver cfg now headers body i f r) (hs : r.status = .success) {sig : DkimSignature}
    (hsig : r.signature = some sig) : ∀ n, sig.bodyLength = some n → n ≤ E.usizeMax := by
  cases h with
  | unparsed | rejected | noAnswer | noRecords | unverified => simp at hs
  | verified value original sig name txts before after txt record h1 h2 h3 h4 h5 h6 h7 h8 =>
    cases hsig
    exact usize_of_pass h3

end Dkim
