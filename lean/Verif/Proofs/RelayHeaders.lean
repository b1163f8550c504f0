import Verif.Proofs.Relayed
import Verif.Props.VerifierPolicy

/-!
# The changes of a header are all there are: helpers for C116
-/

namespace Dkim

open Spec

variable {signed guarded : List Str} {alg : CanonAlg}

theorem Spec.HeaderChanged.trans {x y z : List Field} (h : HeaderChanged signed guarded alg x y)
    (h' : HeaderChanged signed guarded alg y z) : HeaderChanged signed guarded alg x z := by
  induction h' with
  | same => exact h
  | step y z _ hs ih => exact .step _ _ _ ih hs
  | back y z _ hs ih => exact .back _ _ _ ih hs

theorem Spec.HeaderChanged.symm {x y : List Field} (h : HeaderChanged signed guarded alg x y) :
    HeaderChanged signed guarded alg y x := by
  induction h with
  | same => exact .same _
  | step y z _ hs ih => exact (HeaderChanged.back _ _ _ (.same _) hs).trans ih
  | back y z _ hs ih => exact (HeaderChanged.step _ _ _ (.same _) hs).trans ih

theorem Spec.HeaderStep.changed {x y : List Field} (h : HeaderStep signed guarded alg x y) :
    HeaderChanged signed guarded alg x y := .step _ _ _ (.same _) h

theorem Spec.FieldsStep.cons {x y : List Field} (g : Field) (h : FieldsStep signed guarded alg x y) :
    FieldsStep signed guarded alg (g :: x) (g :: y) := by
  cases h with
  | add a b f h1 h2 => exact .add (g :: a) b f h1 h2
  | exchange a b f k h => exact .exchange (g :: a) b f k h
  | refold a b f k ws h1 h2 h3 h4 => exact .refold (g :: a) b f k ws h1 h2 h3 h4

theorem occurrences_congr {m n : Str} (h : lower m = lower n) (x : List Field) : occurrences x m = occurrences x n := by
  unfold occurrences; congr 1; funext f; simp [sameName, h]

theorem mentions_congr {m n : Str} (h : lower m = lower n) (x : List Str) : mentions x m = mentions x n := by
  unfold mentions; congr 1; funext f; simp [sameName, h]

theorem occurrences_cons (g : Field) (x : List Field) (n : Str) :
    occurrences (g :: x) n = occurrences x n + if lower n = lower g.name then 1 else 0 := by
  unfold occurrences
  rw [List.countP_cons]
  simp [sameName]

theorem step_cons {x y : List Field} (g : Field) (h : HeaderStep signed guarded alg x y) :
    HeaderChanged signed guarded alg (g :: x) (g :: y) := by
  cases h with
  | part _ h => exact HeaderStep.changed (.part _ _ (h.cons g))
  | onTop f h1 h2 =>
    by_cases e : lower g.name = lower f.name
    · have h3 : mentions signed g.name ≤ occurrences x g.name := by
        rw [mentions_congr e, occurrences_congr e]; exact h1
      have h4 : ∀ n ∈ guarded, lower g.name ≠ lower n := by rw [e]; exact h2
      refine (HeaderStep.changed (.onTop x g h3 h4)).symm.trans ((HeaderStep.changed (.onTop x f h1 h2)).trans
        (HeaderStep.changed (.onTop (f :: x) g ?_ h4)))
      rw [occurrences_cons]
      omega
    · refine (HeaderStep.changed (.onTop (g :: x) f ?_ h2)).trans
        (HeaderStep.changed (.part _ _ (.exchange [] x f g fun h => e h.symm)))
      rw [occurrences_cons]
      omega

theorem changed_cons {x y : List Field} (g : Field) (h : HeaderChanged signed guarded alg x y) :
    HeaderChanged signed guarded alg (g :: x) (g :: y) := by
  induction h with
  | same => exact .same _
  | step y z _ hs ih => exact ih.trans (step_cons g hs)
  | back y z _ hs ih => exact ih.trans (step_cons g hs).symm

/-! ### Only what is signed -/

/-- The fields that are signed. -/
def signedOnly (signed : List Str) : List Field → List Field
  | [] => []
  | g :: x => if occurrences x g.name < mentions signed g.name then g :: signedOnly signed x else signedOnly signed x

theorem occurrences_eq_length (x : List Field) (n : Str) : occurrences x n = (fromBottom x n).length := by
  unfold occurrences fromBottom
  rw [← List.countP_eq_length_filter, List.countP_reverse]
  congr 1; funext f
  rw [sameName_comm]

theorem fromBottom_onTop (g : Field) (x : List Field) (n : Str) :
    fromBottom (g :: x) n = fromBottom x n ++ if lower g.name = lower n then [g] else [] := by
  rw [show g :: x = [g] ++ x from rfl, fromBottom_append, fromBottom_single]
  simp [sameName]

theorem fromBottom_signedOnly (x : List Field) (n : Str) :
    fromBottom (signedOnly signed x) n = (fromBottom x n).take (mentions signed n) := by
  induction x with
  | nil => simp [signedOnly, fromBottom]
  | cons g x ih =>
    rw [signedOnly, fromBottom_onTop]
    by_cases e : lower g.name = lower n
    · rw [if_pos e, mentions_congr e, occurrences_congr e, occurrences_eq_length]
      split
      · next h =>
        rw [fromBottom_onTop, if_pos e, ih, List.take_of_length_le (l := fromBottom x n) (by omega),
          List.take_of_length_le (by simp; omega)]
      · next h => rw [ih, List.take_append_of_le_length (by omega)]
    · rw [if_neg e, List.append_nil]
      split
      · rw [fromBottom_onTop, if_neg e, List.append_nil, ih]
      · exact ih

theorem changed_signedOnly {x : List Field} (hg : ∀ n ∈ guarded, occurrences x n ≤ mentions signed n) :
    HeaderChanged signed guarded alg x (signedOnly signed x) := by
  induction x with
  | nil => exact .same _
  | cons g x ih =>
    have ih := ih fun n hn => by have := hg n hn; rw [occurrences_cons] at this; omega
    rw [signedOnly]
    split
    · exact changed_cons g ih
    · next h =>
      refine (HeaderStep.changed (.onTop x g (by omega) ?_)).symm.trans ih
      intro n hn e
      have := hg n hn
      rw [occurrences_cons, if_pos e.symm, occurrences_congr e.symm, mentions_congr e.symm] at this
      omega

/-! ### Order -/

theorem changed_up (g : Field) (b : List Field) : ∀ a : List Field, (∀ f ∈ a, lower f.name ≠ lower g.name) →
    HeaderChanged signed guarded alg (a ++ g :: b) (g :: (a ++ b)) := by
  intro a
  induction a with
  | nil => intro _; exact .same _
  | cons f a ih =>
    intro h
    refine (changed_cons f (ih fun k hk => h k (by simp [hk]))).trans ?_
    exact HeaderStep.changed (.part _ _ (.exchange [] (a ++ b) f g (h f (by simp))))

theorem lower_utf8_length (a : Str) : (utf8 (lower a)).length = (utf8 a).length := by
  induction a with
  | nil => rfl
  | cons c a ih =>
    have e : lower (c :: a) = c.toLower :: lower a := rfl
    rw [e, utf8_cons, utf8_cons, List.length_append, List.length_append, ih]
    congr 1
    rw [← asciiLower_eq]
    unfold asciiLower
    split
    · next h =>
      simp only [isAsciiUpper, Bool.and_eq_true, decide_eq_true_eq] at h
      rw [encodeChar_ascii c (by omega), encodeChar_ascii _ (by rw [char_toNat_ofNat _ (by left; omega)]; omega)]
      rfl
    · rfl

theorem changed_refold {g h : Field} (hn : lower g.name = lower h.name)
    (hc : canonField alg g.name g.body = canonField alg h.name h.body) (x : List Field) :
    HeaderChanged signed guarded alg (g :: x) (h :: x) := by
  cases alg with
  | simple =>
    simp only [canonField] at hc
    have hl : (utf8 g.name).length = (utf8 h.name).length := by
      rw [← lower_utf8_length g.name, ← lower_utf8_length h.name, hn]
    rw [List.append_assoc, List.append_assoc] at hc
    obtain ⟨h1, h2⟩ := List.append_inj hc hl
    have h1 := utf8_injective h1
    have h2 : g.body = h.body := by simpa using h2
    have : g = h := by
      cases g; cases h
      simp only at h1 h2
      rw [h1, h2]
    rw [this]
    exact .same _
  | relaxed =>
    simp only [canonField, hn] at hc
    have := rfcRelaxedValue_injective (List.append_cancel_left hc)
    exact HeaderStep.changed (.part _ _ (.refold [] x g h (words g.body) rfl hn (words_spaced _)
      (this ▸ words_spaced _)))

theorem changed_same_instances : ∀ {x y : List Field}, (∀ n, (fromBottom x n).map (fun f => canonField alg f.name f.body) =
      (fromBottom y n).map (fun f => canonField alg f.name f.body)) → HeaderChanged signed guarded alg x y := by
  intro x
  induction x with
  | nil =>
    intro y h
    cases y with
    | nil => exact .same _
    | cons g y =>
      have := h g.name
      rw [fromBottom_onTop, if_pos rfl] at this
      simp [fromBottom] at this
  | cons g x ih =>
    intro y h
    have split : ∀ y : List Field, fromBottom y g.name ≠ [] → ∃ a k b, y = a ++ k :: b ∧ lower k.name = lower g.name ∧
        ∀ f ∈ a, lower f.name ≠ lower g.name := by
      intro y
      induction y with
      | nil => intro h; exact absurd rfl h
      | cons f y ih =>
        intro h
        by_cases e : lower f.name = lower g.name
        · exact ⟨[], f, y, rfl, e, by simp⟩
        · rw [fromBottom_onTop, if_neg e, List.append_nil] at h
          obtain ⟨a, k, b, rfl, h1, h2⟩ := ih h
          exact ⟨f :: a, k, b, rfl, h1, by
            intro f' hf'
            rcases List.mem_cons.1 hf' with rfl | hf'
            · exact e
            · exact h2 f' hf'⟩
    obtain ⟨a, k, b, rfl, hk, ha⟩ := split y (by
      intro e
      have := h g.name
      rw [fromBottom_onTop, if_pos rfl, e] at this
      simp at this)
    have hup := changed_up (signed := signed) (guarded := guarded) (alg := alg) k b a (by rw [hk]; exact ha)
    have hinst : ∀ n, fromBottom (a ++ k :: b) n = fromBottom (k :: (a ++ b)) n := by
      intro n
      rw [fromBottom_append, fromBottom_onTop, fromBottom_onTop, fromBottom_append]
      by_cases e : lower k.name = lower n
      · have : fromBottom a n = [] := by
          unfold fromBottom
          rw [List.filter_eq_nil_iff]
          intro f hf hs
          exact ha f (List.mem_reverse.1 hf) (((sameName_iff _ _).1 hs).trans (e.symm.trans hk))
        rw [this]; simp
      · simp [if_neg e]
    have hh := h g.name
    rw [hinst, fromBottom_onTop, fromBottom_onTop, if_pos rfl, if_pos hk, List.map_append, List.map_append] at hh
    have hc : canonField alg k.name k.body = canonField alg g.name g.body := by
      have := List.append_inj_right' hh rfl
      simpa using this.symm
    refine HeaderChanged.trans ?_ (hup.trans (changed_refold hk hc _)).symm
    refine changed_cons g (ih fun n => ?_)
    have hn := h n
    rw [hinst, fromBottom_onTop, fromBottom_onTop, hk] at hn
    by_cases e : lower g.name = lower n
    · rw [if_pos e, if_pos e, List.map_append, List.map_append] at hn
      exact List.append_inj_left' hn rfl
    · rw [if_neg e, if_neg e, List.append_nil, List.append_nil] at hn
      exact hn

theorem headerChanged_same {x y : List Field} (h : HeaderChanged signed guarded alg x y) :
    SameHeader signed guarded alg x y := by
  have one : ∀ {x y : List Field}, HeaderStep signed guarded alg x y → SameHeader signed guarded alg x y := by
    intro x y h
    cases h with
    | part _ h => exact (fieldsStep_samePart h).header
    | onTop g h1 h2 => exact onTop_sameHeader alg h1 h2
  have tr : ∀ {x y z : List Field}, SameHeader signed guarded alg x y → SameHeader signed guarded alg y z →
      SameHeader signed guarded alg x z := fun a b =>
    ⟨fun n hn => (a.counts n hn).trans (b.counts n hn), fun n hn => (a.fields n hn).trans (b.fields n hn)⟩
  induction h with
  | same => exact ⟨fun _ _ => rfl, fun _ _ => rfl⟩
  | step y z _ hs ih => exact tr ih (one hs)
  | back y z _ hs ih => exact tr ih (one hs).symm

theorem changed_of_instances {x y : List Field} (hx : ∀ n ∈ guarded, occurrences x n ≤ mentions signed n)
    (hy : ∀ n ∈ guarded, occurrences y n ≤ mentions signed n)
    (h : ∀ n ∈ signed, ((fromBottom x n).take (mentions signed n)).map (fun f => canonField alg f.name f.body) =
      ((fromBottom y n).take (mentions signed n)).map (fun f => canonField alg f.name f.body)) :
    HeaderChanged signed guarded alg x y := by
  refine (changed_signedOnly hx).trans (HeaderChanged.trans ?_ (changed_signedOnly hy).symm)
  refine changed_same_instances fun n => ?_
  rw [fromBottom_signedOnly, fromBottom_signedOnly]
  by_cases hn : ∃ m ∈ signed, lower m = lower n
  · obtain ⟨m, hm, e⟩ := hn
    have := h m hm
    rw [mentions_congr e] at this
    have hf : ∀ x : List Field, fromBottom x m = fromBottom x n := by
      intro x; unfold fromBottom; congr 1; funext f; simp [sameName, e]
    rw [hf, hf] at this
    exact this
  · have : mentions signed n = 0 := by
      unfold mentions
      rw [List.countP_eq_zero]
      intro m hm hs
      exact hn ⟨m, hm, ((sameName_iff _ _).1 hs).symm⟩
    rw [this]
    rfl

/-! ### The data for the signature -/

theorem selectAux_instances {x y : List Field}
    (h : ∀ n ∈ signed, ((fromBottom x n).take (mentions signed n)).map (fun f => canonField alg f.name f.body) =
      ((fromBottom y n).take (mentions signed n)).map (fun f => canonField alg f.name f.body))
    (rest : List Str) : ∀ earlier, signed = earlier.reverse ++ rest →
    (selectAux x earlier rest).map (fun f => canonField alg f.name f.body) =
      (selectAux y earlier rest).map (fun f => canonField alg f.name f.body) := by
  induction rest with
  | nil => intro _ _; rfl
  | cons n ns ih =>
    intro earlier he
    rw [selectAux, selectAux, List.map_append, List.map_append, ih (n :: earlier) (by rw [he]; simp)]
    congr 1
    have hn := h n (by rw [he]; simp)
    have hlt := mentions_lt n earlier ns
    rw [← he] at hlt
    have key : ∀ hs : List Field,
        ((fromBottom hs n)[earlier.countP (sameName n)]?).toList.map (fun f => canonField alg f.name f.body) =
          ((((fromBottom hs n).take (mentions signed n)).map
            (fun f => canonField alg f.name f.body))[earlier.countP (sameName n)]?).toList := by
      intro hs
      rw [List.getElem?_map, List.getElem?_take, if_pos hlt]
      cases (fromBottom hs n)[earlier.countP (sameName n)]? <;> rfl
    rw [key, key, hn]

theorem canonHeaders_of_instances {x y : List Field}
    (h : ∀ n ∈ signed, ((fromBottom x n).take (mentions signed n)).map (fun f => canonField alg f.name f.body) =
      ((fromBottom y n).take (mentions signed n)).map (fun f => canonField alg f.name f.body)) :
    canonHeaders alg x signed = canonHeaders alg y signed := by
  rw [C09_selected_from_bottom, C09_selected_from_bottom]
  have : ∀ l : List Field, (l.flatMap fun f => canonField alg f.name f.body ++ b!"\r\n") =
      (l.map fun f => canonField alg f.name f.body).flatMap (· ++ b!"\r\n") := by
    intro l
    rw [List.flatMap_map]
  rw [this, this, selectedFields, selectedFields, selectAux_instances h _ [] rfl]

theorem covered_named (n : Str) : ∀ {x y : List Field},
    x.map (fun f => covered alg f.name f.body) = y.map (fun f => covered alg f.name f.body) →
    (x.filter fun f => sameName f.name n).map (fun f => canonField alg f.name f.body) =
      (y.filter fun f => sameName f.name n).map (fun f => canonField alg f.name f.body) := by
  intro x
  induction x with
  | nil =>
    intro y h
    cases y with
    | nil => rfl
    | cons => simp at h
  | cons f x ih =>
    intro y h
    cases y with
    | nil => simp at h
    | cons g y =>
      rw [List.map_cons, List.map_cons, List.cons.injEq] at h
      have e : lower f.name = lower g.name ∧ canonField alg f.name f.body = canonField alg g.name g.body := by
        cases alg with
        | simple =>
          have := h.1
          simp only [covered, Sum.inl.injEq, Prod.mk.injEq] at this
          simp [canonField, this]
        | relaxed =>
          have := h.1
          simp only [covered, Sum.inr.injEq, Prod.mk.injEq] at this
          simp [canonField, rfcRelaxedValue, this]
      have es : sameName f.name n = sameName g.name n := by simp [sameName, e.1]
      rw [List.filter_cons, List.filter_cons, es]
      split
      · rw [List.map_cons, List.map_cons, ih h.2, e.2]
      · exact ih h.2

theorem instances_of_canonHeaders {x y : List Field} (hx : TypedHeaders x) (hy : TypedHeaders y)
    (h : canonHeaders alg x signed = canonHeaders alg y signed) (n : Str) :
    ((fromBottom x n).take (mentions signed n)).map (fun f => canonField alg f.name f.body) =
      ((fromBottom y n).take (mentions signed n)).map (fun f => canonField alg f.name f.body) := by
  have hv : FoldsOnly (utf8 c!" v=1;\r\n b=") := ((fieldBodyOk_iff _).1 (by decide)).foldsOnly
  have hn : ValidName c!"DKIM-Signature" := (fieldNameOk_iff _).1 (by decide)
  have := covered_named n (C12_hash_input_injective alg x y signed signed _ _ _ _ hx hy hn hn hv hv
    (by unfold dataHashInput; rw [h])).1
  unfold selectedFields at this
  rw [selectAux_named, selectAux_named] at this
  simpa using this

end Dkim
