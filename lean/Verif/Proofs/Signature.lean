import Verif.Proofs.Values
import Verif.Proofs.Base64
import Verif.Props.Encode
import Verif.Props.Domain
import Verif.Props.Header
import Verif.Props.TagList

/-! Helper lemmas about parsing of signatures. -/

namespace Dkim

open Spec

/-! ### Values -/

theorem parseTagA_iff (pre : Bool) (v : Str) (a : SigAlg) :
    parseTagA pre v = .ok a ↔ AlgText pre v a := by
  have h := C51_signing_algorithm_exact pre v a
  have h2 : AlgText pre v a ↔ SigAlg.parse pre v = some a := by
    rw [h]; unfold AlgText
    constructor
    · rintro (⟨h1, h2⟩ | ⟨h1, h2⟩ | ⟨h0, h1, h2⟩)
      · exact Or.inl ⟨h2, h1⟩
      · exact Or.inr (Or.inl ⟨h2, h1⟩)
      · exact Or.inr (Or.inr ⟨h0, h2, h1⟩)
    · rintro (⟨h1, h2⟩ | ⟨h1, h2⟩ | ⟨h0, h1, h2⟩)
      · exact Or.inl ⟨h2, h1⟩
      · exact Or.inr (Or.inl ⟨h2, h1⟩)
      · exact Or.inr (Or.inr ⟨h0, h2, h1⟩)
  rw [h2]
  unfold parseTagA
  cases SigAlg.parse pre v with
  | some b => simp
  | none => simp only [reduceCtorEq, iff_false]; split <;> simp

theorem parseBase64_iff (v : Str) (bs : Bytes) : parseBase64Value v = some bs ↔ unfws v = base64 bs := by
  rw [parseBase64Value, ← unfws_eq, C20_base64_canonical, C20_base64_rfc4648]

theorem parseTagB_iff (e : SigErrorKind) (v : Str) (bs : Bytes) :
    parseTagB e v = .ok bs ↔ Base64Text v bs := by
  unfold parseTagB Base64Text
  rw [← parseBase64_iff]
  cases parseBase64Value v with
  | none => simp
  | some b =>
    simp only [Option.some.injEq]
    cases b with
    | nil =>
      simp only [List.isEmpty_nil, if_true, reduceCtorEq, false_iff, not_and]
      intro h e; exact h e.symm
    | cons x b =>
      simp only [List.isEmpty_cons, Bool.false_eq_true, if_false, Res.ok.injEq]
      constructor
      · rintro rfl; simp
      · rintro ⟨_, h⟩; exact h

theorem parseTagC_iff (v : Str) (c : Canonicalization) : parseTagC v = .ok c ↔ CanonText v c := by
  unfold parseTagC CanonText
  rw [← C51_canonicalization_exact]
  cases Canonicalization.parse v <;> simp

theorem parseTagD_iff (ix : Idna) (v d : Str) :
    parseTagD ix v = .ok d ↔ d = v ∧ ValidDomain true ix v := by
  unfold parseTagD
  have := isValidDomainString_iff ix v true
  rw [show isValidDomainString ix v true = isValidDomainName ix v from rfl] at this
  rw [← this]
  split
  · next h => simp only [Res.ok.injEq, h, and_true]; exact eq_comm
  · next h => simp [h]

theorem parseTagS_iff (ix : Idna) (v d : Str) :
    parseTagS ix v = .ok d ↔ d = v ∧ ValidDomain false ix v := by
  unfold parseTagS
  have := isValidDomainString_iff ix v false
  rw [show isValidDomainString ix v false = isValidSelector ix v from rfl] at this
  rw [← this]
  split
  · next h => simp only [Res.ok.injEq, h, and_true]; exact eq_comm
  · next h => simp [h]

theorem from_iff (h : Str) : fieldNameEq h c!"From" = true ↔ lower h = c!"from" := by
  rw [fieldNameEq, eqIgnoreCase_eq, sameName_iff]
  have : lower c!"From" = c!"from" := by decide
  rw [this]

theorem parseTagH_iff (v : Str) (hs : List Str) : parseTagH v = .ok hs ↔ HeadersText v hs := by
  unfold parseTagH HeadersText
  have hall : ∀ l : List Str, l.all fieldNameOk = true ↔ ∀ h ∈ l, ValidName h := by
    intro l; simp [List.all_eq_true, fieldNameOk_iff]
  have hany : ∀ l : List Str, (l.any fun h => fieldNameEq h c!"From") = true ↔
      ∃ h ∈ l, lower h = c!"from" := by
    intro l; simp only [List.any_eq_true, from_iff]
  constructor
  · intro h
    split at h
    · simp at h
    · simp only at h
      split at h
      · simp at h
      · next h1 =>
        split at h
        · simp at h
        · next h2 =>
          simp only [Res.ok.injEq] at h
          subst h
          refine ⟨parseColon_sound v, (hall _).1 (by simpa using h1), (hany _).1 ?_⟩
          cases hx : (parseColonSeparated v).any fun h => fieldNameEq h c!"From" with
          | true => rfl
          | false => rw [hx] at h2; simp at h2
  · rintro ⟨h1, h2, h3⟩
    have e := parseColon_complete h1 fun i hi => validName_trimmed (h2 i hi)
    have hne : v.isEmpty = false := by
      cases v with
      | cons c r => rfl
      | nil =>
        have : parseColonSeparated [] = [[]] := by decide
        rw [this] at e
        subst e
        exact absurd rfl (h2 [] (by simp)).1
    rw [hne]
    simp only [Bool.false_eq_true, if_false, e, (hall hs).2 h2, (hany hs).2 h3, Bool.not_true]

theorem parseTagI_iff (ix : Idna) {v : Str} (hv : IsValue v) (i : Identity) :
    parseTagI ix v = .ok i ↔ IdentityText ix v i := by
  obtain ⟨h1, h2⟩ := isValue_inserted hv
  have hq := qpDecode_exact (unfws_clean v) h1
  unfold parseTagI IdentityText
  cases hd : qpDecode v with
  | panic => exact absurd hd (qpDecode_noPanic (unfws_clean v) h1)
  | err =>
    simp only [reduceCtorEq, false_iff, not_and]
    intro _ h
    rw [← hq, hd] at h
    simp at h
  | ok bytes =>
    have hex := (hq bytes).1 hd
    have huniq : ∀ bs, QpBytes (unfws v) bs → bs = bytes := by
      intro bs h
      rw [← hq, hd] at h
      simpa using h.symm
    simp only
    cases hu : fromUtf8 bytes with
    | none =>
      simp only [reduceCtorEq, false_iff, not_and]
      intro _ h
      rw [← huniq _ h, fromUtf8_utf8] at hu
      simp at hu
    | some s =>
      simp only
      have hb := (fromUtf8_eq_some bytes s).1 hu
      cases hi : Identity.new ix s with
      | none =>
        simp only [reduceCtorEq, false_iff, not_and]
        intro h3 h4
        have e := huniq _ h4
        rw [hb] at e
        rw [(identityNew_iff ix s i).2 ⟨h3, (utf8_injective e).symm⟩] at hi
        simp at hi
      | some j =>
        simp only [Res.ok.injEq]
        obtain ⟨h3, h4⟩ := (identityNew_iff ix s j).1 hi
        constructor
        · rintro rfl
          refine ⟨h3, ?_⟩
          rw [← h4, ← hb]; exact hex
        · rintro ⟨h5, h6⟩
          have e := huniq _ h6
          rw [hb] at e
          rw [(identityNew_iff ix s i).2 ⟨h5, (utf8_injective e).symm⟩] at hi
          exact (Option.some.inj hi).symm

theorem parseTagI_noPanic (ix : Idna) {v : Str} (hv : IsValue v) : parseTagI ix v ≠ .panic := by
  obtain ⟨h1, h2⟩ := isValue_inserted hv
  unfold parseTagI
  cases hd : qpDecode v with
  | panic => exact absurd hd (qpDecode_noPanic (unfws_clean v) h1)
  | err => simp
  | ok bytes =>
    simp only
    cases fromUtf8 bytes with
    | none => simp
    | some s => simp only; cases Identity.new ix s <;> simp

theorem parseTagNum_iff (e : SigErrorKind) (v : Str) (n : Nat) :
    parseTagNum e v = .ok n ↔ PlusDecimal v n := by
  unfold parseTagNum
  rw [← parseU64_iff]
  cases parseU64 v <;> simp

theorem parseTagQLoop_iff (seen : Bool) (items : List Str) :
    parseTagQLoop seen items = .ok () ↔
      (∀ i ∈ items, i ≠ []) ∧ (seen = true ∨ ∃ i ∈ items, lower i = c!"dns/txt") := by
  have e : ∀ s, eqIgnoreCase s c!"dns/txt" = true ↔ lower s = c!"dns/txt" := by
    intro s
    rw [eqIgnoreCase_eq, sameName_iff]
    have : lower c!"dns/txt" = c!"dns/txt" := by decide
    rw [this]
  induction items generalizing seen with
  | nil => cases seen <;> simp [parseTagQLoop]
  | cons s rest ih =>
    rw [parseTagQLoop]
    cases s with
    | nil => simp
    | cons c r =>
      simp only [List.isEmpty_cons, Bool.false_eq_true, if_false, ih, Bool.or_eq_true, e]
      constructor
      · rintro ⟨h1, h2⟩
        refine ⟨?_, ?_⟩
        · intro i hi
          rcases List.mem_cons.1 hi with rfl | hi
          · simp
          · exact h1 i hi
        · rcases h2 with (h2 | h2) | ⟨i, hi, h2⟩
          · exact Or.inl h2
          · exact Or.inr ⟨_, by simp, h2⟩
          · exact Or.inr ⟨i, by simp [hi], h2⟩
      · rintro ⟨h1, h2⟩
        refine ⟨fun i hi => h1 i (by simp [hi]), ?_⟩
        rcases h2 with h2 | ⟨i, hi, h2⟩
        · exact Or.inl (Or.inl h2)
        · rcases List.mem_cons.1 hi with rfl | hi
          · exact Or.inl (Or.inr h2)
          · exact Or.inr ⟨i, hi, h2⟩

theorem parseTagQ_iff {v : Str} (hv : IsValue v) (u : Unit) : parseTagQ v = .ok u ↔ QueryText v := by
  cases u
  unfold parseTagQ QueryText
  rw [parseTagQLoop_iff]
  constructor
  · rintro ⟨h1, h2⟩
    refine ⟨_, parseColon_sound v, fun i hi => ⟨h1 i hi, parseColon_items hv i hi⟩, ?_⟩
    simpa using h2
  · rintro ⟨items, h1, h2, h3⟩
    rw [parseColon_complete h1 h2]
    exact ⟨fun i hi => (h2 i hi).1, Or.inr h3⟩

/-- One copied header field. -/
theorem parseQpHeaderField_iff {s p : Str} (hs : Clean s) (h : Inserted s p) (n : Str) (b : Bytes) :
    parseQpHeaderField p = some (some (n, b)) ↔
      ValidName n ∧ QpBytes (unfws p) (utf8 n ++ 58 :: b) := by
  have hq := qpDecode_exact hs h
  have hcol : ∀ n : Str, ValidName n → (58 : UInt8) ∉ utf8 n := by
    intro n hn hm
    have ha : ∀ c ∈ n, c.toNat < 128 := fun c hc => by have := hn.2 c hc; omega
    rw [utf8_ascii n ha, List.mem_map] at hm
    obtain ⟨c, hc, e⟩ := hm
    have h1 := ha c hc
    have h2 : c.toNat = 58 := by
      have := congrArg UInt8.toNat e
      simpa [Nat.mod_eq_of_lt (show c.toNat < 256 by omega)] using this
    exact (hn.2 c hc).2.2 (char_ext_toNat h2)
  unfold parseQpHeaderField
  cases hd : qpDecode p with
  | panic => exact absurd hd (qpDecode_noPanic hs h)
  | err =>
    simp only [Option.some.injEq, reduceCtorEq, false_iff, not_and]
    intro _ h'
    rw [← hq, hd] at h'
    simp at h'
  | ok val =>
    have hv := (hq val).1 hd
    have huniq : ∀ bs, QpBytes (unfws p) bs → bs = val := by
      intro bs h'
      rw [← hq, hd] at h'
      simpa using h'.symm
    simp only
    cases hsp : splitOnce (58 : UInt8) val with
    | none =>
      simp only [Option.some.injEq, reduceCtorEq, false_iff, not_and]
      intro h1 h2
      rw [← huniq _ h2, splitOnce_not_mem _ _ _ (hcol n h1)] at hsp
      simp at hsp
    | some ab =>
      obtain ⟨a, b'⟩ := ab
      simp only
      obtain ⟨e, ha⟩ := splitOnce_some hsp
      cases hu : fromUtf8 a with
      | none =>
        simp only [Option.some.injEq, reduceCtorEq, false_iff, not_and]
        intro h1 h2
        have e2 := huniq _ h2
        rw [← e2, splitOnce_not_mem _ _ _ (hcol n h1)] at hsp
        simp only [Option.some.injEq, Prod.mk.injEq] at hsp
        rw [← hsp.1, fromUtf8_utf8] at hu
        simp at hu
      | some name =>
        simp only
        have hn := (fromUtf8_eq_some a name).1 hu
        constructor
        · intro h1
          split at h1
          · next hok =>
            simp only [Option.some.injEq, Prod.mk.injEq] at h1
            obtain ⟨rfl, rfl⟩ := h1
            refine ⟨(fieldNameOk_iff name).1 hok, ?_⟩
            rw [← hn, ← e]; exact hv
          · simp at h1
        · rintro ⟨h1, h2⟩
          have e2 := huniq _ h2
          rw [← e2, splitOnce_not_mem _ _ _ (hcol n h1)] at hsp
          simp only [Option.some.injEq, Prod.mk.injEq] at hsp
          obtain ⟨e3, rfl⟩ := hsp
          rw [hn] at e3
          have := utf8_injective e3
          subst this
          rw [if_pos ((fieldNameOk_iff n).2 h1)]

theorem parseQpHeaderField_noPanic {s p : Str} (hs : Clean s) (h : Inserted s p) :
    parseQpHeaderField p ≠ none := by
  unfold parseQpHeaderField
  cases hd : qpDecode p with
  | panic => exact absurd hd (qpDecode_noPanic hs h)
  | err => simp
  | ok val =>
    simp only
    cases splitOnce (58 : UInt8) val with
    | none => simp
    | some ab =>
      simp only
      cases fromUtf8 ab.1 with
      | none => simp
      | some n => simp only; split <;> simp

theorem copied_cons {p n : Str} {b : Bytes} {s : Str} {hs : List (Str × Bytes)} (hp : '|' ∉ p) :
    CopiedText (p ++ '|' :: s) ((n, b) :: hs) ↔
      ValidName n ∧ QpBytes (unfws p) (utf8 n ++ 58 :: b) ∧ CopiedText s hs := by
  constructor
  · intro h
    generalize ht : p ++ '|' :: s = t at h
    cases h with
    | one p' _ _ h1 h2 h3 => exact absurd (by rw [← ht]; simp) h1
    | more p' _ _ s' _ h1 h2 h3 h4 =>
      have e1 := splitOnce_not_mem '|' p s hp
      rw [ht, splitOnce_not_mem '|' p' s' h1] at e1
      simp only [Option.some.injEq, Prod.mk.injEq] at e1
      obtain ⟨rfl, rfl⟩ := e1
      exact ⟨h2, h3, h4⟩
  · rintro ⟨h1, h2, h3⟩
    exact .more p n b s hs hp h1 h2 h3

theorem copied_single {p : Str} {hs : List (Str × Bytes)} (hp : '|' ∉ p) :
    CopiedText p hs ↔ ∃ n b, hs = [(n, b)] ∧ ValidName n ∧ QpBytes (unfws p) (utf8 n ++ 58 :: b) := by
  constructor
  · intro h
    cases h with
    | one p' n b h1 h2 h3 => exact ⟨n, b, rfl, h2, h3⟩
    | more p' n b s' _ h1 h2 h3 h4 => exact absurd (by simp) hp
  · rintro ⟨n, b, rfl, h1, h2⟩
    exact .one p n b hp h1 h2

theorem parseTagZ_aux {s v : Str} (hs : Clean s) (h : Inserted s v) :
    (∀ hdrs, parseTagZLoop (splitOn '|' v) = .ok hdrs ↔ CopiedText v hdrs) ∧
      parseTagZLoop (splitOn '|' v) ≠ .panic := by
  induction v using split_induction '|' generalizing s with
  | one p hp =>
    rw [splitOn_single _ p hp, parseTagZLoop]
    have h1 := parseQpHeaderField_iff hs h
    have h2 := parseQpHeaderField_noPanic hs h
    simp only [parseTagZLoop, copied_single hp]
    cases hf : parseQpHeaderField p with
    | none => exact absurd hf h2
    | some o =>
      cases o with
      | none =>
        refine ⟨fun hdrs => ?_, by simp⟩
        simp only [reduceCtorEq, false_iff, not_exists, not_and]
        intro n b _ h3 h4
        rw [(h1 n b).2 ⟨h3, h4⟩] at hf
        simp at hf
      | some nb =>
        obtain ⟨n, b⟩ := nb
        refine ⟨fun hdrs => ?_, by simp⟩
        simp only [Res.ok.injEq]
        constructor
        · rintro rfl; exact ⟨n, b, rfl, (h1 n b).1 hf⟩
        · rintro ⟨n', b', rfl, h3⟩
          rw [(h1 n' b').2 h3] at hf
          simp only [Option.some.injEq, Prod.mk.injEq] at hf
          rw [hf.1, hf.2]
  | more p r hp ih =>
    rw [splitOn_cons _ p r hp, parseTagZLoop]
    obtain ⟨s1, s2, rfl, i1, i2⟩ := inserted_split h (by simp [fwsChar]) rfl
    have hc1 : Clean s1 := fun c hc => hs c (by simp [hc])
    have hc2 : Clean s2 := fun c hc => hs c (by simp [hc])
    have h1 := parseQpHeaderField_iff hc1 i1
    have h2 := parseQpHeaderField_noPanic hc1 i1
    obtain ⟨h3, h4⟩ := ih hc2 i2
    have hnil : ∀ hdrs, CopiedText (p ++ '|' :: r) hdrs → ∃ n b hs, hdrs = (n, b) :: hs := by
      intro hdrs hh
      generalize p ++ '|' :: r = t at hh
      cases hh with
      | one _ n b => exact ⟨n, b, [], rfl⟩
      | more p' n b s' hs => exact ⟨n, b, hs, rfl⟩
    cases hf : parseQpHeaderField p with
    | none => exact absurd hf h2
    | some o =>
      cases o with
      | none =>
        refine ⟨fun hdrs => ?_, by simp⟩
        simp only [reduceCtorEq, false_iff]
        intro hh
        obtain ⟨n, b, hs', rfl⟩ := hnil _ hh
        obtain ⟨g1, g2, _⟩ := (copied_cons hp).1 hh
        rw [(h1 n b).2 ⟨g1, g2⟩] at hf
        simp at hf
      | some nb =>
        obtain ⟨n, b⟩ := nb
        simp only
        obtain ⟨g1, g2⟩ := (h1 n b).1 hf
        have hhead : ∀ n' b' hs', CopiedText (p ++ '|' :: r) ((n', b') :: hs') →
            n' = n ∧ b' = b ∧ CopiedText r hs' := by
          intro n' b' hs' hh
          obtain ⟨k1, k2, k3⟩ := (copied_cons hp).1 hh
          have := (h1 n' b').2 ⟨k1, k2⟩
          rw [hf] at this
          simp only [Option.some.injEq, Prod.mk.injEq] at this
          exact ⟨this.1.symm, this.2.symm, k3⟩
        cases hl : parseTagZLoop (splitOn '|' r) with
        | panic => exact absurd hl h4
        | err e =>
          refine ⟨fun hdrs => ?_, by simp⟩
          simp only [reduceCtorEq, false_iff]
          intro hh
          obtain ⟨n', b', hs', rfl⟩ := hnil _ hh
          have := (h3 hs').2 (hhead n' b' hs' hh).2.2
          rw [hl] at this; simp at this
        | ok hs2 =>
          refine ⟨fun hdrs => ?_, by simp⟩
          simp only [Res.ok.injEq]
          constructor
          · rintro rfl; exact (copied_cons hp).2 ⟨g1, g2, (h3 hs2).1 hl⟩
          · intro hh
            obtain ⟨n', b', hs', rfl⟩ := hnil _ hh
            obtain ⟨rfl, rfl, k⟩ := hhead n' b' hs' hh
            have := (h3 hs').2 k
            rw [hl] at this
            simp only [Res.ok.injEq] at this
            rw [this]

theorem parseTagZ_iff {v : Str} (hv : IsValue v) (hs : List (Str × Bytes)) :
    parseTagZ v = .ok hs ↔ CopiedText v hs :=
  (parseTagZ_aux (unfws_clean v) (isValue_inserted hv).1).1 hs

theorem parseTagZ_noPanic {v : Str} (hv : IsValue v) : parseTagZ v ≠ .panic :=
  (parseTagZ_aux (unfws_clean v) (isValue_inserted hv).1).2

/-! ### The loop over the tags -/

theorem set_ok {ε α β : Type} {r : Res ε α} {f : α → β} {b : β} :
    r.set f = .ok b ↔ ∃ a, r = .ok a ∧ f a = b := by
  cases r <;> simp [Res.set]

theorem set_panic {ε α β : Type} {r : Res ε α} {f : α → β} : r.set f = .panic ↔ r = .panic := by
  cases r <;> simp [Res.set]

theorem set_err {ε α β : Type} {r : Res ε α} {f : α → β} {e : ε} : r.set f = .err e ↔ r = .err e := by
  cases r <;> simp [Res.set]

/-- What one field of the local variables is after the loop: `N` is the only tag
that sets it. -/
theorem sigLoop_field {ix : Idna} {pre : Bool} {β : Type} (f : SigAcc → β) (N : Str) (P : Str → β → Prop)
    (hset : ∀ acc acc' t, sigTag ix pre acc t = .ok acc' → t.name = N → P t.value (f acc'))
    (hother : ∀ acc acc' t, sigTag ix pre acc t = .ok acc' → t.name ≠ N → f acc' = f acc)
    (tags : List TagSpec) (acc acc' : SigAcc) (h : sigLoop ix pre acc tags = .ok acc')
    (hn : (tags.map (·.name)).Nodup) :
    (∀ t ∈ tags, t.name = N → P t.value (f acc')) ∧ ((∀ t ∈ tags, t.name ≠ N) → f acc' = f acc) := by
  induction tags generalizing acc with
  | nil => simp [sigLoop] at h; subst h; simp
  | cons t ts ih =>
    rw [sigLoop] at h
    cases h1 : sigTag ix pre acc t with
    | err e => rw [h1] at h; simp at h
    | panic => rw [h1] at h; simp at h
    | ok acc1 =>
      rw [h1] at h
      simp only at h
      rw [List.map_cons, List.nodup_cons] at hn
      obtain ⟨i1, i2⟩ := ih acc1 h hn.2
      constructor
      · intro t' ht' e
        rcases List.mem_cons.1 ht' with rfl | ht'
        · have : f acc' = f acc1 := i2 fun t2 h2 e2 => hn.1 (by
            rw [e, ← e2]; exact List.mem_map.2 ⟨t2, h2, rfl⟩)
          rw [this]; exact hset acc acc1 t' h1 e
        · exact i1 t' ht' e
      · intro hall
        rw [i2 fun t' ht' => hall t' (by simp [ht'])]
        exact hother acc acc1 t h1 (hall t (by simp))

/-- The value of a tag is usable. -/
def TagFine (ix : Idna) (pre : Bool) (t : TagSpec) : Prop :=
  (t.name = c!"v" → t.value = c!"1") ∧
  (t.name = c!"a" → ∃ x, AlgText pre t.value x) ∧
  (t.name = c!"b" → ∃ x, Base64Text t.value x) ∧
  (t.name = c!"bh" → ∃ x, Base64Text t.value x) ∧
  (t.name = c!"c" → ∃ x, CanonText t.value x) ∧
  (t.name = c!"d" → ValidDomain true ix t.value) ∧
  (t.name = c!"h" → ∃ x, HeadersText t.value x) ∧
  (t.name = c!"i" → ∃ x, IdentityText ix t.value x) ∧
  (t.name = c!"l" → ∃ x, PlusDecimal t.value x) ∧
  (t.name = c!"q" → QueryText t.value) ∧
  (t.name = c!"s" → ValidDomain false ix t.value) ∧
  (t.name = c!"t" → ∃ x, PlusDecimal t.value x) ∧
  (t.name = c!"x" → ∃ x, PlusDecimal t.value x) ∧
  (t.name = c!"z" → ∃ x, CopiedText t.value x)

theorem sigTag_fine {ix : Idna} {pre : Bool} {t : TagSpec} (hv : IsValue t.value)
    (h : TagFine ix pre t) (acc : SigAcc) : ∃ acc', sigTag ix pre acc t = .ok acc' := by
  obtain ⟨fv, fa, fb, fbh, fc, fd, fh, fi, fl, fq, fs, ft, fx, fz⟩ := h
  unfold sigTag
  refine iteInduction (motive := fun r => ∃ acc', r = Res.ok acc') (fun e => ?_) (fun _ => ?_)
  · rw [if_neg (by simp [fv e])]; exact ⟨_, rfl⟩
  refine iteInduction (motive := fun r => ∃ acc', r = Res.ok acc') (fun e => ?_) (fun _ => ?_)
  · obtain ⟨x, h⟩ := fa e; exact ⟨_, set_ok.2 ⟨x, (parseTagA_iff pre _ x).2 h, rfl⟩⟩
  refine iteInduction (motive := fun r => ∃ acc', r = Res.ok acc') (fun e => ?_) (fun _ => ?_)
  · obtain ⟨x, h⟩ := fb e; exact ⟨_, set_ok.2 ⟨x, (parseTagB_iff _ _ x).2 h, rfl⟩⟩
  refine iteInduction (motive := fun r => ∃ acc', r = Res.ok acc') (fun e => ?_) (fun _ => ?_)
  · obtain ⟨x, h⟩ := fbh e; exact ⟨_, set_ok.2 ⟨x, (parseTagB_iff _ _ x).2 h, rfl⟩⟩
  refine iteInduction (motive := fun r => ∃ acc', r = Res.ok acc') (fun e => ?_) (fun _ => ?_)
  · obtain ⟨x, h⟩ := fc e; exact ⟨_, set_ok.2 ⟨x, (parseTagC_iff _ x).2 h, rfl⟩⟩
  refine iteInduction (motive := fun r => ∃ acc', r = Res.ok acc') (fun e => ?_) (fun _ => ?_)
  · exact ⟨_, set_ok.2 ⟨_, (parseTagD_iff ix _ _).2 ⟨rfl, fd e⟩, rfl⟩⟩
  refine iteInduction (motive := fun r => ∃ acc', r = Res.ok acc') (fun e => ?_) (fun _ => ?_)
  · obtain ⟨x, h⟩ := fh e; exact ⟨_, set_ok.2 ⟨x, (parseTagH_iff _ x).2 h, rfl⟩⟩
  refine iteInduction (motive := fun r => ∃ acc', r = Res.ok acc') (fun e => ?_) (fun _ => ?_)
  · obtain ⟨x, h⟩ := fi e; exact ⟨_, set_ok.2 ⟨x, (parseTagI_iff ix hv x).2 h, rfl⟩⟩
  refine iteInduction (motive := fun r => ∃ acc', r = Res.ok acc') (fun e => ?_) (fun _ => ?_)
  · obtain ⟨x, h⟩ := fl e; exact ⟨_, set_ok.2 ⟨x, (parseTagNum_iff _ _ x).2 h, rfl⟩⟩
  refine iteInduction (motive := fun r => ∃ acc', r = Res.ok acc') (fun e => ?_) (fun _ => ?_)
  · exact ⟨_, set_ok.2 ⟨(), (parseTagQ_iff hv _).2 (fq e), rfl⟩⟩
  refine iteInduction (motive := fun r => ∃ acc', r = Res.ok acc') (fun e => ?_) (fun _ => ?_)
  · exact ⟨_, set_ok.2 ⟨_, (parseTagS_iff ix _ _).2 ⟨rfl, fs e⟩, rfl⟩⟩
  refine iteInduction (motive := fun r => ∃ acc', r = Res.ok acc') (fun e => ?_) (fun _ => ?_)
  · obtain ⟨x, h⟩ := ft e; exact ⟨_, set_ok.2 ⟨x, (parseTagNum_iff _ _ x).2 h, rfl⟩⟩
  refine iteInduction (motive := fun r => ∃ acc', r = Res.ok acc') (fun e => ?_) (fun _ => ?_)
  · obtain ⟨x, h⟩ := fx e; exact ⟨_, set_ok.2 ⟨x, (parseTagNum_iff _ _ x).2 h, rfl⟩⟩
  refine iteInduction (motive := fun r => ∃ acc', r = Res.ok acc') (fun e => ?_) (fun _ => ?_)
  · obtain ⟨x, h⟩ := fz e; exact ⟨_, set_ok.2 ⟨x, (parseTagZ_iff hv x).2 h, rfl⟩⟩
  · exact ⟨_, rfl⟩

theorem sigLoop_fine {ix : Idna} {pre : Bool} {tags : List TagSpec}
    (hv : ∀ t ∈ tags, IsValue t.value) (h : ∀ t ∈ tags, TagFine ix pre t) (acc : SigAcc) :
    ∃ acc', sigLoop ix pre acc tags = .ok acc' := by
  induction tags generalizing acc with
  | nil => exact ⟨acc, rfl⟩
  | cons t ts ih =>
    obtain ⟨acc1, h1⟩ := sigTag_fine (hv t (by simp)) (h t (by simp)) acc
    rw [sigLoop, h1]
    exact ih (fun t ht => hv t (by simp [ht])) (fun t ht => h t (by simp [ht])) acc1

theorem sigTag_noPanic (ix : Idna) (pre : Bool) {t : TagSpec} (hv : IsValue t.value) (acc : SigAcc) :
    sigTag ix pre acc t ≠ .panic := by
  have hB : ∀ e, parseTagB e t.value ≠ .panic := by
    intro e; unfold parseTagB; split
    · simp
    · split <;> simp
  have hN : ∀ e, parseTagNum e t.value ≠ .panic := by
    intro e; unfold parseTagNum; split <;> simp
  have hQ : ∀ s l, parseTagQLoop s l ≠ .panic := by
    intro s l
    induction l generalizing s with
    | nil => rw [parseTagQLoop]; split <;> simp
    | cons x l ih => rw [parseTagQLoop]; split
                     · simp
                     · exact ih _
  unfold sigTag
  refine iteInduction (motive := fun r => r ≠ Res.panic) (fun e => ?_) (fun _ => ?_)
  · split <;> simp
  refine iteInduction (motive := fun r => r ≠ Res.panic) (fun e => ?_) (fun _ => ?_)
  · rw [Ne, set_panic]; unfold parseTagA; split
    · simp
    · split <;> simp
  refine iteInduction (motive := fun r => r ≠ Res.panic) (fun e => ?_) (fun _ => ?_)
  · rw [Ne, set_panic]; exact hB _
  refine iteInduction (motive := fun r => r ≠ Res.panic) (fun e => ?_) (fun _ => ?_)
  · rw [Ne, set_panic]; exact hB _
  refine iteInduction (motive := fun r => r ≠ Res.panic) (fun e => ?_) (fun _ => ?_)
  · rw [Ne, set_panic]; unfold parseTagC; split <;> simp
  refine iteInduction (motive := fun r => r ≠ Res.panic) (fun e => ?_) (fun _ => ?_)
  · rw [Ne, set_panic]; unfold parseTagD; split <;> simp
  refine iteInduction (motive := fun r => r ≠ Res.panic) (fun e => ?_) (fun _ => ?_)
  · rw [Ne, set_panic]; unfold parseTagH; split
    · simp
    · simp only; split
      · simp
      · split <;> simp
  refine iteInduction (motive := fun r => r ≠ Res.panic) (fun e => ?_) (fun _ => ?_)
  · rw [Ne, set_panic]; exact parseTagI_noPanic ix hv
  refine iteInduction (motive := fun r => r ≠ Res.panic) (fun e => ?_) (fun _ => ?_)
  · rw [Ne, set_panic]; exact hN _
  refine iteInduction (motive := fun r => r ≠ Res.panic) (fun e => ?_) (fun _ => ?_)
  · rw [Ne, set_panic]; exact hQ _ _
  refine iteInduction (motive := fun r => r ≠ Res.panic) (fun e => ?_) (fun _ => ?_)
  · rw [Ne, set_panic]; unfold parseTagS; split <;> simp
  refine iteInduction (motive := fun r => r ≠ Res.panic) (fun e => ?_) (fun _ => ?_)
  · rw [Ne, set_panic]; exact hN _
  refine iteInduction (motive := fun r => r ≠ Res.panic) (fun e => ?_) (fun _ => ?_)
  · rw [Ne, set_panic]; exact hN _
  refine iteInduction (motive := fun r => r ≠ Res.panic) (fun e => ?_) (fun _ => ?_)
  · rw [Ne, set_panic]; exact parseTagZ_noPanic hv
  · simp

theorem sigLoop_noPanic (ix : Idna) (pre : Bool) {tags : List TagSpec}
    (hv : ∀ t ∈ tags, IsValue t.value) (acc : SigAcc) : sigLoop ix pre acc tags ≠ .panic := by
  induction tags generalizing acc with
  | nil => simp [sigLoop]
  | cons t ts ih =>
    rw [sigLoop]
    have := sigTag_noPanic ix pre (hv t (by simp)) acc
    cases h1 : sigTag ix pre acc t with
    | err e => simp
    | panic => exact absurd h1 this
    | ok acc1 => exact ih (fun t ht => hv t (by simp [ht])) acc1

theorem ite_eq_cases {α : Type} {c : Prop} [Decidable c] {a b r : α} (h : (if c then a else b) = r) :
    (c ∧ a = r) ∨ (¬ c ∧ b = r) := by
  by_cases hc : c
  · rw [if_pos hc] at h; exact .inl ⟨hc, h⟩
  · rw [if_neg hc] at h; exact .inr ⟨hc, h⟩

/-- Everything one successful step can do. -/
theorem sigTag_ok {ix : Idna} {pre : Bool} {acc acc' : SigAcc} {t : TagSpec}
    (h : sigTag ix pre acc t = .ok acc') :
    (t.name = c!"v" ∧ t.value = c!"1" ∧ acc' = { acc with versionSeen := true }) ∨
    (t.name = c!"a" ∧ ∃ x, parseTagA pre t.value = .ok x ∧ acc' = { acc with algorithm := some x }) ∨
    (t.name = c!"b" ∧ ∃ x, parseTagB .emptySignatureTag t.value = .ok x ∧
      acc' = { acc with signatureData := some x }) ∨
    (t.name = c!"bh" ∧ ∃ x, parseTagB .emptyBodyHashTag t.value = .ok x ∧
      acc' = { acc with bodyHash := some x }) ∨
    (t.name = c!"c" ∧ ∃ x, parseTagC t.value = .ok x ∧ acc' = { acc with canonicalization := some x }) ∨
    (t.name = c!"d" ∧ ∃ x, parseTagD ix t.value = .ok x ∧ acc' = { acc with domain := some x }) ∨
    (t.name = c!"h" ∧ ∃ x, parseTagH t.value = .ok x ∧ acc' = { acc with signedHeaders := some x }) ∨
    (t.name = c!"i" ∧ ∃ x, parseTagI ix t.value = .ok x ∧ acc' = { acc with identity := some x }) ∨
    (t.name = c!"l" ∧ ∃ x, parseTagNum .invalidBodyLength t.value = .ok x ∧
      acc' = { acc with bodyLength := some x }) ∨
    (t.name = c!"q" ∧ ∃ x, parseTagQ t.value = .ok x ∧ acc' = acc) ∨
    (t.name = c!"s" ∧ ∃ x, parseTagS ix t.value = .ok x ∧ acc' = { acc with selector := some x }) ∨
    (t.name = c!"t" ∧ ∃ x, parseTagNum .invalidTimestamp t.value = .ok x ∧
      acc' = { acc with timestamp := some x }) ∨
    (t.name = c!"x" ∧ ∃ x, parseTagNum .invalidExpiration t.value = .ok x ∧
      acc' = { acc with expiration := some x }) ∨
    (t.name = c!"z" ∧ ∃ x, parseTagZ t.value = .ok x ∧ acc' = { acc with copiedHeaders := some x }) ∨
    (knownTags.contains t.name = false ∧
      acc' = { acc with extTags := acc.extTags ++ [(t.name, t.value)] }) := by
  unfold sigTag at h
  rcases ite_eq_cases h with ⟨e, h⟩ | ⟨n0, h⟩
  · rcases ite_eq_cases h with ⟨_, h⟩ | ⟨hv, h⟩
    · simp at h
    · exact .inl ⟨e, by simpa using hv, by simpa using h.symm⟩
  right
  rcases ite_eq_cases h with ⟨e, h⟩ | ⟨n1, h⟩
  · obtain ⟨x, h1, h2⟩ := set_ok.1 h; exact .inl ⟨e, x, h1, h2.symm⟩
  right
  rcases ite_eq_cases h with ⟨e, h⟩ | ⟨n2, h⟩
  · obtain ⟨x, h1, h2⟩ := set_ok.1 h; exact .inl ⟨e, x, h1, h2.symm⟩
  right
  rcases ite_eq_cases h with ⟨e, h⟩ | ⟨n3, h⟩
  · obtain ⟨x, h1, h2⟩ := set_ok.1 h; exact .inl ⟨e, x, h1, h2.symm⟩
  right
  rcases ite_eq_cases h with ⟨e, h⟩ | ⟨n4, h⟩
  · obtain ⟨x, h1, h2⟩ := set_ok.1 h; exact .inl ⟨e, x, h1, h2.symm⟩
  right
  rcases ite_eq_cases h with ⟨e, h⟩ | ⟨n5, h⟩
  · obtain ⟨x, h1, h2⟩ := set_ok.1 h; exact .inl ⟨e, x, h1, h2.symm⟩
  right
  rcases ite_eq_cases h with ⟨e, h⟩ | ⟨n6, h⟩
  · obtain ⟨x, h1, h2⟩ := set_ok.1 h; exact .inl ⟨e, x, h1, h2.symm⟩
  right
  rcases ite_eq_cases h with ⟨e, h⟩ | ⟨n7, h⟩
  · obtain ⟨x, h1, h2⟩ := set_ok.1 h; exact .inl ⟨e, x, h1, h2.symm⟩
  right
  rcases ite_eq_cases h with ⟨e, h⟩ | ⟨n8, h⟩
  · obtain ⟨x, h1, h2⟩ := set_ok.1 h; exact .inl ⟨e, x, h1, h2.symm⟩
  right
  rcases ite_eq_cases h with ⟨e, h⟩ | ⟨n9, h⟩
  · obtain ⟨x, h1, h2⟩ := set_ok.1 h; exact .inl ⟨e, x, h1, h2.symm⟩
  right
  rcases ite_eq_cases h with ⟨e, h⟩ | ⟨n10, h⟩
  · obtain ⟨x, h1, h2⟩ := set_ok.1 h; exact .inl ⟨e, x, h1, h2.symm⟩
  right
  rcases ite_eq_cases h with ⟨e, h⟩ | ⟨n11, h⟩
  · obtain ⟨x, h1, h2⟩ := set_ok.1 h; exact .inl ⟨e, x, h1, h2.symm⟩
  right
  rcases ite_eq_cases h with ⟨e, h⟩ | ⟨n12, h⟩
  · obtain ⟨x, h1, h2⟩ := set_ok.1 h; exact .inl ⟨e, x, h1, h2.symm⟩
  right
  rcases ite_eq_cases h with ⟨e, h⟩ | ⟨n13, h⟩
  · obtain ⟨x, h1, h2⟩ := set_ok.1 h; exact .inl ⟨e, x, h1, h2.symm⟩
  right
  refine ⟨?_, by simpa using h.symm⟩
  simp only [knownTags, List.contains_eq_mem, List.mem_cons, List.not_mem_nil, or_false,
    decide_eq_false_iff_not, not_or]
  exact ⟨n0, n1, n2, n3, n4, n5, n6, n7, n8, n9, n10, n11, n12, n13⟩

set_option hygiene false in
/-- Closes the goals about one field of the local variables. -/
local macro "field_tac" : tactic => `(tactic| (
  intro acc acc' t h hn
  rcases sigTag_ok h with ⟨e, _, rfl⟩ | ⟨e, x, hx, rfl⟩ | ⟨e, x, hx, rfl⟩ | ⟨e, x, hx, rfl⟩ |
    ⟨e, x, hx, rfl⟩ | ⟨e, x, hx, rfl⟩ | ⟨e, x, hx, rfl⟩ | ⟨e, x, hx, rfl⟩ | ⟨e, x, hx, rfl⟩ |
    ⟨e, x, hx, rfl⟩ | ⟨e, x, hx, rfl⟩ | ⟨e, x, hx, rfl⟩ | ⟨e, x, hx, rfl⟩ | ⟨e, x, hx, rfl⟩ |
    ⟨e, rfl⟩ <;>
  first
  | exact absurd (e.symm.trans hn) (by decide)
  | exact absurd e hn
  | exact ⟨_, hx, rfl⟩
  | (rw [hn] at e; exact absurd e (by decide))
  | rfl))

section fields
variable {ix : Idna} {pre : Bool} {tags : List TagSpec} {acc' : SigAcc}
  (h : sigLoop ix pre {} tags = .ok acc') (hn : (tags.map (·.name)).Nodup)
include h hn

theorem field_algorithm :
    (∀ t ∈ tags, t.name = c!"a" → ∃ x, parseTagA pre t.value = .ok x ∧ acc'.algorithm = some x) ∧
      ((∀ t ∈ tags, t.name ≠ c!"a") → acc'.algorithm = none) :=
  sigLoop_field (·.algorithm) c!"a" (fun v y => ∃ x, parseTagA pre v = .ok x ∧ y = some x)
    (by field_tac) (by field_tac) tags _ _ h hn

theorem field_signatureData :
    (∀ t ∈ tags, t.name = c!"b" →
      ∃ x, parseTagB .emptySignatureTag t.value = .ok x ∧ acc'.signatureData = some x) ∧
      ((∀ t ∈ tags, t.name ≠ c!"b") → acc'.signatureData = none) :=
  sigLoop_field (·.signatureData) c!"b"
    (fun v y => ∃ x, parseTagB .emptySignatureTag v = .ok x ∧ y = some x)
    (by field_tac) (by field_tac) tags _ _ h hn

theorem field_bodyHash :
    (∀ t ∈ tags, t.name = c!"bh" →
      ∃ x, parseTagB .emptyBodyHashTag t.value = .ok x ∧ acc'.bodyHash = some x) ∧
      ((∀ t ∈ tags, t.name ≠ c!"bh") → acc'.bodyHash = none) :=
  sigLoop_field (·.bodyHash) c!"bh" (fun v y => ∃ x, parseTagB .emptyBodyHashTag v = .ok x ∧ y = some x)
    (by field_tac) (by field_tac) tags _ _ h hn

theorem field_canonicalization :
    (∀ t ∈ tags, t.name = c!"c" → ∃ x, parseTagC t.value = .ok x ∧ acc'.canonicalization = some x) ∧
      ((∀ t ∈ tags, t.name ≠ c!"c") → acc'.canonicalization = none) :=
  sigLoop_field (·.canonicalization) c!"c" (fun v y => ∃ x, parseTagC v = .ok x ∧ y = some x)
    (by field_tac) (by field_tac) tags _ _ h hn

theorem field_domain :
    (∀ t ∈ tags, t.name = c!"d" → ∃ x, parseTagD ix t.value = .ok x ∧ acc'.domain = some x) ∧
      ((∀ t ∈ tags, t.name ≠ c!"d") → acc'.domain = none) :=
  sigLoop_field (·.domain) c!"d" (fun v y => ∃ x, parseTagD ix v = .ok x ∧ y = some x)
    (by field_tac) (by field_tac) tags _ _ h hn

theorem field_signedHeaders :
    (∀ t ∈ tags, t.name = c!"h" → ∃ x, parseTagH t.value = .ok x ∧ acc'.signedHeaders = some x) ∧
      ((∀ t ∈ tags, t.name ≠ c!"h") → acc'.signedHeaders = none) :=
  sigLoop_field (·.signedHeaders) c!"h" (fun v y => ∃ x, parseTagH v = .ok x ∧ y = some x)
    (by field_tac) (by field_tac) tags _ _ h hn

theorem field_identity :
    (∀ t ∈ tags, t.name = c!"i" → ∃ x, parseTagI ix t.value = .ok x ∧ acc'.identity = some x) ∧
      ((∀ t ∈ tags, t.name ≠ c!"i") → acc'.identity = none) :=
  sigLoop_field (·.identity) c!"i" (fun v y => ∃ x, parseTagI ix v = .ok x ∧ y = some x)
    (by field_tac) (by field_tac) tags _ _ h hn

theorem field_bodyLength :
    (∀ t ∈ tags, t.name = c!"l" →
      ∃ x, parseTagNum .invalidBodyLength t.value = .ok x ∧ acc'.bodyLength = some x) ∧
      ((∀ t ∈ tags, t.name ≠ c!"l") → acc'.bodyLength = none) :=
  sigLoop_field (·.bodyLength) c!"l" (fun v y => ∃ x, parseTagNum .invalidBodyLength v = .ok x ∧ y = some x)
    (by field_tac) (by field_tac) tags _ _ h hn

theorem field_selector :
    (∀ t ∈ tags, t.name = c!"s" → ∃ x, parseTagS ix t.value = .ok x ∧ acc'.selector = some x) ∧
      ((∀ t ∈ tags, t.name ≠ c!"s") → acc'.selector = none) :=
  sigLoop_field (·.selector) c!"s" (fun v y => ∃ x, parseTagS ix v = .ok x ∧ y = some x)
    (by field_tac) (by field_tac) tags _ _ h hn

theorem field_timestamp :
    (∀ t ∈ tags, t.name = c!"t" →
      ∃ x, parseTagNum .invalidTimestamp t.value = .ok x ∧ acc'.timestamp = some x) ∧
      ((∀ t ∈ tags, t.name ≠ c!"t") → acc'.timestamp = none) :=
  sigLoop_field (·.timestamp) c!"t" (fun v y => ∃ x, parseTagNum .invalidTimestamp v = .ok x ∧ y = some x)
    (by field_tac) (by field_tac) tags _ _ h hn

theorem field_expiration :
    (∀ t ∈ tags, t.name = c!"x" →
      ∃ x, parseTagNum .invalidExpiration t.value = .ok x ∧ acc'.expiration = some x) ∧
      ((∀ t ∈ tags, t.name ≠ c!"x") → acc'.expiration = none) :=
  sigLoop_field (·.expiration) c!"x" (fun v y => ∃ x, parseTagNum .invalidExpiration v = .ok x ∧ y = some x)
    (by field_tac) (by field_tac) tags _ _ h hn

theorem field_copiedHeaders :
    (∀ t ∈ tags, t.name = c!"z" → ∃ x, parseTagZ t.value = .ok x ∧ acc'.copiedHeaders = some x) ∧
      ((∀ t ∈ tags, t.name ≠ c!"z") → acc'.copiedHeaders = none) :=
  sigLoop_field (·.copiedHeaders) c!"z" (fun v y => ∃ x, parseTagZ v = .ok x ∧ y = some x)
    (by field_tac) (by field_tac) tags _ _ h hn

theorem field_version :
    (∀ t ∈ tags, t.name = c!"v" → t.value = c!"1" ∧ acc'.versionSeen = true) ∧
      ((∀ t ∈ tags, t.name ≠ c!"v") → acc'.versionSeen = false) :=
  sigLoop_field (·.versionSeen) c!"v" (fun v y => v = c!"1" ∧ y = true)
    (by
      intro acc acc' t h hn
      rcases sigTag_ok h with ⟨e, hv, rfl⟩ | ⟨e, x, hx, rfl⟩ | ⟨e, x, hx, rfl⟩ | ⟨e, x, hx, rfl⟩ |
        ⟨e, x, hx, rfl⟩ | ⟨e, x, hx, rfl⟩ | ⟨e, x, hx, rfl⟩ | ⟨e, x, hx, rfl⟩ | ⟨e, x, hx, rfl⟩ |
        ⟨e, x, hx, rfl⟩ | ⟨e, x, hx, rfl⟩ | ⟨e, x, hx, rfl⟩ | ⟨e, x, hx, rfl⟩ | ⟨e, x, hx, rfl⟩ |
        ⟨e, rfl⟩ <;>
      first
      | exact ⟨hv, rfl⟩
      | exact absurd (e.symm.trans hn) (by decide)
      | (rw [hn] at e; exact absurd e (by decide)))
    (by field_tac) tags _ _ h hn

end fields

theorem sigLoop_query {ix : Idna} {pre : Bool} {tags : List TagSpec} {acc acc' : SigAcc}
    (h : sigLoop ix pre acc tags = .ok acc') :
    ∀ t ∈ tags, t.name = c!"q" → parseTagQ t.value = .ok () := by
  induction tags generalizing acc with
  | nil => simp
  | cons t ts ih =>
    rw [sigLoop] at h
    cases h1 : sigTag ix pre acc t with
    | err e => rw [h1] at h; simp at h
    | panic => rw [h1] at h; simp at h
    | ok acc1 =>
      rw [h1] at h
      simp only at h
      intro t' ht' hn
      rcases List.mem_cons.1 ht' with rfl | ht'
      · rcases sigTag_ok h1 with ⟨e, hv, rfl⟩ | ⟨e, x, hx, rfl⟩ | ⟨e, x, hx, rfl⟩ | ⟨e, x, hx, rfl⟩ |
          ⟨e, x, hx, rfl⟩ | ⟨e, x, hx, rfl⟩ | ⟨e, x, hx, rfl⟩ | ⟨e, x, hx, rfl⟩ | ⟨e, x, hx, rfl⟩ |
          ⟨e, x, hx, rfl⟩ | ⟨e, x, hx, rfl⟩ | ⟨e, x, hx, rfl⟩ | ⟨e, x, hx, rfl⟩ | ⟨e, x, hx, rfl⟩ |
          ⟨e, rfl⟩ <;>
        first
        | exact hx
        | exact absurd (e.symm.trans hn) (by decide)
        | (rw [hn] at e; exact absurd e (by decide))
      · exact ih h t' ht' hn

theorem sigLoop_ext {ix : Idna} {pre : Bool} {tags : List TagSpec} {acc acc' : SigAcc}
    (h : sigLoop ix pre acc tags = .ok acc') :
    acc'.extTags = acc.extTags ++ (toPairs tags).filter fun t => !knownTags.contains t.1 := by
  induction tags generalizing acc with
  | nil => simp [sigLoop] at h; subst h; simp [toPairs]
  | cons t ts ih =>
    rw [sigLoop] at h
    cases h1 : sigTag ix pre acc t with
    | err e => rw [h1] at h; simp at h
    | panic => rw [h1] at h; simp at h
    | ok acc1 =>
      rw [h1] at h
      simp only at h
      rw [ih h]
      have ec : toPairs (t :: ts) = (t.name, t.value) :: toPairs ts := rfl
      rw [ec]
      rcases sigTag_ok h1 with ⟨e, hv, rfl⟩ | ⟨e, x, hx, rfl⟩ | ⟨e, x, hx, rfl⟩ | ⟨e, x, hx, rfl⟩ |
        ⟨e, x, hx, rfl⟩ | ⟨e, x, hx, rfl⟩ | ⟨e, x, hx, rfl⟩ | ⟨e, x, hx, rfl⟩ | ⟨e, x, hx, rfl⟩ |
        ⟨e, x, hx, rfl⟩ | ⟨e, x, hx, rfl⟩ | ⟨e, x, hx, rfl⟩ | ⟨e, x, hx, rfl⟩ | ⟨e, x, hx, rfl⟩ |
        ⟨e, rfl⟩ <;>
      first
      | rw [List.filter_cons_of_neg (by simp only [e]; decide)]
      | (rw [List.filter_cons_of_pos (by simp only [e]; rfl)]; simp)

/-! ### Required and optional tags -/

theorem mem_pairs {tags : List TagSpec} {n v : Str} :
    (n, v) ∈ toPairs tags ↔ ∃ t ∈ tags, t.name = n ∧ t.value = v := by
  simp [toPairs, List.mem_map]

theorem required_of_field {ε α : Type} {tags : List TagSpec} {N : Str} {p : Str → Res ε α}
    {means : Str → α → Prop} {y : Option α}
    (hf : (∀ t ∈ tags, t.name = N → ∃ x, p t.value = .ok x ∧ y = some x) ∧
      ((∀ t ∈ tags, t.name ≠ N) → y = none))
    (hp : ∀ t ∈ tags, ∀ x, p t.value = .ok x ↔ means t.value x) {a : α} :
    y = some a ↔ Required (toPairs tags) N means a := by
  constructor
  · rintro rfl
    by_cases h : ∃ t ∈ tags, t.name = N
    · obtain ⟨t, ht, hn⟩ := h
      obtain ⟨x, h1, h2⟩ := hf.1 t ht hn
      have : a = x := by simpa using h2
      subst this
      exact ⟨t.value, mem_pairs.2 ⟨t, ht, hn, rfl⟩, (hp t ht _).1 h1⟩
    · have := hf.2 fun t ht hn => h ⟨t, ht, hn⟩
      simp at this
  · rintro ⟨v, hm, h⟩
    obtain ⟨t, ht, hn, rfl⟩ := mem_pairs.1 hm
    obtain ⟨x, h1, h2⟩ := hf.1 t ht hn
    rw [(hp t ht a).2 h] at h1
    simp only [Res.ok.injEq] at h1
    rw [h2, h1]

theorem optional_of_field {ε α : Type} {tags : List TagSpec} {N : Str} {p : Str → Res ε α}
    {means : Str → α → Prop} {y : Option α}
    (hf : (∀ t ∈ tags, t.name = N → ∃ x, p t.value = .ok x ∧ y = some x) ∧
      ((∀ t ∈ tags, t.name ≠ N) → y = none))
    (hp : ∀ t ∈ tags, ∀ x, p t.value = .ok x ↔ means t.value x) {a : Option α} :
    y = a ↔ Optional (toPairs tags) N means a := by
  cases a with
  | some a => exact required_of_field hf hp
  | none =>
    constructor
    · rintro rfl v hm
      obtain ⟨t, ht, hn, rfl⟩ := mem_pairs.1 hm
      obtain ⟨x, _, h2⟩ := hf.1 t ht hn
      simp at h2
    · intro h
      exact hf.2 fun t ht hn => h t.value (mem_pairs.2 ⟨t, ht, hn, rfl⟩)

theorem defaulting_of_field {ε α : Type} {tags : List TagSpec} {N : Str} {p : Str → Res ε α}
    {means : Str → α → Prop} {y : Option α} {d : α}
    (hf : (∀ t ∈ tags, t.name = N → ∃ x, p t.value = .ok x ∧ y = some x) ∧
      ((∀ t ∈ tags, t.name ≠ N) → y = none))
    (hp : ∀ t ∈ tags, ∀ x, p t.value = .ok x ↔ means t.value x) {a : α} :
    y.getD d = a ↔ Defaulting (toPairs tags) N means d a := by
  unfold Defaulting
  rw [← required_of_field hf hp]
  have hnone := optional_of_field hf hp (a := none)
  simp only [Optional] at hnone
  rw [← hnone]
  cases y with
  | none => simp [eq_comm]
  | some b => simp

theorem not_required {ε α : Type} {tags : List TagSpec} {N : Str} {p : Str → Res ε α}
    {means : Str → α → Prop} {y : Option α} (hy : y = none)
    (hf : (∀ t ∈ tags, t.name = N → ∃ x, p t.value = .ok x ∧ y = some x) ∧
      ((∀ t ∈ tags, t.name ≠ N) → y = none))
    (hp : ∀ t ∈ tags, ∀ x, p t.value = .ok x ↔ means t.value x) {a : α} :
    ¬ Required (toPairs tags) N means a := by
  rw [← required_of_field hf hp, hy]; simp

/-- The checks after the loop succeed exactly under these conditions. -/
theorem sigFinish_iff {ix : Idna} {acc : SigAcc} {s : DkimSignature} :
    sigFinish ix acc = .ok s ↔
      acc.versionSeen = true ∧ acc.algorithm = some s.algorithm ∧
      acc.signatureData = some s.signatureData ∧ acc.bodyHash = some s.bodyHash ∧
      acc.domain = some s.domain ∧ acc.signedHeaders = some s.signedHeaders ∧
      acc.selector = some s.selector ∧ domainMismatch ix acc.identity s.domain = some false ∧
      expirationBad acc.timestamp acc.expiration = false ∧
      acc.canonicalization.getD .default = s.canonicalization ∧ acc.identity = s.identity ∧
      acc.bodyLength = s.bodyLength ∧ acc.timestamp = s.timestamp ∧ acc.expiration = s.expiration ∧
      acc.copiedHeaders.getD [] = s.copiedHeaders ∧ acc.extTags = s.extTags := by
  obtain ⟨v, a, b, bh, c, d, h, i, l, sel, t, x, z, ext⟩ := acc
  obtain ⟨a', b', bh', c', d', h', i', l', s', t', x', z', ext'⟩ := s
  unfold sigFinish
  simp only
  cases v with
  | false => simp
  | true =>
  cases a with
  | none => simp
  | some a =>
  cases b with
  | none => simp
  | some b =>
  cases bh with
  | none => simp
  | some bh =>
  cases d with
  | none => simp
  | some d =>
  cases h with
  | none => simp
  | some h =>
  cases sel with
  | none => simp
  | some sel =>
  simp only [Bool.not_true, Bool.false_eq_true, if_false, Option.some.injEq, true_and]
  cases hm : domainMismatch ix i d with
  | none =>
    simp only [reduceCtorEq, false_iff, not_and]
    rintro - - - rfl - - h
    rw [hm] at h; simp at h
  | some m =>
    cases m with
    | true =>
      simp only [reduceCtorEq, false_iff, not_and]
      rintro - - - rfl - - h
      rw [hm] at h; simp at h
    | false =>
      cases he : expirationBad t x with
      | true => simp
      | false =>
        simp only [Bool.false_eq_true, if_false, Res.ok.injEq, DkimSignature.mk.injEq]
        constructor
        · rintro ⟨rfl, rfl, rfl, rfl, rfl, rfl, rfl, rfl, rfl, rfl, rfl, rfl, rfl⟩
          simp [hm]
        · rintro ⟨rfl, rfl, rfl, rfl, rfl, rfl, -, -, rfl, rfl, rfl, rfl, rfl, rfl, rfl⟩
          simp

theorem expirationBad_iff (t x : Option Nat) :
    expirationBad t x = false ↔ ∀ a b, t = some a → x = some b → a < b := by
  cases t <;> cases x <;> simp [expirationBad]

theorem domainMismatch_iff {ix : Idna} (law : CaseLaw ix) {i : Option Identity} {d : Str}
    (hi : ∀ j, i = some j → ValidDomain true ix j.domain) (hd : ValidDomain true ix d) :
    domainMismatch ix i d = some false ↔ ∀ j, i = some j → UnderDomain ix j.domain d := by
  cases i with
  | none => simp [domainMismatch]
  | some j =>
    obtain ⟨r, h1, h2⟩ := eqOrSubdomainOf_spec law (hi j rfl) hd
    simp only [domainMismatch, h1, Option.some.injEq, forall_eq']
    rw [← h2]
    cases r <;> simp

theorem name_unique {tags : List TagSpec} (hn : (tags.map (·.name)).Nodup) :
    ∀ t t' : TagSpec, t ∈ tags → t' ∈ tags → t.name = t'.name → t = t' := by
  intro t t' ht ht' hname
  induction tags with
  | nil => simp at ht
  | cons u us ih =>
    rw [List.map_cons, List.nodup_cons] at hn
    rcases List.mem_cons.1 ht with rfl | h1 <;> rcases List.mem_cons.1 ht' with rfl | h2
    · rfl
    · exact absurd (List.mem_map.2 ⟨t', h2, hname.symm⟩) hn.1
    · exact absurd (List.mem_map.2 ⟨t, h1, hname⟩) hn.1
    · exact ih hn.2 h1 h2

/-- The main theorem on parsing. -/
theorem sigInternal_iff {ix : Idna} (law : CaseLaw ix) (pre : Bool) {tags : List TagSpec}
    (hv : ∀ t ∈ tags, IsValue t.value) (hn : (tags.map (·.name)).Nodup) (s : DkimSignature) :
    sigFromTagListInternal ix pre tags = .ok s ↔ SignatureOf ix pre (toPairs tags) s := by
  have pA : ∀ t ∈ tags, ∀ x, parseTagA pre t.value = .ok x ↔ AlgText pre t.value x :=
    fun t _ x => parseTagA_iff pre _ x
  have pB : ∀ e, ∀ t ∈ tags, ∀ x, parseTagB e t.value = .ok x ↔ Base64Text t.value x :=
    fun e t _ x => parseTagB_iff e _ x
  have pC : ∀ t ∈ tags, ∀ x, parseTagC t.value = .ok x ↔ CanonText t.value x :=
    fun t _ x => parseTagC_iff _ x
  have pD : ∀ t ∈ tags, ∀ x, parseTagD ix t.value = .ok x ↔
      (fun v d => d = v ∧ ValidDomain true ix v) t.value x := fun t _ x => parseTagD_iff ix _ x
  have pH : ∀ t ∈ tags, ∀ x, parseTagH t.value = .ok x ↔ HeadersText t.value x :=
    fun t _ x => parseTagH_iff _ x
  have pI : ∀ t ∈ tags, ∀ x, parseTagI ix t.value = .ok x ↔ IdentityText ix t.value x :=
    fun t ht x => parseTagI_iff ix (hv t ht) x
  have pN : ∀ e, ∀ t ∈ tags, ∀ x, parseTagNum e t.value = .ok x ↔ PlusDecimal t.value x :=
    fun e t _ x => parseTagNum_iff e _ x
  have pS : ∀ t ∈ tags, ∀ x, parseTagS ix t.value = .ok x ↔
      (fun v d => d = v ∧ ValidDomain false ix v) t.value x := fun t _ x => parseTagS_iff ix _ x
  have pZ : ∀ t ∈ tags, ∀ x, parseTagZ t.value = .ok x ↔ CopiedText t.value x :=
    fun t ht x => parseTagZ_iff (hv t ht) x
  have loopIff : ∀ acc, sigLoop ix pre {} tags = .ok acc →
      (sigFinish ix acc = .ok s ↔ SignatureOf ix pre (toPairs tags) s) := by
    intro acc h
    rw [sigFinish_iff, required_of_field (field_algorithm h hn) pA,
      required_of_field (field_signatureData h hn) (pB _),
      required_of_field (field_bodyHash h hn) (pB _), required_of_field (means := fun v d => d = v ∧ ValidDomain true ix v) (field_domain h hn) pD,
      required_of_field (field_signedHeaders h hn) pH, required_of_field (means := fun v d => d = v ∧ ValidDomain false ix v) (field_selector h hn) pS,
      defaulting_of_field (field_canonicalization h hn) pC,
      defaulting_of_field (field_copiedHeaders h hn) pZ]
    have hvers : acc.versionSeen = true ↔ (c!"v", c!"1") ∈ toPairs tags := by
      rw [mem_pairs]
      constructor
      · intro hs
        by_cases hx : ∃ t ∈ tags, t.name = c!"v"
        · obtain ⟨t, ht, e⟩ := hx
          exact ⟨t, ht, e, ((field_version h hn).1 t ht e).1⟩
        · rw [(field_version h hn).2 fun t ht e => hx ⟨t, ht, e⟩] at hs
          simp at hs
      · rintro ⟨t, ht, e, _⟩
        exact ((field_version h hn).1 t ht e).2
    have hext := sigLoop_ext h
    rw [show ({} : SigAcc).extTags = [] from rfl, List.nil_append] at hext
    have hq : ∀ v, (c!"q", v) ∈ toPairs tags → QueryText v := by
      intro v hm
      obtain ⟨t, ht, e, rfl⟩ := mem_pairs.1 hm
      exact (parseTagQ_iff (hv t ht) ()).1 (sigLoop_query h t ht e)
    have oI := fun a => optional_of_field (field_identity h hn) pI (a := a)
    have oL := fun a => optional_of_field (field_bodyLength h hn) (pN _) (a := a)
    have oT := fun a => optional_of_field (field_timestamp h hn) (pN _) (a := a)
    have oX := fun a => optional_of_field (field_expiration h hn) (pN _) (a := a)
    have valid : Required (toPairs tags) c!"d" (fun v d => d = v ∧ ValidDomain true ix v) s.domain →
        ∀ j, acc.identity = some j → ValidDomain true ix s.domain ∧ ValidDomain true ix j.domain := by
      rintro ⟨v, _, rfl, hd⟩ j hj
      obtain ⟨w, _, hw⟩ := (required_of_field (field_identity h hn) pI).1 hj
      exact ⟨hd, hw.1.2.1⟩
    constructor
    · rintro ⟨h1, h2, h3, h4, h5, h6, h7, h8, h9, h10, h11, h12, h13, h14, h15, h16⟩
      have hmm : ∀ i, s.identity = some i → UnderDomain ix i.domain s.domain := by
        rw [← h11]
        obtain ⟨v, _, hdv, hd⟩ := h5
        exact (domainMismatch_iff law
          (fun j hj => (valid ⟨v, by assumption, hdv, hd⟩ j hj).2) (hdv ▸ hd)).1 h8
      exact ⟨hvers.1 h1, h2, h3, h4, h10, h5, h6, (oI _).1 h11, (oL _).1 h12, hq, h7, (oT _).1 h13,
        (oX _).1 h14, h15, by rw [← h16, hext], hmm, by
          rw [← h13, ← h14]; exact (expirationBad_iff _ _).1 h9⟩
    · rintro ⟨h1, h2, h3, h4, h5, h6, h7, h8, h9, h10, h11, h12, h13, h14, h15, h16, h17⟩
      have e8 := (oI _).2 h8
      have e12 := (oT _).2 h12
      have e13 := (oX _).2 h13
      refine ⟨hvers.2 h1, h2, h3, h4, h6, h7, h11, ?_, ?_, h5, e8, (oL _).2 h9, e12, e13, h14, ?_⟩
      · obtain ⟨v, hm, hdv, hd⟩ := h6
        refine (domainMismatch_iff law
          (fun j hj => (valid ⟨v, hm, hdv, hd⟩ j hj).2) (hdv ▸ hd)).2 ?_
        rw [e8]; exact h16
      · rw [expirationBad_iff, e12, e13]; exact h17
      · rw [hext, h15]
  unfold sigFromTagListInternal
  cases h : sigLoop ix pre {} tags with
  | ok acc => exact loopIff acc h
  | panic => exact absurd h (sigLoop_noPanic ix pre hv _)
  | err e =>
    simp only [reduceCtorEq, false_iff]
    intro hs
    have uniq := name_unique hn
    have req : ∀ {α : Type} {N : Str} {means : Str → α → Prop} {x : α},
        Required (toPairs tags) N means x → ∀ t ∈ tags, t.name = N → means t.value x := by
      rintro α N means x ⟨v, hm, h⟩ t ht e
      obtain ⟨t', ht', hn', rfl⟩ := mem_pairs.1 hm
      rw [uniq t t' ht ht' (e.trans hn'.symm)]; exact h
    have opt : ∀ {α : Type} {N : Str} {means : Str → α → Prop} {x : Option α},
        Optional (toPairs tags) N means x → ∀ t ∈ tags, t.name = N → ∃ y, means t.value y := by
      intro α N means x h t ht e
      cases x with
      | some y => exact ⟨y, req h t ht e⟩
      | none => exact absurd (mem_pairs.2 ⟨t, ht, e, rfl⟩) (h t.value)
    have deft : ∀ {α : Type} {N : Str} {means : Str → α → Prop} {d x : α},
        Defaulting (toPairs tags) N means d x → ∀ t ∈ tags, t.name = N → ∃ y, means t.value y := by
      intro α N means d x h t ht e
      rcases h with h | ⟨h, _⟩
      · exact ⟨x, req h t ht e⟩
      · exact absurd (mem_pairs.2 ⟨t, ht, e, rfl⟩) (h t.value)
    have : ∃ acc', sigLoop ix pre {} tags = .ok acc' := by
      refine sigLoop_fine hv (fun t ht => ?_) _
      refine ⟨?_, fun e => ⟨_, req hs.algorithm t ht e⟩, fun e => ⟨_, req hs.signatureData t ht e⟩,
        fun e => ⟨_, req hs.bodyHash t ht e⟩, deft hs.canonicalization t ht,
        fun e => (req hs.domain t ht e).2, fun e => ⟨_, req hs.signedHeaders t ht e⟩,
        opt hs.identity t ht, opt hs.bodyLength t ht,
        fun e => hs.queryMethods _ (mem_pairs.2 ⟨t, ht, e, rfl⟩), fun e => (req hs.selector t ht e).2,
        opt hs.timestamp t ht, opt hs.expiration t ht, deft hs.copiedHeaders t ht⟩
      intro e
      obtain ⟨t', ht', hn', hv'⟩ := mem_pairs.1 hs.version
      rw [uniq t t' ht ht' (e.trans hn'.symm)]; exact hv'
    obtain ⟨acc', h'⟩ := this
    rw [h] at h'
    simp at h'

theorem listText_values {tags : List (Str × Str)} {s : Str} (h : ListText tags s) :
    ∀ t ∈ tags, IsValue t.2 := by
  have key : ∀ n v s, SpecText n v s → IsValue v := by
    intro n v s h
    cases h with
    | value f1 _ f2 f3 _ f4 _ _ _ _ hv _ => exact Or.inr hv
    | empty => exact Or.inl rfl
  induction h with
  | last n v s h => intro t ht; simp at ht; subst ht; exact key _ _ _ h
  | lastSemicolon n v s h => intro t ht; simp at ht; subst ht; exact key _ _ _ h
  | more n v s tags r h _ ih =>
    intro t ht
    rcases List.mem_cons.1 ht with rfl | ht
    · exact key _ _ _ h
    · exact ih t ht

theorem parseTagList_values {s : Str} {tags : List TagSpec} (h : parseTagList s = .ok tags) :
    (∀ t ∈ tags, IsValue t.value) ∧ (tags.map (·.name)).Nodup := by
  obtain ⟨h1, h2⟩ := (C22_tag_list_exact s tags).1 h
  refine ⟨fun t ht => ?_, h2⟩
  exact listText_values h1 (t.name, t.value) (List.mem_map.2 ⟨t, ht, rfl⟩)

theorem sigFromTagList_ok {ix : Idna} {pre : Bool} {tags : List TagSpec} {s : DkimSignature} :
    sigFromTagList ix pre tags = .ok s ↔ sigFromTagListInternal ix pre tags = .ok s := by
  unfold sigFromTagList
  cases sigFromTagListInternal ix pre tags <;> simp

/-- Parsing of text. -/
theorem sigFromStr_iff {ix : Idna} (law : CaseLaw ix) (pre : Bool) (txt : Str) (s : DkimSignature) :
    sigFromStr ix pre txt = .ok s ↔
      ∃ tags, ListText tags txt ∧ (tags.map (·.1)).Nodup ∧ SignatureOf ix pre tags s := by
  unfold sigFromStr
  cases h : parseTagList txt with
  | ok tags =>
    obtain ⟨hv, hn⟩ := parseTagList_values h
    simp only
    rw [sigFromTagList_ok, sigInternal_iff law pre hv hn]
    obtain ⟨h1, h2⟩ := (C22_tag_list_exact txt tags).1 h
    constructor
    · intro hs
      refine ⟨toPairs tags, h1, ?_, hs⟩
      simpa [toPairs, Function.comp_def] using h2
    · rintro ⟨tags', t1, t2, hs⟩
      rw [show toPairs tags = tags' from listText_unique h1 t1]
      exact hs
  | error e =>
    simp only [reduceCtorEq, false_iff, not_exists, not_and]
    intro tags h1 h2 _
    have := (C22_tag_list_exact txt (ofPairs tags)).2
      ⟨by simpa [ofPairs, Function.comp_def] using h1, by simpa [ofPairs, Function.comp_def] using h2⟩
    rw [h] at this
    simp at this

end Dkim
