import Verif.Proofs.Errors
import Verif.Props.Signature
import Verif.Props.Record

/-!
# Properties C54 and C55: which error is reported for a text that cannot be parsed
-/

namespace Dkim

open Spec

theorem pairs_unique {tags : List (Str × Str)} (hn : (tags.map (·.1)).Nodup) {n v w : Str}
    (h1 : (n, v) ∈ tags) (h2 : (n, w) ∈ tags) : v = w := by
  induction tags with
  | nil => cases h1
  | cons t ts ih =>
    rw [List.map_cons, List.nodup_cons] at hn
    rcases List.mem_cons.1 h1 with e1 | h1
    · rcases List.mem_cons.1 h2 with e2 | h2
      · exact congrArg Prod.snd (e1.trans e2.symm)
      · exact absurd (List.mem_map.2 ⟨_, h2, by rw [← e1]⟩) hn.1
    · rcases List.mem_cons.1 h2 with e2 | h2
      · exact absurd (List.mem_map.2 ⟨_, h1, by rw [← e2]⟩) hn.1
      · exact ih hn.2 h1 h2

/-- A list from which a signature can be read has no defect. -/
theorem signatureOf_noDefect {tags : List (Str × Str)} {ix : Idna} {pre : Bool} {s : DkimSignature}
    (hv : ∀ t ∈ tags, IsValue t.2) (hn : (tags.map (·.1)).Nodup) (law : CaseLaw ix)
    (h : SignatureOf ix pre tags s) {k : SigErrorKind} : ¬ FirstDefect ix pre tags k := by
  have hn' : ((ofPairs tags).map (·.name)).Nodup := by simpa [ofPairs, Function.comp_def] using hn
  have hv' : ∀ t ∈ ofPairs tags, IsValue t.value := by
    intro t ht
    obtain ⟨p, hp, rfl⟩ := List.mem_map.1 ht
    exact hv p hp
  have hp : toPairs (ofPairs tags) = tags := by simp [toPairs, ofPairs, Function.comp_def]
  have hok := (sigInternal_iff law pre hv' hn' s).2 (by rw [hp]; exact h)
  have hno : NoTagDefect ix pre tags := by
    rcases sigLoop_cases (ix := ix) (pre := pre) hv' {} with ⟨_, _, h2⟩ | ⟨k', b, a, n, v, h1, _⟩
    · rwa [hp] at h2
    · rw [sigFromTagListInternal, h1] at hok
      cases hok
  intro hd
  cases hd with
  | value b a n v k e h1 h2 => exact hno (n, v) (by rw [e]; simp) k h2
  | missing b a n k h1 e h2 h3 =>
    have hm : (n, k) ∈ requiredTags := by rw [e]; simp
    simp only [requiredTags, List.mem_cons, List.not_mem_nil, or_false, Prod.mk.injEq] at hm
    rcases hm with ⟨rfl, -⟩ | ⟨rfl, -⟩ | ⟨rfl, -⟩ | ⟨rfl, -⟩ | ⟨rfl, -⟩ | ⟨rfl, -⟩ | ⟨rfl, -⟩
    · exact h3 _ h.version
    · obtain ⟨v, m, _⟩ := h.algorithm; exact h3 v m
    · obtain ⟨v, m, _⟩ := h.signatureData; exact h3 v m
    · obtain ⟨v, m, _⟩ := h.bodyHash; exact h3 v m
    · obtain ⟨v, m, _⟩ := h.domain; exact h3 v m
    · obtain ⟨v, m, _⟩ := h.signedHeaders; exact h3 v m
    · obtain ⟨v, m, _⟩ := h.selector; exact h3 v m
  | domains h1 h2 h3 =>
    obtain ⟨d, v, i, m1, m2, m3, m4⟩ := h3
    have uniq : ∀ n v w, (n, v) ∈ tags → (n, w) ∈ tags → v = w := fun n v w => pairs_unique hn
    obtain ⟨d', n1, rfl, _⟩ := h.domain
    have := uniq _ _ _ m1 n1
    subst this
    have hi := h.identity
    cases e : s.identity with
    | none => rw [e] at hi; exact hi v m2
    | some j =>
      rw [e] at hi
      obtain ⟨w, k1, k2⟩ := hi
      have := uniq _ _ _ m2 k1
      subst this
      have e2 : j = i := by
        have a1 := (parseTagI_iff ix (hv _ m2) i).2 m3
        have a2 := (parseTagI_iff ix (hv _ m2) j).2 k2
        rw [a1] at a2
        cases a2; rfl
      subst e2
      exact m4 (h.identityUnderDomain j e)
  | times h1 h2 h3 h4 =>
    obtain ⟨v, w, t, x, m1, m2, m3, m4, m5⟩ := h4
    have uniq : ∀ n v w, (n, v) ∈ tags → (n, w) ∈ tags → v = w := fun n v w => pairs_unique hn
    have num : ∀ {v a b}, PlusDecimal v a → PlusDecimal v b → a = b := by
      intro v a b ha hb
      have a1 := (parseU64_iff v a).2 ha
      rw [(parseU64_iff v b).2 hb] at a1
      cases a1; rfl
    have ht : s.timestamp = some t := by
      have := h.timestamp
      cases e : s.timestamp with
      | none => rw [e] at this; exact absurd m1 (this v)
      | some t' =>
        rw [e] at this
        obtain ⟨v', k1, k2⟩ := this
        have := uniq _ _ _ m1 k1
        subst this
        rw [num m2 k2]
    have hx : s.expiration = some x := by
      have := h.expiration
      cases e : s.expiration with
      | none => rw [e] at this; exact absurd m3 (this w)
      | some x' =>
        rw [e] at this
        obtain ⟨v', k1, k2⟩ := this
        have := uniq _ _ _ m3 k1
        subst this
        rw [num m4 k2]
    have := h.expirationAfter t x ht hx
    omega

/-- C54: a text is rejected with an error of kind `k` exactly if that is its first defect. -/
theorem C54_first_defect (ix : Idna) (law : CaseLaw ix) (pre : Bool) (txt : Str) (k : SigErrorKind) :
    (∃ e, sigFromStr ix pre txt = .err e ∧ e.kind = k) ↔ SignatureDefect ix pre txt k := by
  unfold SignatureDefect
  have salvage_kind : ∀ (tags : List TagSpec) (e : SigError), (salvage e tags).kind = e.kind := by
    intro tags
    induction tags with
    | nil => intro e; rfl
    | cons t ts ih =>
      intro e
      rw [salvage, ih]
      repeat' split
      all_goals rfl
  have forward : ∀ e, sigFromStr ix pre txt = .err e →
      ((¬ ∃ tags, ListText tags txt ∧ (tags.map (·.1)).Nodup) ∧ e.kind = .tagListFormat) ∨
      ∃ tags, ListText tags txt ∧ (tags.map (·.1)).Nodup ∧ FirstDefect ix pre tags e.kind := by
    intro e h
    by_cases hl : ∃ tags, ListText tags txt ∧ (tags.map (·.1)).Nodup
    · obtain ⟨tags, h1, h2⟩ := hl
      refine .inr ⟨tags, h1, h2, ?_⟩
      have hp : parseTagList txt = .ok (ofPairs tags) := (C22_tag_list_exact txt (ofPairs tags)).2
        ⟨by simpa [ofPairs, Function.comp_def] using h1, by simpa [ofPairs, Function.comp_def] using h2⟩
      have hpp : toPairs (ofPairs tags) = tags := by simp [toPairs, ofPairs, Function.comp_def]
      obtain ⟨hv, hn⟩ := parseTagList_values hp
      rw [sigFromStr, hp] at h
      simp only [sigFromTagList] at h
      cases hi : sigFromTagListInternal ix pre (ofPairs tags) with
      | ok s => rw [hi] at h; cases h
      | panic => rw [hi] at h; cases h
      | err k =>
        rw [hi] at h
        cases h
        rw [salvage_kind]
        have := sigInternal_err law pre hv hn hi
        rwa [hpp] at this
    · rw [C31_no_tag_list ix pre txt hl] at h
      cases h
      exact .inl ⟨hl, rfl⟩
  constructor
  · rintro ⟨e, h, rfl⟩
    exact forward e h
  · intro h
    cases hs : sigFromStr ix pre txt with
    | panic => exact absurd hs (C31_total ix pre txt)
    | ok s =>
      obtain ⟨tags, h1, h2, h3⟩ := (sigFromStr_iff law pre txt s).1 hs
      rcases h with ⟨h, -⟩ | ⟨tags', h4, h5, h6⟩
      · exact absurd ⟨tags, h1, h2⟩ h
      · have := listText_unique h1 h4
        subst this
        exact absurd h6 (signatureOf_noDefect (fun t ht => listText_values h1 t ht) h2 law h3)
    | err e =>
      refine ⟨e, rfl, ?_⟩
      rcases h with ⟨h, rfl⟩ | ⟨tags, h4, h5, h6⟩
      · rcases forward e hs with ⟨-, h'⟩ | ⟨tags, h1, h2, -⟩
        · exact h'
        · exact absurd ⟨tags, h1, h2⟩ h
      · rcases forward e hs with ⟨h', -⟩ | ⟨tags', h1, h2, h3⟩
        · exact absurd ⟨tags, h4, h5⟩ h'
        · have := listText_unique h1 h4
          subst this
          exact firstDefect_unique (fun t ht => listText_values h1 t ht) h3 h6

theorem option_ext_iff {a b : Option Str} {p : Str → Prop} (ha : ∀ v, a = some v ↔ p v) (hb : ∀ v, b = some v ↔ p v) :
    a = b := by
  cases a with
  | none =>
    cases b with
    | none => rfl
    | some v => exact absurd ((ha v).2 ((hb v).1 rfl)) nofun
  | some v => exact ((hb v).2 ((ha v).1 rfl)).symm

/-- The error is unique. -/
theorem Spec.SignatureError.ext {ix : Idna} {pre : Bool} {txt : Str} {e e' : SigError}
    (h : SignatureError ix pre txt e) (h' : SignatureError ix pre txt e') (hk : e.kind = e'.kind) : e = e' := by
  obtain ⟨k, a, b, d, i, s⟩ := e
  obtain ⟨k', a', b', d', i', s'⟩ := e'
  have e1 := option_ext_iff h.algorithmStr h'.algorithmStr
  have e2 := option_ext_iff h.signatureDataStr h'.signatureDataStr
  have e3 := option_ext_iff h.domainStr h'.domainStr
  have e4 := option_ext_iff h.identityStr h'.identityStr
  have e5 := option_ext_iff h.selectorStr h'.selectorStr
  simp only at hk e1 e2 e3 e4 e5
  rw [hk, e1, e2, e3, e4, e5]

/-- C54: a text is rejected with error `e` exactly if `e` names its first defect and shows
the values of the tags `a=`, `b=`, `d=`, `i=`, `s=`. -/
theorem C54_error_exact (ix : Idna) (law : CaseLaw ix) (pre : Bool) (txt : Str) (e : SigError) :
    sigFromStr ix pre txt = .err e ↔ SignatureError ix pre txt e := by
  have forward : ∀ e, sigFromStr ix pre txt = .err e → SignatureError ix pre txt e := by
    intro e h
    have hd := (C54_first_defect ix law pre txt e.kind).1 ⟨e, h, rfl⟩
    by_cases hl : ∃ tags, ListText tags txt ∧ (tags.map (·.1)).Nodup
    · obtain ⟨tags, h1, h2⟩ := hl
      obtain ⟨g1, g2, g3, g4, g5⟩ := C31_salvage ix pre txt tags e h1 h2 h
      have : ∀ n v, (n, v) ∈ tags ↔ HasTag txt n v := by
        intro n v
        constructor
        · exact fun hm => ⟨tags, h1, h2, hm⟩
        · rintro ⟨tags', h1', -, hm⟩
          rwa [listText_unique h1 h1']
      exact ⟨hd, fun v => (g1 v).trans (this _ v), fun v => (g2 v).trans (this _ v), fun v => (g3 v).trans (this _ v),
        fun v => (g4 v).trans (this _ v), fun v => (g5 v).trans (this _ v)⟩
    · have hno : ∀ n v, ¬ HasTag txt n v := fun n v ⟨tags, h1, h2, _⟩ => hl ⟨tags, h1, h2⟩
      rw [C31_no_tag_list ix pre txt hl] at h
      cases h
      constructor
      · exact hd
      all_goals
        intro v
        constructor
        · nofun
        · exact fun hv => absurd hv (hno _ v)
  constructor
  · exact forward e
  · intro h
    obtain ⟨e', h1, h2⟩ := (C54_first_defect ix law pre txt e.kind).2 h.kind
    rw [(forward e' h1).ext h h2] at h1
    exact h1

theorem signatureError_unique {ix : Idna} (law : CaseLaw ix) {pre : Bool} {txt : Str} {e e' : SigError}
    (h : SignatureError ix pre txt e) (h' : SignatureError ix pre txt e') : e = e' := by
  rw [← C54_error_exact ix law] at h h'
  rw [h] at h'
  injection h'

/-- C55: a text is rejected with error `k` exactly if that is its first defect. -/
theorem C55_first_defect (lossy : Bytes → Str) (pre : Bool) (txt : Str) (k : RecordError) :
    recordFromStr lossy pre txt = .err k ↔ RecordDefect pre txt k := by
  unfold RecordDefect
  have forward : ∀ e, recordFromStr lossy pre txt = .err e →
      ((¬ ∃ tags, ListText tags txt ∧ (tags.map (·.1)).Nodup) ∧ e = .tagListFormat) ∨
      ∃ tags, ListText tags txt ∧ (tags.map (·.1)).Nodup ∧ FirstRecordDefect pre tags e := by
    intro e h
    unfold recordFromStr at h
    cases hp : parseTagList txt with
    | error e' =>
      rw [hp] at h
      cases h
      refine .inl ⟨?_, rfl⟩
      rintro ⟨tags, h1, h2⟩
      have : parseTagList txt = .ok (ofPairs tags) := (C22_tag_list_exact txt (ofPairs tags)).2
        ⟨by simpa [ofPairs, Function.comp_def] using h1, by simpa [ofPairs, Function.comp_def] using h2⟩
      rw [hp] at this
      cases this
    | ok tags =>
      rw [hp] at h
      obtain ⟨h1, h2⟩ := (C22_tag_list_exact txt tags).1 hp
      obtain ⟨hv, hn⟩ := parseTagList_values hp
      exact .inr ⟨_, h1, by simpa [Function.comp_def] using h2, recordFromTagList_err hv hn h⟩
  constructor
  · exact forward k
  · intro h
    cases hs : recordFromStr lossy pre txt with
    | panic => exact absurd hs (C33_total lossy pre txt)
    | ok r =>
      obtain ⟨tags, h1, h2, h3⟩ := (C33_parse_exact lossy pre txt r).1 hs
      rcases h with ⟨h, -⟩ | ⟨tags', h4, h5, h6⟩
      · exact absurd ⟨tags, h1, h2⟩ h
      · have := listText_unique h1 h4
        subst this
        exfalso
        have hn' : ((ofPairs tags).map (·.name)).Nodup := by simpa [ofPairs, Function.comp_def] using h2
        have hv' : ∀ t ∈ ofPairs tags, IsValue t.value := by
          intro t ht
          obtain ⟨p, hp, rfl⟩ := List.mem_map.1 ht
          exact listText_values h1 p hp
        have hp : toPairs (ofPairs tags) = tags := by simp [toPairs, ofPairs, Function.comp_def]
        have hpl : parseTagList txt = .ok (ofPairs tags) := (C22_tag_list_exact txt (ofPairs tags)).2
          ⟨by simpa [ofPairs, Function.comp_def] using h1, hn'⟩
        rw [recordFromStr, hpl] at hs
        simp only [recordFromTagList] at hs
        have hno : NoRecordDefect pre tags := by
          rcases recLoop_cases (lossy := lossy) (pre := pre) hv' {} [] (fun a n v b e => by simp at e) with
            ⟨_, _, g⟩ | ⟨k', b, a, n, v, g, _⟩
          · rwa [hp] at g
          · rw [List.length_nil] at g
            rw [g] at hs
            cases hs
        cases h6 with
        | value b a n v k e g1 g2 => exact hno b n v a e k g2
        | missing _ g =>
          obtain ⟨v, m, _⟩ := h3.keyData
          exact g v m
    | err e =>
      rw [Res.err.injEq]
      rcases h with ⟨h, rfl⟩ | ⟨tags, h4, h5, h6⟩
      · rcases forward e hs with ⟨-, h'⟩ | ⟨tags, h1, h2, -⟩
        · exact h'
        · exact absurd ⟨tags, h1, h2⟩ h
      · rcases forward e hs with ⟨h', -⟩ | ⟨tags', h1, h2, h3⟩
        · exact absurd ⟨tags, h4, h5⟩ h'
        · have := listText_unique h1 h4
          subst this
          exact firstRecordDefect_unique (fun t ht => listText_values h1 t ht) h3 h6

end Dkim
