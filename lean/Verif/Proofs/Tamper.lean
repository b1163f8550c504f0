import Verif.Proofs.RoundTrip
import Verif.Proofs.VerifierRun
import Verif.Props.TagList
import Verif.Props.HeaderCanon

/-!
# Equal hash inputs: helper lemmas for C53
-/

namespace Dkim

open Spec

/-! ## Whitespace in bytes and characters -/

theorem foldByte_encode (c : Char) :
    (String.utf8EncodeChar c).filter (fun b => !isFoldChar b) =
      if (!(c == ' ' || c == '\t' || c == '\r' || c == '\n')) = true then String.utf8EncodeChar c else [] := by
  by_cases h : c.toNat < 128
  · rw [encodeChar_ascii c h]
    have key : ∀ d : Char, d.toNat < 128 → ((c == d) = (UInt8.ofNat c.toNat == UInt8.ofNat d.toNat)) := by
      intro d hd
      rw [Bool.eq_iff_iff, beq_iff_eq, beq_iff_eq]
      constructor
      · rintro rfl; rfl
      · intro e
        have := congrArg UInt8.toNat e
        rw [uint8_ofNat_toNat _ (by omega), uint8_ofNat_toNat _ (by omega)] at this
        exact char_ext_toNat this
    rw [key ' ' (by decide), key '\t' (by decide), key '\r' (by decide), key '\n' (by decide)]
    rw [List.filter_cons, List.filter_nil]
    rfl
  · rw [if_pos]
    · rw [List.filter_eq_self]
      intro b hb
      have := encodeChar_nonascii c h b hb
      simp only [isFoldChar, Bool.not_eq_true', Bool.or_eq_false_iff, beq_eq_false_iff_ne, ne_eq]
      refine ⟨⟨⟨?_, ?_⟩, ?_⟩, ?_⟩ <;> (rintro rfl; revert this; decide)
    · simp only [Bool.not_eq_true', Bool.or_eq_false_iff, beq_eq_false_iff_ne, ne_eq]
      refine ⟨⟨⟨?_, ?_⟩, ?_⟩, ?_⟩ <;> (rintro rfl; exact h (by decide))

theorem utf8_unfws (s : Str) : utf8 (unfws s) = (utf8 s).filter fun b => !isFoldChar b := by
  induction s with
  | nil => rfl
  | cons c s ih =>
    rw [utf8_cons, List.filter_append, foldByte_encode, ← ih]
    unfold unfws
    rw [List.filter_cons]
    split
    · rfl
    · rfl

theorem words_flatten (v : Bytes) : (words v).flatten = v.filter fun b => !isFoldChar b := by
  have key : ∀ {ws : List Bytes} {v : Bytes}, Spaced ws v → ws.flatten = v.filter fun b => !isFoldChar b := by
    intro ws v h
    have f1 : ∀ g : Bytes, (∀ b ∈ g, isFoldChar b = true) → (g.filter fun b => !isFoldChar b) = [] := by
      intro g hg
      rw [List.filter_eq_nil_iff]
      intro b hb
      simp [hg b hb]
    have f2 : ∀ g : Bytes, (∀ b ∈ g, isFoldChar b = false) → (g.filter fun b => !isFoldChar b) = g := by
      intro g hg
      rw [List.filter_eq_self]
      intro b hb
      simp [hg b hb]
    induction h with
    | blank g hg => simp [f1 g hg]
    | last g w g' hg hw1 hw2 hg' => simp [List.filter_append, f1 g hg, f1 g' hg', f2 w hw2]
    | more g w s ws v hg hw1 hw2 hs hv ih =>
      simp [List.filter_append, f1 g hg, f2 w hw2, hs, ih]
  exact key (words_spaced v)

theorem words_rfcRelaxedValue (v : Bytes) : words (rfcRelaxedValue v) = words v := by
  rw [rfcRelaxedValue, words_joinWords _ (words_isWord v)]

theorem unfws_eq_of_words {s t : Str} (h : words (utf8 s) = words (utf8 t)) : unfws s = unfws t := by
  apply utf8_injective
  rw [utf8_unfws, utf8_unfws, ← words_flatten, ← words_flatten, h]

/-! ## Tag lists without whitespace -/

theorem tval_clean {v : Str} (h : Tval v) : Clean v := fun c hc => valChar_noFws (h.2 c hc)

theorem someValue_unfws {v : Str} (h : SomeValue v) : Tval (unfws v) := by
  induction h with
  | one v hv => rw [unfws_of_clean (tval_clean hv)]; exact hv
  | more v f r hv hf hr ih =>
    rw [unfws_append, unfws_append, unfws_fws hf, unfws_of_clean (tval_clean hv), List.append_nil]
    refine ⟨by simp [hv.1], ?_⟩
    intro c hc
    rw [List.mem_append] at hc
    rcases hc with hc | hc
    · exact hv.2 c hc
    · exact ih.2 c hc

theorem tagName_clean {n : Str} (h : TagName n) : Clean n := by
  obtain ⟨c, r, rfl, h1, h2⟩ := h
  intro d hd hf
  rw [List.mem_cons] at hd
  rcases hd with rfl | hd
  · rcases hf with rfl | rfl | rfl | rfl <;> revert h1 <;> decide
  · have h3 := h2 d hd
    rcases hf with rfl | rfl | rfl | rfl <;> revert h3 <;> decide

theorem unfws_eqSign : unfws ['='] = ['='] := rfl

theorem specText_unfws {n v s : Str} (h : SpecText n v s) : SpecText n (unfws v) (unfws s) := by
  cases h with
  | value f1 n f2 f3 v f4 h1 hn h2 h3 hv h4 =>
    simp only [unfws_append, unfws_optFws h1, unfws_optFws h2, unfws_optFws h3, unfws_optFws h4,
      unfws_of_clean (tagName_clean hn), unfws_eqSign]
    exact .value [] n [] [] (unfws v) [] (.inl rfl) hn (.inl rfl) (.inl rfl) (.one _ (someValue_unfws hv)) (.inl rfl)
  | empty f1 n f2 f3 h1 hn h2 h3 =>
    simp only [unfws_append, unfws_optFws h1, unfws_optFws h2, unfws_optFws h3,
      unfws_of_clean (tagName_clean hn), unfws_eqSign]
    exact .empty [] n [] [] (.inl rfl) hn (.inl rfl) (.inl rfl)

/-- Tags whose values are without whitespace. -/
def bareTags (tags : List (Str × Str)) : List (Str × Str) := tags.map fun t => (t.1, unfws t.2)

theorem listText_unfws {tags : List (Str × Str)} {s : Str} (h : ListText tags s) :
    ListText (bareTags tags) (unfws s) := by
  induction h with
  | last n v s hs => exact .last _ _ _ (specText_unfws hs)
  | lastSemicolon n v s hs =>
    rw [unfws_append]
    exact .lastSemicolon _ _ _ (specText_unfws hs)
  | more n v s tags r hs _ ih =>
    have e : unfws (s ++ ';' :: r) = unfws s ++ ';' :: unfws r := by
      rw [unfws_append]; rfl
    rw [e]
    exact .more _ _ _ _ _ (specText_unfws hs) ih

/-- The tags other than `b=` have the same names in the same order, and the same values
except for whitespace. -/
def SameBareTags (tags tags' : List (Str × Str)) : Prop := bareTags (emptyB tags) = bareTags (emptyB tags')

theorem sameTags_symm {tags tags' : List (Str × Str)} (h : SameBareTags tags tags') : SameBareTags tags' tags := Eq.symm h

theorem SameBareTags.names {tags tags' : List (Str × Str)} (h : SameBareTags tags tags') :
    tags.map (·.1) = tags'.map (·.1) := by
  have e : ∀ l : List (Str × Str), (bareTags (emptyB l)).map (·.1) = l.map (·.1) := by
    intro l
    simp only [bareTags, emptyB, List.map_map]
    apply List.map_congr_left
    intro t _
    simp only [Function.comp_apply]
    split <;> rfl
  rw [← e tags, h, e]

theorem SameBareTags.value {tags tags' : List (Str × Str)} (h : SameBareTags tags tags') {n v : Str} (hn : n ≠ c!"b")
    (hm : (n, v) ∈ tags) : ∃ v', (n, v') ∈ tags' ∧ unfws v = unfws v' := by
  have h1 : (n, unfws v) ∈ bareTags (emptyB tags) := by
    simp only [bareTags, emptyB, List.map_map, List.mem_map]
    exact ⟨(n, v), hm, by simp [hn]⟩
  rw [h] at h1
  simp only [bareTags, emptyB, List.map_map, List.mem_map] at h1
  obtain ⟨⟨m, w⟩, h2, h3⟩ := h1
  simp only [Function.comp_apply] at h3
  split at h3
  · next e =>
    simp only [Prod.mk.injEq] at h3
    exact absurd (h3.1.symm.trans e) hn
  · simp only [Prod.mk.injEq] at h3
    obtain ⟨rfl, h4⟩ := h3
    exact ⟨w, h2, h4.symm⟩

/-! ## Meaning of values without whitespace -/

theorem nodup_fst {tags : List (Str × Str)} (h : (tags.map (·.1)).Nodup) {n v w : Str} (hv : (n, v) ∈ tags)
    (hw : (n, w) ∈ tags) : v = w := by
  induction tags with
  | nil => simp at hv
  | cons t tags ih =>
    rw [List.map_cons, List.nodup_cons] at h
    rw [List.mem_cons] at hv hw
    rcases hv with rfl | hv
    · rcases hw with e | hw
      · injection e with _ e; exact e.symm
      · exact absurd (List.mem_map_of_mem (f := (·.1)) hw) h.1
    · rcases hw with rfl | hw
      · exact absurd (List.mem_map_of_mem (f := (·.1)) hv) h.1
      · exact ih h.2 hv hw

/-- The meaning of a value does not depend on whitespace. -/
def Bare {α : Type} (means : Str → α → Prop) : Prop :=
  ∀ v v' x x', unfws v = unfws v' → means v x → means v' x' → x = x'

theorem SameBareTags.required {tags tags' : List (Str × Str)} (h : SameBareTags tags tags')
    (hn' : (tags'.map (·.1)).Nodup) {α : Type} {means : Str → α → Prop} (hb : Bare means) {n : Str}
    (hn : n ≠ c!"b") {x x' : α} (h1 : Required tags n means x) (h2 : Required tags' n means x') : x = x' := by
  obtain ⟨v, hv, hx⟩ := h1
  obtain ⟨v', hv', hx'⟩ := h2
  obtain ⟨w, hw, e⟩ := h.value hn hv
  rw [nodup_fst hn' hw hv'] at e
  exact hb v v' x x' e hx hx'

theorem SameBareTags.optional {tags tags' : List (Str × Str)} (h : SameBareTags tags tags')
    (hn' : (tags'.map (·.1)).Nodup) {α : Type} {means : Str → α → Prop} (hb : Bare means) {n : Str}
    (hn : n ≠ c!"b") {x x' : Option α} (h1 : Optional tags n means x) (h2 : Optional tags' n means x') : x = x' := by
  cases x with
  | none =>
    cases x' with
    | none => rfl
    | some x' =>
      obtain ⟨v, hv, _⟩ := h2
      obtain ⟨w, hw, _⟩ := (sameTags_symm h).value hn hv
      exact absurd hw (h1 w)
  | some x =>
    cases x' with
    | none =>
      obtain ⟨v, hv, _⟩ := h1
      obtain ⟨w, hw, _⟩ := h.value hn hv
      exact absurd hw (h2 w)
    | some x' => rw [h.required hn' hb hn h1 h2]

theorem SameBareTags.defaulting {tags tags' : List (Str × Str)} (h : SameBareTags tags tags')
    (hn' : (tags'.map (·.1)).Nodup) {α : Type} {means : Str → α → Prop} (hb : Bare means) {n : Str}
    (hn : n ≠ c!"b") {d x x' : α} (h1 : Defaulting tags n means d x) (h2 : Defaulting tags' n means d x') :
    x = x' := by
  rcases h1 with h1 | ⟨h1, rfl⟩
  · rcases h2 with h2 | ⟨h2, rfl⟩
    · exact h.required hn' hb hn h1 h2
    · obtain ⟨v, hv, _⟩ := h1
      obtain ⟨w, hw, _⟩ := h.value hn hv
      exact absurd hw (h2 w)
  · rcases h2 with h2 | ⟨h2, rfl⟩
    · obtain ⟨v, hv, _⟩ := h2
      obtain ⟨w, hw, _⟩ := (sameTags_symm h).value hn hv
      exact absurd hw (h1 w)
    · rfl

theorem clean_of_lower {v : Str} (h : Clean (lower v)) : Clean v := by
  intro c hc hf
  refine h c.toLower ?_ ?_
  · exact List.mem_map_of_mem (f := Char.toLower) hc
  · rcases hf with rfl | rfl | rfl | rfl <;> (unfold fwsChar; decide)

instance (c : Char) : Decidable (fwsChar c) := by unfold fwsChar; infer_instance

instance (s : Str) : Decidable (Clean s) := by unfold Clean; infer_instance

theorem bare_alg (pre : Bool) : Bare (AlgText pre) := by
  have key : ∀ v a, AlgText pre v a → Clean v := by
    rintro v a (⟨_, h⟩ | ⟨_, h⟩ | ⟨_, _, h⟩) <;> (apply clean_of_lower; rw [h]; decide)
  intro v v' x x' e h h'
  rw [unfws_of_clean (key _ _ h), unfws_of_clean (key _ _ h')] at e
  subst e
  rcases h with ⟨rfl, h⟩ | ⟨rfl, h⟩ | ⟨_, rfl, h⟩ <;> rcases h' with ⟨rfl, h'⟩ | ⟨rfl, h'⟩ | ⟨_, rfl, h'⟩ <;>
    first
      | rfl
      | (rw [h] at h'; exact absurd h' (by decide))

theorem bare_base64 : Bare Base64Text := by
  rintro v v' x x' e ⟨_, h⟩ ⟨_, h'⟩
  have h1 := (parseBase64_iff v x).2 h
  rw [(parseBase64_iff v x').2 (e.trans h')] at h1
  injection h1 with h1
  exact h1.symm

theorem bare_canon : Bare CanonText := by
  have key : ∀ v a, CanonText v a → Clean v := by
    rintro v ⟨a, b⟩ (h | ⟨h, _⟩) <;> apply clean_of_lower <;> rw [h]
    · cases a <;> cases b <;> decide
    · cases a <;> cases b <;> decide
  intro v v' x x' e h h'
  rw [unfws_of_clean (key _ _ h), unfws_of_clean (key _ _ h')] at e
  subst e
  obtain ⟨a, b⟩ := x
  obtain ⟨a', b'⟩ := x'
  rcases h with h | ⟨h, hb⟩ <;> rcases h' with h' | ⟨h', hb'⟩ <;> rw [h] at h' <;> revert h' <;>
    (try (simp only at hb; subst hb)) <;> (try (simp only at hb'; subst hb')) <;> cases a <;> cases a' <;>
    (try cases b) <;> (try cases b') <;> decide

theorem validName_clean {n : Str} (h : ValidName n) : Clean n := by
  intro c hc hf
  have := h.2 c hc
  rcases hf with rfl | rfl | rfl | rfl <;> revert this <;> decide

theorem validName_item {n : Str} (h : ValidName n) : n ≠ [] ∧ Trimmed n ∧ ':' ∉ n :=
  ⟨h.1, ⟨fun c r e => validName_clean h c (by simp [e]), fun c r e => validName_clean h c (by simp [e])⟩,
    fun hc => (h.2 _ hc).2.2 rfl⟩

theorem colonList_unfws {ns : List Str} {v : Str} (h : ColonList ns v) (hn : ∀ n ∈ ns, ValidName n) :
    ColonList ns (unfws v) := by
  induction h with
  | one f n g hf hg =>
    rw [unfws_append, unfws_append, unfws_optFws hf, unfws_optFws hg, unfws_of_clean (validName_clean (hn n (by simp)))]
    exact .one [] n [] (.inl rfl) (.inl rfl)
  | more f n g ns s hf hg _ ih =>
    have e : unfws (':' :: s) = ':' :: unfws s := rfl
    rw [unfws_append, unfws_append, unfws_append, unfws_optFws hf, unfws_optFws hg,
      unfws_of_clean (validName_clean (hn n (by simp))), e]
    exact .more [] n [] ns _ (.inl rfl) (.inl rfl) (ih fun m hm => hn m (by simp [hm]))

theorem bare_headers : Bare HeadersText := by
  rintro v v' x x' e ⟨h1, h2, _⟩ ⟨h1', h2', _⟩
  have h3 := parseColon_complete (colonList_unfws h1 h2) fun i hi => validName_item (h2 i hi)
  have h4 := parseColon_complete (colonList_unfws h1' h2') fun i hi => validName_item (h2' i hi)
  rw [e, h4] at h3
  exact h3.symm

theorem bare_decimal : Bare PlusDecimal := by
  have digits : ∀ v n, Decimal v n → Clean v := by
    intro v n h c hc hf
    have := h.2.1 c hc
    unfold digit at this
    rcases hf with rfl | rfl | rfl | rfl <;> revert this <;> decide
  have key : ∀ v n, PlusDecimal v n → Clean v := by
    rintro v n (h | ⟨ds, rfl, h⟩)
    · exact digits v n h
    · intro c hc
      rw [List.mem_cons] at hc
      rcases hc with rfl | hc
      · decide
      · exact digits _ _ h c hc
  intro v v' x x' e h h'
  rw [unfws_of_clean (key _ _ h), unfws_of_clean (key _ _ h')] at e
  subst e
  have h1 := (parseU64_iff v x).2 h
  rw [(parseU64_iff v x').2 h'] at h1
  injection h1 with h1
  exact h1.symm

/-! ## Line breaks -/

theorem foldsOnly_split {a b : Bytes} {c : UInt8} (h1 : c ≠ 13) (h2 : c ≠ 10) (h3 : isWsp c = false)
    (h : FoldsOnly (a ++ c :: b)) : FoldsOnly a ∧ FoldsOnly b := by
  generalize e : a ++ c :: b = t at h
  induction h generalizing a with
  | nil => simp at e
  | byte d r hd1 hd2 hr ih =>
    cases a with
    | nil =>
      simp only [List.nil_append, List.cons.injEq] at e
      obtain ⟨_, rfl⟩ := e
      exact ⟨.nil, hr⟩
    | cons x a =>
      simp only [List.cons_append, List.cons.injEq] at e
      obtain ⟨rfl, e⟩ := e
      have := ih e
      exact ⟨.byte _ _ hd1 hd2 this.1, this.2⟩
  | fold w r hw hr ih =>
    match a with
    | [] =>
      simp only [List.nil_append, List.cons.injEq] at e
      exact absurd e.1 h1
    | [x] =>
      simp only [List.cons_append, List.nil_append, List.cons.injEq] at e
      exact absurd e.2.1 h2
    | [x, y] =>
      simp only [List.cons_append, List.nil_append, List.cons.injEq] at e
      rw [e.2.2.1, hw] at h3
      cases h3
    | x :: y :: z :: a =>
      simp only [List.cons_append, List.cons.injEq] at e
      obtain ⟨rfl, rfl, rfl, e⟩ := e
      have := ih e
      exact ⟨.fold _ _ hw this.1, this.2⟩

theorem foldsOnly_withoutB {value original : Str} (h : WithoutB value original) (hf : FoldsOnly (utf8 value)) :
    FoldsOnly (utf8 original) := by
  obtain ⟨pre, val, post, rfl, ⟨⟨front, f1, f2, rfl, _⟩, _, hpost⟩, rfl⟩ := h
  have one : ∀ c : Char, c.toNat < 128 → ∀ r, utf8 (c :: r) = UInt8.ofNat c.toNat :: utf8 r := by
    intro c hc r
    rw [utf8_cons, encodeChar_ascii c hc]; rfl
  generalize front ++ f1 ++ 'b' :: f2 = p at hf ⊢
  simp only [List.append_assoc, List.singleton_append, List.cons_append, List.nil_append] at hf ⊢
  rw [utf8_append, one '=' (by decide)] at hf ⊢
  obtain ⟨h1, h2⟩ := foldsOnly_split (by decide) (by decide) (by decide) hf
  refine h1.append (.byte _ _ (by decide) (by decide) ?_)
  rcases hpost with rfl | ⟨r, rfl⟩
  · exact .nil
  · rw [utf8_append, one ';' (by decide)] at h2
    rw [one ';' (by decide)]
    exact .byte _ _ (by decide) (by decide) (foldsOnly_split (by decide) (by decide) (by decide) h2).2

/-! ## The signature field -/

/-- Whatever the algorithms: fields with equal canonical forms have values that agree
except for whitespace. -/
theorem canonField_bare {alg alg' : CanonAlg} {n n' v v' : Str} (h : ValidName n) (h' : ValidName n')
    (e : canonField alg n (utf8 v) = canonField alg' n' (utf8 v')) : unfws v = unfws v' := by
  have key : ∀ alg (n : Str) (x : Bytes), ValidName n → ∃ m y, canonField alg n x = utf8 m ++ 58 :: y ∧ ValidName m ∧
      words y = words x := by
    intro alg n x hn
    cases alg with
    | simple => exact ⟨n, x, by simp [canonField], hn, rfl⟩
    | relaxed => exact ⟨lower n, rfcRelaxedValue x, by simp [canonField], validName_lower hn, words_rfcRelaxedValue x⟩
  obtain ⟨m, y, e1, hm, hy⟩ := key alg n (utf8 v) h
  obtain ⟨m', y', e1', hm', hy'⟩ := key alg' n' (utf8 v') h'
  rw [e1, e1'] at e
  have := colon_injective (fun c hc => (validName_bytes hm c hc).2.2) (fun c hc => (validName_bytes hm' c hc).2.2) e
  exact unfws_eq_of_words (by rw [← hy, ← hy', this.2])

/-- Whatever the algorithms: equal hash inputs have equal last lines. -/
theorem hashInput_last {alg alg' : CanonAlg} {h h' : List Field} {sel sel' : List Str} {n n' v v' : Str}
    (hf : ∀ f ∈ h, ValidName f.name ∧ ValidBody f.body) (hf' : ∀ f ∈ h', ValidName f.name ∧ ValidBody f.body)
    (hn : ValidName n) (hn' : ValidName n') (hv : FoldsOnly (utf8 v)) (hv' : FoldsOnly (utf8 v'))
    (e : headerHashInput alg h sel n v = headerHashInput alg' h' sel' n' v') :
    canonField alg n (utf8 v) = canonField alg' n' (utf8 v') := by
  unfold headerHashInput at e
  have hl := lines_injective ((selectedFields h sel).map fun f => canonField alg f.name f.body)
    ((selectedFields h' sel').map fun f => canonField alg' f.name f.body) (canonField alg n (utf8 v))
    (canonField alg' n' (utf8 v')) (by
      intro l hl
      simp only [List.mem_append, List.mem_map, List.mem_singleton] at hl
      rcases hl with ⟨f, hfm, rfl⟩ | rfl
      · have := hf f (selectAux_mem _ _ _ f hfm)
        exact canonField_text alg this.1 this.2.foldsOnly
      · exact canonField_text alg hn hv) (by
      intro l hl
      simp only [List.mem_append, List.mem_map, List.mem_singleton] at hl
      rcases hl with ⟨f, hfm, rfl⟩ | rfl
      · have := hf' f (selectAux_mem _ _ _ f hfm)
        exact canonField_text alg' this.1 this.2.foldsOnly
      · exact canonField_text alg' hn' hv') (by
      rw [List.flatMap_map, List.flatMap_map]
      exact e)
  exact hl.2

end Dkim
