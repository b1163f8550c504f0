import Verif.Proofs.Signature
import Verif.Spec.Record

/-! Helper lemmas about key records. -/

namespace Dkim

open Spec

/-! ### Values -/

theorem eqIgnoreCase_lower {s t : Str} (ht : lower t = t) : eqIgnoreCase s t = true ↔ lower s = t := by
  rw [eqIgnoreCase_eq, sameName_iff, ht]

theorem recHashAlg_eq (pre : Bool) (s : Str) : recHashAlg pre s = hashNamed pre s := by
  unfold recHashAlg hashNamed
  simp only [Bool.and_eq_true, eqIgnoreCase_lower (s := s) (t := c!"sha256") (by decide),
    eqIgnoreCase_lower (s := s) (t := c!"sha1") (by decide)]

theorem recServiceType_eq (s : Str) : recServiceType s = serviceNamed s := by
  unfold recServiceType serviceNamed
  simp only [eqIgnoreCase_lower (s := s) (t := c!"email") (by decide)]

theorem recFlag_eq (s : Str) : recFlag s = flagNamed s := by
  unfold recFlag flagNamed
  simp only [eqIgnoreCase_lower (s := s) (t := c!"y") (by decide),
    eqIgnoreCase_lower (s := s) (t := c!"s") (by decide)]

theorem recItems_iff {α : Type} (item : Str → Option α) (l : List Str) (xs : List α) :
    recItems item l = some xs ↔ (∀ i ∈ l, i ≠ []) ∧ xs = l.filterMap item := by
  induction l generalizing xs with
  | nil => simp [recItems, eq_comm]
  | cons s rest ih =>
    rw [recItems]
    cases s with
    | nil => simp
    | cons c r =>
      simp only [List.isEmpty_cons, Bool.false_eq_true, if_false]
      cases hr : recItems item rest with
      | none =>
        simp only [reduceCtorEq, false_iff, not_and]
        intro h _
        have := (ih (rest.filterMap item)).2 ⟨fun i hi => h i (by simp [hi]), rfl⟩
        rw [hr] at this; simp at this
      | some ys =>
        obtain ⟨h1, rfl⟩ := (ih ys).1 hr
        have e : (item (c :: r)).toList ++ rest.filterMap item = ((c :: r) :: rest).filterMap item := by
          rw [List.filterMap_cons]
          cases item (c :: r) <;> rfl
        simp only [Option.some.injEq, e]
        constructor
        · rintro rfl
          refine ⟨?_, rfl⟩
          intro i hi
          rcases List.mem_cons.1 hi with rfl | hi
          · simp
          · exact h1 i hi
        · rintro ⟨_, h⟩; exact h.symm

theorem recItems_text {α : Type} (item : Str → Option α) {v : Str} (hv : IsValue v) (xs : List α) :
    recItems item (parseColonSeparated v) = some xs ↔ ItemsText item v xs := by
  rw [recItems_iff]
  constructor
  · rintro ⟨h1, h2⟩
    exact ⟨_, parseColon_sound v, fun i hi => ⟨h1 i hi, parseColon_items hv i hi⟩, h2⟩
  · rintro ⟨items, h1, h2, h3⟩
    rw [parseColon_complete h1 h2]
    exact ⟨fun i hi => (h2 i hi).1, h3⟩

theorem nonempty_iff {α : Type} {o : Option (List α)} {e1 e2 : RecordError} {xs : List α} :
    (match o with
      | none => Res.err e1
      | some l => if l.isEmpty then Res.err e2 else Res.ok l) = Res.ok xs ↔ o = some xs ∧ xs ≠ [] := by
  cases o with
  | none => simp
  | some l =>
    cases l with
    | nil => simp
    | cons x l =>
      simp only [List.isEmpty_cons, Bool.false_eq_true, if_false, Res.ok.injEq, Option.some.injEq]
      constructor
      · rintro rfl; simp
      · rintro ⟨h, _⟩; exact h

theorem recTagH_iff (pre : Bool) {v : Str} (hv : IsValue v) (xs : List HashAlg) :
    recTagH pre v = .ok xs ↔ ItemsText (hashNamed pre) v xs ∧ xs ≠ [] := by
  have e : recHashAlg pre = hashNamed pre := funext (recHashAlg_eq pre)
  rw [← recItems_text _ hv, ← e]
  unfold recTagH
  cases recItems (recHashAlg pre) (parseColonSeparated v) with
  | none => simp
  | some l => exact nonempty_iff (o := some l) (e1 := .invalidHashAlgorithm)

theorem recTagS_iff {v : Str} (hv : IsValue v) (xs : List ServiceType) :
    recTagS v = .ok xs ↔ ItemsText serviceNamed v xs ∧ xs ≠ [] := by
  have e : recServiceType = serviceNamed := funext recServiceType_eq
  rw [← recItems_text _ hv, ← e]
  unfold recTagS
  cases recItems recServiceType (parseColonSeparated v) with
  | none => simp
  | some l => exact nonempty_iff (o := some l) (e1 := .invalidServiceType)

theorem recTagT_iff {v : Str} (hv : IsValue v) (xs : List SelectorFlag) :
    recTagT v = .ok xs ↔ ItemsText flagNamed v xs := by
  have e : recFlag = flagNamed := funext recFlag_eq
  rw [← recItems_text _ hv, ← e]
  unfold recTagT
  cases recItems recFlag (parseColonSeparated v) <;> simp

theorem recTagK_iff (v : Str) (k : KeyType) : recTagK v = .ok k ↔ KeyTypeText v k := by
  unfold recTagK KeyTypeText
  simp only [eqIgnoreCase_lower (s := v) (t := c!"rsa") (by decide),
    eqIgnoreCase_lower (s := v) (t := c!"ed25519") (by decide)]
  split
  · next h => rw [h]; cases k <;> simp
  · next h1 =>
    split
    · next h => rw [h]; cases k <;> simp
    · next h2 => simp [h1, h2]

theorem recTagP_iff (v : Str) (bs : Bytes) : recTagP v = .ok bs ↔ unfws v = base64 bs := by
  unfold recTagP
  rw [← parseBase64_iff]
  cases parseBase64Value v <;> simp

/-- Reference result of decoding a section. -/
def qpsRef : Str → Option Bytes
  | [] => some []
  | '=' :: a :: b :: r =>
    match hexVal a, hexVal b with
    | some x, some y => (qpsRef r).map (UInt8.ofNat (x * 16 + y) :: ·)
    | _, _ => none
  | c :: r =>
    if c = '=' then none
    else if isDkimSafe c || isWspChar c then (qpsRef r).map (utf8 [c] ++ ·) else none

theorem qpSectionLoop_ref (s : Str) (res : Bytes) : qpSectionLoop s res = qpOut res (qpsRef s) := by
  induction s using qpsRef.induct generalizing res with
  | case1 => simp [qpSectionLoop, qpsRef, qpOut]
  | case2 a b r x y hb ha ih =>
    rw [qpSection_hex a b r x y ha hb, ih]
    simp only [qpsRef, ha, hb]
    cases qpsRef r <;> simp [qpOut]
  | case3 a b r hn =>
    have : isAsciiHexdigit a = false ∨ isAsciiHexdigit b = false := by
      cases h1 : isAsciiHexdigit a with
      | false => simp
      | true =>
        cases h2 : isAsciiHexdigit b with
        | false => simp
        | true =>
          obtain ⟨x, hx⟩ := (hexVal_iff a).2 h1
          obtain ⟨y, hy⟩ := (hexVal_iff b).2 h2
          exact absurd hy (hn x y hx)
    have e : qpsRef ('=' :: a :: b :: r) = none := by
      rw [qpsRef]
      split
      · next x y hx hy => exact absurd hy (hn x y hx)
      · rfl
    rw [e, qpSectionLoop]
    rcases this with h | h <;> simp [h, qpOut]
  | case4 r hn => 
    have e : qpsRef ('=' :: r) = none := by
      rw [qpsRef.eq_3 _ _ (by intro a b r' _ e; exact hn a b r' rfl e)]; rfl
    rw [e, qpSectionLoop.eq_3 _ _ _ (by intro a b r' _ e; exact hn a b r' rfl e)]; rfl
  | case5 c r hn hc hs ih =>
    have hx : ∀ (c1 c2 : Char) (r' : List Char), c = '=' → r = c1 :: c2 :: r' → False :=
      fun _ _ _ e _ => hc e
    rw [qpsRef.eq_3 _ _ hx, qpSectionLoop.eq_3 _ _ _ hx, if_neg hc, if_neg hc, if_pos hs, if_pos hs, ih,
      utf8_single]
    cases qpsRef r <;> simp [qpOut]
  | case6 c r hn hc hs =>
    have hx : ∀ (c1 c2 : Char) (r' : List Char), c = '=' → r = c1 :: c2 :: r' → False :=
      fun _ _ _ e _ => hc e
    rw [qpsRef.eq_3 _ _ hx, qpSectionLoop.eq_3 _ _ _ hx, if_neg hc, if_neg hc, if_neg hs, if_neg hs]
    rfl

theorem qpsRef_iff (s : Str) (bs : Bytes) : qpsRef s = some bs ↔ QpSection s bs := by
  have hchar : ∀ c, (isDkimSafe c || isWspChar c) = true ↔ dkimSafe c ∨ wsp c := by
    intro c; rw [Bool.or_eq_true, dkimSafe_iff, isWspChar_iff]
  constructor
  · intro h
    induction s using qpsRef.induct generalizing bs with
    | case1 => simp [qpsRef] at h; subst h; exact .nil
    | case2 a b r x y hb ha ih =>
      simp only [qpsRef, ha, hb, Option.map_eq_some_iff] at h
      obtain ⟨bs', h, rfl⟩ := h
      exact .hex a b x y r bs' ((hexVal_spec a x).1 ha) ((hexVal_spec b y).1 hb) (ih bs' h)
    | case3 a b r hn =>
      rw [qpsRef] at h
      split at h
      · next x y hx hy => exact absurd hy (hn x y hx)
      · simp at h
    | case4 r hn =>
      rw [qpsRef.eq_3 _ _ (by intro a b r' _ e; exact hn a b r' rfl e)] at h
      simp at h
    | case5 c r hn hc hs ih =>
      have hx : ∀ (c1 c2 : Char) (r' : List Char), c = '=' → r = c1 :: c2 :: r' → False :=
        fun _ _ _ e _ => hc e
      rw [qpsRef.eq_3 _ _ hx, if_neg hc, if_pos hs, Option.map_eq_some_iff] at h
      obtain ⟨bs', h, rfl⟩ := h
      exact .char c r bs' ((hchar c).1 hs) (ih bs' h)
    | case6 c r hn hc hs =>
      have hx : ∀ (c1 c2 : Char) (r' : List Char), c = '=' → r = c1 :: c2 :: r' → False :=
        fun _ _ _ e _ => hc e
      rw [qpsRef.eq_3 _ _ hx, if_neg hc, if_neg hs] at h
      simp at h
  · intro h
    induction h with
    | nil => rfl
    | char c s bs hc _ ih =>
      have hne : c ≠ '=' := by
        rintro rfl
        rcases hc with (⟨_, _, _, h⟩ | h) | (h | h)
        · exact h rfl
        · exact absurd h (by decide)
        · exact absurd h (by decide)
        · exact absurd h (by decide)
      rw [qpsRef.eq_3 _ _ (fun _ _ _ e _ => hne e), if_neg hne, if_pos ((hchar c).2 hc), ih]; rfl
    | hex a b x y s bs ha hb _ ih =>
      rw [qpsRef, (hexVal_spec a x).2 ha, (hexVal_spec b y).2 hb]
      simp [ih]

theorem recTagN_iff (lossy : Bytes → Str) (v n : Str) :
    recTagN lossy v = .ok n ↔ ∃ bs, QpSection v bs ∧ n = lossy bs := by
  unfold recTagN qpSectionDecode
  rw [qpSectionLoop_ref]
  simp only [← qpsRef_iff]
  cases qpsRef v with
  | none => simp [qpOut]
  | some bs =>
    simp only [qpOut, List.nil_append, Res.ok.injEq, Option.some.injEq]
    constructor
    · rintro rfl; exact ⟨bs, rfl, rfl⟩
    · rintro ⟨_, rfl, rfl⟩; rfl

theorem recTagN_noPanic (lossy : Bytes → Str) (v : Str) : recTagN lossy v ≠ .panic := by
  unfold recTagN qpSectionDecode
  rw [qpSectionLoop_ref]
  cases qpsRef v <;> simp [qpOut]

/-! ### The loop -/

theorem recTag_ok {lossy : Bytes → Str} {pre : Bool} {acc acc' : RecAcc} {i : Nat} {t : TagSpec}
    (h : recTag lossy pre acc i t = .ok acc') :
    (t.name = c!"v" ∧ (i = 0 ∧ t.value = c!"DKIM1") ∧ acc' = acc) ∨
    (t.name = c!"h" ∧ ∃ x, recTagH pre t.value = .ok x ∧ acc' = { acc with hashAlgorithms := some x }) ∨
    (t.name = c!"k" ∧ ∃ x, recTagK t.value = .ok x ∧ acc' = { acc with keyType := some x }) ∨
    (t.name = c!"n" ∧ ∃ x, recTagN lossy t.value = .ok x ∧ acc' = { acc with notes := some x }) ∨
    (t.name = c!"p" ∧ ∃ x, recTagP t.value = .ok x ∧ acc' = { acc with keyData := some x }) ∨
    (t.name = c!"s" ∧ ∃ x, recTagS t.value = .ok x ∧ acc' = { acc with serviceTypes := some x }) ∨
    (t.name = c!"t" ∧ ∃ x, recTagT t.value = .ok x ∧ acc' = { acc with flags := some x }) ∨
    (knownRecordTags.contains t.name = false ∧
      acc' = { acc with extTags := acc.extTags ++ [(t.name, t.value)] }) := by
  unfold recTag at h
  rcases ite_eq_cases h with ⟨e, h⟩ | ⟨n0, h⟩
  · rcases ite_eq_cases h with ⟨_, h⟩ | ⟨h1, h⟩
    · simp at h
    · rcases ite_eq_cases h with ⟨_, h⟩ | ⟨h2, h⟩
      · simp at h
      · exact .inl ⟨e, ⟨by simpa using h1, by simpa using h2⟩, by simpa using h.symm⟩
  right
  rcases ite_eq_cases h with ⟨e, h⟩ | ⟨n1, h⟩
  · obtain ⟨x, h1, h2⟩ := set_ok.1 h; exact .inl ⟨e, x, h1, h2.symm⟩
  right
  rcases ite_eq_cases h with ⟨e, h⟩ | ⟨n2, h⟩
  · obtain ⟨x, h1, h2⟩ := set_ok.1 h; exact .inl ⟨e, x, h1, h2.symm⟩
  right
  rcases ite_eq_cases h with ⟨e, h⟩ | ⟨n3, h⟩
  · obtain ⟨x, h1, h2⟩ := set_ok.1 h; exact .inl ⟨e, x, h1, h2.symm⟩
  right
  rcases ite_eq_cases h with ⟨e, h⟩ | ⟨n4, h⟩
  · obtain ⟨x, h1, h2⟩ := set_ok.1 h; exact .inl ⟨e, x, h1, h2.symm⟩
  right
  rcases ite_eq_cases h with ⟨e, h⟩ | ⟨n5, h⟩
  · obtain ⟨x, h1, h2⟩ := set_ok.1 h; exact .inl ⟨e, x, h1, h2.symm⟩
  right
  rcases ite_eq_cases h with ⟨e, h⟩ | ⟨n6, h⟩
  · obtain ⟨x, h1, h2⟩ := set_ok.1 h; exact .inl ⟨e, x, h1, h2.symm⟩
  right
  refine ⟨?_, by simpa using h.symm⟩
  simp only [knownRecordTags, List.contains_eq_mem, List.mem_cons, List.not_mem_nil, or_false,
    decide_eq_false_iff_not, not_or]
  exact ⟨n0, n1, n2, n3, n4, n5, n6⟩

theorem recLoop_field {lossy : Bytes → Str} {pre : Bool} {β : Type} (f : RecAcc → β) (N : Str)
    (P : Str → β → Prop)
    (hset : ∀ acc acc' i t, recTag lossy pre acc i t = .ok acc' → t.name = N → P t.value (f acc'))
    (hother : ∀ acc acc' i t, recTag lossy pre acc i t = .ok acc' → t.name ≠ N → f acc' = f acc)
    (tags : List TagSpec) (i : Nat) (acc acc' : RecAcc) (h : recLoop lossy pre acc i tags = .ok acc')
    (hn : (tags.map (·.name)).Nodup) :
    (∀ t ∈ tags, t.name = N → P t.value (f acc')) ∧ ((∀ t ∈ tags, t.name ≠ N) → f acc' = f acc) := by
  induction tags generalizing acc i with
  | nil => simp [recLoop] at h; subst h; simp
  | cons t ts ih =>
    rw [recLoop] at h
    cases h1 : recTag lossy pre acc i t with
    | err e => rw [h1] at h; simp at h
    | panic => rw [h1] at h; simp at h
    | ok acc1 =>
      rw [h1] at h
      simp only at h
      rw [List.map_cons, List.nodup_cons] at hn
      obtain ⟨i1, i2⟩ := ih (i + 1) acc1 h hn.2
      constructor
      · intro t' ht' e
        rcases List.mem_cons.1 ht' with rfl | ht'
        · have : f acc' = f acc1 := i2 fun t2 h2 e2 => hn.1 (by
            rw [e, ← e2]; exact List.mem_map.2 ⟨t2, h2, rfl⟩)
          rw [this]; exact hset acc acc1 i t' h1 e
        · exact i1 t' ht' e
      · intro hall
        rw [i2 fun t' ht' => hall t' (by simp [ht'])]
        exact hother acc acc1 i t h1 (hall t (by simp))

set_option hygiene false in
/-- Closes the goals about one field of the local variables. -/
local macro "rec_field_tac" : tactic => `(tactic| (
  intro acc acc' i t h hn
  rcases recTag_ok h with ⟨e, _, rfl⟩ | ⟨e, x, hx, rfl⟩ | ⟨e, x, hx, rfl⟩ | ⟨e, x, hx, rfl⟩ |
    ⟨e, x, hx, rfl⟩ | ⟨e, x, hx, rfl⟩ | ⟨e, x, hx, rfl⟩ | ⟨e, rfl⟩ <;>
  first
  | exact absurd (e.symm.trans hn) (by decide)
  | exact absurd e hn
  | exact ⟨_, hx, rfl⟩
  | (rw [hn] at e; exact absurd e (by decide))
  | rfl))

section fields
variable {lossy : Bytes → Str} {pre : Bool} {tags : List TagSpec} {acc' : RecAcc}
  (h : recLoop lossy pre {} 0 tags = .ok acc') (hn : (tags.map (·.name)).Nodup)
include h hn

theorem rfield_h :
    (∀ t ∈ tags, t.name = c!"h" → ∃ x, recTagH pre t.value = .ok x ∧ acc'.hashAlgorithms = some x) ∧
      ((∀ t ∈ tags, t.name ≠ c!"h") → acc'.hashAlgorithms = none) :=
  recLoop_field (·.hashAlgorithms) c!"h" (fun v y => ∃ x, recTagH pre v = .ok x ∧ y = some x)
    (by rec_field_tac) (by rec_field_tac) tags _ _ _ h hn

theorem rfield_k :
    (∀ t ∈ tags, t.name = c!"k" → ∃ x, recTagK t.value = .ok x ∧ acc'.keyType = some x) ∧
      ((∀ t ∈ tags, t.name ≠ c!"k") → acc'.keyType = none) :=
  recLoop_field (·.keyType) c!"k" (fun v y => ∃ x, recTagK v = .ok x ∧ y = some x)
    (by rec_field_tac) (by rec_field_tac) tags _ _ _ h hn

theorem rfield_n :
    (∀ t ∈ tags, t.name = c!"n" → ∃ x, recTagN lossy t.value = .ok x ∧ acc'.notes = some x) ∧
      ((∀ t ∈ tags, t.name ≠ c!"n") → acc'.notes = none) :=
  recLoop_field (·.notes) c!"n" (fun v y => ∃ x, recTagN lossy v = .ok x ∧ y = some x)
    (by rec_field_tac) (by rec_field_tac) tags _ _ _ h hn

theorem rfield_p :
    (∀ t ∈ tags, t.name = c!"p" → ∃ x, recTagP t.value = .ok x ∧ acc'.keyData = some x) ∧
      ((∀ t ∈ tags, t.name ≠ c!"p") → acc'.keyData = none) :=
  recLoop_field (·.keyData) c!"p" (fun v y => ∃ x, recTagP v = .ok x ∧ y = some x)
    (by rec_field_tac) (by rec_field_tac) tags _ _ _ h hn

theorem rfield_s :
    (∀ t ∈ tags, t.name = c!"s" → ∃ x, recTagS t.value = .ok x ∧ acc'.serviceTypes = some x) ∧
      ((∀ t ∈ tags, t.name ≠ c!"s") → acc'.serviceTypes = none) :=
  recLoop_field (·.serviceTypes) c!"s" (fun v y => ∃ x, recTagS v = .ok x ∧ y = some x)
    (by rec_field_tac) (by rec_field_tac) tags _ _ _ h hn

theorem rfield_t :
    (∀ t ∈ tags, t.name = c!"t" → ∃ x, recTagT t.value = .ok x ∧ acc'.flags = some x) ∧
      ((∀ t ∈ tags, t.name ≠ c!"t") → acc'.flags = none) :=
  recLoop_field (·.flags) c!"t" (fun v y => ∃ x, recTagT v = .ok x ∧ y = some x)
    (by rec_field_tac) (by rec_field_tac) tags _ _ _ h hn

end fields

/-- Version tags among the tags starting at index `i`. -/
theorem recLoop_version {lossy : Bytes → Str} {pre : Bool} {tags : List TagSpec} {i : Nat}
    {acc acc' : RecAcc} (h : recLoop lossy pre acc i tags = .ok acc') :
    ∀ t ∈ tags, t.name = c!"v" → i = 0 ∧ ∃ rest, tags = ⟨c!"v", c!"DKIM1"⟩ :: rest := by
  induction tags generalizing acc i with
  | nil => simp
  | cons t ts ih =>
    rw [recLoop] at h
    cases h1 : recTag lossy pre acc i t with
    | err e => rw [h1] at h; simp at h
    | panic => rw [h1] at h; simp at h
    | ok acc1 =>
      rw [h1] at h
      simp only at h
      intro t' ht' hn
      rcases List.mem_cons.1 ht' with rfl | ht'
      · have hk : ∀ m, t'.name = m → m ≠ c!"v" → False := fun m e1 e2 => e2 (e1.symm.trans hn)
        rcases recTag_ok h1 with ⟨e, ⟨h2, h3⟩, rfl⟩ | ⟨e, x, hx, rfl⟩ | ⟨e, x, hx, rfl⟩ | ⟨e, x, hx, rfl⟩ |
          ⟨e, x, hx, rfl⟩ | ⟨e, x, hx, rfl⟩ | ⟨e, x, hx, rfl⟩ | ⟨e, rfl⟩
        · refine ⟨h2, ts, ?_⟩
          obtain ⟨n, v⟩ := t'
          simp only at e h3
          rw [e, h3]
        · exact (hk _ e (by decide)).elim
        · exact (hk _ e (by decide)).elim
        · exact (hk _ e (by decide)).elim
        · exact (hk _ e (by decide)).elim
        · exact (hk _ e (by decide)).elim
        · exact (hk _ e (by decide)).elim
        · rw [hn] at e; exact absurd e (by decide)
      · have := (ih h t' ht' hn).1
        omega

theorem recLoop_ext {lossy : Bytes → Str} {pre : Bool} {tags : List TagSpec} {i : Nat} {acc acc' : RecAcc}
    (h : recLoop lossy pre acc i tags = .ok acc') :
    acc'.extTags = acc.extTags ++ (toPairs tags).filter fun t => !knownRecordTags.contains t.1 := by
  induction tags generalizing acc i with
  | nil => simp [recLoop] at h; subst h; simp [toPairs]
  | cons t ts ih =>
    rw [recLoop] at h
    cases h1 : recTag lossy pre acc i t with
    | err e => rw [h1] at h; simp at h
    | panic => rw [h1] at h; simp at h
    | ok acc1 =>
      rw [h1] at h
      simp only at h
      rw [ih h]
      have ec : toPairs (t :: ts) = (t.name, t.value) :: toPairs ts := rfl
      rw [ec]
      rcases recTag_ok h1 with ⟨e, hv, rfl⟩ | ⟨e, x, hx, rfl⟩ | ⟨e, x, hx, rfl⟩ | ⟨e, x, hx, rfl⟩ |
        ⟨e, x, hx, rfl⟩ | ⟨e, x, hx, rfl⟩ | ⟨e, x, hx, rfl⟩ | ⟨e, rfl⟩ <;>
      first
      | rw [List.filter_cons_of_neg (by simp only [e]; decide)]
      | (rw [List.filter_cons_of_pos (by simp only [e]; rfl)]; simp)

/-- The value of a tag is usable. -/
def RecTagFine (lossy : Bytes → Str) (pre : Bool) (t : TagSpec) : Prop :=
  (t.name = c!"h" → ∃ x, recTagH pre t.value = .ok x) ∧
  (t.name = c!"k" → ∃ x, recTagK t.value = .ok x) ∧
  (t.name = c!"n" → ∃ x, recTagN lossy t.value = .ok x) ∧
  (t.name = c!"p" → ∃ x, recTagP t.value = .ok x) ∧
  (t.name = c!"s" → ∃ x, recTagS t.value = .ok x) ∧
  (t.name = c!"t" → ∃ x, recTagT t.value = .ok x)

theorem recTag_fine {lossy : Bytes → Str} {pre : Bool} {t : TagSpec} {i : Nat}
    (h : RecTagFine lossy pre t) (hv : t.name = c!"v" → i = 0 ∧ t.value = c!"DKIM1") (acc : RecAcc) :
    ∃ acc', recTag lossy pre acc i t = .ok acc' := by
  obtain ⟨fh, fk, fn, fp, fs, ft⟩ := h
  unfold recTag
  refine iteInduction (motive := fun r => ∃ acc', r = Res.ok acc') (fun e => ?_) (fun _ => ?_)
  · obtain ⟨h1, h2⟩ := hv e
    rw [if_neg (by simp [h1]), if_neg (by simp [h2])]; exact ⟨_, rfl⟩
  refine iteInduction (motive := fun r => ∃ acc', r = Res.ok acc') (fun e => ?_) (fun _ => ?_)
  · obtain ⟨x, h⟩ := fh e; exact ⟨_, set_ok.2 ⟨x, h, rfl⟩⟩
  refine iteInduction (motive := fun r => ∃ acc', r = Res.ok acc') (fun e => ?_) (fun _ => ?_)
  · obtain ⟨x, h⟩ := fk e; exact ⟨_, set_ok.2 ⟨x, h, rfl⟩⟩
  refine iteInduction (motive := fun r => ∃ acc', r = Res.ok acc') (fun e => ?_) (fun _ => ?_)
  · obtain ⟨x, h⟩ := fn e; exact ⟨_, set_ok.2 ⟨x, h, rfl⟩⟩
  refine iteInduction (motive := fun r => ∃ acc', r = Res.ok acc') (fun e => ?_) (fun _ => ?_)
  · obtain ⟨x, h⟩ := fp e; exact ⟨_, set_ok.2 ⟨x, h, rfl⟩⟩
  refine iteInduction (motive := fun r => ∃ acc', r = Res.ok acc') (fun e => ?_) (fun _ => ?_)
  · obtain ⟨x, h⟩ := fs e; exact ⟨_, set_ok.2 ⟨x, h, rfl⟩⟩
  refine iteInduction (motive := fun r => ∃ acc', r = Res.ok acc') (fun e => ?_) (fun _ => ?_)
  · obtain ⟨x, h⟩ := ft e; exact ⟨_, set_ok.2 ⟨x, h, rfl⟩⟩
  · exact ⟨_, rfl⟩

theorem recTag_noPanic {lossy : Bytes → Str} {pre : Bool} {t : TagSpec} {i : Nat} (acc : RecAcc) :
    recTag lossy pre acc i t ≠ .panic := by
  unfold recTag
  refine iteInduction (motive := fun r => r ≠ Res.panic) (fun e => ?_) (fun _ => ?_)
  · split
    · simp
    · split <;> simp
  refine iteInduction (motive := fun r => r ≠ Res.panic) (fun e => ?_) (fun _ => ?_)
  · rw [Ne, set_panic]; unfold recTagH; split
    · simp
    · split <;> simp
  refine iteInduction (motive := fun r => r ≠ Res.panic) (fun e => ?_) (fun _ => ?_)
  · rw [Ne, set_panic]; unfold recTagK; split
    · simp
    · split <;> simp
  refine iteInduction (motive := fun r => r ≠ Res.panic) (fun e => ?_) (fun _ => ?_)
  · rw [Ne, set_panic]; exact recTagN_noPanic lossy _
  refine iteInduction (motive := fun r => r ≠ Res.panic) (fun e => ?_) (fun _ => ?_)
  · rw [Ne, set_panic]; unfold recTagP; split <;> simp
  refine iteInduction (motive := fun r => r ≠ Res.panic) (fun e => ?_) (fun _ => ?_)
  · rw [Ne, set_panic]; unfold recTagS; split
    · simp
    · split <;> simp
  refine iteInduction (motive := fun r => r ≠ Res.panic) (fun e => ?_) (fun _ => ?_)
  · rw [Ne, set_panic]; unfold recTagT; split <;> simp
  · simp

theorem recLoop_noPanic {lossy : Bytes → Str} {pre : Bool} {tags : List TagSpec} {i : Nat} (acc : RecAcc) :
    recLoop lossy pre acc i tags ≠ .panic := by
  induction tags generalizing acc i with
  | nil => simp [recLoop]
  | cons t ts ih =>
    rw [recLoop]
    have := recTag_noPanic (lossy := lossy) (pre := pre) (t := t) (i := i) acc
    cases h : recTag lossy pre acc i t with
    | ok a => exact ih a
    | err e => simp
    | panic => exact absurd h this

theorem recLoop_fine {lossy : Bytes → Str} {pre : Bool} {tags : List TagSpec} {i : Nat}
    (h : ∀ t ∈ tags, RecTagFine lossy pre t)
    (hv : ∀ t ∈ tags, t.name = c!"v" → i = 0 ∧ ∃ rest, tags = ⟨c!"v", c!"DKIM1"⟩ :: rest)
    (hn : (tags.map (·.name)).Nodup) (acc : RecAcc) : ∃ acc', recLoop lossy pre acc i tags = .ok acc' := by
  induction tags generalizing acc i with
  | nil => exact ⟨acc, rfl⟩
  | cons t ts ih =>
    rw [List.map_cons, List.nodup_cons] at hn
    obtain ⟨acc1, h1⟩ := recTag_fine (i := i) (h t (by simp)) (by
      intro e
      obtain ⟨h2, rest, h3⟩ := hv t (by simp) e
      refine ⟨h2, ?_⟩
      rw [(List.cons.inj h3).1]) acc
    rw [recLoop, h1]
    refine ih (fun t ht => h t (by simp [ht])) ?_ hn.2 acc1
    intro t' ht' e
    obtain ⟨_, rest, h3⟩ := hv t' (by simp [ht']) e
    exfalso
    apply hn.1
    rw [(List.cons.inj h3).1]
    exact List.mem_map.2 ⟨t', ht', e⟩

theorem recordFromTagList_iff {lossy : Bytes → Str} {pre : Bool} {tags : List TagSpec}
    (hv : ∀ t ∈ tags, IsValue t.value) (hn : (tags.map (·.name)).Nodup) (r : KeyRecord) :
    recordFromTagList lossy pre tags = .ok r ↔ RecordOf lossy pre (toPairs tags) r := by
  have pH : ∀ t ∈ tags, ∀ x, recTagH pre t.value = .ok x ↔
      (fun v x => ItemsText (hashNamed pre) v x ∧ x ≠ []) t.value x := fun t ht x => recTagH_iff pre (hv t ht) x
  have pK : ∀ t ∈ tags, ∀ x, recTagK t.value = .ok x ↔ KeyTypeText t.value x := fun t _ x => recTagK_iff _ x
  have pN : ∀ t ∈ tags, ∀ x, recTagN lossy t.value = .ok x ↔
      (fun v x => ∃ bs, QpSection v bs ∧ x = lossy bs) t.value x := fun t _ x => recTagN_iff lossy _ x
  have pP : ∀ t ∈ tags, ∀ x, recTagP t.value = .ok x ↔ (fun v bs => unfws v = base64 bs) t.value x :=
    fun t _ x => recTagP_iff _ x
  have pS : ∀ t ∈ tags, ∀ x, recTagS t.value = .ok x ↔
      (fun v x => ItemsText serviceNamed v x ∧ x ≠ []) t.value x := fun t ht x => recTagS_iff (hv t ht) x
  have pT : ∀ t ∈ tags, ∀ x, recTagT t.value = .ok x ↔ ItemsText flagNamed t.value x :=
    fun t ht x => recTagT_iff (hv t ht) x
  have versIff : (∀ t ∈ tags, t.name = c!"v" → ∃ rest, tags = ⟨c!"v", c!"DKIM1"⟩ :: rest) ↔
      ∀ v, (c!"v", v) ∈ toPairs tags → ∃ rest, toPairs tags = (c!"v", c!"DKIM1") :: rest := by
    constructor
    · intro h v hm
      obtain ⟨t, ht, e, rfl⟩ := mem_pairs.1 hm
      obtain ⟨rest, hr⟩ := h t ht e
      exact ⟨toPairs rest, by rw [hr]; rfl⟩
    · intro h t ht e
      obtain ⟨rest, hr⟩ := h t.value (mem_pairs.2 ⟨t, ht, e, rfl⟩)
      refine ⟨ofPairs rest, ?_⟩
      have := congrArg ofPairs hr
      rw [ofPairs_toPairs] at this
      exact this
  have loopIff : ∀ acc, recLoop lossy pre {} 0 tags = .ok acc →
      ((match acc.keyData with
        | none => Res.err RecordError.missingKeyTag
        | some keyData =>
          .ok {
            hashAlgorithms := acc.hashAlgorithms.getD (HashAlg.all pre)
            keyType := acc.keyType.getD .rsa
            notes := acc.notes
            keyData
            serviceTypes := acc.serviceTypes.getD [.any]
            flags := acc.flags.getD []
            extTags := acc.extTags }) = Res.ok r ↔ RecordOf lossy pre (toPairs tags) r) := by
    intro acc h
    have h1 : acc.keyData = some r.keyData ↔ _ :=
      required_of_field (means := fun v bs => unfws v = base64 bs) (rfield_p h hn) pP
    have h2 : acc.hashAlgorithms.getD (HashAlg.all pre) = r.hashAlgorithms ↔ _ :=
      defaulting_of_field (means := fun v x => ItemsText (hashNamed pre) v x ∧ x ≠ []) (rfield_h h hn) pH
    have h3 : acc.keyType.getD .rsa = r.keyType ↔ _ := defaulting_of_field (rfield_k h hn) pK
    have h4 : acc.notes = r.notes ↔ _ :=
      optional_of_field (means := fun v x => ∃ bs, QpSection v bs ∧ x = lossy bs) (rfield_n h hn) pN
    have h5 : acc.serviceTypes.getD [.any] = r.serviceTypes ↔ _ :=
      defaulting_of_field (means := fun v x => ItemsText serviceNamed v x ∧ x ≠ []) (rfield_s h hn) pS
    have h6 : acc.flags.getD [] = r.flags ↔ _ := defaulting_of_field (rfield_t h hn) pT
    have hext := recLoop_ext h
    rw [show ({} : RecAcc).extTags = [] from rfl, List.nil_append] at hext
    have hvers := versIff.1 fun t ht e => (recLoop_version h t ht e).2
    have hall : HashAlg.all pre = if pre then [.sha256, .sha1] else [.sha256] := rfl
    rw [hall] at h2
    constructor
    · intro he
      split at he
      · simp at he
      · next kd hk =>
        simp only [Res.ok.injEq] at he
        subst he
        exact ⟨hvers, h2.1 rfl, h3.1 rfl, h4.1 rfl, h1.1 hk, h5.1 rfl, h6.1 rfl, hext⟩
    · rintro ⟨_, k2, k3, k4, k1, k5, k6, k7⟩
      rw [h1.2 k1]
      simp only [hall, h2.2 k2, h3.2 k3, h4.2 k4, h5.2 k5, h6.2 k6]
      rw [hext, ← k7]
  unfold recordFromTagList
  cases h : recLoop lossy pre {} 0 tags with
  | ok acc => exact loopIff acc h
  | panic => exact absurd h (recLoop_noPanic _)
  | err e =>
    simp only [reduceCtorEq, false_iff]
    intro hs
    have uniq := name_unique hn
    have req : ∀ {α : Type} {N : Str} {means : Str → α → Prop} {x : α},
        Required (toPairs tags) N means x → ∀ t ∈ tags, t.name = N → means t.value x := by
      rintro α N means x ⟨v, hm, h⟩ t ht e
      obtain ⟨t', ht', hn', rfl⟩ := mem_pairs.1 hm
      rw [uniq t t' ht ht' (e.trans hn'.symm)]; exact h
    have opt : ∀ {α : Type} {N : Str} {means : Str → α → Prop} {x : Option α},
        Optional (toPairs tags) N means x → ∀ t ∈ tags, t.name = N → ∃ y, means t.value y := by
      intro α N means x h t ht e
      cases x with
      | some y => exact ⟨y, req h t ht e⟩
      | none => exact absurd (mem_pairs.2 ⟨t, ht, e, rfl⟩) (h t.value)
    have deft : ∀ {α : Type} {N : Str} {means : Str → α → Prop} {d x : α},
        Defaulting (toPairs tags) N means d x → ∀ t ∈ tags, t.name = N → ∃ y, means t.value y := by
      intro α N means d x h t ht e
      rcases h with h | ⟨h, _⟩
      · exact ⟨x, req h t ht e⟩
      · exact absurd (mem_pairs.2 ⟨t, ht, e, rfl⟩) (h t.value)
    have : ∃ acc', recLoop lossy pre {} 0 tags = .ok acc' := by
      refine recLoop_fine (fun t ht => ?_) (fun t ht e => ⟨rfl, versIff.2 hs.version t ht e⟩) hn _
      refine ⟨fun e => ?_, fun e => ?_, fun e => ?_, fun e => ?_, fun e => ?_, fun e => ?_⟩
      · obtain ⟨x, hx⟩ := deft hs.hashAlgorithms t ht e; exact ⟨x, (pH t ht x).2 hx⟩
      · obtain ⟨x, hx⟩ := deft hs.keyType t ht e; exact ⟨x, (pK t ht x).2 hx⟩
      · obtain ⟨x, hx⟩ := opt hs.notes t ht e; exact ⟨x, (pN t ht x).2 hx⟩
      · exact ⟨_, (pP t ht _).2 (req hs.keyData t ht e)⟩
      · obtain ⟨x, hx⟩ := deft hs.serviceTypes t ht e; exact ⟨x, (pS t ht x).2 hx⟩
      · obtain ⟨x, hx⟩ := deft hs.flags t ht e; exact ⟨x, (pT t ht x).2 hx⟩
    obtain ⟨acc', h'⟩ := this
    rw [h] at h'
    simp at h'

theorem recordFromStr_iff (lossy : Bytes → Str) (pre : Bool) (txt : Str) (r : KeyRecord) :
    recordFromStr lossy pre txt = .ok r ↔
      ∃ tags, ListText tags txt ∧ (tags.map (·.1)).Nodup ∧ RecordOf lossy pre tags r := by
  unfold recordFromStr
  cases h : parseTagList txt with
  | ok tags =>
    obtain ⟨hv, hn⟩ := parseTagList_values h
    simp only
    rw [recordFromTagList_iff hv hn]
    obtain ⟨h1, h2⟩ := (C22_tag_list_exact txt tags).1 h
    constructor
    · intro hs
      refine ⟨toPairs tags, h1, ?_, hs⟩
      simpa [toPairs, Function.comp_def] using h2
    · rintro ⟨tags', t1, t2, hs⟩
      rw [show toPairs tags = tags' from listText_unique h1 t1]
      exact hs
  | error e =>
    simp only [reduceCtorEq, false_iff, not_exists, not_and]
    intro tags h1 h2 _
    have := (C22_tag_list_exact txt (ofPairs tags)).2
      ⟨by simpa [ofPairs, Function.comp_def] using h1, by simpa [ofPairs, Function.comp_def] using h2⟩
    rw [h] at this
    simp at this

theorem recordFromStr_noPanic (lossy : Bytes → Str) (pre : Bool) (txt : Str) :
    recordFromStr lossy pre txt ≠ .panic := by
  unfold recordFromStr
  cases h : parseTagList txt with
  | error e => simp
  | ok tags =>
    simp only
    unfold recordFromTagList
    cases hl : recLoop lossy pre {} 0 tags with
    | err e => simp
    | panic => exact absurd hl (recLoop_noPanic _)
    | ok acc => simp only; split <;> simp

end Dkim
