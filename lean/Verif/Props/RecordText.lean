import Verif.Props.Record
import Verif.Proofs.FormatText

/-!
# Property C85: the printed names make a key record that reads back

The library does not write key records, but it prints the names of the parts. A record
written with these names is read as the same record, so that every record with non-empty
lists can be published, and parsing loses nothing.
-/

namespace Dkim

open Spec

/-- Items separated by colons. -/
def Spec.colons : List Str → Str
  | [] => []
  | [x] => x
  | x :: xs => x ++ ':' :: colons xs

/-- Quoted-Printable with all bytes encoded. -/
def Spec.hexAll (bs : Bytes) : Str :=
  bs.flatMap fun b => ['=', c!"0123456789ABCDEF".getD (b.toNat / 16) '0', c!"0123456789ABCDEF".getD (b.toNat % 16) '0']

/-- The tags of a key record, with the names that the library prints. -/
def Spec.recordTags (r : KeyRecord) : List (Str × Str) :=
  [(c!"v", c!"DKIM1"), (c!"h", colons (r.hashAlgorithms.map (·.canonicalStr))), (c!"k", r.keyType.canonicalStr)] ++
  (r.notes.map fun n => (c!"n", hexAll (utf8 n))).toList ++
  [(c!"p", base64 r.keyData), (c!"s", colons (r.serviceTypes.map (·.canonicalStr)))] ++
  (if r.flags = [] then [] else [(c!"t", colons (r.flags.map (·.canonicalStr)))]) ++ r.extTags

/-- Tags as text. -/
def Spec.tagsText : List (Str × Str) → Str
  | [] => []
  | [(n, v)] => n ++ '=' :: v
  | (n, v) :: tags => n ++ '=' :: v ++ ';' :: ' ' :: tagsText tags

theorem specText_plain {n v : Str} {sp : Str} (hs : sp = [] ∨ sp = [' ']) (hn : TagName n) (hv : v = [] ∨ SomeValue v) :
    SpecText n v (sp ++ (n ++ '=' :: v)) := by
  have ho : OptFws sp := by
    rcases hs with rfl | rfl
    · exact .inl rfl
    · exact .inr (.plain _ (by simp) (by simp [wsp]))
  rcases hv with rfl | hv
  · have := SpecText.empty sp n [] [] ho hn (.inl rfl) (.inl rfl)
    simpa using this
  · have := SpecText.value sp n [] [] v [] ho hn (.inl rfl) (.inl rfl) hv (.inl rfl)
    simpa using this

theorem listText_tagsText {sp : Str} (hs : sp = [] ∨ sp = [' ']) (tags : List (Str × Str)) (hne : tags ≠ [])
    (h : ∀ t ∈ tags, TagName t.1 ∧ (t.2 = [] ∨ SomeValue t.2)) : ListText tags (sp ++ tagsText tags) := by
  induction tags generalizing sp with
  | nil => exact absurd rfl hne
  | cons t tags ih =>
    obtain ⟨n, v⟩ := t
    obtain ⟨h1, h2⟩ := h (n, v) (by simp)
    have hx := specText_plain hs h1 h2
    cases tags with
    | nil => exact .last _ _ _ hx
    | cons t tags =>
      have := ListText.more n v _ _ _ hx (ih (sp := [' ']) (.inr rfl) (by simp) fun t ht => h t (List.mem_cons_of_mem _ ht))
      simpa [tagsText] using this

theorem colonList_colons (l : List Str) (h : l ≠ []) : ColonList l (colons l) := by
  induction l with
  | nil => exact absurd rfl h
  | cons x l ih =>
    cases l with
    | nil => simpa [colons] using ColonList.one [] x [] (.inl rfl) (.inl rfl)
    | cons y l =>
      simpa [colons] using ColonList.more [] x [] _ _ (.inl rfl) (.inl rfl) (ih (by simp))

theorem colons_valChar (l : List Str) (h : ∀ x ∈ l, ∀ c ∈ x, valChar c) : ∀ c ∈ colons l, valChar c := by
  induction l with
  | nil => simp [colons]
  | cons x l ih =>
    cases l with
    | nil => simpa [colons] using h
    | cons y l =>
      intro c hc
      simp only [colons, List.mem_append, List.mem_cons] at hc
      rcases hc with hc | rfl | hc
      · exact h x (by simp) c hc
      · exact colon_valChar
      · exact ih (fun x hx => h x (by simp [hx])) c hc

theorem colons_ne_nil (l : List Str) (hne : l ≠ []) (h : ∀ x ∈ l, x ≠ []) : colons l ≠ [] := by
  cases l with
  | nil => exact absurd rfl hne
  | cons x l => cases l <;> simp [colons, h x (by simp)]

/-- A name that may stand in a list: it means `a`. -/
def NameFor {α : Type} (named : Str → Option α) (s : Str) (a : α) : Prop :=
  named s = some a ∧ s ≠ [] ∧ Trimmed s ∧ ':' ∉ s ∧ ∀ c ∈ s, valChar c

theorem trimmed_of_noFws {s : Str} (h : ∀ c ∈ s, ¬ fwsChar c) : Trimmed s :=
  ⟨fun c r e => h c (by simp [e]), fun c r e => h c (by simp [e])⟩

theorem hash_name {pre : Bool} {a : HashAlg} (h : a = .sha256 ∨ pre = true) :
    NameFor (hashNamed pre) a.canonicalStr a := by
  cases a with
  | sha256 => exact ⟨rfl, by decide, trimmed_of_noFws (by unfold fwsChar; decide), by decide, by unfold valChar; decide⟩
  | sha1 =>
    obtain h | rfl := h
    · cases h
    · exact ⟨rfl, by decide, trimmed_of_noFws (by unfold fwsChar; decide), by decide, by unfold valChar; decide⟩

theorem service_name (a : ServiceType) : NameFor serviceNamed a.canonicalStr a := by
  cases a <;>
  exact ⟨rfl, by decide, trimmed_of_noFws (by unfold fwsChar; decide), by decide, by unfold valChar; decide⟩

theorem flag_name (a : SelectorFlag) : NameFor flagNamed a.canonicalStr a := by
  cases a <;>
  exact ⟨rfl, by decide, trimmed_of_noFws (by unfold fwsChar; decide), by decide, by unfold valChar; decide⟩

theorem items_names {α : Type} {named : Str → Option α} (name : α → Str) (xs : List α) (hne : xs ≠ [])
    (h : ∀ x ∈ xs, NameFor named (name x) x) :
    ItemsText named (colons (xs.map name)) xs ∧ SomeValue (colons (xs.map name)) := by
  have hn : xs.map name ≠ [] := by simpa using hne
  refine ⟨⟨xs.map name, colonList_colons _ hn, ?_, ?_⟩, someValue_of_chars (colons_ne_nil _ hn ?_) (colons_valChar _ ?_)⟩
  · intro i hi
    obtain ⟨x, hx, rfl⟩ := List.mem_map.1 hi
    exact ⟨(h x hx).2.1, (h x hx).2.2.1, (h x hx).2.2.2.1⟩
  · clear hne hn
    induction xs with
    | nil => rfl
    | cons x xs ih =>
      rw [List.map_cons, List.filterMap_cons, (h x (by simp)).1]
      exact congrArg _ (ih fun y hy => h y (by simp [hy]))
  · intro i hi
    obtain ⟨x, hx, rfl⟩ := List.mem_map.1 hi
    exact (h x hx).2.1
  · intro i hi
    obtain ⟨x, hx, rfl⟩ := List.mem_map.1 hi
    exact (h x hx).2.2.2.2

theorem hexAll_digit : ∀ n, n < 16 → HexVal (c!"0123456789ABCDEF".getD n '0') n := by
  unfold HexVal; decide

theorem hexAll_valChar : ∀ n, n < 16 → valChar (c!"0123456789ABCDEF".getD n '0') := by
  unfold valChar; decide

theorem hexAll_section (bs : Bytes) : QpSection (hexAll bs) bs ∧ ∀ c ∈ hexAll bs, valChar c := by
  induction bs with
  | nil => exact ⟨.nil, by simp [hexAll]⟩
  | cons b bs ih =>
    have hb := b.toNat_lt
    constructor
    · have := QpSection.hex _ _ _ _ _ _ (hexAll_digit (b.toNat / 16) (by omega)) (hexAll_digit (b.toNat % 16) (by omega)) ih.1
      rw [show b.toNat / 16 * 16 + b.toNat % 16 = b.toNat by omega, UInt8.ofNat_toNat] at this
      exact this
    · intro c hc
      rw [hexAll, List.flatMap_cons] at hc
      rcases List.mem_append.1 hc with hc | hc
      · simp only [List.mem_cons, List.not_mem_nil, or_false] at hc
        rcases hc with rfl | rfl | rfl
        · unfold valChar; decide
        · exact hexAll_valChar _ (by omega)
        · exact hexAll_valChar _ (by omega)
      · exact ih.2 c hc

theorem value_of_chars {v : Str} (h : ∀ c ∈ v, valChar c) : v = [] ∨ SomeValue v := by
  by_cases hv : v = []
  · exact .inl hv
  · exact .inr (someValue_of_chars hv h)

theorem base64_noFws (bs : Bytes) : unfws (base64 bs) = base64 bs := by
  rw [← C20_base64_rfc4648]
  refine inserted_unfws ?_ ?_
  · generalize encodeBase64 bs = s
    induction s with
    | nil => exact .nil
    | cons c s ih => exact .keep _ _ _ ih
  · intro c hc
    have := base64_valChars bs c hc
    unfold valChar at this
    unfold fwsChar
    rintro (rfl | rfl | rfl | rfl) <;> revert this <;> decide

/-- C85: for every key record whose lists are not empty, which does not name SHA-1 unless
enabled, and whose further tags are well-formed, have different names and none of the
known ones, the text made of the printed names is read as that record. -/
theorem C85_printed_record (lossy : Bytes → Str) (pre : Bool) (r : KeyRecord)
    (hlossy : ∀ s, lossy (utf8 s) = s)
    (hh : r.hashAlgorithms ≠ []) (hpre : pre = false → .sha1 ∉ r.hashAlgorithms) (hs : r.serviceTypes ≠ [])
    (hext : ∀ t ∈ r.extTags, TagName t.1 ∧ (t.2 = [] ∨ SomeValue t.2) ∧ t.1 ∉ knownRecordTags)
    (hn : (r.extTags.map (·.1)).Nodup) :
    recordFromStr lossy pre (tagsText (recordTags r)) = .ok r := by
  obtain ⟨h1, h1'⟩ := items_names (named := hashNamed pre) (·.canonicalStr) r.hashAlgorithms hh (fun a ha => hash_name (by
    cases a with
    | sha256 => exact .inl rfl
    | sha1 => cases pre with
      | true => exact .inr rfl
      | false => exact absurd ha (hpre rfl)))
  obtain ⟨h2, h2'⟩ := items_names (·.canonicalStr) r.serviceTypes hs (fun a _ => service_name a)
  have h3 := fun hne => items_names (·.canonicalStr) r.flags hne (fun a _ => flag_name a)
  have hk : KeyTypeText r.keyType.canonicalStr r.keyType ∧ SomeValue r.keyType.canonicalStr := by
    cases r.keyType
    · exact ⟨.inl ⟨rfl, rfl⟩, someValue_of_chars (by decide) (by unfold valChar; decide)⟩
    · exact ⟨.inr ⟨rfl, rfl⟩, someValue_of_chars (by decide) (by unfold valChar; decide)⟩
  have hname : ∀ n : Str, n ∈ knownRecordTags → TagName n := by
    intro n h
    simp only [knownRecordTags, List.mem_cons, List.not_mem_nil, or_false] at h
    rcases h with rfl | rfl | rfl | rfl | rfl | rfl | rfl <;> exact ⟨_, [], rfl, by decide, by simp⟩
  have mem : ∀ n v, (n, v) ∈ recordTags r ↔ ((n = c!"v" ∧ v = c!"DKIM1") ∨
      (n = c!"h" ∧ v = colons (r.hashAlgorithms.map (·.canonicalStr))) ∨ (n = c!"k" ∧ v = r.keyType.canonicalStr) ∨
      (n = c!"n" ∧ ∃ x, r.notes = some x ∧ v = hexAll (utf8 x)) ∨ (n = c!"p" ∧ v = base64 r.keyData) ∨
      (n = c!"s" ∧ v = colons (r.serviceTypes.map (·.canonicalStr))) ∨
      (n = c!"t" ∧ r.flags ≠ [] ∧ v = colons (r.flags.map (·.canonicalStr))) ∨ (n, v) ∈ r.extTags) := by
    intro n v
    have e1 : (n, v) ∈ (r.notes.map fun n => (c!"n", hexAll (utf8 n))).toList ↔
        (n = c!"n" ∧ ∃ x, r.notes = some x ∧ v = hexAll (utf8 x)) := by
      cases r.notes with
      | none => simp
      | some x => simp
    have e2 : (n, v) ∈ (if r.flags = [] then [] else [(c!"t", colons (r.flags.map (·.canonicalStr)))]) ↔
        (n = c!"t" ∧ r.flags ≠ [] ∧ v = colons (r.flags.map (·.canonicalStr))) := by
      by_cases hf : r.flags = []
      · rw [if_pos hf]; simp [hf]
      · rw [if_neg hf]; simp [hf]
    rw [recordTags]
    simp only [List.mem_append, e1, e2, List.mem_cons, List.not_mem_nil, or_false, Prod.mk.injEq]
    constructor
    · rintro (((((h | h | h) | h) | h | h) | h) | h) <;> simp [h]
    · rintro (h | h | h | h | h | h | h | h) <;> simp [h]
  have notext : ∀ n v, n ∈ knownRecordTags → (n, v) ∉ r.extTags := fun n v hn h => (hext _ h).2.2 hn
  refine (C33_parse_exact lossy pre _ r).2 ⟨recordTags r, ?_, ?_, ?_⟩
  · refine listText_tagsText (sp := []) (.inl rfl) _ (by simp [recordTags]) ?_
    rintro ⟨n, v⟩ ht
    rcases (mem n v).1 ht with ⟨rfl, rfl⟩ | ⟨rfl, rfl⟩ | ⟨rfl, rfl⟩ | ⟨rfl, x, _, rfl⟩ | ⟨rfl, rfl⟩ | ⟨rfl, rfl⟩ |
      ⟨rfl, hf, rfl⟩ | h
    · exact ⟨hname _ (by decide), .inr (someValue_of_chars (by decide) (by unfold valChar; decide))⟩
    · exact ⟨hname c!"h" (by decide), .inr h1'⟩
    · exact ⟨hname c!"k" (by decide), .inr hk.2⟩
    · exact ⟨hname c!"n" (by decide), value_of_chars (hexAll_section _).2⟩
    · refine ⟨hname c!"p" (by decide), value_of_chars ?_⟩
      rw [← C20_base64_rfc4648]
      exact base64_valChars _
    · exact ⟨hname c!"s" (by decide), .inr h2'⟩
    · exact ⟨hname c!"t" (by decide), .inr (h3 hf).2⟩
    · exact ⟨(hext _ h).1, (hext _ h).2.1⟩
  · have hx : ∀ n, n ∈ r.extTags.map (·.1) → n ∉ knownRecordTags := by
      intro n h
      obtain ⟨t, ht, rfl⟩ := List.mem_map.1 h
      exact (hext t ht).2.2
    rw [recordTags, List.map_append, List.nodup_append]
    refine ⟨?_, hn, ?_⟩
    · cases r.notes <;> by_cases hf : r.flags = [] <;> simp [hf]
    · intro a ha b hb e
      subst e
      refine hx a hb ?_
      revert ha
      cases r.notes <;> by_cases hf : r.flags = [] <;>
        (simp only [hf, if_true, if_false, List.map_append, List.map_cons, List.map_nil, Option.map_none,
          Option.map_some, Option.toList, List.append_nil, List.cons_append, List.nil_append,
          List.mem_cons, List.not_mem_nil, or_false]
         intro ha
         repeat' first | (subst ha; decide) | rcases ha with ha | ha)
  · have hdv : ∀ (n : Str), n ∈ knownRecordTags → ∀ v, (n, v) ∈ r.extTags → False :=
      fun n hn v h => (hext _ h).2.2 hn
    exact {
      version := by
        intro v hv
        exact ⟨_, rfl⟩
      hashAlgorithms := .inl ⟨_, (mem _ _).2 (.inr (.inl ⟨rfl, rfl⟩)), h1, hh⟩
      keyType := .inl ⟨_, (mem _ _).2 (.inr (.inr (.inl ⟨rfl, rfl⟩))), hk.1⟩
      notes := by
        cases hnn : r.notes with
        | none =>
          intro v hv
          rcases (mem _ v).1 hv with ⟨h, _⟩ | ⟨h, _⟩ | ⟨h, _⟩ | ⟨_, x, h, _⟩ | ⟨h, _⟩ | ⟨h, _⟩ | ⟨h, _⟩ | h
          all_goals first | exact absurd h (by decide) | skip
          · rw [hnn] at h; cases h
          · exact hdv _ (by decide) _ h
        | some x =>
          exact ⟨_, (mem _ _).2 (.inr (.inr (.inr (.inl ⟨rfl, x, hnn, rfl⟩)))), _, (hexAll_section _).1,
            (hlossy x).symm⟩
      keyData := ⟨_, (mem _ _).2 (.inr (.inr (.inr (.inr (.inl ⟨rfl, rfl⟩))))), base64_noFws _⟩
      serviceTypes := .inl ⟨_, (mem _ _).2 (.inr (.inr (.inr (.inr (.inr (.inl ⟨rfl, rfl⟩)))))), h2, hs⟩
      flags := by
        by_cases hf : r.flags = []
        · refine .inr ⟨fun v hv => ?_, hf⟩
          rcases (mem _ v).1 hv with ⟨h, _⟩ | ⟨h, _⟩ | ⟨h, _⟩ | ⟨h, _⟩ | ⟨h, _⟩ | ⟨h, _⟩ | ⟨_, h, _⟩ | h
          all_goals first | exact absurd h (by decide) | skip
          · exact h hf
          · exact hdv _ (by decide) _ h
        · exact .inl ⟨_, (mem _ _).2 (.inr (.inr (.inr (.inr (.inr (.inr (.inl ⟨rfl, hf, rfl⟩))))))), (h3 hf).1⟩
      extTags := by
        rw [recordTags, List.filter_append]
        have e1 : r.extTags.filter (fun t => !knownRecordTags.contains t.1) = r.extTags := by
          rw [List.filter_eq_self]
          intro t ht
          simpa using (hext t ht).2.2
        rw [e1]
        cases r.notes <;> by_cases hf : r.flags = [] <;> simp [hf, knownRecordTags] }

theorem listText_names {tags : List (Str × Str)} {txt : Str} (h : ListText tags txt) :
    ∀ t ∈ tags, TagName t.1 ∧ (t.2 = [] ∨ SomeValue t.2) := by
  have one : ∀ {n v s}, SpecText n v s → TagName n ∧ (v = [] ∨ SomeValue v) := by
    intro n v s h
    cases h with
    | value f1 n f2 f3 v f4 _ hn _ _ hv _ => exact ⟨hn, .inr hv⟩
    | empty f1 n f2 f3 _ hn _ _ => exact ⟨hn, .inl rfl⟩
  induction h with
  | last n v s h => intro t ht; cases List.mem_singleton.1 ht; exact one h
  | lastSemicolon n v s h => intro t ht; cases List.mem_singleton.1 ht; exact one h
  | more n v s tags r h _ ih =>
    intro t ht
    rcases List.mem_cons.1 ht with rfl | ht
    · exact one h
    · exact ih t ht

/-- C85: what is read from any text is also read from its printed form. -/
theorem C85_reprint (lossy : Bytes → Str) (pre : Bool) (hlossy : ∀ s, lossy (utf8 s) = s) (txt : Str) (r : KeyRecord)
    (h : recordFromStr lossy pre txt = .ok r) : recordFromStr lossy pre (tagsText (recordTags r)) = .ok r := by
  obtain ⟨tags, h1, h2, h3⟩ := (C33_parse_exact lossy pre txt r).1 h
  have rules := C33_rules lossy pre txt r tags h1 h
  refine C85_printed_record lossy pre r hlossy rules.2.2.1 ?_ rules.2.2.2.1 ?_ ?_
  · rintro rfl hm
    rcases h3.hashAlgorithms with ⟨v, _, ⟨items, _, _, e⟩, _⟩ | ⟨_, e⟩
    · rw [e, List.mem_filterMap] at hm
      obtain ⟨i, _, hi⟩ := hm
      rcases hashNamed_lower hi with ⟨h, _⟩ | ⟨_, h, _⟩ <;> cases h
    · rw [e] at hm; simp at hm
  · intro t ht
    rw [h3.extTags, List.mem_filter] at ht
    exact ⟨(listText_names h1 t ht.1).1, (listText_names h1 t ht.1).2, by simpa using ht.2⟩
  · rw [h3.extTags]
    exact h2.sublist (List.filter_sublist.map _)

/-- A record with all parts, and its printed form. -/
example : tagsText (recordTags ⟨[.sha256], .ed25519, some c!"a;", [1, 2, 3], [.email, .any], [.testing, .noSubdomains],
    [(c!"x", c!"1")]⟩) =
    c!"v=DKIM1; h=sha256; k=ed25519; n==61=3B; p=AQID; s=email:*; t=y:s; x=1" := by decide

end Dkim
