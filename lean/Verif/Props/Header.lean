import Verif.Proofs.HeaderBlock

/-!
# Properties C23 to C25: header fields
-/

namespace Dkim

open Spec

/-! ## C23 -/

/-- C23: exactly the non-empty strings of printable ASCII except colon are
accepted as field names. -/
theorem C23_field_name_exact (n : Str) :
    fieldNameOk n = true ↔ n ≠ [] ∧ ∀ c ∈ n, 33 ≤ c.toNat ∧ c.toNat ≤ 126 ∧ c ≠ ':' :=
  fieldNameOk_iff n

/-- C23: a field value is accepted exactly if it is a line without control
characters other than TAB, followed by any number of folds: CRLF and a line
without control characters other than TAB that starts with SP or TAB and contains
something else. -/
theorem C23_field_body_exact (v : Bytes) :
    fieldBodyOk v = true ↔
      ∃ (first : Bytes) (conts : List Bytes),
        v = first ++ conts.flatMap (fun l => b!"\r\n" ++ l) ∧ cleanLine first ∧
        ∀ l ∈ conts, cleanLine l ∧ (∃ w r, l = w :: r ∧ isWsp w = true) ∧ ∃ b ∈ l, isWsp b = false :=
  fieldBodyOk_iff v

/-- C23: consequence used elsewhere: in an accepted value CR and LF occur only in
folds. -/
theorem C23_folds_only (v : Bytes) (h : fieldBodyOk v = true) : FoldsOnly v :=
  ((fieldBodyOk_iff v).1 h).foldsOnly

/-- C23: lists of fields are accepted exactly if they are not empty and every
part is. -/
theorem C23_header_fields_from_vec (v : List (Str × Bytes)) (fs : List Field) :
    headerFieldsFromVec v = some fs ↔
      v ≠ [] ∧ (∀ p ∈ v, ValidName p.1 ∧ ValidBody p.2) ∧ fs = v.map fun p => ⟨p.1, p.2⟩ := by
  unfold headerFieldsFromVec headerFieldsNew
  have : (v.all fun p => fieldNameOk p.1 && fieldBodyOk p.2) = true ↔
      ∀ p ∈ v, ValidName p.1 ∧ ValidBody p.2 := by
    rw [List.all_eq_true]
    apply forall_congr'; intro p
    apply forall_congr'; intro _
    rw [Bool.and_eq_true, fieldNameOk_iff, fieldBodyOk_iff]
  split
  · next h =>
    have h := this.1 h
    cases v with
    | nil => simp
    | cons p v =>
      simp only [List.map_cons, List.isEmpty_cons, Bool.false_eq_true, if_false, Option.some.injEq]
      constructor
      · rintro rfl; exact ⟨by simp, h, rfl⟩
      · rintro ⟨_, _, rfl⟩; rfl
  · next h =>
    rw [this] at h
    simp only [reduceCtorEq, false_iff]
    rintro ⟨_, h2, _⟩; exact h h2

/-- Non-vacuity: accepted and refused values. -/
example : fieldBodyOk b!" a\r\n\tb" = true ∧ fieldBodyOk b!" a\r\nb" = false ∧
    fieldBodyOk b!" a\r\n \r\n b" = false ∧ fieldBodyOk b!"a\nb" = false ∧
    fieldNameOk c!"X-A_1" = true ∧ fieldNameOk c!"a b" = false ∧ fieldNameOk c!"a:" = false := by decide

/-! ## C24 -/

theorem writeBlock_lines (ls : List LineField) :
    writeBlock (ls.map fun l => (l.name, l.first ++ l.conts.flatMap fun x => '\r' :: '\n' :: x))
      = (ls.flatMap LineField.lines).flatMap (· ++ ['\r', '\n']) := by
  induction ls with
  | nil => rfl
  | cons f ls ih =>
    simp only [writeBlock, List.map_cons, List.flatMap_cons, List.flatMap_append] at ih ⊢
    rw [ih]
    congr 1
    simp only [LineField.lines, List.flatMap_cons]
    generalize f.first = m
    generalize f.conts = ms
    have : ∀ (ms : List Str) (m : Str),
        m ++ (ms.flatMap fun x => '\r' :: '\n' :: x) ++ ['\r', '\n']
          = m ++ ['\r', '\n'] ++ ms.flatMap (· ++ ['\r', '\n']) := by
      intro ms
      induction ms with
      | nil => intro m; simp
      | cons x ms ih =>
        intro m
        have := ih x
        simp only [List.flatMap_cons, List.cons_append, List.append_assoc] at this ⊢
        rw [this]; simp
    have h := this ms m
    simp only [List.append_assoc, List.cons_append, List.nil_append] at h ⊢
    rw [h]

theorem toLf_break (l r : Str) (hl : cleanChars l) :
    toLf (l ++ '\r' :: '\n' :: r) = l ++ '\n' :: toLf r := by
  have hn : ∀ r, toLf ('\n' :: r) = '\n' :: toLf r := by
    intro r; cases r with
    | nil => rfl
    | cons d r => rw [toLf, if_neg (by rintro ⟨h, _⟩; exact absurd h (by decide))]
  induction l with
  | nil => rw [List.nil_append, toLf, if_pos ⟨rfl, rfl⟩, hn]; rfl
  | cons c l ih =>
    have hc := hl c (by simp)
    have ih := ih (fun d hd => hl d (by simp [hd]))
    cases l with
    | nil => rw [List.cons_append, List.nil_append, toLf, if_neg (by simp [hc.1])]
             simp only [List.nil_append] at ih; rw [ih]; rfl
    | cons d l => rw [List.cons_append, List.cons_append, toLf, if_neg (by simp [hc.1])]
                  simp only [List.cons_append] at ih; rw [ih]; rfl

theorem toLf_lines (ls : List Str) (h : ∀ l ∈ ls, cleanChars l) :
    toLf (ls.flatMap (· ++ ['\r', '\n'])) = ls.flatMap (· ++ ['\n']) := by
  induction ls with
  | nil => rfl
  | cons l ls ih =>
    rw [List.flatMap_cons, List.flatMap_cons, List.append_assoc]
    have := toLf_break l (ls.flatMap (· ++ ['\r', '\n'])) (h l (by simp))
    simp only [List.cons_append, List.nil_append] at this ⊢
    rw [this, ih (fun x hx => h x (by simp [hx]))]
    simp

/-- C24: writing valid fields as a header block and parsing it gives the fields
back. -/
theorem C24_block_round_trip (fs : List (Str × Str)) (hne : fs ≠ [])
    (h : ∀ f ∈ fs, ValidName f.1 ∧ ValidBody (utf8 f.2)) :
    headerFieldsFromStr (writeBlock fs) = some (fs.map fun f => ⟨f.1, utf8 f.2⟩) := by
  obtain ⟨ls, h1, h2, h3⟩ := exists_lineFields fs h
  rw [← h3, h2, writeBlock_lines]
  exact headerFieldsFromStr_lines (Or.inl rfl) ls (by rintro rfl; exact hne h2) h1

/-- C24: the same with LF line breaks, also inside folded values; the parsed
values have CRLF. -/
theorem C24_block_round_trip_lf (fs : List (Str × Str)) (hne : fs ≠ [])
    (h : ∀ f ∈ fs, ValidName f.1 ∧ ValidBody (utf8 f.2)) :
    headerFieldsFromStr (toLf (writeBlock fs)) = some (fs.map fun f => ⟨f.1, utf8 f.2⟩) := by
  obtain ⟨ls, h1, h2, h3⟩ := exists_lineFields fs h
  rw [← h3, h2, writeBlock_lines, toLf_lines]
  · exact headerFieldsFromStr_lines (Or.inr rfl) ls (by rintro rfl; exact hne h2) h1
  · intro l hl
    obtain ⟨f, hf, hl⟩ := List.mem_flatMap.1 hl
    have hok := h1 f hf
    simp only [LineField.lines, List.mem_cons] at hl
    rcases hl with rfl | hl
    · intro c hc
      simp only [List.mem_append, List.mem_cons] at hc
      rcases hc with hc | rfl | hc
      · have := (hok.1.2 c hc).1
        constructor <;> (rintro rfl; exact absurd this (by decide))
      · decide
      · exact hok.2.1 c hc
    · exact (hok.2.2.1 l hl).1

/-- C24, converse: whatever the parser accepts is a non-empty list of valid fields
with UTF-8 values, and writing them as a block gives text with the same lines. -/
theorem C24_parsed_block (s : Str) (out : List Field) (h : headerFieldsFromStr s = some out) :
    ∃ fs : List (Str × Str), fs ≠ [] ∧ (∀ f ∈ fs, ValidName f.1 ∧ ValidBody (utf8 f.2)) ∧
      out = fs.map (fun f => ⟨f.1, utf8 f.2⟩) ∧ strLines (writeBlock fs) = strLines s := by
  obtain ⟨ls, h1, h2, h3, h4⟩ := headerFieldsFromStr_some h
  have hu : ∀ l : LineField,
      utf8 (l.first ++ l.conts.flatMap fun x => '\r' :: '\n' :: x) = l.field.body := by
    intro l
    simp only [LineField.field, utf8_append]
    congr 1
    induction l.conts with
    | nil => rfl
    | cons x ms ih => rw [List.flatMap_cons, utf8_append, ih]; rfl
  refine ⟨ls.map fun l => (l.name, l.first ++ l.conts.flatMap fun x => '\r' :: '\n' :: x), ?_, ?_, ?_, ?_⟩
  · simpa using h1
  · intro f hf
    obtain ⟨l, hl, rfl⟩ := List.mem_map.1 hf
    simp only [hu]
    exact h4 l hl
  · rw [h3, List.map_map]
    apply List.map_congr_left
    intro l _
    simp only [Function.comp, hu]; rfl
  · rw [writeBlock_lines, strLines_lines (Or.inl rfl), h2]
    intro l hl
    obtain ⟨f, hf, hl'⟩ := List.mem_flatMap.1 hl
    refine lineField_clean (h4 f hf).1 (h4 f hf).2.foldsOnly (fun x hx => ?_) l hl'
    apply strLines_noLf s
    rw [h2]; exact List.mem_flatMap.2 ⟨f, hf, hx⟩

/-- Non-vacuity: a block with a folded value. -/
example : ∀ f ∈ [(c!"From", c!" a"), (c!"Subject", c!" b\r\n c")],
    ValidName f.1 ∧ ValidBody (utf8 f.2) := by
  intro f hf
  simp only [List.mem_cons, List.not_mem_nil, or_false] at hf
  rcases hf with rfl | rfl <;>
    exact ⟨(fieldNameOk_iff _).1 (by decide), (fieldBodyOk_iff _).1 (by decide)⟩

/-! ## C25 -/

/-- C25: names are equal exactly if they agree after mapping `A`-`Z` to
`a`-`z`. -/
theorem C25_field_name_eq (a b : Str) :
    fieldNameEq a b = true ↔ a.map Char.toLower = b.map Char.toLower := by
  rw [fieldNameEq, eqIgnoreCase_eq, sameName_iff]; rfl

/-- C25: equality of names is an equivalence relation. -/
theorem C25_field_name_equivalence : Equivalence fun a b => fieldNameEq a b = true := by
  constructor
  · intro a; rw [C25_field_name_eq]
  · intro a b h; rw [C25_field_name_eq] at *; exact h.symm
  · intro a b c h h'; rw [C25_field_name_eq] at *; exact h.trans h'

/-- C25: equal names feed the same data to the hasher, and only those. -/
theorem C25_field_name_hash (a b : Str) :
    fieldNameEq a b = true ↔ fieldNameHashKey a = fieldNameHashKey b := by
  rw [C25_field_name_eq, fieldNameHashKey, fieldNameHashKey, strLower_eq, strLower_eq]; rfl

example : fieldNameEq c!"From" c!"fROM" = true ∧ fieldNameEq c!"From" c!"Fro" = false := by decide

end Dkim
