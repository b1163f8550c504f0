import Verif.Proofs.HeaderText

/-! Helper lemmas for parsing header blocks. -/

namespace Dkim

open Spec

/-- An ASCII byte in the encoding of a string marks the place of a character. -/
theorem utf8_split {v : Str} {a r : Bytes} {c : Char} (hc : c.toNat < 128)
    (h : utf8 v = a ++ UInt8.ofNat c.toNat :: r) :
    ∃ v1 v2, v = v1 ++ c :: v2 ∧ utf8 v1 = a ∧ utf8 v2 = r := by
  induction v generalizing a with
  | nil => simp [utf8] at h
  | cons d v ih =>
    rw [utf8_cons] at h
    by_cases hd : d.toNat < 128
    · rw [encodeChar_ascii d hd] at h
      cases a with
      | nil =>
        simp at h
        have h1 := congrArg UInt8.toNat h.1
        rw [uint8_ofNat_toNat _ (by omega), uint8_ofNat_toNat _ (by omega)] at h1
        exact ⟨[], v, by rw [char_ext_toNat h1]; rfl, rfl, h.2⟩
      | cons x a =>
        simp at h
        obtain ⟨v1, v2, h1, h2, h3⟩ := ih h.2
        exact ⟨d :: v1, v2, by rw [h1]; rfl, by rw [utf8_cons, encodeChar_ascii d hd, h2, h.1]; rfl, h3⟩
    · have hb := encodeChar_nonascii d hd
      have hx : ∃ a', a = String.utf8EncodeChar d ++ a' := by
        generalize String.utf8EncodeChar d = e at h hb
        clear ih hd
        induction e generalizing a with
        | nil => exact ⟨a, rfl⟩
        | cons y e ihe =>
          cases a with
          | nil =>
            simp at h
            have := hb y (by simp)
            rw [h.1, uint8_ofNat_toNat _ (by omega)] at this
            omega
          | cons x a =>
            simp at h
            obtain ⟨a', ha'⟩ := ihe h.2 (fun b hb' => hb b (by simp [hb']))
            exact ⟨a', by rw [ha', h.1]; rfl⟩
      obtain ⟨a', rfl⟩ := hx
      rw [List.append_assoc, List.append_cancel_left_eq] at h
      obtain ⟨v1, v2, h1, h2, h3⟩ := ih h
      exact ⟨d :: v1, v2, by rw [h1]; rfl, by rw [utf8_cons, h2], h3⟩

/-- Lines with CRLF between them, at the level of characters. -/
theorem utf8_lines {v : Str} {l : Bytes} {ls : List Bytes}
    (h : utf8 v = l ++ ls.flatMap (fun l => 13 :: 10 :: l)) :
    ∃ (m : Str) (ms : List Str), v = m ++ ms.flatMap (fun l => '\r' :: '\n' :: l) ∧
      utf8 m = l ∧ ms.map utf8 = ls := by
  induction ls generalizing v l with
  | nil => exact ⟨v, [], by simp, by simpa using h, rfl⟩
  | cons x ls ih =>
    rw [List.flatMap_cons, List.cons_append, List.cons_append] at h
    obtain ⟨v1, v2, rfl, h2, h3⟩ := utf8_split (c := '\r') (by decide) h
    obtain ⟨v3, v4, rfl, h5, h6⟩ := utf8_split (v := v2) (a := []) (c := '\n') (by decide) h3
    obtain ⟨m, ms, rfl, h8, h9⟩ := ih h6
    have : v3 = [] := utf8_eq_nil.1 h5
    subst this
    exact ⟨v1, m :: ms, by simp, h2, by simp [h8, h9]⟩

def cleanChars (l : Str) : Prop := ∀ c ∈ l, c ≠ '\r' ∧ c ≠ '\n'

theorem cleanChars_of_utf8 {l : Str} (h : ∀ b ∈ utf8 l, b ≠ 13 ∧ b ≠ 10) : cleanChars l := by
  intro c hc
  constructor
  · rintro rfl
    exact (h 13 ((mem_utf8_ascii l '\r' (by decide)).2 hc)).1 rfl
  · rintro rfl
    exact (h 10 ((mem_utf8_ascii l '\n' (by decide)).2 hc)).2 rfl

theorem isContinuation_of_utf8 {l : Str} (h : ∃ w r, utf8 l = w :: r ∧ isWsp w = true) :
    isContinuationLine l = true := by
  obtain ⟨w, r, h, hw⟩ := h
  simp only [isWsp, Bool.or_eq_true, beq_iff_eq] at hw
  rcases hw with rfl | rfl
  · obtain ⟨v1, v2, h1, h2, _⟩ := utf8_split (v := l) (a := []) (c := ' ') (by decide) h
    have : v1 = [] := utf8_eq_nil.1 h2
    subst this
    rw [h1]; rfl
  · obtain ⟨v1, v2, h1, h2, _⟩ := utf8_split (v := l) (a := []) (c := '\t') (by decide) h
    have : v1 = [] := utf8_eq_nil.1 h2
    subst this
    rw [h1]; rfl

/-- The lines of a valid field value. -/
theorem validBody_lines {v : Str} (h : ValidBody (utf8 v)) :
    ∃ (m : Str) (ms : List Str), v = m ++ ms.flatMap (fun l => '\r' :: '\n' :: l) ∧
      cleanChars m ∧ ∀ x ∈ ms, cleanChars x ∧ isContinuationLine x = true := by
  obtain ⟨l, ls, h1, h2, h3⟩ := h
  obtain ⟨m, ms, h4, rfl, rfl⟩ := utf8_lines h1
  refine ⟨m, ms, h4, cleanChars_of_utf8 (cleanLine_ne h2), ?_⟩
  intro x hx
  have := h3 (utf8 x) (List.mem_map_of_mem hx)
  exact ⟨cleanChars_of_utf8 (cleanLine_ne this.1), isContinuation_of_utf8 this.2.1⟩

/-! ### Lines -/

theorem stripCr_clean {l : Str} (h : cleanChars l) : stripCr l = l := by
  unfold stripCr
  split
  · next r hr =>
    have : '\r' ∈ l := by rw [← List.mem_reverse, hr]; simp
    exact absurd rfl (h _ this).1
  · rfl

theorem stripCr_cr (l : Str) : stripCr (l ++ ['\r']) = l := by
  simp [stripCr]

/-- A line break: CRLF or LF. -/
def IsBreak (nl : Str) : Prop := nl = ['\r', '\n'] ∨ nl = ['\n']

theorem linesAux_line {nl : Str} (hnl : IsBreak nl) (l r cur : Str) (hl : cleanChars l)
    (hcur : cleanChars cur) : linesAux cur (l ++ nl ++ r) = (cur ++ l) :: linesAux [] r := by
  induction l generalizing cur with
  | nil =>
    rcases hnl with rfl | rfl
    · simp [linesAux, stripCr_cr]
    · simp [linesAux, stripCr_clean hcur]
  | cons c l ih =>
    have hc := hl c (by simp)
    rw [List.cons_append, List.cons_append, linesAux, if_neg hc.2,
      ih (cur ++ [c]) (fun d hd => hl d (by simp [hd])) (by
        intro d hd
        simp only [List.mem_append, List.mem_singleton] at hd
        rcases hd with hd | rfl
        · exact hcur d hd
        · exact hc)]
    simp

theorem strLines_lines {nl : Str} (hnl : IsBreak nl) (ls : List Str) (h : ∀ l ∈ ls, cleanChars l) :
    strLines (ls.flatMap (· ++ nl)) = ls := by
  induction ls with
  | nil => rfl
  | cons l ls ih =>
    have := ih (fun x hx => h x (by simp [hx]))
    rw [List.flatMap_cons, strLines, linesAux_line hnl _ _ _ (h l (by simp)) (by simp [cleanChars])]
    simp only [List.nil_append]
    rw [← strLines, this]

/-! ### Parsing -/

theorem splitOnce_not_mem {α : Type} [DecidableEq α] (sep : α) (a b : List α) (h : sep ∉ a) :
    splitOnce sep (a ++ sep :: b) = some (a, b) := by
  induction a with
  | nil => simp [splitOnce]
  | cons c a ih =>
    simp only [List.mem_cons, not_or] at h
    rw [List.cons_append, splitOnce, if_neg (Ne.symm h.1), ih h.2]

theorem splitHeaderField_line {n : Str} (hn : ValidName n) (m : Str) :
    splitHeaderField (n ++ ':' :: m) = some (n, utf8 m) := by
  unfold splitHeaderField
  rw [splitOnce_not_mem _ _ _ (fun hm => (hn.2 _ hm).2.2 rfl)]
  simp only
  rw [if_pos ((fieldNameOk_iff n).2 hn)]

theorem firstLine_not_continuation {n : Str} (hn : ValidName n) (m : Str) :
    isContinuationLine (n ++ ':' :: m) = false := by
  cases n with
  | nil => exact absurd rfl hn.1
  | cons c n =>
    have := (hn.2 c (by simp)).1
    unfold isContinuationLine
    split
    · next h => simp at h; rw [h.1] at this; exact absurd this (by decide)
    · next h => simp at h; rw [h.1] at this; exact absurd this (by decide)
    · rfl

theorem headerLoop_continuations (name : Str) (acc : List Field) (ms rest : List Str) (value : Bytes)
    (h : ∀ x ∈ ms, isContinuationLine x = true) :
    headerLoop name value acc (ms ++ rest)
      = headerLoop name (value ++ ms.flatMap fun l => CRLF ++ utf8 l) acc rest := by
  induction ms generalizing value with
  | nil => simp
  | cons m ms ih =>
    rw [List.cons_append, headerLoop, if_pos (h m (by simp)), ih _ (fun x hx => h x (by simp [hx]))]
    simp

/-- A field given by its lines. -/
structure LineField where
  name : Str
  first : Str
  conts : List Str

def LineField.Ok (f : LineField) : Prop :=
  ValidName f.name ∧ cleanChars f.first ∧ (∀ x ∈ f.conts, cleanChars x ∧ isContinuationLine x = true) ∧
    fieldBodyOk (utf8 f.first ++ f.conts.flatMap fun l => CRLF ++ utf8 l) = true

def LineField.lines (f : LineField) : List Str := (f.name ++ ':' :: f.first) :: f.conts

def LineField.field (f : LineField) : Field :=
  ⟨f.name, utf8 f.first ++ f.conts.flatMap fun l => CRLF ++ utf8 l⟩

theorem headerLoop_fields (f : LineField) (fs : List LineField) (acc : List Field)
    (h : ∀ x ∈ f :: fs, x.Ok) :
    headerLoop f.name (utf8 f.first) acc (f.conts ++ fs.flatMap LineField.lines)
      = some (acc ++ f.field :: fs.map LineField.field) := by
  induction fs generalizing f acc with
  | nil =>
    have hf := h f (by simp)
    rw [headerLoop_continuations _ _ _ _ _ (fun x hx => (hf.2.2.1 x hx).2)]
    simp only [List.flatMap_nil, headerLoop, hf.2.2.2, if_true]
    rfl
  | cons g gs ih =>
    have hf := h f (by simp)
    have hg := h g (by simp)
    rw [headerLoop_continuations _ _ _ _ _ (fun x hx => (hf.2.2.1 x hx).2), List.flatMap_cons,
      LineField.lines, List.cons_append, headerLoop, firstLine_not_continuation hg.1]
    rw [if_neg (by simp), splitHeaderField_line hg.1]
    simp only [hf.2.2.2, if_true]
    rw [ih g _ (fun x hx => h x (by simp at hx ⊢; right; exact hx))]
    simp [LineField.field]

theorem headerFieldsFromStr_lines {nl : Str} (hnl : IsBreak nl) (fs : List LineField) (hne : fs ≠ [])
    (h : ∀ x ∈ fs, x.Ok) :
    headerFieldsFromStr ((fs.flatMap LineField.lines).flatMap (· ++ nl)) = some (fs.map LineField.field) := by
  unfold headerFieldsFromStr
  rw [strLines_lines hnl _ (by
    intro l hl
    obtain ⟨f, hf, hl⟩ := List.mem_flatMap.1 hl
    have hok := h f hf
    simp only [LineField.lines, List.mem_cons] at hl
    rcases hl with rfl | hl
    · intro c hc
      simp only [List.mem_append, List.mem_cons] at hc
      rcases hc with hc | rfl | hc
      · have := (hok.1.2 c hc).1
        constructor <;> (rintro rfl; exact absurd this (by decide))
      · decide
      · exact hok.2.1 c hc
    · exact (hok.2.2.1 l hl).1)]
  cases fs with
  | nil => exact absurd rfl hne
  | cons f fs =>
    have hf := h f (by simp)
    simp only [List.flatMap_cons, LineField.lines, List.cons_append]
    rw [firstLine_not_continuation hf.1, if_neg (by simp), splitHeaderField_line hf.1]
    simp only
    have := headerLoop_fields f fs [] h
    rw [this]
    simp [headerFieldsNew]

/-- Every list of valid fields with UTF-8 values is given by lines. -/
theorem exists_lineFields (fs : List (Str × Str))
    (h : ∀ f ∈ fs, ValidName f.1 ∧ ValidBody (utf8 f.2)) :
    ∃ ls : List LineField, (∀ x ∈ ls, x.Ok) ∧
      fs = ls.map (fun l => (l.name, l.first ++ l.conts.flatMap fun x => '\r' :: '\n' :: x)) ∧
      ls.map LineField.field = fs.map fun f => ⟨f.1, utf8 f.2⟩ := by
  induction fs with
  | nil => exact ⟨[], by simp, rfl, rfl⟩
  | cons f fs ih =>
    obtain ⟨ls, h1, h2, h3⟩ := ih (fun g hg => h g (by simp [hg]))
    obtain ⟨n, v⟩ := f
    have hf := h (n, v) (by simp)
    obtain ⟨m, ms, hv, hm, hms⟩ := validBody_lines hf.2
    have hu : utf8 v = utf8 m ++ ms.flatMap fun l => CRLF ++ utf8 l := by
      simp only at hv
      rw [hv, utf8_append]
      congr 1
      clear hms hm hv
      induction ms with
      | nil => rfl
      | cons x ms ih => rw [List.flatMap_cons, utf8_append, ih]; rfl
    refine ⟨⟨n, m, ms⟩ :: ls, ?_, ?_, ?_⟩
    · intro x hx
      rcases List.mem_cons.1 hx with rfl | hx
      · refine ⟨hf.1, hm, hms, ?_⟩
        simp only
        rw [← hu, fieldBodyOk_iff]; exact hf.2
      · exact h1 x hx
    · simp only [List.map_cons]
      rw [← h2]; simp only at hv; rw [← hv]
    · simp only [List.map_cons, h3, LineField.field]
      rw [← hu]

/-! ### What is accepted -/

theorem splitOnce_some {α : Type} [DecidableEq α] {sep : α} {s a b : List α}
    (h : splitOnce sep s = some (a, b)) : s = a ++ sep :: b ∧ sep ∉ a := by
  induction s generalizing a with
  | nil => simp [splitOnce] at h
  | cons c s ih =>
    rw [splitOnce] at h
    by_cases hc : c = sep
    · rw [if_pos hc] at h
      simp at h; obtain ⟨rfl, rfl⟩ := h; exact ⟨by simp [hc], by simp⟩
    · rw [if_neg hc] at h
      cases h1 : splitOnce sep s with
      | none => rw [h1] at h; simp at h
      | some p =>
        obtain ⟨x, y⟩ := p
        rw [h1] at h
        simp at h
        obtain ⟨rfl, rfl⟩ := h
        have := ih h1
        exact ⟨by rw [this.1]; rfl, by simp [this.2, Ne.symm hc]⟩

theorem splitHeaderField_some {s n : Str} {v : Bytes} (h : splitHeaderField s = some (n, v)) :
    ∃ m, s = n ++ ':' :: m ∧ v = utf8 m ∧ ValidName n := by
  unfold splitHeaderField at h
  cases h1 : splitOnce ':' s with
  | none => rw [h1] at h; simp at h
  | some p =>
    obtain ⟨x, y⟩ := p
    rw [h1] at h
    simp only at h
    split at h
    · next hx =>
      simp at h; obtain ⟨rfl, rfl⟩ := h
      exact ⟨y, (splitOnce_some h1).1, rfl, (fieldNameOk_iff _).1 hx⟩
    · simp at h

theorem headerLoop_some {name : Str} {value : Bytes} {acc out : List Field} {lines : List Str}
    (h : headerLoop name value acc lines = some out) :
    ∃ (conts : List Str) (fs : List LineField), lines = conts ++ fs.flatMap LineField.lines ∧
      out = acc ++ ⟨name, value ++ conts.flatMap fun l => CRLF ++ utf8 l⟩ :: fs.map LineField.field ∧
      ValidBody (value ++ conts.flatMap fun l => CRLF ++ utf8 l) ∧
      ∀ f ∈ fs, ValidName f.name ∧ ValidBody f.field.body := by
  induction lines generalizing name value acc with
  | nil =>
    rw [headerLoop] at h
    split at h
    · next hv =>
      simp at h
      exact ⟨[], [], rfl, by simp [← h], by simpa using (fieldBodyOk_iff _).1 hv, by simp⟩
    · simp at h
  | cons line lines ih =>
    rw [headerLoop] at h
    split at h
    · obtain ⟨conts, fs, h1, h2, h3, h4⟩ := ih h
      exact ⟨line :: conts, fs, by rw [h1]; rfl, by simpa using h2, by simpa using h3, h4⟩
    · cases h1 : splitHeaderField line with
      | none => rw [h1] at h; simp at h
      | some p =>
        obtain ⟨n, v⟩ := p
        rw [h1] at h
        simp only at h
        split at h
        · next hv =>
          obtain ⟨m, rfl, rfl, hn⟩ := splitHeaderField_some h1
          obtain ⟨conts, fs, h1, h2, h3, h4⟩ := ih h
          refine ⟨[], ⟨n, m, conts⟩ :: fs, by simp [h1, LineField.lines], ?_, ?_, ?_⟩
          · simpa [LineField.field] using h2
          · simpa using (fieldBodyOk_iff _).1 hv
          · intro f hf
            rcases List.mem_cons.1 hf with rfl | hf
            · exact ⟨hn, h3⟩
            · exact h4 f hf
        · simp at h

theorem headerFieldsFromStr_some {s : Str} {out : List Field} (h : headerFieldsFromStr s = some out) :
    ∃ fs : List LineField, fs ≠ [] ∧ strLines s = fs.flatMap LineField.lines ∧
      out = fs.map LineField.field ∧ ∀ f ∈ fs, ValidName f.name ∧ ValidBody f.field.body := by
  unfold headerFieldsFromStr at h
  cases hl : strLines s with
  | nil => rw [hl] at h; simp at h
  | cons first lines =>
    rw [hl] at h
    simp only at h
    split at h
    · simp at h
    · cases h1 : splitHeaderField first with
      | none => rw [h1] at h; simp at h
      | some p =>
        obtain ⟨n, v⟩ := p
        rw [h1] at h
        simp only at h
        obtain ⟨m, rfl, rfl, hn⟩ := splitHeaderField_some h1
        cases h2 : headerLoop n (utf8 m) [] lines with
        | none => rw [h2] at h; simp at h
        | some hs =>
          rw [h2] at h
          simp only [headerFieldsNew] at h
          split at h
          · simp at h
          · simp at h; subst h
            obtain ⟨conts, fs, h1, h2, h3, h4⟩ := headerLoop_some h2
            refine ⟨⟨n, m, conts⟩ :: fs, by simp, by simp [h1, LineField.lines], ?_, ?_⟩
            · simpa [LineField.field] using h2
            · intro f hf
              rcases List.mem_cons.1 hf with rfl | hf
              · exact ⟨hn, h3⟩
              · exact h4 f hf

theorem linesAux_noLf (s cur : Str) (hc : '\n' ∉ cur) : ∀ l ∈ linesAux cur s, '\n' ∉ l := by
  induction s generalizing cur with
  | nil =>
    intro l hl
    rw [linesAux] at hl
    split at hl
    · simp at hl
    · simp at hl; rw [hl]; exact hc
  | cons c s ih =>
    intro l hl
    rw [linesAux] at hl
    split at hl
    · rcases List.mem_cons.1 hl with rfl | hl
      · unfold stripCr
        split
        · next r hr =>
          intro hm
          apply hc
          rw [← List.mem_reverse, hr]
          simp at hm; simp [hm]
        · exact hc
      · exact ih [] (by simp) l hl
    · next hne =>
      refine ih (cur ++ [c]) ?_ l hl
      simp only [List.mem_append, List.mem_singleton, not_or]
      exact ⟨hc, fun h => hne h.symm⟩

theorem strLines_noLf (s : Str) : ∀ l ∈ strLines s, '\n' ∉ l := linesAux_noLf s [] (by simp)

theorem foldsOnly_noCr {a b : Bytes} (ha : ∀ c ∈ a, c ≠ 10) (hb : b = [] ∨ ∃ r, b = 13 :: r)
    (h : FoldsOnly (a ++ b)) : (∀ c ∈ a, c ≠ 13) ∧ FoldsOnly b := by
  induction a with
  | nil => exact ⟨by simp, h⟩
  | cons x a ih =>
    rw [List.cons_append] at h
    generalize hz : a ++ b = z at h
    cases h with
    | byte _ _ h1 h2 h3 =>
      rw [← hz] at h3
      have := ih (fun c hc => ha c (by simp [hc])) h3
      refine ⟨?_, this.2⟩
      intro c hc
      rcases List.mem_cons.1 hc with rfl | hc
      · exact h1
      · exact this.1 c hc
    | fold w r hw h3 =>
      cases a with
      | nil =>
        rcases hb with rfl | ⟨r', rfl⟩
        · simp at hz
        · simp at hz
      | cons y a =>
        simp at hz
        exact absurd hz.1 (ha y (by simp))

theorem conts_noCr (ms : List Str) (hl : ∀ x ∈ ms, '\n' ∉ x)
    (h : FoldsOnly (ms.flatMap fun l => CRLF ++ utf8 l)) : ∀ x ∈ ms, ∀ c ∈ utf8 x, c ≠ 13 := by
  induction ms with
  | nil => simp
  | cons m ms ih =>
    rw [List.flatMap_cons] at h
    have h10 : ∀ c ∈ utf8 m, c ≠ 10 := by
      rintro c hc rfl
      exact hl m (by simp) ((mem_utf8_ascii m '\n' (by decide)).1 hc)
    have hrest : (ms.flatMap fun l => CRLF ++ utf8 l) = [] ∨
        ∃ r, (ms.flatMap fun l => CRLF ++ utf8 l) = 13 :: r := by
      cases ms with
      | nil => exact Or.inl rfl
      | cons m' ms => right; exact ⟨_, rfl⟩
    have h' : FoldsOnly (utf8 m ++ ms.flatMap fun l => CRLF ++ utf8 l) := by
      rw [show CRLF ++ utf8 m ++ (ms.flatMap fun l => CRLF ++ utf8 l)
        = 13 :: 10 :: (utf8 m ++ ms.flatMap fun l => CRLF ++ utf8 l) from rfl] at h
      generalize utf8 m ++ (ms.flatMap fun l => CRLF ++ utf8 l) = z at h
      cases h with
      | byte _ _ h1 => exact absurd rfl h1
      | fold w r hw h3 => exact .byte w r (isWsp_ne hw).1 (isWsp_ne hw).2 h3
    have h2 := foldsOnly_noCr h10 hrest h'
    intro x hx
    rcases List.mem_cons.1 hx with rfl | hx
    · exact h2.1
    · exact ih (fun y hy => hl y (by simp [hy])) h2.2 x hx

theorem lineField_clean {f : LineField} (hn : ValidName f.name) (hb : FoldsOnly f.field.body)
    (hl : ∀ x ∈ f.lines, '\n' ∉ x) : ∀ x ∈ f.lines, cleanChars x := by
  have h10 : ∀ x ∈ f.first :: f.conts, '\n' ∉ x := by
    intro x hx
    rcases List.mem_cons.1 hx with rfl | hx
    · have := hl _ (List.mem_cons_self)
      simp at this; exact this.2
    · exact hl x (List.mem_cons_of_mem _ hx)
  have hfirst : ∀ c ∈ utf8 f.first, c ≠ 10 := by
    rintro c hc rfl
    exact h10 f.first (by simp) ((mem_utf8_ascii f.first '\n' (by decide)).1 hc)
  have hrest : (f.conts.flatMap fun l => CRLF ++ utf8 l) = [] ∨
      ∃ r, (f.conts.flatMap fun l => CRLF ++ utf8 l) = 13 :: r := by
    cases f.conts with
    | nil => exact Or.inl rfl
    | cons m' ms => right; exact ⟨_, rfl⟩
  have h1 := foldsOnly_noCr hfirst hrest hb
  have h2 := conts_noCr f.conts (fun x hx => h10 x (by simp [hx])) h1.2
  have hcr : ∀ x ∈ f.first :: f.conts, cleanChars x := by
    intro x hx c hc
    refine ⟨?_, ?_⟩
    · rintro rfl
      have hm := (mem_utf8_ascii x '\r' (by decide)).2 hc
      rcases List.mem_cons.1 hx with rfl | hx
      · exact h1.1 _ hm rfl
      · exact h2 x hx _ hm rfl
    · rintro rfl; exact h10 x hx hc
  intro x hx
  rcases List.mem_cons.1 hx with rfl | hx
  · intro c hc
    simp only [List.mem_append, List.mem_cons] at hc
    rcases hc with hc | rfl | hc
    · have := (hn.2 c hc).1
      constructor <;> (rintro rfl; exact absurd this (by decide))
    · decide
    · exact hcr f.first (by simp) c hc
  · exact hcr x (by simp [hx])

end Dkim
