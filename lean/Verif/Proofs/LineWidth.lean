import Verif.Spec.Lines
import Verif.Proofs.FieldText
import Verif.Proofs.Sign

/-!
# Line widths: helper lemmas for C49
-/

namespace Dkim

open Spec

/-! ## Lines -/

/-- A text consists of complete lines and a last line. -/
def Split (out : Str) (done : List Str) (last : Str) : Prop :=
  out = done.flatMap (fun l => l ++ ['\r', '\n']) ++ last ∧ (∀ l ∈ done, '\n' ∉ l) ∧ '\n' ∉ last

theorem lines_cons (c : Char) (r : Str) (h : ¬ (c = '\r' ∧ ∃ r', r = '\n' :: r')) :
    lines (c :: r) = match lines r with
      | l :: ls => (c :: l) :: ls
      | [] => [[c]] := by
  rw [lines]
  all_goals first
    | exact fun r' h1 h2 => h ⟨h1, r', h2⟩
    | rfl

theorem lines_noLf {l : Str} (h : '\n' ∉ l) : lines l = [l] := by
  induction l with
  | nil => rfl
  | cons c l ih =>
    simp only [List.mem_cons, not_or] at h
    rw [lines_cons, ih h.2]
    rintro ⟨_, r, rfl⟩
    simp at h

theorem lines_line {l r : Str} (h : '\n' ∉ l) : lines (l ++ '\r' :: '\n' :: r) = l :: lines r := by
  induction l with
  | nil => simp [lines]
  | cons c l ih =>
    simp only [List.mem_cons, not_or] at h
    rw [List.cons_append, lines_cons, ih h.2]
    rintro ⟨_, r', e⟩
    cases l with
    | nil => simp at e
    | cons d l =>
      simp only [List.cons_append, List.cons.injEq] at e
      simp [e.1] at h

theorem Split.lines {out last : Str} {done : List Str} (h : Split out done last) : Spec.lines out = done ++ [last] := by
  obtain ⟨rfl, h1, h2⟩ := h
  induction done with
  | nil => simpa using lines_noLf h2
  | cons d ds ih =>
    have := ih (fun l hl => h1 l (by simp [hl]))
    simp only [List.flatMap_cons, List.append_assoc, List.cons_append, List.nil_append] at this ⊢
    rw [lines_line (h1 d (by simp)), this]

/-- The complete lines added behind a last line. -/
def joinDone (last : Str) : List Str → List Str
  | [] => []
  | d :: ds => (last ++ d) :: ds

/-- The last line behind a last line. -/
def joinLast (last l : Str) : List Str → Str
  | [] => last ++ l
  | _ :: _ => l

/-- Appending a text of which the lines are known. -/
theorem Split.append {out last u l : Str} {done ds : List Str} (h : Split out done last) (hu : Split u ds l) :
    Split (out ++ u) (done ++ joinDone last ds) (joinLast last l ds) := by
  obtain ⟨rfl, h1, h2⟩ := h
  obtain ⟨rfl, h3, h4⟩ := hu
  cases ds with
  | nil => exact ⟨by simp [joinDone, joinLast], by simpa [joinDone] using h1, by simp [h2, h4, joinLast]⟩
  | cons d ds =>
    refine ⟨by simp [joinDone, joinLast], ?_, h4⟩
    intro l hl
    simp only [joinDone, List.mem_append, List.mem_cons] at hl
    rcases hl with hl | rfl | hl
    · exact h1 l hl
    · simp [h2, h3 d (by simp)]
    · exact h3 l (by simp [hl])

theorem Split.single {l : Str} (h : '\n' ∉ l) : Split l [] l := ⟨rfl, by simp, h⟩

theorem solidChar_noLf {c : Char} (h : solidChar c) : c ≠ '\n' := by
  rintro rfl
  rcases h with h | h
  · exact absurd h (by unfold valChar; decide)
  · exact absurd h (by decide)

theorem wsp_noLf {c : Char} (h : wsp c) : c ≠ '\n' := by
  rintro rfl
  exact absurd h (by unfold wsp; decide)

theorem FoldedText.split {s : Str} (h : FoldedText s) : ∃ done last, Split s done last := by
  induction h with
  | nil => exact ⟨[], [], .single (by simp)⟩
  | solid c s hc _ ih =>
    obtain ⟨ds, l, h1⟩ := ih
    exact ⟨_, _, (Split.single (l := [c]) (by simpa using (solidChar_noLf hc).symm)).append h1⟩
  | space c s hc _ ih =>
    obtain ⟨ds, l, h1⟩ := ih
    exact ⟨_, _, (Split.single (l := [c]) (by simpa using (wsp_noLf hc).symm)).append h1⟩
  | fold w c s _ hw hc _ ih =>
    obtain ⟨ds, l, h1⟩ := ih
    have hl : '\n' ∉ w ++ [c] := by
      simp only [List.mem_append, List.mem_singleton, not_or]
      exact ⟨fun hm => wsp_noLf (hw _ hm) rfl, (solidChar_noLf hc).symm⟩
    have h2 : Split ('\r' :: '\n' :: (w ++ [c])) [[]] (w ++ [c]) := ⟨by simp, by simp, hl⟩
    have := h2.append h1
    simp only [List.cons_append, List.append_assoc, List.nil_append] at this
    exact ⟨_, _, this⟩

/-! ## Text laid out in lines -/

/-- All complete lines of a text fulfil a condition; the last line is given. -/
def Laid (good : Str → Prop) (out last : Str) : Prop :=
  ∃ done, Split out done last ∧ ∀ l ∈ done, good l

variable {out last : Str}

theorem Laid.append {good : Str → Prop} (h : Laid good out last) {t : Str} (ht : '\n' ∉ t) : Laid good (out ++ t) (last ++ t) := by
  obtain ⟨done, h1, h2⟩ := h
  exact ⟨done, by simpa [joinDone, joinLast] using h1.append (.single ht), h2⟩

theorem Laid.break {good : Str → Prop} (h : Laid good out last) (hg : good last) {t : Str} (ht : '\n' ∉ t) :
    Laid good (out ++ '\r' :: '\n' :: t) t := by
  obtain ⟨done, h1, h2⟩ := h
  have h3 : Split ('\r' :: '\n' :: t) [[]] t := ⟨by simp, by simp, ht⟩
  refine ⟨_, h1.append h3, ?_⟩
  intro l hl
  simp only [joinDone, List.append_nil, List.mem_append, List.mem_singleton] at hl
  rcases hl with hl | rfl
  · exact h2 l hl
  · exact hg

/-- The cursor: at least the length of the last line; equal if `exact`. -/
def Cur (exact : Bool) (n i : Nat) : Prop := n ≤ i ∧ (exact = true → n = i)

/-- Parameters. -/
structure Lay where
  width : Nat
  indent : Str
  headerName : Str
  sig : DkimSignature

def Lay.good (p : Lay) : Str → Prop := FitsLine p.width p.indent p.headerName p.sig

/-- A line that is good, also with a semicolon. -/
def Lay.ends (p : Lay) (l : Str) : Prop := ∀ e, TagEnd e → p.good (l ++ e)

structure Lay.Ok (p : Lay) : Prop where
  indent : '\n' ∉ p.indent
  ascii : byteLen p.indent = p.indent.length

variable {p : Lay}

theorem Lay.short {l : Str} (h : l.length ≤ p.width + 1) : p.good l := .inl h

theorem Lay.ends_short {l : Str} (h : l.length ≤ p.width) : p.ends l := by
  rintro e (rfl | rfl)
  · exact .inl (by simp; omega)
  · exact .inl (by simp; omega)

theorem Lay.ends.self {l : Str} (h : p.ends l) : p.good l := by
  have := h [] (.inl rfl)
  rwa [List.append_nil] at this

theorem Lay.item (ok : p.Ok) {t : Str} (ht : '\n' ∉ t) (h : Item p.sig t) : p.good (p.indent ++ t) := by
  refine .inr (.inr ⟨t, h, ?_⟩)
  rw [lines_noLf (by simp [ok.indent, ht])]
  simp

theorem tagEnd_noLf {e : Str} (h : TagEnd e) : '\n' ∉ e := by rcases h with rfl | rfl <;> decide

/-- The lines of an item, in a new line or behind other text. -/
theorem tag_step (ok : p.Ok) {ex : Bool} {i : Nat} (fmt : Fmt) (hw : fmt.width = p.width) (hi : fmt.indent = p.indent)
    (h : Laid p.good out last) (hg : p.good last) (hc : Cur ex last.length i) {u : Str} (hu : Item p.sig u)
    (hsplit : ∃ ds l, Split u ds l) (hex : ex = true → '\n' ∉ u) :
    ∃ last', Laid p.good (out ++ ((advanceInitial fmt i u.length).1 ++ u)) last' ∧ p.good last' ∧
      Cur ex last'.length (advanceInitial fmt i u.length).2 := by
  obtain ⟨done, h1, h2⟩ := h
  obtain ⟨ds, l, hs⟩ := hsplit
  have hlen : l.length ≤ u.length ∧ ∀ d ∈ ds, d.length ≤ u.length := by
    obtain ⟨rfl, _, _⟩ := hs
    refine ⟨by simp, ?_⟩
    intro d hd
    obtain ⟨a, b, rfl⟩ := List.append_of_mem hd
    simp
    omega
  have hnil : ex = true → ds = [] := by
    intro hx
    cases ds with
    | nil => rfl
    | cons d ds =>
      have := hex hx
      rw [hs.1] at this
      simp at this
  unfold advanceInitial
  rw [hw, hi, ok.ascii]
  by_cases hfit : i + u.length + 1 ≤ p.width
  · rw [if_pos hfit]
    simp only
    have key := h1.append ((Split.single (l := [' ']) (by decide)).append hs)
    cases ds with
    | nil =>
      simp only [joinDone, joinLast, List.append_nil] at key
      refine ⟨_, ⟨done, key, h2⟩, .inl ?_, ?_, ?_⟩
      · have := hc.1; simp; omega
      · have := hc.1; simp; omega
      · intro hx
        have e1 := hc.2 hx
        have e2 : l = u := by have := hs.1; simpa using this.symm
        rw [e2]; simp; omega
    | cons d ds =>
      simp only [joinDone, joinLast, List.nil_append] at key
      refine ⟨_, ⟨_, key, ?_⟩, .inl ?_, ?_, ?_⟩
      · intro x hx
        simp only [List.mem_append, List.mem_cons] at hx
        rcases hx with hx | rfl | hx
        · exact h2 x hx
        · refine .inl ?_
          have := hc.1
          have := hlen.2 d (by simp)
          simp; omega
        · refine .inl ?_
          have := hlen.2 x (by simp [hx])
          omega
      · omega
      · omega
      · intro hx; exact absurd (hnil hx) (by simp)
  · rw [if_neg hfit]
    simp only [lineBreak, hi]
    have hbrk : Split ('\r' :: '\n' :: p.indent) [[]] p.indent := ⟨by simp, by simp, ok.indent⟩
    have hind := (Split.single ok.indent).append hs
    have hgood : ∀ x ∈ lines (p.indent ++ u), p.good x := fun x hx => .inr (.inr ⟨u, hu, hx⟩)
    rw [hind.lines] at hgood
    have key := h1.append (hbrk.append hs)
    cases ds with
    | nil =>
      simp only [joinDone, joinLast, List.append_nil, List.nil_append, List.cons_append] at key hgood
      refine ⟨_, ⟨_, key, ?_⟩, hgood _ (by simp), ?_, ?_⟩
      · intro x hx
        simp only [List.mem_append, List.mem_singleton] at hx
        rcases hx with hx | rfl
        · exact h2 x hx
        · exact hg
      · simp; omega
      · intro hx
        have e2 : l = u := by have := hs.1; simpa using this.symm
        rw [e2]; simp
    | cons d ds =>
      simp only [joinDone, joinLast, List.append_nil, List.nil_append, List.cons_append] at key hgood
      refine ⟨_, ⟨_, key, ?_⟩, hgood _ (by simp), by omega, fun hx => absurd (hnil hx) (by simp)⟩
      intro x hx
      simp only [List.mem_append, List.mem_cons] at hx
      rcases hx with hx | rfl | hx
      · exact h2 x hx
      · exact hg
      · exact hgood _ (by simp only [List.mem_cons, List.mem_append]; rcases hx with rfl | hx; exact .inl rfl; exact .inr (.inl hx))


/-! ## Steps of the formatter -/

/-- Text that continues laid out text, and moves the cursor. -/
def Lay.Step (p : Lay) (ex : Bool) (i : Nat) (t : Str) (i' : Nat) : Prop :=
  ∀ out last, Laid p.good out last → p.good last → Cur ex last.length i →
    ∃ last', Laid p.good (out ++ t) last' ∧ p.good last' ∧ Cur ex last'.length i'

/-- The formatter uses the width and the indentation. -/
structure Lay.Uses (p : Lay) (fmt : Fmt) : Prop where
  width : fmt.width = p.width
  indent : fmt.indent = p.indent

theorem endTag_end (fmt : Fmt) : TagEnd (endTag fmt) := by
  unfold endTag
  split
  · exact .inl rfl
  · exact .inr rfl

theorem endTag_length (fmt : Fmt) : (endTag fmt).length = if fmt.last then 0 else 1 := by
  unfold endTag
  split <;> rfl

theorem ascii_tagName {n : Str} (h : TagName n) : byteLen n = n.length := by
  obtain ⟨c, r, rfl, h1, h2⟩ := h
  refine byteLen_ascii _ ?_
  intro d hd
  rcases List.mem_cons.1 hd with rfl | hd
  · omega
  · rcases h2 d hd with h | h | rfl
    · omega
    · omega
    · decide

theorem formatTag_step (ok : p.Ok) {fmt : Fmt} (hu : p.Uses fmt) {ex : Bool} {i : Nat} {n v : Str}
    (hn : byteLen n = n.length) (hitem : ∀ e, TagEnd e → Item p.sig (n ++ '=' :: v ++ e))
    (hsplit : FoldedText (n ++ '=' :: v)) (hex : ex = true → '\n' ∉ n ++ '=' :: v) :
    p.Step ex i (formatTag fmt i n v).1 (formatTag fmt i n v).2 := by
  intro out last h hg hc
  have hlen : byteLen n + v.length + (if fmt.last then 1 else 2) = (n ++ '=' :: v ++ endTag fmt).length := by
    rw [hn]
    simp only [List.length_append, List.length_cons, endTag_length]
    split <;> omega
  obtain ⟨ds, l, hs⟩ := hsplit.split
  have := tag_step ok fmt hu.width hu.indent h hg hc (hitem _ (endTag_end fmt))
    ⟨_, _, hs.append (.single (tagEnd_noLf (endTag_end fmt)))⟩ (fun e => by
      have := hex e
      have h2 := tagEnd_noLf (endTag_end fmt)
      rw [List.mem_append, not_or]
      exact ⟨this, h2⟩)
  unfold formatTag
  simp only
  rw [hlen]
  simpa using this

/-! ### Chunks -/

theorem chunksLoop_step (ok : p.Ok) {fmt : Fmt} (hu : p.Uses fmt) {ex : Bool} (n i : Nat) (s : Str)
    (hn : s.length ≤ n) (hs : '\n' ∉ s) {out last : Str} (h : Laid p.good out last) (hg : p.ends last)
    (hc : Cur ex last.length i) :
    ∃ last', Laid p.good (out ++ (chunksLoop fmt (max (fmt.width - byteLen fmt.indent) 1) n i s).1) last' ∧
      p.ends last' ∧
      Cur ex last'.length (chunksLoop fmt (max (fmt.width - byteLen fmt.indent) 1) n i s).2 := by
  have hin : byteLen fmt.indent = p.indent.length := by rw [hu.indent, ok.ascii]
  generalize hw : max (fmt.width - byteLen fmt.indent) 1 = w
  have hw1 : 1 ≤ w := by omega
  induction n generalizing i s out last with
  | zero => exact ⟨last, by simpa [chunksLoop] using h, hg, by simpa [chunksLoop] using hc⟩
  | succ n ih =>
    rw [chunksLoop]
    split
    · exact ⟨last, by simpa using h, hg, hc⟩
    · next hne =>
      have hpos : 1 ≤ s.length := by
        cases s with
        | nil => exact absurd rfl hne
        | cons => simp
      have htl : '\n' ∉ s.take w := fun hm => hs (List.mem_of_mem_take hm)
      have hl : '\n' ∉ p.indent ++ s.take w := by simp [ok.indent, htl]
      have h1 : Laid p.good (out ++ (lineBreak fmt ++ s.take w)) (p.indent ++ s.take w) := by
        have := h.break hg.self hl
        simpa [lineBreak, hu.indent] using this
      have hg1 : p.ends (p.indent ++ s.take w) := by
        by_cases hfit : p.indent.length + (s.take w).length ≤ p.width
        · exact Lay.ends_short (by simpa using hfit)
        · have h3 : (s.take w).length = 1 := by
            have hlt := List.length_take (l := s) (i := w)
            have := hu.width
            omega
          obtain ⟨c, hc⟩ := List.length_eq_one_iff.1 h3
          rw [hc] at htl ⊢
          intro e he
          rw [List.append_assoc]
          exact Lay.item ok (by simpa [tagEnd_noLf he] using htl) (.char c e he)
      have hc1 : Cur ex (p.indent ++ s.take w).length ((s.take w).length + byteLen fmt.indent) := by
        rw [hin]
        constructor
        · simp; omega
        · intro _; simp; omega
      obtain ⟨last', g1, g2, g3⟩ := ih ((s.take w).length + byteLen fmt.indent) (s.drop w)
        (by simp; omega) (fun hm => hs (List.mem_of_mem_drop hm)) h1 hg1 hc1
      exact ⟨last', by simpa using g1, g2, g3⟩

theorem formatChunks_step (ok : p.Ok) {fmt : Fmt} (hu : p.Uses fmt) {ex : Bool} (i : Nat) (s : Str)
    (hs : '\n' ∉ s) {out last : Str} (h : Laid p.good out last) (hg : p.ends last) (hc : Cur ex last.length i) :
    ∃ last', Laid p.good (out ++ (formatChunks fmt i s).1) last' ∧ p.ends last' ∧
      Cur ex last'.length (formatChunks fmt i s).2 := by
  unfold formatChunks
  simp only
  generalize hf : s.take (min (fmt.width - i) s.length) = first
  have hfl : first.length = min (fmt.width - i) s.length := by rw [← hf, List.length_take]; omega
  have hfs : '\n' ∉ first := by rw [← hf]; exact fun hm => hs (List.mem_of_mem_take hm)
  have hg1 : p.ends (last ++ first) := by
    cases first with
    | nil => simpa using hg
    | cons c r =>
      refine Lay.ends_short ?_
      have := hc.1
      have := hu.width
      simp only [List.length_cons] at hfl
      simp only [List.length_append, List.length_cons]
      omega
  have hc1 : Cur ex (last ++ first).length (i + first.length) := by
    constructor
    · have := hc.1; simp; omega
    · intro e; have := hc.2 e; simp; omega
  obtain ⟨last', g1, g2, g3⟩ := chunksLoop_step ok hu (ex := ex)
    (s.drop (min (fmt.width - i) s.length)).length (i + first.length) _ (Nat.le_refl _)
    (fun hm => hs (List.mem_of_mem_drop hm)) (h.append hfs) hg1 hc1
  exact ⟨last', by simpa using g1, g2, g3⟩

/-! ### The tag `bh` -/

theorem valChars_noLf {s : Str} (h : ∀ c ∈ s, valChar c) : '\n' ∉ s :=
  fun hm => absurd (h _ hm) (by unfold valChar; decide)

theorem valChars_noSemi {s : Str} (h : ∀ c ∈ s, valChar c) : ';' ∉ s :=
  fun hm => absurd (h _ hm) (by unfold valChar; decide)

theorem start_step (ok : p.Ok) {fmt : Fmt} (hu : p.Uses fmt) {ex : Bool} {i : Nat} {n : Str}
    (hn : n ∈ [c!"b", c!"bh"]) {out last : Str} (h : Laid p.good out last) (hg : p.good last)
    (hc : Cur ex last.length i) :
    ∃ last', Laid p.good (out ++ ((advanceInitial fmt i (n.length + 2)).1 ++ (n ++ ['=']))) last' ∧
      p.ends last' ∧ Cur ex last'.length ((advanceInitial fmt i (n.length + 2)).2 - 1) := by
  have hlf : '\n' ∉ n ++ ['='] := by
    revert n
    decide
  unfold advanceInitial
  split
  · next hfit =>
    refine ⟨_, h.append (t := [' '] ++ (n ++ ['='])) (by simp at hlf ⊢; simp [hlf]), Lay.ends_short ?_, ?_, ?_⟩
    · have := hc.1
      have := hu.width
      simp; omega
    · have := hc.1
      simp; omega
    · intro e
      have := hc.2 e
      simp; omega
  · have h1 := h.break hg (t := p.indent ++ (n ++ ['='])) (by
      rw [List.mem_append, not_or]
      exact ⟨ok.indent, hlf⟩)
    refine ⟨_, by simpa [lineBreak, hu.indent] using h1, ?_, ?_, ?_⟩
    · intro e he
      have := Lay.item (p := p) ok (t := n ++ '=' :: e) (by
        have := tagEnd_noLf he
        simp at hlf ⊢
        simp [hlf, this]) (.start n e hn he)
      simpa using this
    · simp [hu.indent, ok.ascii]
    · intro _
      simp [hu.indent, ok.ascii]

/-- The end of a tag behind a line that may take a semicolon. -/
theorem end_step {fmt : Fmt} {ex : Bool} {i : Nat} {out last : Str} (h : Laid p.good out last)
    (hg : p.ends last) (hc : Cur ex last.length i) :
    ∃ last', Laid p.good (out ++ endTag fmt) last' ∧ p.good last' ∧
      Cur ex last'.length (if fmt.last then i else i + 1) := by
  refine ⟨last ++ endTag fmt, h.append (tagEnd_noLf (endTag_end fmt)), hg _ (endTag_end fmt), ?_, ?_⟩
  · have := hc.1
    rw [List.length_append, endTag_length]
    split <;> omega
  · intro e
    have := hc.2 e
    rw [List.length_append, endTag_length]
    split <;> omega

theorem formatTagBh_step (ok : p.Ok) {fmt : Fmt} (hu : p.Uses fmt) {ex : Bool} {i : Nat} (value : Bytes) :
    p.Step ex i (formatTagBh fmt i value).1 (formatTagBh fmt i value).2 := by
  intro out last h hg hc
  obtain ⟨l1, h1, g1, c1⟩ := start_step ok hu (n := c!"bh") (by decide) h hg hc
  obtain ⟨l2, h2, g2, c2⟩ := formatChunks_step ok hu _ _ (valChars_noLf (base64_valChars value)) h1 g1 c1
  obtain ⟨l3, h3, g3, c3⟩ := end_step (fmt := fmt) h2 g2 c2
  exact ⟨l3, by simpa [formatTagBh] using h3, g3, c3⟩

/-! ### The tag `h` -/

theorem formatHRest_step (ok : p.Ok) {fmt : Fmt} (hu : p.Uses fmt) {ex : Bool} (names : List Str)
    (hn : ∀ n ∈ names, n ∈ p.sig.signedHeaders ∧ '\n' ∉ n) {i : Nat} {out last : Str}
    (h : Laid p.good out last)
    (hg : p.good (last ++ (if names.isEmpty then endTag fmt else [':'])))
    (hc : Cur ex (last.length + (if names.isEmpty && fmt.last then 0 else 1)) i) :
    ∃ last', Laid p.good (out ++ ((formatHRest fmt i names).1 ++ endTag fmt)) last' ∧ p.good last' ∧
      Cur ex last'.length (formatHRest fmt i names).2 := by
  induction names generalizing i out last with
  | nil =>
    refine ⟨last ++ endTag fmt, by simpa [formatHRest] using h.append (tagEnd_noLf (endTag_end fmt)), by simpa using hg, ?_⟩
    simpa [formatHRest, endTag_length] using hc
  | cons n rest ih =>
    obtain ⟨hm, hlf⟩ := hn n (by simp)
    have hn' : ∀ n ∈ rest, n ∈ p.sig.signedHeaders ∧ '\n' ∉ n := fun m hm => hn m (by simp [hm])
    simp only [List.isEmpty_cons, Bool.false_eq_true, if_false, Bool.false_and] at hg hc
    have h1 : Laid p.good (out ++ [':']) (last ++ [':']) := h.append (by decide)
    have hend : TagEnd (if rest.isEmpty then endTag fmt else [':']) ∨
        (if rest.isEmpty then endTag fmt else [':']) = [':'] := by
      split
      · exact .inl (endTag_end fmt)
      · exact .inr rfl
    have hel : (if rest.isEmpty then endTag fmt else [':']).length =
        if rest.isEmpty && fmt.last then 0 else 1 := by
      cases rest.isEmpty
      · rfl
      · simp [endTag_length]
    have hlf2 : '\n' ∉ n ++ (if rest.isEmpty then endTag fmt else [':']) := by
      rw [List.mem_append, not_or]
      refine ⟨hlf, ?_⟩
      split
      · exact tagEnd_noLf (endTag_end fmt)
      · decide
    rw [formatHRest]
    simp only
    unfold advanceI
    by_cases hfit : i + (n.length + (if rest.isEmpty && fmt.last then 0 else 1)) ≤ fmt.width
    · rw [if_pos hfit]
      obtain ⟨l, g1, g2, g3⟩ := ih hn' (h1.append hlf) (Lay.short (by
          have := hc.1
          have := hu.width
          rw [List.length_append, hel]
          simp only [List.length_append, List.length_cons, List.length_nil]
          omega))
        (i := i + (n.length + (if rest.isEmpty && fmt.last then 0 else 1))) (by
          constructor
          · have := hc.1; simp; omega
          · intro e; have := hc.2 e; simp; omega)
      exact ⟨l, by simpa using g1, g2, g3⟩
    · rw [if_neg hfit]
      have h2 := h1.break hg (t := p.indent ++ n) (by
        rw [List.mem_append, not_or]
        exact ⟨ok.indent, hlf⟩)
      obtain ⟨l, g1, g2, g3⟩ := ih hn' h2 (by
          rw [List.append_assoc]
          exact Lay.item ok hlf2 (.name [] n _ (.inl rfl) hm hend))
        (i := byteLen fmt.indent + (n.length + (if rest.isEmpty && fmt.last then 0 else 1))) (by
          rw [hu.indent, ok.ascii]
          constructor
          · simp; omega
          · intro _; simp; omega)
      exact ⟨l, by simpa [lineBreak, hu.indent] using g1, g2, g3⟩

theorem formatTagH_eq' (fmt : Fmt) (i : Nat) (first : Str) (rest : List Str) :
    formatTagH fmt i (first :: rest) =
      some ((advanceInitial fmt i (first.length + (if rest.isEmpty && fmt.last then 2 else 3))).1 ++ c!"h=" ++ first ++
        (formatHRest fmt (advanceInitial fmt i (first.length + (if rest.isEmpty && fmt.last then 2 else 3))).2 rest).1 ++
          endTag fmt,
        (formatHRest fmt (advanceInitial fmt i (first.length + (if rest.isEmpty && fmt.last then 2 else 3))).2 rest).2) :=
  rfl

theorem formatTagH_step (ok : p.Ok) {fmt : Fmt} (hu : p.Uses fmt) {ex : Bool} {i : Nat} {names : List Str}
    (hn : ∀ n ∈ names, n ∈ p.sig.signedHeaders ∧ '\n' ∉ n) {t : Str × Nat}
    (ht : formatTagH fmt i names = some t) : p.Step ex i t.1 t.2 := by
  cases names with
  | nil => cases ht
  | cons n rest =>
    rw [formatTagH_eq', Option.some.injEq] at ht
    subst ht
    intro out last h hg hc
    obtain ⟨hm, hlf⟩ := hn n (by simp)
    have hn' : ∀ n ∈ rest, n ∈ p.sig.signedHeaders ∧ '\n' ∉ n := fun m hm => hn m (by simp [hm])
    have hend : TagEnd (if rest.isEmpty then endTag fmt else [':']) ∨
        (if rest.isEmpty then endTag fmt else [':']) = [':'] := by
      split
      · exact .inl (endTag_end fmt)
      · exact .inr rfl
    have hel : (if rest.isEmpty then endTag fmt else [':']).length =
        if rest.isEmpty && fmt.last then 0 else 1 := by
      cases rest.isEmpty
      · rfl
      · simp [endTag_length]
    have hlf2 : '\n' ∉ c!"h=" ++ n ++ (if rest.isEmpty then endTag fmt else [':']) := by
      rw [List.mem_append, not_or, List.mem_append, not_or]
      refine ⟨⟨by decide, hlf⟩, ?_⟩
      split
      · exact tagEnd_noLf (endTag_end fmt)
      · decide
    have hl3 : '\n' ∉ c!"h=" ++ n := by
      rw [List.mem_append, not_or]
      exact ⟨by decide, hlf⟩
    have hpl : (if rest.isEmpty && fmt.last then 2 else 3) = 2 + (if rest.isEmpty && fmt.last then 0 else 1) := by
      split <;> rfl
    simp only
    rw [hpl]
    unfold advanceInitial
    by_cases hfit : i + (n.length + (2 + (if rest.isEmpty && fmt.last then 0 else 1))) + 1 ≤ fmt.width
    · rw [if_pos hfit]
      have h1 := h.append (t := [' '] ++ (c!"h=" ++ n)) (by
        rw [List.mem_append, not_or]
        exact ⟨by decide, hl3⟩)
      obtain ⟨l, g1, g2, g3⟩ := formatHRest_step ok hu (ex := ex) rest hn' h1 (Lay.short (by
          have := hc.1
          have := hu.width
          rw [List.length_append, hel]
          simp only [List.length_append, List.length_cons, List.length_nil]
          omega))
        (i := i + (n.length + (2 + (if rest.isEmpty && fmt.last then 0 else 1)) + 1)) (by
          constructor
          · have := hc.1; simp; omega
          · intro e; have := hc.2 e; simp; omega)
      exact ⟨l, by simpa using g1, g2, g3⟩
    · rw [if_neg hfit]
      have h2 := h.break hg (t := p.indent ++ (c!"h=" ++ n)) (by
        rw [List.mem_append, not_or]
        exact ⟨ok.indent, hl3⟩)
      obtain ⟨l, g1, g2, g3⟩ := formatHRest_step ok hu (ex := ex) rest hn' h2 (by
          rw [List.append_assoc]
          exact Lay.item ok hlf2 (.name c!"h=" n _ (.inr rfl) hm hend))
        (i := byteLen fmt.indent + (n.length + (2 + (if rest.isEmpty && fmt.last then 0 else 1)))) (by
          rw [hu.indent, ok.ascii]
          constructor
          · simp; omega
          · intro _; simp; omega)
      exact ⟨l, by simpa [lineBreak, hu.indent] using g1, g2, g3⟩

/-! ### The tag `z` -/

theorem formatZRest_step (ok : p.Ok) {fmt : Fmt} (hu : p.Uses fmt) {ex : Bool} (hs : List (Str × Bytes))
    (hn : ∀ h ∈ hs, h.1 ∈ p.sig.copiedHeaders.map (·.1) ∧ '\n' ∉ h.1) {i : Nat} {out last : Str}
    (h : Laid p.good out last) (hg : p.ends last) (hc : Cur ex last.length i) :
    ∃ last', Laid p.good (out ++ (formatZRest fmt i hs).1) last' ∧ p.ends last' ∧
      Cur ex last'.length (formatZRest fmt i hs).2 := by
  induction hs generalizing i out last with
  | nil => exact ⟨last, by simpa [formatZRest] using h, hg, hc⟩
  | cons x rest ih =>
    obtain ⟨n, v⟩ := x
    obtain ⟨hm, hlf⟩ := hn (n, v) (by simp)
    have hn' : ∀ h ∈ rest, h.1 ∈ p.sig.copiedHeaders.map (·.1) ∧ '\n' ∉ h.1 := fun m hm => hn m (by simp [hm])
    have hbar : ∀ (b : Str × Nat), b = (if i ≥ fmt.width then (lineBreak fmt, byteLen fmt.indent) else ([], i)) →
        ∃ l, Laid p.good (out ++ (b.1 ++ ['|'])) l ∧ p.ends l ∧ Cur ex l.length (b.2 + 1) := by
      rintro b rfl
      split
      · have h1 := h.break hg.self (t := p.indent ++ ['|']) (by
          rw [List.mem_append, not_or]
          exact ⟨ok.indent, by decide⟩)
        refine ⟨_, by simpa [lineBreak, hu.indent] using h1, ?_, ?_⟩
        · intro e he
          rw [List.append_assoc]
          exact Lay.item ok (by simp [tagEnd_noLf he]) (.char '|' e he)
        · simp only [hu.indent, ok.ascii]
          constructor
          · simp
          · intro _; simp
      · next hlt =>
        refine ⟨_, h.append (t := ['|']) (by decide), Lay.ends_short ?_, ?_⟩
        · have := hc.1
          have := hu.width
          simp; omega
        · constructor
          · have := hc.1; simp; omega
          · intro e; have := hc.2 e; simp; omega
    have hname : ∀ (b : Str × Nat), b = (if i ≥ fmt.width then (lineBreak fmt, byteLen fmt.indent) else ([], i)) →
        ∀ (c : Str × Nat), c = (if b.2 + 1 + (n.length + 1) ≤ fmt.width then ([], b.2 + 1 + (n.length + 1))
          else (lineBreak fmt, byteLen fmt.indent + (n.length + 1))) →
        ∃ l, Laid p.good (out ++ (b.1 ++ '|' :: c.1 ++ n ++ [':'])) l ∧ p.ends l ∧ Cur ex l.length c.2 := by
      rintro b hb c rfl
      obtain ⟨l, g1, g2, g3⟩ := hbar b hb
      have hl3 : '\n' ∉ n ++ [':'] := by
        rw [List.mem_append, not_or]
        exact ⟨hlf, by decide⟩
      split
      · next hfit =>
        refine ⟨_, by simpa using g1.append hl3, Lay.ends_short ?_, ?_⟩
        · have := g3.1
          have := hu.width
          simp; omega
        · constructor
          · have := g3.1; simp; omega
          · intro e; have := g3.2 e; simp; omega
      · have h2 := g1.break g2.self (t := p.indent ++ (n ++ [':'])) (by
          rw [List.mem_append, not_or]
          exact ⟨ok.indent, hl3⟩)
        refine ⟨_, by simpa [lineBreak, hu.indent] using h2, ?_, ?_⟩
        · intro e he
          have := Lay.item (p := p) ok (t := [] ++ n ++ ':' :: e) (by simp [hlf, tagEnd_noLf he])
            (.copied [] n e (.inl rfl) hm he)
          simpa using this
        · simp only [hu.indent, ok.ascii]
          constructor
          · simp
          · intro _; simp
    obtain ⟨l1, h1, g1, c1⟩ := hname _ rfl _ rfl
    obtain ⟨l2, h2, g2, c2⟩ := formatChunks_step ok hu _ (encodeCopied fmt.ascii v)
      (valChars_noLf (qpEncode_valChars _ _ _)) h1 g1 c1
    obtain ⟨l3, h3, g3, c3⟩ := ih hn' h2 g2 c2
    refine ⟨l3, ?_, g3, c3⟩
    rw [formatZRest]
    simpa using h3

theorem formatTagZ_eq' (fmt : Fmt) (i : Nat) (n : Str) (v : Bytes) (rest : List (Str × Bytes)) :
    formatTagZ fmt i ((n, v) :: rest) =
      some ((advanceInitial fmt i (n.length + 3)).1 ++ c!"z=" ++ n ++
        ':' :: (formatChunks fmt (advanceInitial fmt i (n.length + 3)).2 (encodeCopied fmt.ascii v)).1 ++
        (formatZRest fmt (formatChunks fmt (advanceInitial fmt i (n.length + 3)).2
          (encodeCopied fmt.ascii v)).2 rest).1 ++ endTag fmt,
        if fmt.last then (formatZRest fmt (formatChunks fmt (advanceInitial fmt i (n.length + 3)).2
          (encodeCopied fmt.ascii v)).2 rest).2 else (formatZRest fmt (formatChunks fmt
            (advanceInitial fmt i (n.length + 3)).2 (encodeCopied fmt.ascii v)).2 rest).2 + 1) := rfl

theorem formatTagZ_step (ok : p.Ok) {fmt : Fmt} (hu : p.Uses fmt) {ex : Bool} {i : Nat} {hs : List (Str × Bytes)}
    (hn : ∀ h ∈ hs, h.1 ∈ p.sig.copiedHeaders.map (·.1) ∧ '\n' ∉ h.1) {t : Str × Nat}
    (ht : formatTagZ fmt i hs = some t) : p.Step ex i t.1 t.2 := by
  cases hs with
  | nil => cases ht
  | cons x rest =>
    obtain ⟨n, v⟩ := x
    rw [formatTagZ_eq', Option.some.injEq] at ht
    subst ht
    intro out last h hg hc
    obtain ⟨hm, hlf⟩ := hn (n, v) (by simp)
    have hn' : ∀ h ∈ rest, h.1 ∈ p.sig.copiedHeaders.map (·.1) ∧ '\n' ∉ h.1 := fun m hm => hn m (by simp [hm])
    have hl3 : '\n' ∉ c!"z=" ++ n ++ [':'] := by
      rw [List.mem_append, not_or, List.mem_append, not_or]
      exact ⟨⟨by decide, hlf⟩, by decide⟩
    have hname : ∃ l, Laid p.good (out ++ ((advanceInitial fmt i (n.length + 3)).1 ++ (c!"z=" ++ n ++ [':']))) l ∧
        p.ends l ∧ Cur ex l.length (advanceInitial fmt i (n.length + 3)).2 := by
      unfold advanceInitial
      split
      · next hfit =>
        refine ⟨_, h.append (t := [' '] ++ (c!"z=" ++ n ++ [':'])) (by
          rw [List.mem_append, not_or]
          exact ⟨by decide, hl3⟩), Lay.ends_short ?_, ?_⟩
        · have := hc.1
          have := hu.width
          simp; omega
        · constructor
          · have := hc.1; simp; omega
          · intro e; have := hc.2 e; simp; omega
      · have h2 := h.break hg (t := p.indent ++ (c!"z=" ++ n ++ [':'])) (by
          rw [List.mem_append, not_or]
          exact ⟨ok.indent, hl3⟩)
        refine ⟨_, by simpa [lineBreak, hu.indent] using h2, ?_, ?_⟩
        · intro e he
          have := Lay.item (p := p) ok (t := c!"z=" ++ n ++ ':' :: e) (by simp [hlf, tagEnd_noLf he])
            (.copied c!"z=" n e (.inr rfl) hm he)
          simpa using this
        · simp only [hu.indent, ok.ascii]
          constructor
          · simp
          · intro _; simp
    obtain ⟨l1, h1, g1, c1⟩ := hname
    obtain ⟨l2, h2, g2, c2⟩ := formatChunks_step ok hu _ (encodeCopied fmt.ascii v)
      (valChars_noLf (qpEncode_valChars _ _ _)) h1 g1 c1
    obtain ⟨l3, h3, g3, c3⟩ := formatZRest_step ok hu rest hn' h2 g2 c2
    obtain ⟨l4, h4, g4, c4⟩ := end_step (fmt := fmt) h3 g3 c3
    exact ⟨l4, by simpa using h4, g4, c4⟩

/-! ### The tag `b` -/

theorem chunksLoop_cursor (fmt : Fmt) (w : Nat) (hw : 1 ≤ w) (n i : Nat) (s : Str) (hn : s.length ≤ n) :
    (chunksLoop fmt w n i s).2 =
      if s = [] then i else (if s.length % w = 0 then w else s.length % w) + byteLen fmt.indent := by
  induction n generalizing i s with
  | zero =>
    have : s = [] := List.length_eq_zero_iff.1 (by omega)
    subst this
    rfl
  | succ n ih =>
    rw [chunksLoop]
    cases s with
    | nil => rfl
    | cons c r =>
      simp only [List.isEmpty_cons, Bool.false_eq_true, if_false, List.cons_ne_nil]
      generalize hs : c :: r = s at *
      have hpos : 1 ≤ s.length := by rw [← hs]; simp
      rw [ih _ _ (by simp; omega)]
      by_cases hle : s.length ≤ w
      · have e1 : s.drop w = [] := by simpa using hle
        have e2 : s.take w = s := List.take_of_length_le hle
        rw [if_pos e1, e2]
        by_cases he : s.length = w
        · rw [he, Nat.mod_self]; simp
        · rw [Nat.mod_eq_of_lt (by omega), if_neg (by omega)]
      · have e1 : s.drop w ≠ [] := by simp; omega
        have e3 : (s.drop w).length % w = s.length % w := by
          rw [List.length_drop]
          exact (Nat.mod_eq_sub_mod (by omega)).symm
        rw [if_neg e1, e3]

theorem formatChunks_cursor (fmt : Fmt) (i : Nat) (s : Str) : (formatChunks fmt i s).2 = cursorAfterB fmt i s.length := by
  unfold formatChunks cursorAfterB
  simp only
  rw [chunksLoop_cursor fmt _ (by omega) _ _ _ (Nat.le_refl _)]
  by_cases hle : s.length ≤ fmt.width - i
  · rw [if_pos hle, Nat.min_eq_right hle]
    simp
  · rw [if_neg hle, Nat.min_eq_left (by omega), if_neg (by simp; omega)]
    simp only [List.length_drop]

theorem lines_ne_nil (s : Str) : lines s ≠ [] := by
  unfold lines
  split
  · simp
  · simp
  · split <;> simp

theorem lastLine_cons (c : Char) (r : Str) : lastLine (c :: r) =
    match lastLine r with
    | (l, true) => (l, true)
    | (l, false) =>
      match c, l with
      | '\r', '\n' :: l' => (l', true)
      | _, _ => (c :: l, false) := rfl

theorem lastLine_keep (c : Char) (r : Str) : ¬ (c = '\r' ∧ ∃ r', r = '\n' :: r') → (match c, r with
    | '\r', '\n' :: l' => (l', true)
    | _, _ => (c :: r, false)) = (c :: r, false) := by
  intro h
  split
  · exact absurd ⟨rfl, _, rfl⟩ h
  · rfl

theorem lastLine_lines (s : Str) : ∃ ds, lines s = ds ++ [(lastLine s).1] ∧ ((lastLine s).2 = true ↔ ds ≠ []) := by
  induction s with
  | nil => exact ⟨[], rfl, by simp [lastLine]⟩
  | cons c r ih =>
    obtain ⟨ds, h1, h2⟩ := ih
    by_cases hcr : c = '\r' ∧ ∃ r', r = '\n' :: r'
    · obtain ⟨rfl, r', rfl⟩ := hcr
      have e : lines ('\n' :: r') = match lines r' with
          | l :: ls => ('\n' :: l) :: ls
          | [] => [['\n']] := lines_cons _ _ (by rintro ⟨h, _⟩; exact absurd h (by decide))
      have e2 : lines ('\r' :: '\n' :: r') = [] :: lines r' := by rw [lines]
      rw [lastLine_cons, e2]
      cases hl : lines r' with
      | nil => exact absurd hl (lines_ne_nil r')
      | cons x xs =>
        rw [hl] at e
        simp only at e
        rw [e] at h1
        cases hx : lastLine ('\n' :: r') with
        | mk l b =>
          rw [hx] at h1 h2
          cases b with
          | true =>
            simp only [true_iff] at h2
            simp only at h1 ⊢
            cases ds with
            | nil => simp at h2
            | cons d ds =>
              simp only [List.cons_append, List.cons.injEq] at h1
              exact ⟨[] :: x :: ds, by simp [h1.2], by simp⟩
          | false =>
            simp only [Bool.false_eq_true, false_iff, Classical.not_not] at h2
            subst h2
            simp only [List.nil_append, List.cons.injEq] at h1
            simp only [← h1.1]
            exact ⟨[[]], by simp [h1.2], by simp⟩
    · rw [lines_cons c r hcr, h1, lastLine_cons]
      cases hx : lastLine r with
      | mk l b =>
        rw [hx] at h1 h2
        cases b with
        | true =>
          simp only [true_iff] at h2
          cases ds with
          | nil => simp at h2
          | cons d ds => exact ⟨(c :: d) :: ds, by simp, by simp⟩
        | false =>
          simp only [Bool.false_eq_true, false_iff, Classical.not_not] at h2
          subst h2
          have hr : ∀ (s l : Str), lines s = [l] → s = l := by
            intro s
            induction s with
            | nil => intro l h; simpa [lines] using h
            | cons c s ih =>
              intro l h
              by_cases hcr : c = '\r' ∧ ∃ r', s = '\n' :: r'
              · obtain ⟨rfl, r', rfl⟩ := hcr
                rw [lines] at h
                simp only [List.cons.injEq] at h
                exact absurd h.2 (lines_ne_nil r')
              · rw [lines_cons c s hcr] at h
                cases hl : lines s with
                | nil => exact absurd hl (lines_ne_nil s)
                | cons x xs =>
                  rw [hl] at h
                  simp only [List.cons.injEq] at h
                  rw [h.2] at hl
                  rw [ih x hl, h.1]
          have e := hr r l h1
          subst e
          simp only [List.nil_append]
          rw [lastLine_keep c r hcr]
          exact ⟨[], by simp, by simp⟩

theorem lines_prefix {a : Str} (ha : '\n' ∉ a) (s : Str) : lines (a ++ ':' :: s) =
    match lines s with
    | l :: ls => (a ++ ':' :: l) :: ls
    | [] => [] := by
  cases hl : lines s with
  | nil => exact absurd hl (lines_ne_nil s)
  | cons x xs =>
    simp only
    induction a with
    | nil =>
      rw [List.nil_append, lines_cons, hl]
      · rfl
      · rintro ⟨h, _⟩; exact absurd h (by decide)
    | cons c a ih =>
      simp only [List.mem_cons, not_or] at ha
      rw [List.cons_append, lines_cons, ih ha.2]
      · rfl
      · rintro ⟨_, r', e⟩
        cases a with
        | nil => simp at e
        | cons d a =>
          simp only [List.cons_append, List.cons.injEq] at e
          simp [e.1] at ha

/-- The column that is computed before the signature is inserted. -/
theorem insertion_column {hn before last : Str} {good : Str → Prop} (hlf : '\n' ∉ hn) (ha : byteLen hn = hn.length)
    (h : Laid good (hn ++ ':' :: before) last) :
    (if (lastLine before).2 = true then (lastLine before).1.length
      else byteLen hn + (lastLine before).1.length + 1) = last.length := by
  obtain ⟨done, h1, _⟩ := h
  have h2 := h1.lines
  rw [lines_prefix hlf] at h2
  obtain ⟨ds, h3, h4⟩ := lastLine_lines before
  rw [h3] at h2
  cases ds with
  | nil =>
    rw [if_neg (by simp [h4])]
    simp only [List.nil_append] at h2
    cases done with
    | nil =>
      simp only [List.nil_append, List.cons.injEq, and_true] at h2
      rw [← h2, ha]
      simp
      omega
    | cons d ds => simp at h2
  | cons d ds =>
    rw [if_pos (by simp [h4])]
    simp only [List.cons_append] at h2
    cases done with
    | nil => simp at h2
    | cons d' ds' =>
      simp only [List.cons_append, List.cons.injEq] at h2
      have := List.append_inj' h2.2 rfl
      have := this.2
      simp only [List.cons.injEq, and_true] at this
      rw [this]

/-! ### All tags -/

variable {ix : Idna} {u : UnsignedSig}

/-- The signature has the contents of the data it was formatted from. -/
structure Lay.Of (p : Lay) (u : UnsignedSig) : Prop where
  signed : p.sig.signedHeaders = u.signedHeaders
  copied : p.sig.copiedHeaders = u.copiedHeaders
  ext : p.sig.extTags = u.extTags

theorem Lay.Step.refl (p : Lay) (ex : Bool) (i : Nat) : p.Step ex i [] i :=
  fun _ last h hg hc => ⟨last, by simpa using h, hg, hc⟩

theorem Lay.Step.trans {ex : Bool} {i j k : Nat} {s t : Str} (h1 : p.Step ex i s j) (h2 : p.Step ex j t k) :
    p.Step ex i (s ++ t) k := by
  intro out last h hg hc
  obtain ⟨l1, a1, a2, a3⟩ := h1 out last h hg hc
  obtain ⟨l2, b1, b2, b3⟩ := h2 _ l1 a1 a2 a3
  exact ⟨l2, by simpa using b1, b2, b3⟩

theorem validName_noLf {n : Str} (h : ValidName n) : '\n' ∉ n :=
  fun hm => absurd (h.2 _ hm).1 (by decide)

theorem simple_step (ok : p.Ok) {fmt : Fmt} (hu : p.Uses fmt) {ex : Bool} {i : Nat} {n v : Str}
    (hn : n ∈ [c!"v", c!"a", c!"c", c!"d", c!"i", c!"l", c!"s", c!"t", c!"x"]) (hv : ∀ c ∈ v, valChar c) :
    p.Step ex i (formatTag fmt i n v).1 (formatTag fmt i n v).2 := by
  have hnv : byteLen n = n.length ∧ ∀ c ∈ n ++ ['='], solidChar c := by
    have : ∀ n ∈ [c!"v", c!"a", c!"c", c!"d", c!"i", c!"l", c!"s", c!"t", c!"x"],
        byteLen n = n.length ∧ ∀ c ∈ n ++ ['='], solidChar c := by
      unfold solidChar valChar
      decide
    exact this n hn
  have hs : ∀ c ∈ n ++ '=' :: v, solidChar c := by
    intro c hc
    have e : n ++ '=' :: v = (n ++ ['=']) ++ v := by simp
    rw [e] at hc
    rcases List.mem_append.1 hc with hc | hc
    · exact hnv.2 c hc
    · exact .inl (hv c hc)
  refine formatTag_step ok hu hnv.1 (fun e he => .tag n v e hn (valChars_noSemi hv) (valChars_noLf hv) he)
    (.solids hs) (fun _ hm => solidChar_noLf (hs _ hm) rfl)

theorem formatNamed_step (law : IdnaLaw ix) (hf : SigFine ix u) (ok : p.Ok) (hof : p.Of u) {fmt : Fmt}
    (hu : p.Uses fmt) {ex : Bool} {len : Nat} {st st' : FmtState} {name : Str}
    (h : formatNamed ix u len fmt st name = some st') (hb : name ≠ c!"b")
    (hex : ex = true → ∀ t ∈ u.extTags, t.1 = name → '\n' ∉ t.2) :
    st'.insertion = st.insertion ∧ ∃ t, st'.out = st.out ++ t ∧ p.Step ex st.i t st'.i := by
  have done : ∀ t : Str × Nat, p.Step ex st.i t.1 t.2 → st' = st.push t →
      st'.insertion = st.insertion ∧ ∃ t, st'.out = st.out ++ t ∧ p.Step ex st.i t st'.i := by
    rintro t ht rfl
    exact ⟨rfl, t.1, rfl, ht⟩
  have dom : ∀ {b d v}, ValidDomain b ix d → domainForm ix fmt.ascii d = some v → ∀ c ∈ v, valChar c := by
    intro b d v hd hv c hc
    obtain ⟨p, h1, _, _, h4⟩ := domainForm_fine law hd fmt.ascii
    rw [h1] at hv
    injection hv with hv
    subst hv
    exact (domainChar_valChar (h4 c hc)).1
  have num : ∀ k, ∀ c ∈ natToStr k, valChar c := fun k c hc => digit_valChar ((natToStr_digits k).2 c hc)
  unfold formatNamed at h
  rcases ite_eq_cases h with ⟨e, h⟩ | ⟨na, h⟩
  · injection h with h
    refine done _ (simple_step ok hu (by decide) ?_) h.symm
    cases u.algorithm <;> (unfold SigAlg.canonicalStr valChar; decide)
  rcases ite_eq_cases h with ⟨e, h⟩ | ⟨_, h⟩
  · exact absurd e hb
  rcases ite_eq_cases h with ⟨e, h⟩ | ⟨nbh, h⟩
  · injection h with h
    exact done _ (formatTagBh_step ok hu _) h.symm
  rcases ite_eq_cases h with ⟨e, h⟩ | ⟨nc, h⟩
  · injection h with h
    refine done _ ?_ h.symm
    unfold formatTagC
    split
    · exact .refl p ex st.i
    · exact simple_step ok hu (by decide) (by unfold valChar; decide)
    · exact simple_step ok hu (by decide) (by unfold valChar; decide)
    · exact simple_step ok hu (by decide) (by unfold valChar; decide)
  rcases ite_eq_cases h with ⟨e, h⟩ | ⟨nd, h⟩
  · obtain ⟨t, h1, h2⟩ := push_some h
    obtain ⟨v, h3, rfl⟩ := Option.map_eq_some_iff.1 h1
    exact done _ (simple_step ok hu (by decide) (dom hf.domain h3)) h2
  rcases ite_eq_cases h with ⟨e, h⟩ | ⟨nh, h⟩
  · obtain ⟨t, h1, h2⟩ := push_some h
    exact done _ (formatTagH_step ok hu (fun n hn => ⟨hof.signed ▸ hn, validName_noLf (hf.headers n hn).1⟩) h1) h2
  rcases ite_eq_cases h with ⟨e, h⟩ | ⟨ni, h⟩
  · obtain ⟨t, h1, h2⟩ := push_some h
    obtain ⟨v, h3, rfl⟩ := Option.map_eq_some_iff.1 h1
    obtain ⟨idn, h4, h5⟩ := Option.bind_eq_some_iff.1 h3
    refine done _ (simple_step ok hu (by decide) ?_) h2
    obtain ⟨q, q1, _, _, q4⟩ := domainForm_fine law (hf.identity idn h4) fmt.ascii
    unfold identityForm at h5
    rw [q1] at h5
    injection h5 with h5
    subst h5
    intro c hc
    rcases List.mem_append.1 hc with hc | hc
    · cases hl : idn.localPart with
      | none => rw [hl] at hc; cases hc
      | some l => rw [hl] at hc; exact qpEncode_valChars _ _ _ c hc
    · rcases List.mem_cons.1 hc with rfl | hc
      · exact at_valChar
      · exact (domainChar_valChar (q4 c hc)).1
  rcases ite_eq_cases h with ⟨e, h⟩ | ⟨nl, h⟩
  · obtain ⟨t, h1, h2⟩ := push_some h
    obtain ⟨v, h3, rfl⟩ := Option.map_eq_some_iff.1 h1
    exact done _ (simple_step ok hu (by decide) (num v)) h2
  rcases ite_eq_cases h with ⟨e, h⟩ | ⟨ns, h⟩
  · obtain ⟨t, h1, h2⟩ := push_some h
    obtain ⟨v, h3, rfl⟩ := Option.map_eq_some_iff.1 h1
    exact done _ (simple_step ok hu (by decide) (dom hf.selector h3)) h2
  rcases ite_eq_cases h with ⟨e, h⟩ | ⟨nt, h⟩
  · obtain ⟨t, h1, h2⟩ := push_some h
    obtain ⟨v, h3, rfl⟩ := Option.map_eq_some_iff.1 h1
    exact done _ (simple_step ok hu (by decide) (num v)) h2
  rcases ite_eq_cases h with ⟨e, h⟩ | ⟨nv, h⟩
  · injection h with h
    exact done _ (simple_step ok hu (by decide) (by unfold valChar; decide)) h.symm
  rcases ite_eq_cases h with ⟨e, h⟩ | ⟨nx, h⟩
  · obtain ⟨t, h1, h2⟩ := push_some h
    obtain ⟨v, h3, rfl⟩ := Option.map_eq_some_iff.1 h1
    exact done _ (simple_step ok hu (by decide) (num v)) h2
  rcases ite_eq_cases h with ⟨e, h⟩ | ⟨nz, h⟩
  · obtain ⟨t, h1, h2⟩ := push_some h
    refine done _ (formatTagZ_step ok hu (fun x hx => ⟨?_, validName_noLf (hf.copied x hx).1⟩) h1) h2
    rw [hof.copied]
    exact List.mem_map_of_mem hx
  · obtain ⟨t, h1, h2⟩ := push_some h
    obtain ⟨x, h3, rfl⟩ := Option.map_eq_some_iff.1 h1
    obtain ⟨tn, tv⟩ := x
    have e : tn = name := by
      have := List.find?_some h3
      simpa using this
    subst e
    have hmem := List.mem_of_find?_eq_some h3
    obtain ⟨g1, g2, _⟩ := hf.ext _ hmem
    have hsolid : ∀ c ∈ tn ++ ['='], solidChar c := by
      obtain ⟨c, r, e, k1, k2⟩ := tagName_solid g1
      simp only at e
      subst e
      intro d hd
      simp only [List.cons_append, List.mem_cons, List.mem_append, List.not_mem_nil, or_false] at hd
      rcases hd with rfl | hd | rfl
      · exact k1
      · exact k2 d hd
      · exact .inl (.inl (by decide))
    have hfold : FoldedText (tn ++ '=' :: tv) := by
      have h5 : FoldedText tv := by
        rcases g2 with e | g2
        · simp only at e
          subst e
          exact .nil
        · obtain ⟨c, r, e, k1, k2⟩ := someValue_folded g2
          simp only at e
          subst e
          exact .solid c r k1 k2
      have := (FoldedText.solids hsolid).append h5
      simpa using this
    refine done _ (formatTag_step ok hu (ascii_tagName g1) (fun e he => .ext tn tv e (hof.ext ▸ hmem) he) hfold ?_) h2
    intro ht hm
    have e : tn ++ '=' :: tv = (tn ++ ['=']) ++ tv := by simp
    rw [e] at hm
    rcases List.mem_append.1 hm with hm | hm
    · exact solidChar_noLf (hsolid _ hm) rfl
    · exact hex ht _ hmem rfl hm

theorem formatLoop_step (law : IdnaLaw ix) (hf : SigFine ix u) (ok : p.Ok) (hof : p.Of u) {len : Nat}
    {ascii : Bool} (names : List Str) {st st' : FmtState}
    (h : formatLoop ix u len p.width p.indent ascii st names = some st') (hb : c!"b" ∉ names) :
    st'.insertion = st.insertion ∧ ∃ t, st'.out = st.out ++ t ∧ p.Step false st.i t st'.i := by
  induction names generalizing st with
  | nil =>
    injection h with h
    subst h
    exact ⟨rfl, [], by simp, .refl _ _ _⟩
  | cons n ns ih =>
    rw [formatLoop] at h
    split at h
    · cases h
    · next st1 e =>
      obtain ⟨h1, t1, h2, h3⟩ := formatNamed_step (ex := false) law hf ok hof ⟨rfl, rfl⟩ e
        (fun e => hb (by simp [e])) (fun e => absurd e (by decide))
      obtain ⟨g1, t2, g2, g3⟩ := ih h (fun e => hb (List.mem_cons_of_mem _ e))
      exact ⟨by rw [g1, h1], t1 ++ t2, by rw [g2, h2]; simp, h3.trans g3⟩

/-- The lines of the formatted text with text inserted as the value of `b=`. -/
theorem formatLoop_lines (law : IdnaLaw ix) (hf : SigFine ix u) (ok : p.Ok) (hof : p.Of u)
    {ascii : Bool} {s : Str} (hs : '\n' ∉ s) (names : List Str) {st st' : FmtState}
    (h : formatLoop ix u s.length p.width p.indent ascii st names = some st') (hn : names.Nodup)
    (hb : c!"b" ∈ names)
    (hext : ∀ ns1 ns2, names = ns1 ++ c!"b" :: ns2 → ∀ t ∈ u.extTags, t.1 ∈ ns1 → '\n' ∉ t.2)
    {pre last : Str} (hl : Laid p.good (pre ++ st.out) last) (hg : p.good last) (hc : Cur true last.length st.i) :
    ∃ before after, st'.out = before ++ after ∧ st'.insertion = some (byteLen before) ∧
      ∃ lastb, Laid p.good (pre ++ before) lastb ∧
        ∃ last', Laid p.good (pre ++ (before ++ (formatChunks ⟨p.width, p.indent, false, false⟩ lastb.length s).1 ++
          after)) last' ∧ p.good last' := by
  induction names generalizing st last with
  | nil => cases hb
  | cons n ns ih =>
    rw [formatLoop] at h
    rw [List.nodup_cons] at hn
    by_cases e : n = c!"b"
    · subst e
      have hu : p.Uses ⟨p.width, p.indent, ns.isEmpty, ascii⟩ := ⟨rfl, rfl⟩
      obtain ⟨l1, h1, g1, c1⟩ := start_step ok hu (n := c!"b") (by decide) hl hg hc
      have e1 := c1.2 rfl
      obtain ⟨l2, h2, g2, c2⟩ := formatChunks_step ok (fmt := ⟨p.width, p.indent, ns.isEmpty, ascii⟩) hu
        _ s hs h1 g1 c1
      obtain ⟨l3, h3, g3, c3⟩ := end_step (fmt := ⟨p.width, p.indent, ns.isEmpty, ascii⟩) h2 g2 c2
      rw [formatChunks_cursor] at c3
      have hnamed : formatNamed ix u s.length ⟨p.width, p.indent, ns.isEmpty, ascii⟩ st c!"b" =
          some ⟨st.out ++ ((advanceInitial ⟨p.width, p.indent, ns.isEmpty, ascii⟩ st.i 3).1 ++ c!"b=") ++
              endTag ⟨p.width, p.indent, ns.isEmpty, ascii⟩,
            if ns.isEmpty then cursorAfterB ⟨p.width, p.indent, ns.isEmpty, ascii⟩
              ((advanceInitial ⟨p.width, p.indent, ns.isEmpty, ascii⟩ st.i 3).2 - 1) s.length
            else cursorAfterB ⟨p.width, p.indent, ns.isEmpty, ascii⟩
              ((advanceInitial ⟨p.width, p.indent, ns.isEmpty, ascii⟩ st.i 3).2 - 1) s.length + 1,
            some (byteLen (st.out ++ ((advanceInitial ⟨p.width, p.indent, ns.isEmpty, ascii⟩ st.i 3).1 ++ c!"b=")))⟩ :=
        rfl
      rw [hnamed] at h
      simp only at h
      obtain ⟨k1, t, k2, k3⟩ := formatLoop_step law hf ok hof ns h hn.1
      obtain ⟨l4, h4, g4, _⟩ := k3 _ l3 h3 g3 ⟨c3.1, fun e => absurd e (by decide)⟩
      refine ⟨st.out ++ ((advanceInitial ⟨p.width, p.indent, ns.isEmpty, ascii⟩ st.i 3).1 ++ c!"b="),
        endTag ⟨p.width, p.indent, ns.isEmpty, ascii⟩ ++ t, ?_, k1, l1, by simpa using h1, l4, ?_, g4⟩
      · rw [k2]; simp
      · have e2 : ∀ j, formatChunks ⟨p.width, p.indent, false, false⟩ j s =
            formatChunks ⟨p.width, p.indent, ns.isEmpty, ascii⟩ j s := by
          intro j
          have loop : ∀ w m i s, chunksLoop ⟨p.width, p.indent, false, false⟩ w m i s =
              chunksLoop ⟨p.width, p.indent, ns.isEmpty, ascii⟩ w m i s := by
            intro w m
            induction m with
            | zero => intro i s; rfl
            | succ m ih =>
              intro i s
              simp only [chunksLoop, ih, lineBreak]
          unfold formatChunks
          simp only [loop]
        rw [e2, e1]
        simpa using h4
    · split at h
      · cases h
      · next st1 e1 =>
        obtain ⟨h1, t, h2, h3⟩ := formatNamed_step (ex := true) law hf ok hof ⟨rfl, rfl⟩ e1 e (by
          intro _ x hx ex
          obtain ⟨a, b, hab⟩ := List.append_of_mem hb
          cases a with
          | nil =>
            simp only [List.nil_append, List.cons.injEq] at hab
            exact absurd hab.1 e
          | cons m a =>
            simp only [List.cons_append, List.cons.injEq] at hab
            refine hext (m :: a) b (by simp [hab]) x hx ?_
            rw [ex, hab.1]
            simp)
        have hb' : c!"b" ∈ ns := by
          rcases List.mem_cons.1 hb with h | h
          · exact absurd h.symm e
          · exact h
        obtain ⟨l1, k1, k2, k3⟩ := h3 _ last hl hg hc
        exact ih h hn.2 hb' (fun ns1 ns2 e2 x hx hx2 => hext (n :: ns1) ns2 (by simp [e2]) x hx (by simp [hx2]))
          (by rw [h2]; simpa using k1) k2 k3

end Dkim
