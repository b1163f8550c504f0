import Verif.Proofs.LineWidth

/-!
# A bound for all lines of the produced header: helper lemmas for C49
-/

namespace Dkim

open Spec

/-! ## Lines of text behind other text -/

theorem lines_ne (s : Str) : lines s ≠ [] := by
  fun_induction lines s <;> simp

theorem lines_front {a s : Str} (ha : '\r' ∉ a) {l : Str} {ls : List Str} (h : lines s = l :: ls) :
    lines (a ++ s) = (a ++ l) :: ls := by
  induction a with
  | nil => simpa using h
  | cons c a ih =>
    simp only [List.mem_cons, not_or] at ha
    rw [List.cons_append, lines_cons _ _ (fun e => ha.1 e.1.symm), ih ha.2]
    rfl

theorem Split.lines_append {out last s l : Str} {done ls : List Str} (h : Split out done last)
    (hs : ∀ r, s ≠ '\n' :: r) (hl : Spec.lines s = l :: ls) : Spec.lines (out ++ s) = done ++ (last ++ l) :: ls := by
  obtain ⟨rfl, h1, h2⟩ := h
  induction done with
  | nil =>
    simp only [List.flatMap_nil, List.nil_append]
    clear h1
    induction last with
    | nil => simpa using hl
    | cons c a ih =>
      simp only [List.mem_cons, not_or] at h2
      rw [List.cons_append, lines_cons, ih h2.2]
      · rfl
      · rintro ⟨_, r, e⟩
        cases a with
        | nil => exact hs r e
        | cons d a =>
          simp only [List.cons_append, List.cons.injEq] at e
          simp [e.1] at h2
  | cons d ds ih =>
    have := ih (fun l hl => h1 l (by simp [hl]))
    simp only [List.flatMap_cons, List.append_assoc, List.cons_append, List.nil_append] at this ⊢
    rw [lines_line (h1 d (by simp)), this]

/-- A line that begins with white space. -/
def BeginsBlank (l : Str) : Prop := ∃ w r, wsp w ∧ l = w :: r

theorem FoldedText.lines_tail {s : Str} (h : FoldedText s) : ∃ l ls, lines s = l :: ls ∧ ∀ x ∈ ls, BeginsBlank x := by
  induction h with
  | nil => exact ⟨[], [], rfl, by simp⟩
  | solid c s hc _ ih =>
    obtain ⟨l, ls, h1, h2⟩ := ih
    by_cases hcr : c = '\r' ∧ ∃ r', s = '\n' :: r'
    · obtain ⟨rfl, _⟩ := hcr
      rcases hc with hc | hc
      · exact absurd hc (by unfold valChar; decide)
      · exact absurd hc (by decide)
    · exact ⟨c :: l, ls, by rw [lines_cons _ _ hcr, h1], h2⟩
  | space c s hc _ ih =>
    obtain ⟨l, ls, h1, h2⟩ := ih
    have hcr : c ≠ '\r' := by
      rintro rfl
      exact absurd hc (by unfold wsp; decide)
    exact ⟨c :: l, ls, by rw [lines_cons _ _ (fun e => hcr e.1), h1], h2⟩
  | fold w c s hne hw hc _ ih =>
    obtain ⟨l, ls, h1, h2⟩ := ih
    have hcr : '\r' ∉ w ++ [c] := by
      simp only [List.mem_append, List.mem_singleton, not_or]
      constructor
      · intro hm
        exact absurd (hw _ hm) (by unfold wsp; decide)
      · rintro rfl
        rcases hc with hc | hc
        · exact absurd hc (by unfold valChar; decide)
        · exact absurd hc (by decide)
    have e : lines (w ++ c :: s) = (w ++ [c] ++ l) :: ls := by
      have := lines_front hcr h1
      simpa using this
    refine ⟨[], (w ++ [c] ++ l) :: ls, by rw [lines, e], ?_⟩
    intro x hx
    rcases List.mem_cons.1 hx with rfl | hx
    · cases w with
      | nil => exact absurd rfl hne
      | cons d w => exact ⟨d, _, hw d (by simp), rfl⟩
    · exact h2 x hx

variable {p : Lay} {ix : Idna} {u : UnsignedSig}

/-- The lines of an extension tag. -/
theorem ext_folded (hf : SigFine ix u) {n v : Str} (h : (n, v) ∈ u.extTags) : FoldedText (n ++ '=' :: v) := by
  obtain ⟨g1, g2, _⟩ := hf.ext _ h
  have hsolid : ∀ c ∈ n ++ ['='], solidChar c := by
    obtain ⟨c, r, e, k1, k2⟩ := tagName_solid g1
    simp only at e
    subst e
    intro d hd
    simp only [List.cons_append, List.mem_cons, List.mem_append, List.not_mem_nil, or_false] at hd
    rcases hd with rfl | hd | rfl
    · exact k1
    · exact k2 d hd
    · exact .inl (.inl (by decide))
  have h5 : FoldedText v := by
    rcases g2 with e | g2
    · simp only at e
      subst e
      exact .nil
    · obtain ⟨c, r, e, k1, k2⟩ := someValue_folded g2
      simp only at e
      subst e
      exact .solid c r k1 k2
  have := (FoldedText.solids hsolid).append h5
  simpa using this

/-- Each line of an item with indentation begins with white space. -/
theorem item_blank (hf : SigFine ix u) (hof : p.Of u) (hi : GoodIndent p.indent) {t : Str} (h : Item p.sig t) :
    ∀ x ∈ lines (p.indent ++ t), BeginsBlank x := by
  have hcr : '\r' ∉ p.indent := fun hm => absurd (hi.2 _ hm) (by unfold wsp; decide)
  have key : ∀ l ls, lines t = l :: ls → (∀ x ∈ ls, BeginsBlank x) → ∀ x ∈ lines (p.indent ++ t), BeginsBlank x := by
    intro l ls h1 h2 x hx
    rw [lines_front hcr h1] at hx
    rcases List.mem_cons.1 hx with rfl | hx
    · obtain ⟨e, hw⟩ := hi
      cases hp : p.indent with
      | nil => exact absurd hp e
      | cons d w => exact ⟨d, w ++ l, by have := hw d (by rw [hp]; simp); exact this, rfl⟩
    · exact h2 x hx
  have one : '\n' ∉ t → ∀ x ∈ lines (p.indent ++ t), BeginsBlank x :=
    fun hn => key t [] (lines_noLf hn) (by simp)
  cases h with
  | tag n v e hn hv hlf he =>
    have hnn : '\n' ∉ n := by
      clear key one
      revert n
      decide
    refine one ?_
    simp only [List.mem_append, List.mem_cons, not_or]
    exact ⟨⟨hnn, by decide, hlf⟩, tagEnd_noLf he⟩
  | ext n v e hm he =>
    have h1 := ext_folded hf (hof.ext ▸ hm)
    have h2 : FoldedText e := by
      rcases he with rfl | rfl
      · exact .nil
      · exact .solid _ _ (.inr rfl) .nil
    obtain ⟨l, ls, h3, h4⟩ := (h1.append h2).lines_tail
    exact key l ls h3 h4
  | name q n e hq hm he =>
    have h1 := validName_noLf (hf.headers n (hof.signed ▸ hm)).1
    have a1 : '\n' ∉ e := by
      rcases he with he | rfl
      · exact tagEnd_noLf he
      · decide
    have a2 : '\n' ∉ q := by rcases hq with rfl | rfl <;> decide
    refine one ?_
    simp only [List.mem_append, not_or]
    exact ⟨⟨a2, h1⟩, a1⟩
  | copied q n e hq hm he =>
    rw [hof.copied] at hm
    obtain ⟨f, hf1, rfl⟩ := List.mem_map.1 hm
    have h1 := validName_noLf (hf.copied f hf1).1
    have a2 : '\n' ∉ q := by rcases hq with rfl | rfl <;> decide
    refine one ?_
    simp only [List.mem_append, List.mem_cons, not_or]
    exact ⟨⟨a2, h1⟩, by decide, tagEnd_noLf he⟩
  | start n e hn he =>
    have hnn : '\n' ∉ n := by
      clear key one
      revert n
      decide
    refine one ?_
    simp only [List.mem_append, List.mem_cons, not_or]
    exact ⟨hnn, by decide, tagEnd_noLf he⟩
  | char c e he =>
    by_cases hc : c = '\n'
    · subst hc
      rcases he with rfl | rfl
      · exact key ['\n'] [] (by decide) (by simp)
      · exact key ['\n', ';'] [] (by decide) (by simp)
    · refine one ?_
      simp only [List.mem_cons, not_or]
      exact ⟨fun e => hc e.symm, tagEnd_noLf he⟩

/-! ## The cursor -/

theorem chunksLoop_cursor_le (fmt : Fmt) (n i : Nat) (s : Str) {k : Nat} (hi : i ≤ k)
    (hk : byteLen fmt.indent + max (fmt.width - byteLen fmt.indent) 1 ≤ k) :
    (chunksLoop fmt (max (fmt.width - byteLen fmt.indent) 1) n i s).2 ≤ k := by
  induction n generalizing i s with
  | zero => exact hi
  | succ n ih =>
    rw [chunksLoop]
    split
    · exact hi
    · refine ih _ _ ?_
      have := List.length_take (l := s) (i := max (fmt.width - byteLen fmt.indent) 1)
      omega

theorem formatChunks_cursor_le (fmt : Fmt) (i : Nat) (s : Str) {k : Nat} (hi : i ≤ k) (hw : fmt.width ≤ k)
    (hk : byteLen fmt.indent + 1 ≤ k) : (formatChunks fmt i s).2 ≤ k := by
  unfold formatChunks
  simp only
  refine chunksLoop_cursor_le _ _ _ _ ?_ (by omega)
  rw [List.length_take]
  omega

/-- The longest line. -/
def Lay.most (p : Lay) : Nat := max p.width (p.indent.length + 2) + p.width + 1

/-- Text continued with a cursor that may be too small. -/
theorem continued (hf : SigFine ix u) (hof : p.Of u) (hi : GoodIndent p.indent) (hn : ValidName p.headerName)
    {i j : Nat} {t : Str} (hstep : p.Step false i t j) (hpos : 1 ≤ i) {out last : Str} {done : List Str}
    (h : Split out done last)
    (hlast : last.length ≤ max p.width (p.indent.length + 2) + 1) (ht : ∀ r, t ≠ '\n' :: r) :
    ∃ l ls, lines t = l :: ls ∧ lines (out ++ t) = done ++ (last ++ l) :: ls ∧ (∀ x ∈ ls, p.good x) ∧
      (last ++ l).length ≤ p.most := by
  obtain ⟨last', ⟨done', h1, h2⟩, h3, _⟩ := hstep [':'] [':'] ⟨[], .single (by decide), by simp⟩
    (Lay.short (by simp)) ⟨by simpa using hpos, fun e => absurd e (by decide)⟩
  have hall : ∀ line ∈ lines (':' :: t), p.good line := by
    intro line hl
    have e : ':' :: t = [':'] ++ t := rfl
    rw [e, h1.lines] at hl
    rcases List.mem_append.1 hl with hl | hl
    · exact h2 line hl
    · simp only [List.mem_singleton] at hl
      exact hl ▸ h3
  obtain ⟨l, ls, hl⟩ := List.exists_cons_of_ne_nil (lines_ne t)
  have h5 : lines (':' :: t) = (':' :: l) :: ls := lines_front (a := [':']) (by decide) hl
  rw [h5] at hall
  refine ⟨l, ls, hl, h.lines_append ht hl, fun x hx => hall x (by simp [hx]), ?_⟩
  have := hall (':' :: l) (by simp)
  rcases this with h | h | ⟨item, h6, h7⟩
  · simp only [List.length_cons] at h
    simp only [List.length_append, Lay.most]
    omega
  · cases hh : p.headerName with
    | nil => exact absurd hh hn.1
    | cons c r =>
      rw [hh] at h
      simp only [List.cons_append, List.cons.injEq] at h
      have := (hn.2 c (by rw [hh]; simp)).2.2
      exact absurd h.1.symm (by simpa using this)
  · obtain ⟨w, r, hw, e⟩ := item_blank hf hof hi h6 _ h7
    simp only [List.cons.injEq] at e
    rw [← e.1] at hw
    exact absurd hw (by unfold wsp; decide)

/-- As `formatLoop_lines`, for all extension tags: only the line in which the value of `b=` ends
may be too long. -/
theorem formatLoop_bound (law : IdnaLaw ix) (hf : SigFine ix u) (ok : p.Ok) (hof : p.Of u)
    (hi : GoodIndent p.indent) (hn : ValidName p.headerName)
    {ascii : Bool} {s : Str} (hs : '\n' ∉ s) (names : List Str) {st st' : FmtState}
    (h : formatLoop ix u s.length p.width p.indent ascii st names = some st') (hnd : names.Nodup)
    (hb : c!"b" ∈ names)
    {pre last : Str} (hl : Laid p.good (pre ++ st.out) last) (hg : p.good last) (hc : Cur false last.length st.i) :
    ∃ before after, st'.out = before ++ after ∧ st'.insertion = some (byteLen before) ∧
      ∃ lastb, Laid p.good (pre ++ before) lastb ∧ ∃ ls1 w l ls2,
        lines (pre ++ (before ++ (formatChunks ⟨p.width, p.indent, false, false⟩ lastb.length s).1)) = ls1 ++ [w] ∧
        lines after = l :: ls2 ∧
        lines (pre ++ (before ++ (formatChunks ⟨p.width, p.indent, false, false⟩ lastb.length s).1 ++ after)) =
          ls1 ++ (w ++ l) :: ls2 ∧
        (∀ x ∈ ls1 ++ ls2, p.good x) ∧ (p.good (w ++ l) ∨ (w ++ l).length ≤ p.most) := by
  induction names generalizing st last with
  | nil => cases hb
  | cons n ns ih =>
    rw [formatLoop] at h
    rw [List.nodup_cons] at hnd
    by_cases e : n = c!"b"
    · subst e
      have hu : p.Uses ⟨p.width, p.indent, ns.isEmpty, ascii⟩ := ⟨rfl, rfl⟩
      obtain ⟨l1, h1, g1, c1⟩ := start_step ok hu (n := c!"b") (by decide) hl hg hc
      have b1 : l1.length ≤ max p.width (p.indent.length + 2) := by
        have := c1.1
        unfold advanceInitial at this
        have ha := ok.ascii
        simp only [List.length_cons, List.length_nil] at this
        split at this
        · simp only at this; omega
        · simp only at this; omega
      obtain ⟨l2, h2, g2, c2⟩ := formatChunks_step ok (fmt := ⟨p.width, p.indent, ns.isEmpty, ascii⟩) hu
        (ex := true) l1.length s hs h1 g1 ⟨Nat.le_refl _, fun _ => rfl⟩
      have b2 : l2.length ≤ max p.width (p.indent.length + 2) := by
        refine Nat.le_trans c2.1 (formatChunks_cursor_le _ _ _ b1 (by simp only; omega) ?_)
        have := ok.ascii
        simp only; omega
      have hnamed : formatNamed ix u s.length ⟨p.width, p.indent, ns.isEmpty, ascii⟩ st c!"b" =
          some ⟨st.out ++ ((advanceInitial ⟨p.width, p.indent, ns.isEmpty, ascii⟩ st.i 3).1 ++ c!"b=") ++
              endTag ⟨p.width, p.indent, ns.isEmpty, ascii⟩,
            if ns.isEmpty then cursorAfterB ⟨p.width, p.indent, ns.isEmpty, ascii⟩
              ((advanceInitial ⟨p.width, p.indent, ns.isEmpty, ascii⟩ st.i 3).2 - 1) s.length
            else cursorAfterB ⟨p.width, p.indent, ns.isEmpty, ascii⟩
              ((advanceInitial ⟨p.width, p.indent, ns.isEmpty, ascii⟩ st.i 3).2 - 1) s.length + 1,
            some (byteLen (st.out ++ ((advanceInitial ⟨p.width, p.indent, ns.isEmpty, ascii⟩ st.i 3).1 ++ c!"b=")))⟩ :=
        rfl
      rw [hnamed] at h
      simp only at h
      obtain ⟨k1, t, k2, k3⟩ := formatLoop_step law hf ok hof ns h hnd.1
      refine ⟨st.out ++ ((advanceInitial ⟨p.width, p.indent, ns.isEmpty, ascii⟩ st.i 3).1 ++ c!"b="),
        endTag ⟨p.width, p.indent, ns.isEmpty, ascii⟩ ++ t, ?_, k1, l1, by simpa using h1, ?_⟩
      · rw [k2]; simp
      · have e2 : ∀ j, formatChunks ⟨p.width, p.indent, false, false⟩ j s =
            formatChunks ⟨p.width, p.indent, ns.isEmpty, ascii⟩ j s := by
          intro j
          have loop : ∀ w m i s, chunksLoop ⟨p.width, p.indent, false, false⟩ w m i s =
              chunksLoop ⟨p.width, p.indent, ns.isEmpty, ascii⟩ w m i s := by
            intro w m
            induction m with
            | zero => intro i s; rfl
            | succ m ih =>
              intro i s
              simp only [chunksLoop, ih, lineBreak]
          unfold formatChunks
          simp only [loop]
        rw [e2]
        obtain ⟨done, d1, d2⟩ := h2
        have d3 : lines (pre ++ (st.out ++ ((advanceInitial ⟨p.width, p.indent, ns.isEmpty, ascii⟩ st.i 3).1 ++
            c!"b=") ++ (formatChunks ⟨p.width, p.indent, ns.isEmpty, ascii⟩ l1.length s).1)) = done ++ [l2] := by
          have := d1.lines
          simpa using this
        have hempty : ns = [] → t = [] := by
          intro hns
          subst hns
          simp only [formatLoop, Option.some.injEq] at h
          rw [← h] at k2
          simpa using k2
        by_cases hns : ns = []
        · have he : endTag ⟨p.width, p.indent, ns.isEmpty, ascii⟩ ++ t = [] := by
            rw [hempty hns, hns]
            rfl
          rw [he, List.append_nil]
          refine ⟨done, l2, [], [], d3, rfl, by simpa using d3, by simpa using d2, .inl ?_⟩
          rw [List.append_nil]
          exact g2.self
        · have hne : ns.isEmpty = false := by cases ns <;> simp_all
          have he : endTag ⟨p.width, p.indent, ns.isEmpty, ascii⟩ = [';'] := by rw [hne]; rfl
          have d4 := d1.append (Split.single (l := [';']) (by decide))
          simp only [joinDone, joinLast, List.append_nil] at d4
          obtain ⟨l, ls, q1, q2, q3, q4⟩ := continued hf hof hi hn k3 (by rw [hne]; simp) d4 (by simp; omega) (by
            rintro r rfl
            have := k3 [] [] ⟨[], .single (by simp), by simp⟩ (Lay.short (by simp)) ⟨by simp, fun e => absurd e (by decide)⟩
            obtain ⟨last', ⟨done', q, _⟩, _⟩ := this
            obtain ⟨q1, q2, q3⟩ := q
            cases done' with
            | nil =>
              simp only [List.flatMap_nil, List.nil_append] at q1
              rw [← q1] at q3
              simp at q3
            | cons d ds =>
              have hd := q2 d (by simp)
              cases d with
              | nil => simp at q1
              | cons c d =>
                simp only [List.flatMap_cons, List.cons_append, List.nil_append, List.cons.injEq] at q1
                rw [← q1.1] at hd
                simp at hd)
          refine ⟨done, l2, ';' :: l, ls, d3, ?_, ?_, ?_, .inr (by simpa using q4)⟩
          · rw [he]
            exact lines_front (a := [';']) (by decide) q1
          · rw [he]
            simpa using q2
          · intro x hx
            rcases List.mem_append.1 hx with hx | hx
            · exact d2 x hx
            · exact q3 x hx
    · split at h
      · cases h
      · next st1 e1 =>
        obtain ⟨h1, t, h2, h3⟩ := formatNamed_step (ex := false) law hf ok hof ⟨rfl, rfl⟩ e1 e (by
          intro hx; exact absurd hx (by decide))
        have hb' : c!"b" ∈ ns := by
          rcases List.mem_cons.1 hb with h | h
          · exact absurd h.symm e
          · exact h
        obtain ⟨l1, k1, k2, k3⟩ := h3 _ last hl hg hc
        exact ih h hnd.2 hb' (by rw [h2]; simpa using k1) k2 k3

end Dkim
