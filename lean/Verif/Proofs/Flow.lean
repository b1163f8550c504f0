import Verif.Spec.Flow
import Verif.Proofs.LineWidth
import Verif.Proofs.Written

/-!
# The lines of the produced header are filled: helper lemmas for C93
-/

namespace Dkim

open Spec

/-- The column after words. -/
def flowCol (width : Nat) (indent : Str) : Nat → List Word → Nat
  | col, [] => col
  | col, w :: ws =>
    if col + w.lead.length + w.need ≤ width then flowCol width indent (col + w.lead.length + w.text.length) ws
    else flowCol width indent (indent.length + w.text.length) ws

variable {width : Nat} {indent : Str}

theorem flow_append (col : Nat) (a b : List Word) :
    flow width indent col (a ++ b) = flow width indent col a ++ flow width indent (flowCol width indent col a) b ∧
      flowCol width indent col (a ++ b) = flowCol width indent (flowCol width indent col a) b := by
  induction a generalizing col with
  | nil => exact ⟨rfl, rfl⟩
  | cons w a ih =>
    simp only [List.cons_append, flow, flowCol]
    split
    · rw [(ih _).1, (ih _).2]; simp
    · rw [(ih _).1, (ih _).2]; simp

theorem flow_attach (e : Str) (col : Nat) (ws : List Word) (h : ws ≠ []) :
    flow width indent col (attach e ws) = flow width indent col ws ++ e ∧
      flowCol width indent col (attach e ws) = flowCol width indent col ws + e.length := by
  induction ws generalizing col with
  | nil => exact absurd rfl h
  | cons w ws ih =>
    cases ws with
    | nil =>
      have hl : (Word.mk w.space (w.text ++ e) w.need).lead = w.lead := rfl
      simp only [attach, flow, flowCol, hl]
      split
      · simp [Nat.add_assoc]
      · simp [Nat.add_assoc]
    | cons w2 ws =>
      have ih := fun col => ih col (by simp)
      simp only [attach] at ih ⊢
      simp only [flow, flowCol] at ih ⊢
      split
      · rw [(ih _).1, (ih _).2]; simp
      · rw [(ih _).1, (ih _).2]; simp

theorem loose_append (a b : Str) : loose (a ++ b) = loose a ++ loose b := by simp [loose]

theorem flow_loose_fit (col : Nat) (s : Str) (h : s.length ≤ width - col) :
    flow width indent col (loose s) = s ∧ flowCol width indent col (loose s) = col + s.length := by
  induction s generalizing col with
  | nil => exact ⟨rfl, rfl⟩
  | cons c s ih =>
    simp only [List.length_cons] at h
    simp only [loose, List.map_cons, flow, flowCol, Word.lead, Bool.false_eq_true, if_false, List.length_nil,
      Nat.add_zero, List.length_singleton]
    rw [if_pos (by omega), if_pos (by omega)]
    have := ih (col + 1) (by omega)
    simp only [loose] at this
    rw [this.1, this.2]
    simp only [List.nil_append, List.cons_append, List.length_cons, true_and]
    omega

theorem flow_loose_take (col : Nat) (s : Str) :
    flow width indent col (loose s) = s.take (width - col) ++
        flow width indent (col + (s.take (width - col)).length) (loose (s.drop (width - col))) ∧
      flowCol width indent col (loose s) =
        flowCol width indent (col + (s.take (width - col)).length) (loose (s.drop (width - col))) := by
  have h := flow_loose_fit (width := width) (indent := indent) col (s.take (width - col)) (by simp; omega)
  have e : loose s = loose (s.take (width - col)) ++ loose (s.drop (width - col)) := by
    rw [← loose_append, List.take_append_drop]
  rw [e, (flow_append _ _ _).1, (flow_append _ _ _).2, h.1, h.2]
  exact ⟨rfl, rfl⟩

theorem chunksLoop_flow (fmt : Fmt) (hi : byteLen fmt.indent = fmt.indent.length) (n i : Nat) (s : Str)
    (hn : s.length ≤ n) (hs : s = [] ∨ fmt.width ≤ i) :
    chunksLoop fmt (max (fmt.width - byteLen fmt.indent) 1) n i s =
      (flow fmt.width fmt.indent i (loose s), flowCol fmt.width fmt.indent i (loose s)) := by
  induction n generalizing i s with
  | zero =>
    have : s = [] := List.length_eq_zero_iff.1 (by omega)
    subst this
    rfl
  | succ n ih =>
    cases s with
    | nil => rfl
    | cons c r =>
      have hw : fmt.width ≤ i := by
        rcases hs with hs | hs
        · cases hs
        · exact hs
      rw [chunksLoop]
      simp only [List.isEmpty_cons, Bool.false_eq_true, if_false]
      rw [hi] at ih ⊢
      obtain ⟨k, hk⟩ : ∃ k, max (fmt.width - fmt.indent.length) 1 = k + 1 := ⟨max (fmt.width - fmt.indent.length) 1 - 1, by omega⟩
      have hk2 : k = fmt.width - (fmt.indent.length + 1) := by omega
      rw [hk] at ih ⊢
      simp only [List.take_succ_cons, List.drop_succ_cons, List.length_cons] at hn ⊢
      rw [ih _ _ (by simp; omega) (by
        by_cases hd : r.drop k = []
        · exact .inl hd
        · refine .inr ?_
          have : k < r.length := by
            rw [List.drop_eq_nil_iff] at hd
            omega
          rw [List.length_take, Nat.min_eq_left (by omega)]
          omega)]
      have ht := flow_loose_take (width := fmt.width) (indent := fmt.indent) (fmt.indent.length + 1) r
      rw [← hk2] at ht
      have e : (r.take k).length + 1 + fmt.indent.length = fmt.indent.length + 1 + (r.take k).length := by omega
      rw [e]
      have e2 : loose (c :: r) = ⟨false, [c], 1⟩ :: loose r := rfl
      rw [e2]
      simp only [flow, flowCol, Word.lead, Bool.false_eq_true, if_false, List.length_nil, Nat.add_zero,
        List.length_singleton]
      rw [if_neg (by omega), if_neg (by omega), ht.1, ht.2]
      simp [lineBreak]

theorem formatChunks_flow (fmt : Fmt) (hi : byteLen fmt.indent = fmt.indent.length) (i : Nat) (s : Str) :
    formatChunks fmt i s = (flow fmt.width fmt.indent i (loose s), flowCol fmt.width fmt.indent i (loose s)) := by
  unfold formatChunks
  simp only
  have e1 : s.take (min (fmt.width - i) s.length) = s.take (fmt.width - i) := by
    rw [List.take_eq_take_iff]; omega
  have e2 : s.drop (min (fmt.width - i) s.length) = s.drop (fmt.width - i) := by
    by_cases h : fmt.width - i ≤ s.length
    · rw [Nat.min_eq_left h]
    · rw [Nat.min_eq_right (by omega), List.drop_of_length_le (Nat.le_refl _), List.drop_of_length_le (by omega)]
  rw [e1, e2, chunksLoop_flow fmt hi _ _ _ (Nat.le_refl _) (by
    by_cases hd : s.drop (fmt.width - i) = []
    · exact .inl hd
    · refine .inr ?_
      rw [List.drop_eq_nil_iff] at hd
      rw [List.length_take, Nat.min_eq_left (by omega)]
      omega)]
  have ht := flow_loose_take (width := fmt.width) (indent := fmt.indent) i s
  rw [ht.1, ht.2]

/-! ### The tags -/

/-- Text and cursor are those of words. -/
structure Flows (width : Nat) (indent : Str) (i : Nat) (t : Str × Nat) (ws : List Word) : Prop where
  text : t.1 = flow width indent i ws
  cursor : t.2 = flowCol width indent i ws

theorem advanceInitial_flow (fmt : Fmt) (hi : byteLen fmt.indent = fmt.indent.length) (i : Nat) (t : Str) (need : Nat)
    (ws : List Word) (hn : t.length ≤ need) :
    flow fmt.width fmt.indent i (⟨true, t, need⟩ :: ws) = (advanceInitial fmt i need).1 ++ t ++
        flow fmt.width fmt.indent ((advanceInitial fmt i need).2 - (need - t.length)) ws ∧
      flowCol fmt.width fmt.indent i (⟨true, t, need⟩ :: ws) =
        flowCol fmt.width fmt.indent ((advanceInitial fmt i need).2 - (need - t.length)) ws := by
  simp only [flow, flowCol, Word.lead, if_true, List.length_singleton, advanceInitial]
  have e : i + 1 + need ≤ fmt.width ↔ i + need + 1 ≤ fmt.width := by omega
  by_cases h : i + need + 1 ≤ fmt.width
  · rw [if_pos (e.2 h), if_pos (e.2 h), if_pos h]
    have e2 : i + (need + 1) - (need - t.length) = i + 1 + t.length := by omega
    simp only [e2]
    exact ⟨trivial, trivial⟩
  · rw [if_neg (fun x => h (e.1 x)), if_neg (fun x => h (e.1 x)), if_neg h, hi]
    have e2 : fmt.indent.length + need - (need - t.length) = fmt.indent.length + t.length := by omega
    simp only [e2]
    simp [lineBreak]

theorem formatTag_flow (fmt : Fmt) (hi : byteLen fmt.indent = fmt.indent.length) (i : Nat) (n v : Str)
    (hn : byteLen n = n.length) :
    Flows fmt.width fmt.indent i (formatTag fmt i n v)
      [⟨true, n ++ '=' :: v ++ endTag fmt, (n ++ '=' :: v ++ endTag fmt).length⟩] := by
  have hlen : byteLen n + v.length + (if fmt.last then 1 else 2) = (n ++ '=' :: v ++ endTag fmt).length := by
    rw [hn]
    simp only [List.length_append, List.length_cons, endTag_length]
    split <;> omega
  have h := advanceInitial_flow fmt hi i (n ++ '=' :: v ++ endTag fmt) _ [] (Nat.le_refl _)
  simp only [flow, flowCol, List.append_nil, Nat.sub_self, Nat.sub_zero] at h
  refine ⟨?_, ?_⟩
  · simp only [flow]
    rw [List.append_nil, List.append_nil, h.1, ← hlen]
    simp [formatTag]
  · simp only [flowCol]
    rw [h.2, ← hlen]
    rfl

theorem formatTagBh_flow (fmt : Fmt) (hi : byteLen fmt.indent = fmt.indent.length) (i : Nat) (value : Bytes) :
    Flows fmt.width fmt.indent i (formatTagBh fmt i value)
      (attach (endTag fmt) (⟨true, c!"bh=", 4⟩ :: loose (encodeBase64 value))) := by
  have h := advanceInitial_flow fmt hi i c!"bh=" 4 (loose (encodeBase64 value)) (by decide)
  have e : (4 : Nat) - (c!"bh=").length = 1 := rfl
  rw [e] at h
  have a := flow_attach (width := fmt.width) (indent := fmt.indent) (endTag fmt) i
    (⟨true, c!"bh=", 4⟩ :: loose (encodeBase64 value)) (by simp)
  refine ⟨?_, ?_⟩
  · rw [a.1, h.1]
    simp only [formatTagBh, formatChunks_flow fmt hi]
  · rw [a.2, h.2, endTag_length]
    simp only [formatTagBh, formatChunks_flow fmt hi]
    split <;> rfl

theorem formatHRest_flow (fmt : Fmt) (hi : byteLen fmt.indent = fmt.indent.length) (names : List Str) (i : Nat)
    (hne : names ≠ []) :
    (formatHRest fmt i names).1 ++ endTag fmt = ':' :: flow fmt.width fmt.indent i (nameWords (endTag fmt) false names) ∧
      (formatHRest fmt i names).2 = flowCol fmt.width fmt.indent i (nameWords (endTag fmt) false names) := by
  induction names generalizing i with
  | nil => exact absurd rfl hne
  | cons n ns ih =>
    rw [formatHRest]
    cases ns with
    | nil =>
      have hlen : n.length + (if fmt.last then 0 else 1) = (n ++ endTag fmt).length := by
        simp [endTag_length]
      simp only [List.isEmpty_nil, Bool.true_and, hlen, formatHRest, nameWords, flow, flowCol, Word.lead,
        Bool.false_eq_true, if_false, List.length_nil, Nat.add_zero, advanceI, hi]
      split <;> simp [lineBreak]
    | cons m ns =>
      have ih := fun i => ih i (by simp)
      have e : nameWords (endTag fmt) false (n :: m :: ns) =
          ⟨false, n ++ [':'], n.length + 1⟩ :: nameWords (endTag fmt) false (m :: ns) := rfl
      rw [e]
      simp only [List.isEmpty_cons, Bool.false_and, Bool.false_eq_true, if_false, flow, flowCol, Word.lead,
        List.length_nil, Nat.add_zero, advanceI, hi, List.length_append, List.length_singleton]
      split
      · simp only [List.append_assoc, (ih _).1, (ih _).2]
        simp
      · simp only [List.append_assoc, (ih _).1, (ih _).2]
        simp [lineBreak]

theorem formatTagH_flow (fmt : Fmt) (hi : byteLen fmt.indent = fmt.indent.length) (i : Nat) (n : Str) (ns : List Str) :
    ∃ t, formatTagH fmt i (n :: ns) = some t ∧
    Flows fmt.width fmt.indent i t (nameWords (endTag fmt) true ((c!"h=" ++ n) :: ns)) := by
  refine ⟨_, formatTagH_eq' fmt i n ns, ?_⟩
  cases ns with
  | nil =>
    have hlen : n.length + (if fmt.last then 2 else 3) = (c!"h=" ++ n ++ endTag fmt).length := by
      simp only [List.length_append, endTag_length]
      have : (c!"h=").length = 2 := rfl
      rw [this]
      split <;> omega
    have h := advanceInitial_flow fmt hi i (c!"h=" ++ n ++ endTag fmt) _ [] (Nat.le_refl _)
    simp only [flow, flowCol, List.append_nil, Nat.sub_self, Nat.sub_zero] at h
    refine ⟨?_, ?_⟩
    · simp only [nameWords, flow]
      rw [List.append_nil, List.append_nil, h.1, ← hlen]
      simp [formatHRest]
    · simp only [nameWords, flowCol]
      rw [h.2, ← hlen]
      rfl
  | cons m ns =>
    have e : nameWords (endTag fmt) true ((c!"h=" ++ n) :: m :: ns) =
        ⟨true, c!"h=" ++ n ++ [':'], (c!"h=" ++ n).length + 1⟩ :: nameWords (endTag fmt) false (m :: ns) := rfl
    have hlen : n.length + 3 = (c!"h=" ++ n).length + 1 := by
      have : (c!"h=").length = 2 := rfl
      rw [List.length_append, this]
      omega
    have h := advanceInitial_flow fmt hi i (c!"h=" ++ n ++ [':']) ((c!"h=" ++ n).length + 1)
      (nameWords (endTag fmt) false (m :: ns)) (by simp)
    have e2 : (c!"h=" ++ n).length + 1 - (c!"h=" ++ n ++ [':']).length = 0 := by simp
    rw [e2, Nat.sub_zero] at h
    have r := formatHRest_flow fmt hi (m :: ns) (advanceInitial fmt i (n.length + 3)).2 (by simp)
    rw [← hlen] at h
    rw [e, ← hlen]
    refine ⟨?_, ?_⟩
    · rw [h.1]
      simp only [List.isEmpty_cons, Bool.false_and, Bool.false_eq_true, if_false, List.append_assoc, r.1]
      simp
    · rw [h.2]
      simp only [List.isEmpty_cons, Bool.false_and, Bool.false_eq_true, if_false, r.2]

/-- The line break before a bar in `z=`, and the cursor. -/
def zBar (fmt : Fmt) (i : Nat) : Str × Nat :=
  if i ≥ fmt.width then (lineBreak fmt, byteLen fmt.indent) else ([], i)

/-- The line break before a name in `z=`, and the cursor behind the name. -/
def zName (fmt : Fmt) (i len : Nat) : Str × Nat :=
  if i + len ≤ fmt.width then ([], i + len) else (lineBreak fmt, byteLen fmt.indent + len)

theorem formatZRest_cons (fmt : Fmt) (i : Nat) (n : Str) (v : Bytes) (rest : List (Str × Bytes)) :
    formatZRest fmt i ((n, v) :: rest) =
      ((zBar fmt i).1 ++ '|' :: (zName fmt ((zBar fmt i).2 + 1) (n.length + 1)).1 ++ n ++
        ':' :: (formatChunks fmt (zName fmt ((zBar fmt i).2 + 1) (n.length + 1)).2 (encodeCopied fmt.ascii v)).1 ++
          (formatZRest fmt (formatChunks fmt (zName fmt ((zBar fmt i).2 + 1) (n.length + 1)).2
            (encodeCopied fmt.ascii v)).2 rest).1,
        (formatZRest fmt (formatChunks fmt (zName fmt ((zBar fmt i).2 + 1) (n.length + 1)).2
            (encodeCopied fmt.ascii v)).2 rest).2) := rfl

theorem zBar_flow (fmt : Fmt) (hi : byteLen fmt.indent = fmt.indent.length) (i : Nat) (n : Str) (ws : List Word) :
    flow fmt.width fmt.indent i (⟨false, ['|'], 1⟩ :: ⟨false, n ++ [':'], n.length + 1⟩ :: ws) =
        (zBar fmt i).1 ++ '|' :: (zName fmt ((zBar fmt i).2 + 1) (n.length + 1)).1 ++ n ++
          ':' :: flow fmt.width fmt.indent (zName fmt ((zBar fmt i).2 + 1) (n.length + 1)).2 ws ∧
      flowCol fmt.width fmt.indent i (⟨false, ['|'], 1⟩ :: ⟨false, n ++ [':'], n.length + 1⟩ :: ws) =
        flowCol fmt.width fmt.indent (zName fmt ((zBar fmt i).2 + 1) (n.length + 1)).2 ws := by
  simp only [flow, flowCol, Word.lead, Bool.false_eq_true, if_false, List.length_nil, Nat.add_zero,
    List.length_singleton, List.length_append, zBar, zName, hi]
  by_cases h : i ≥ fmt.width
  · have hneg : ¬ i + 1 ≤ fmt.width := by omega
    simp only [if_neg hneg, if_pos h]
    split <;> simp [lineBreak]
  · have hpos : i + 1 ≤ fmt.width := by omega
    simp only [if_pos hpos, if_neg h]
    split <;> simp [lineBreak]

theorem formatZRest_flow (fmt : Fmt) (hi : byteLen fmt.indent = fmt.indent.length) (hs : List (Str × Bytes)) (i : Nat) :
    ∃ ws, CopiedWords fmt.ascii hs ws ∧ Flows fmt.width fmt.indent i (formatZRest fmt i hs) ws := by
  induction hs generalizing i with
  | nil => exact ⟨[], .nil, rfl, rfl⟩
  | cons x hs ih =>
    obtain ⟨n, v⟩ := x
    obtain ⟨ws, h1, h2⟩ := ih (formatChunks fmt (zName fmt ((zBar fmt i).2 + 1) (n.length + 1)).2
      (encodeCopied fmt.ascii v)).2
    refine ⟨_, .cons n v _ hs ws (encodeCopied_written fmt.ascii v) h1, ?_⟩
    have hb := zBar_flow fmt hi i n (loose (encodeCopied fmt.ascii v) ++ ws)
    have hc := formatChunks_flow fmt hi (zName fmt ((zBar fmt i).2 + 1) (n.length + 1)).2 (encodeCopied fmt.ascii v)
    rw [(flow_append _ _ _).1, (flow_append _ _ _).2] at hb
    have t1 := h2.text
    have t2 := h2.cursor
    rw [hc] at t1 t2
    simp only at t1 t2
    refine ⟨?_, ?_⟩
    · rw [List.cons_append, List.cons_append, hb.1, formatZRest_cons, hc]
      simp only [t1]
      simp
    · rw [List.cons_append, List.cons_append, hb.2, formatZRest_cons, hc]
      exact t2

theorem formatTagZ_flow (fmt : Fmt) (hi : byteLen fmt.indent = fmt.indent.length) (i : Nat) (n : Str) (v : Bytes)
    (rest : List (Str × Bytes)) :
    ∃ t ws, formatTagZ fmt i ((n, v) :: rest) = some t ∧ CopiedWords fmt.ascii rest ws ∧
      Flows fmt.width fmt.indent i t (attach (endTag fmt)
        (⟨true, c!"z=" ++ n ++ [':'], n.length + 3⟩ :: loose (encodeCopied fmt.ascii v) ++ ws)) := by
  obtain ⟨ws, h1, h2⟩ := formatZRest_flow fmt hi rest
    (formatChunks fmt (advanceInitial fmt i (n.length + 3)).2 (encodeCopied fmt.ascii v)).2
  refine ⟨_, ws, formatTagZ_eq' fmt i n v rest, h1, ?_⟩
  have hlen : (c!"z=" ++ n ++ [':']).length = n.length + 3 := by
    have : (c!"z=").length = 2 := rfl
    simp only [List.length_append, this, List.length_singleton]
    omega
  have h := advanceInitial_flow fmt hi i (c!"z=" ++ n ++ [':']) (n.length + 3) (loose (encodeCopied fmt.ascii v) ++ ws)
    (by omega)
  rw [hlen, Nat.sub_self, Nat.sub_zero, (flow_append _ _ _).1, (flow_append _ _ _).2] at h
  have a := flow_attach (width := fmt.width) (indent := fmt.indent) (endTag fmt) i
    (⟨true, c!"z=" ++ n ++ [':'], n.length + 3⟩ :: loose (encodeCopied fmt.ascii v) ++ ws) (by simp)
  have hc := formatChunks_flow fmt hi (advanceInitial fmt i (n.length + 3)).2 (encodeCopied fmt.ascii v)
  have t1 := h2.text
  have t2 := h2.cursor
  rw [hc] at t1 t2
  simp only at t1 t2
  refine ⟨?_, ?_⟩
  · rw [a.1, List.cons_append, h.1, hc]
    simp only [t1]
    simp
  · rw [a.2, List.cons_append, h.2, hc, endTag_length]
    simp only [t2]
    split <;> rfl

/-! ### All tags -/

variable {ix : Idna} {u : UnsignedSig}

theorem folded_self (brk s : Str) : Folded brk s s := by
  induction s with
  | nil => exact .nil
  | cons c s ih => exact .keep c s s ih

/-- A value that is not folded. -/
theorem whole_written (hf : SigFine ix u) {ascii : Bool} {n v : Str} (sig : Bytes)
    (h : TagText ix u ascii c!"\r\n " (encodeBase64 sig) n v) (h1 : n ≠ c!"b") (h2 : n ≠ c!"bh") :
    WrittenTag ix ascii (withSignature u sig) n v :=
  origin_written hf (.folded [] [' '] (by simp) (by simp) (by simp [wsp])) (folded_self _ _)
    ⟨[], v, .inl rfl, rfl, h, fun _ _ => rfl⟩

theorem formatNamed_flow (hf : SigFine ix u) (sig : Bytes) {fmt : Fmt}
    (hi : byteLen fmt.indent = fmt.indent.length) {len : Nat} {st st' : FmtState} {name : Str}
    (h : formatNamed ix u len fmt st name = some st') (hb : name ≠ c!"b")
    (hc : name = c!"c" → u.canonicalization ≠ ⟨.simple, .simple⟩) :
    st'.insertion = st.insertion ∧ ∃ t ws, st' = st.push t ∧ Flows fmt.width fmt.indent st.i t ws ∧
      TagWords ix fmt.ascii (withSignature u sig) (endTag fmt) name ws := by
  have done : ∀ (t : Str × Nat) ws, Flows fmt.width fmt.indent st.i t ws →
      TagWords ix fmt.ascii (withSignature u sig) (endTag fmt) name ws → st' = st.push t →
      st'.insertion = st.insertion ∧ ∃ t ws, st' = st.push t ∧ Flows fmt.width fmt.indent st.i t ws ∧
        TagWords ix fmt.ascii (withSignature u sig) (endTag fmt) name ws := by
    rintro t ws h1 h2 rfl
    exact ⟨rfl, t, ws, rfl, h1, h2⟩
  have one : ∀ v, name ∈ [c!"v", c!"a", c!"c", c!"d", c!"i", c!"l", c!"s", c!"t", c!"x"] →
      TagText ix u fmt.ascii c!"\r\n " (encodeBase64 sig) name v → st' = st.push (formatTag fmt st.i name v) →
      st'.insertion = st.insertion ∧ ∃ t ws, st' = st.push t ∧ Flows fmt.width fmt.indent st.i t ws ∧
        TagWords ix fmt.ascii (withSignature u sig) (endTag fmt) name ws := by
    intro v hn ht e
    have key : ∀ n ∈ [c!"v", c!"a", c!"c", c!"d", c!"i", c!"l", c!"s", c!"t", c!"x"], byteLen n = n.length ∧
        n ∉ [c!"b", c!"bh", c!"h", c!"z"] ∧ n ≠ c!"b" ∧ n ≠ c!"bh" := by decide
    obtain ⟨k1, k3, k4, k5⟩ := key name hn
    exact done _ _ (formatTag_flow fmt hi st.i name v k1) (.whole name v k3 (whole_written hf sig ht k4 k5)) e
  unfold formatNamed at h
  replace h := ite_eq_cases h
  rcases h with ⟨e, h⟩ | ⟨na, h⟩
  · injection h with h
    subst e
    exact one _ (by decide) .a h.symm
  replace h := ite_eq_cases h
  rcases h with ⟨e, h⟩ | ⟨_, h⟩
  · exact absurd e hb
  replace h := ite_eq_cases h
  rcases h with ⟨e, h⟩ | ⟨nbh, h⟩
  · injection h with h
    subst e
    refine done _ _ (formatTagBh_flow fmt hi st.i _) ?_ h.symm
    rw [C20_base64_rfc4648]
    exact .bh
  replace h := ite_eq_cases h
  rcases h with ⟨e, h⟩ | ⟨nc, h⟩
  · injection h with h
    subst e
    have hc := hc rfl
    have e2 : formatTagC fmt st.i u.canonicalization = formatTag fmt st.i c!"c" (canonStr u.canonicalization) := by
      revert hc
      generalize u.canonicalization = c
      obtain ⟨a, b⟩ := c
      cases a <;> cases b <;> intro hc <;> first | exact absurd rfl hc | rfl
    rw [e2] at h
    exact one _ (by decide) (.c hc) h.symm
  replace h := ite_eq_cases h
  rcases h with ⟨e, h⟩ | ⟨nd, h⟩
  · subst e
    obtain ⟨t, h1, h2⟩ := push_some h
    obtain ⟨v, h3, rfl⟩ := Option.map_eq_some_iff.1 h1
    exact one _ (by decide) (.d v h3) h2
  replace h := ite_eq_cases h
  rcases h with ⟨e, h⟩ | ⟨nh, h⟩
  · subst e
    obtain ⟨t, h1, h2⟩ := push_some h
    cases hh : u.signedHeaders with
    | nil => exact absurd hh hf.headers_ne
    | cons n ns =>
      rw [hh] at h1
      obtain ⟨t', g1, g2⟩ := formatTagH_flow fmt hi st.i n ns
      rw [g1] at h1
      injection h1 with h1
      subst h1
      exact done _ _ g2 (.h n ns hh) h2
  replace h := ite_eq_cases h
  rcases h with ⟨e, h⟩ | ⟨ni, h⟩
  · subst e
    obtain ⟨t, h1, h2⟩ := push_some h
    obtain ⟨v, h3, rfl⟩ := Option.map_eq_some_iff.1 h1
    obtain ⟨idn, h4, h5⟩ := Option.bind_eq_some_iff.1 h3
    exact one _ (by decide) (.i idn v h4 h5) h2
  replace h := ite_eq_cases h
  rcases h with ⟨e, h⟩ | ⟨nl, h⟩
  · subst e
    obtain ⟨t, h1, h2⟩ := push_some h
    obtain ⟨v, h3, rfl⟩ := Option.map_eq_some_iff.1 h1
    exact one _ (by decide) (.l v h3) h2
  replace h := ite_eq_cases h
  rcases h with ⟨e, h⟩ | ⟨ns, h⟩
  · subst e
    obtain ⟨t, h1, h2⟩ := push_some h
    obtain ⟨v, h3, rfl⟩ := Option.map_eq_some_iff.1 h1
    exact one _ (by decide) (.s v h3) h2
  replace h := ite_eq_cases h
  rcases h with ⟨e, h⟩ | ⟨nt, h⟩
  · subst e
    obtain ⟨t, h1, h2⟩ := push_some h
    obtain ⟨v, h3, rfl⟩ := Option.map_eq_some_iff.1 h1
    exact one _ (by decide) (.t v h3) h2
  replace h := ite_eq_cases h
  rcases h with ⟨e, h⟩ | ⟨nv, h⟩
  · subst e
    injection h with h
    exact one _ (by decide) .v h.symm
  replace h := ite_eq_cases h
  rcases h with ⟨e, h⟩ | ⟨nx, h⟩
  · subst e
    obtain ⟨t, h1, h2⟩ := push_some h
    obtain ⟨v, h3, rfl⟩ := Option.map_eq_some_iff.1 h1
    exact one _ (by decide) (.x v h3) h2
  replace h := ite_eq_cases h
  rcases h with ⟨e, h⟩ | ⟨nz, h⟩
  · subst e
    obtain ⟨t, h1, h2⟩ := push_some h
    cases hh : u.copiedHeaders with
    | nil => rw [hh] at h1; cases h1
    | cons x rest =>
      obtain ⟨n, v⟩ := x
      rw [hh] at h1
      obtain ⟨t', ws, g1, g2, g3⟩ := formatTagZ_flow fmt hi st.i n v rest
      rw [g1] at h1
      injection h1 with h1
      subst h1
      exact done _ _ g3 (.z n v _ rest ws hh (encodeCopied_written _ _) g2) h2
  · obtain ⟨t, h1, h2⟩ := push_some h
    obtain ⟨x, h3, rfl⟩ := Option.map_eq_some_iff.1 h1
    obtain ⟨tn, tv⟩ := x
    have e : tn = name := by
      have := List.find?_some h3
      simpa using this
    subst e
    have hmem := List.mem_of_find?_eq_some h3
    obtain ⟨g1, g2, g3⟩ := hf.ext _ hmem
    refine done _ _ (formatTag_flow fmt hi st.i tn tv (ascii_tagName g1))
      (.whole tn tv ?_ (whole_written hf sig (.ext tn tv g3 hmem) hb nbh)) h2
    simp only [List.mem_cons, List.not_mem_nil, or_false, not_or]
    exact ⟨hb, nbh, nh, nz⟩

theorem formatLoop_flow_behind (hf : SigFine ix u) (sig : Bytes) {width : Nat} {indent : Str} {ascii : Bool}
    (hi : byteLen indent = indent.length) {len : Nat} (names : List Str) {st st' : FmtState}
    (h : formatLoop ix u len width indent ascii st names = some st') (hb : c!"b" ∉ names)
    (hc : c!"c" ∈ names → u.canonicalization ≠ ⟨.simple, .simple⟩) :
    st'.insertion = st.insertion ∧ ∃ t, st'.out = st.out ++ t ∧ (names = [] ∧ t = [] ∨
      ∃ ws, ListWords ix ascii (withSignature u sig) names ws ∧ t = flow width indent st.i ws) := by
  induction names generalizing st with
  | nil =>
    injection h with h
    subst h
    exact ⟨rfl, [], by simp, .inl ⟨rfl, rfl⟩⟩
  | cons n ns ih =>
    rw [formatLoop] at h
    split at h
    · cases h
    · next st1 e =>
      obtain ⟨h1, t1, ws1, rfl, h3, h4⟩ := formatNamed_flow hf sig (fmt := ⟨width, indent, ns.isEmpty, ascii⟩) hi e
        (fun e => hb (by simp [e])) (fun e => hc (by simp [e]))
      obtain ⟨g1, t2, g2, g3⟩ := ih h (fun e => hb (List.mem_cons_of_mem _ e)) (fun e => hc (List.mem_cons_of_mem _ e))
      refine ⟨by rw [g1, h1], t1.1 ++ t2, by rw [g2]; simp [FmtState.push], .inr ?_⟩
      rcases g3 with ⟨rfl, rfl⟩ | ⟨ws2, k1, k2⟩
      · exact ⟨ws1, .last n ws1 h4, by rw [h3.text]; simp⟩
      · cases ns with
        | nil => cases k1
        | cons m ns =>
          refine ⟨ws1 ++ ws2, .more n ws1 _ ws2 h4 k1, ?_⟩
          rw [(flow_append _ _ _).1, h3.text, k2]
          have : (st.push t1).i = flowCol width indent st.i ws1 := h3.cursor
          rw [this]

/-- The formatted text with the signature inserted as the value of `b=`. -/
theorem formatLoop_flow (law : IdnaLaw ix) (hf : SigFine ix u) {p : Lay} (ok : p.Ok) (hof : p.Of u)
    {ascii : Bool} (sig : Bytes) (names : List Str) {st st' : FmtState}
    (h : formatLoop ix u (encodeBase64 sig).length p.width p.indent ascii st names = some st') (hn : names.Nodup)
    (hb : c!"b" ∈ names) (hcn : c!"c" ∈ names → u.canonicalization ≠ ⟨.simple, .simple⟩)
    (hext : ∀ ns1 ns2, names = ns1 ++ c!"b" :: ns2 → ∀ t ∈ u.extTags, t.1 ∈ ns1 → '\n' ∉ t.2)
    {pre last : Str} (hl : Laid p.good (pre ++ st.out) last) (hg : p.good last) (hc : Cur true last.length st.i) :
    ∃ b0 after lastb ws, st'.out = st.out ++ b0 ++ after ∧ st'.insertion = some (byteLen (st.out ++ b0)) ∧
      Laid p.good (pre ++ (st.out ++ b0)) lastb ∧ ListWords ix ascii (withSignature u sig) names ws ∧
      b0 ++ (formatChunks ⟨p.width, p.indent, false, false⟩ lastb.length (encodeBase64 sig)).1 ++ after =
        flow p.width p.indent st.i ws := by
  induction names generalizing st last with
  | nil => cases hb
  | cons n ns ih =>
    rw [formatLoop] at h
    rw [List.nodup_cons] at hn
    by_cases e : n = c!"b"
    · subst e
      have hu : p.Uses ⟨p.width, p.indent, ns.isEmpty, ascii⟩ := ⟨rfl, rfl⟩
      obtain ⟨l1, h1, g1, c1⟩ := start_step ok hu (n := c!"b") (by decide) hl hg hc
      have e1 := c1.2 rfl
      generalize hfmt : (⟨p.width, p.indent, ns.isEmpty, ascii⟩ : Fmt) = fmt at *
      have hw : fmt.width = p.width := by rw [← hfmt]
      have hin : fmt.indent = p.indent := by rw [← hfmt]
      have hi : byteLen fmt.indent = fmt.indent.length := by rw [hin]; exact ok.ascii
      have hnamed : formatNamed ix u (encodeBase64 sig).length fmt st c!"b" =
          some ⟨st.out ++ ((advanceInitial fmt st.i 3).1 ++ c!"b=") ++ endTag fmt,
            if fmt.last then cursorAfterB fmt ((advanceInitial fmt st.i 3).2 - 1) (encodeBase64 sig).length
            else cursorAfterB fmt ((advanceInitial fmt st.i 3).2 - 1) (encodeBase64 sig).length + 1,
            some (byteLen (st.out ++ ((advanceInitial fmt st.i 3).1 ++ c!"b=")))⟩ := rfl
      rw [hnamed] at h
      simp only at h
      obtain ⟨k1, t, k2, k3⟩ := formatLoop_flow_behind hf sig ok.ascii ns h hn.1 (fun e => hcn (List.mem_cons_of_mem _ e))
      rw [← formatChunks_cursor, formatChunks_flow fmt hi] at k3
      have hwords := advanceInitial_flow fmt hi st.i c!"b=" 3 (loose (encodeBase64 sig)) (by decide)
      have e3 : (3 : Nat) - (c!"b=").length = 1 := rfl
      rw [e3] at hwords
      have a := flow_attach (width := fmt.width) (indent := fmt.indent) (endTag fmt) st.i
        (⟨true, c!"b=", 3⟩ :: loose (encodeBase64 sig)) (by simp)
      rw [hwords.1, hwords.2, endTag_length] at a
      have hcur : (if fmt.last then flowCol fmt.width fmt.indent ((advanceInitial fmt st.i 3).2 - 1) (loose (encodeBase64 sig))
            else flowCol fmt.width fmt.indent ((advanceInitial fmt st.i 3).2 - 1) (loose (encodeBase64 sig)) + 1) =
          flowCol fmt.width fmt.indent st.i (attach (endTag fmt) (⟨true, c!"b=", 3⟩ :: loose (encodeBase64 sig))) := by
        rw [a.2]
        split <;> rfl
      simp only [hcur] at k3
      have hbw : TagWords ix ascii (withSignature u sig) (endTag fmt) c!"b"
          (attach (endTag fmt) (⟨true, c!"b=", 3⟩ :: loose (encodeBase64 sig))) := by
        rw [C20_base64_rfc4648]
        exact .b
      have e2 : formatChunks ⟨p.width, p.indent, false, false⟩ l1.length (encodeBase64 sig) =
          (flow fmt.width fmt.indent ((advanceInitial fmt st.i 3).2 - 1) (loose (encodeBase64 sig)),
           flowCol fmt.width fmt.indent ((advanceInitial fmt st.i 3).2 - 1) (loose (encodeBase64 sig))) := by
        rw [formatChunks_flow _ ok.ascii, e1, hw, hin]
        rfl
      rcases k3 with ⟨rfl, rfl⟩ | ⟨ws, m1, m2⟩
      · refine ⟨(advanceInitial fmt st.i 3).1 ++ c!"b=", endTag fmt, l1, attach (endTag fmt) (⟨true, c!"b=", 3⟩ :: loose (encodeBase64 sig)),
          ?_, k1, by simpa using h1, .last _ _ ?_, ?_⟩
        · rw [k2]; simp
        · have : endTag fmt = [] := by rw [← hfmt]; rfl
          exact this ▸ hbw
        · rw [e2, ← hw, ← hin, a.1]
      · cases ns with
        | nil => cases m1
        | cons m ns =>
          refine ⟨(advanceInitial fmt st.i 3).1 ++ c!"b=", endTag fmt ++ t, l1,
            attach (endTag fmt) (⟨true, c!"b=", 3⟩ :: loose (encodeBase64 sig)) ++ ws, ?_, k1, by simpa using h1, .more _ _ _ _ ?_ m1, ?_⟩
          · rw [k2]; simp
          · have : endTag fmt = [';'] := by rw [← hfmt]; rfl
            exact this ▸ hbw
          · rw [e2, (flow_append _ _ _).1, ← hw, ← hin, a.1, m2]
            simp [hw, hin]
    · split at h
      · cases h
      · next st1 e1 =>
        obtain ⟨h1, t, h2, h3⟩ := formatNamed_step (ex := true) law hf ok hof ⟨rfl, rfl⟩ e1 e (by
          intro _ x hx ex
          obtain ⟨a, b, hab⟩ := List.append_of_mem hb
          cases a with
          | nil =>
            simp only [List.nil_append, List.cons.injEq] at hab
            exact absurd hab.1 e
          | cons m a =>
            simp only [List.cons_append, List.cons.injEq] at hab
            refine hext (m :: a) b (by simp [hab]) x hx ?_
            rw [ex, hab.1]
            simp)
        have hb' : c!"b" ∈ ns := by
          rcases List.mem_cons.1 hb with h | h
          · exact absurd h.symm e
          · exact h
        obtain ⟨_, t1, ws1, f1, f2, f3⟩ := formatNamed_flow hf sig (fmt := ⟨p.width, p.indent, ns.isEmpty, ascii⟩)
          ok.ascii e1 e (fun e => hcn (by simp [e]))
        obtain ⟨l1, k1, k2, k3⟩ := h3 _ last hl hg hc
        obtain ⟨b0, after, lastb, ws, q1, q2, q3, q4, q5⟩ := ih h hn.2 hb' (fun e => hcn (List.mem_cons_of_mem _ e))
          (fun ns1 ns2 e2 x hx hx2 => hext (n :: ns1) ns2 (by simp [e2]) x hx (by simp [hx2]))
          (by rw [h2]; simpa using k1) k2 k3
        have ho : st1.out = st.out ++ t1.1 := by rw [f1]; rfl
        have hi1 : st1.i = flowCol p.width p.indent st.i ws1 := by rw [f1]; exact f2.cursor
        rw [ho] at q1 q2 q3
        rw [hi1] at q5
        refine ⟨t1.1 ++ b0, after, lastb, ws1 ++ ws, by rw [q1]; simp, by rw [q2]; simp, by simpa using q3, ?_, ?_⟩
        · cases ns with
          | nil => cases hb'
          | cons m ns => exact .more n ws1 _ ws f3 q4
        · rw [(flow_append _ _ _).1, ← q5, f2.text]
          simp

end Dkim
