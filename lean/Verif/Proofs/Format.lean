import Verif.Proofs.Strip

/-!
# Structure of formatted signatures: helper lemmas for C14, C15, C17 and C49
-/

namespace Dkim

open Spec

/-- `t` is `s` with `brk` inserted before some characters. -/
inductive Folded (brk : Str) : Str → Str → Prop
  | nil : Folded brk [] []
  | keep (c : Char) (s t : Str) : Folded brk s t → Folded brk (c :: s) (c :: t)
  | fold (c : Char) (s t : Str) : Folded brk s t → Folded brk (c :: s) (brk ++ c :: t)

theorem Folded.refl (brk s : Str) : Folded brk s s := by
  induction s with
  | nil => exact .nil
  | cons c s ih => exact .keep _ _ _ ih

theorem Folded.append {brk s t s' t' : Str} (h : Folded brk s t) (h' : Folded brk s' t') :
    Folded brk (s ++ s') (t ++ t') := by
  induction h with
  | nil => exact h'
  | keep c s t _ ih => exact .keep _ _ _ ih
  | fold c s t _ ih => simpa using Folded.fold c _ _ ih

theorem Folded.break_append {brk s s' t' : Str} (h : s ≠ []) (h' : Folded brk s' t') :
    Folded brk (s ++ s') (brk ++ s ++ t') := by
  cases s with
  | nil => exact absurd rfl h
  | cons c s => simpa using Folded.fold c _ _ ((Folded.refl brk s).append h')

theorem chunksLoop_folded (fmt : Fmt) (w : Nat) (hw : 1 ≤ w) (n i : Nat) (s : Str) (hn : s.length ≤ n) :
    Folded (lineBreak fmt) s (chunksLoop fmt w n i s).1 := by
  induction n generalizing i s with
  | zero =>
    have : s = [] := List.length_eq_zero_iff.1 (by omega)
    subst this
    exact .nil
  | succ n ih =>
    rw [chunksLoop]
    cases s with
    | nil => exact .nil
    | cons c r =>
      simp only [List.isEmpty_cons, Bool.false_eq_true, if_false]
      have hd : ((c :: r).drop w).length ≤ n := by
        simp only [List.length_drop, List.length_cons] at hn ⊢
        omega
      have := ih ((List.take w (c :: r)).length + byteLen fmt.indent) _ hd
      have hne : (c :: r).take w ≠ [] := by
        intro e
        have := congrArg List.length e
        simp at this
        omega
      have key := Folded.break_append hne this
      rw [List.take_append_drop] at key
      exact key

theorem formatChunks_folded (fmt : Fmt) (i : Nat) (s : Str) :
    Folded (lineBreak fmt) s (formatChunks fmt i s).1 := by
  unfold formatChunks
  simp only
  have h := chunksLoop_folded fmt (max (fmt.width - byteLen fmt.indent) 1) (by omega)
    (s.drop (min (fmt.width - i) s.length)).length
    (i + (s.take (min (fmt.width - i) s.length)).length)
    (s.drop (min (fmt.width - i) s.length)) (Nat.le_refl _)
  have key := (Folded.refl (lineBreak fmt) (s.take (min (fmt.width - i) s.length))).append h
  rwa [List.take_append_drop] at key

/-- The names of `h=` after the first one. -/
inductive HRest (brk : Str) : List Str → Str → Prop
  | nil : HRest brk [] []
  | plain (n : Str) (ns : List Str) (t : Str) : HRest brk ns t → HRest brk (n :: ns) (':' :: n ++ t)
  | fold (n : Str) (ns : List Str) (t : Str) : HRest brk ns t →
      HRest brk (n :: ns) (':' :: brk ++ n ++ t)

/-- The value of `h=`. -/
inductive HText (brk : Str) : List Str → Str → Prop
  | mk (n : Str) (ns : List Str) (t : Str) : HRest brk ns t → HText brk (n :: ns) (n ++ t)

theorem formatHRest_text (fmt : Fmt) (i : Nat) (ns : List Str) :
    HRest (lineBreak fmt) ns (formatHRest fmt i ns).1 := by
  induction ns generalizing i with
  | nil => exact .nil
  | cons n ns ih =>
    have e : ∀ len, (advanceI fmt i len).1 = [] ∨ (advanceI fmt i len).1 = lineBreak fmt := by
      intro len
      unfold advanceI
      split <;> simp
    have e2 : ∃ len, (formatHRest fmt i (n :: ns)).1 =
        ':' :: (advanceI fmt i len).1 ++ n ++ (formatHRest fmt (advanceI fmt i len).2 ns).1 := ⟨_, rfl⟩
    obtain ⟨len, e2⟩ := e2
    rw [e2]
    rcases e len with h | h
    · rw [h]
      simpa using HRest.plain n ns _ (ih _)
    · rw [h]
      simpa using HRest.fold n ns _ (ih _)

/-- A copied header field in `z=`. -/
inductive ZPiece (brk : Str) (ascii : Bool) : Str × Bytes → Str → Prop
  | mk (n : Str) (v : Bytes) (t : Str) : Folded brk (encodeCopied ascii v) t →
      ZPiece brk ascii (n, v) (n ++ ':' :: t)

/-- The copied header fields after the first. -/
inductive ZRest (brk : Str) (ascii : Bool) : List (Str × Bytes) → Str → Prop
  | nil : ZRest brk ascii [] []
  | cons (br br2 : Str) (h : Str × Bytes) (hs : List (Str × Bytes)) (p t : Str) : (br = [] ∨ br = brk) →
      (br2 = [] ∨ br2 = brk) → ZPiece brk ascii h p → ZRest brk ascii hs t →
      ZRest brk ascii (h :: hs) (br ++ '|' :: br2 ++ p ++ t)

/-- The value of `z=`. -/
inductive ZText (brk : Str) (ascii : Bool) : List (Str × Bytes) → Str → Prop
  | mk (h : Str × Bytes) (hs : List (Str × Bytes)) (p t : Str) : ZPiece brk ascii h p →
      ZRest brk ascii hs t → ZText brk ascii (h :: hs) (p ++ t)

theorem formatZRest_text (fmt : Fmt) (i : Nat) (hs : List (Str × Bytes)) :
    ZRest (lineBreak fmt) fmt.ascii hs (formatZRest fmt i hs).1 := by
  induction hs generalizing i with
  | nil => exact .nil
  | cons h hs ih =>
    obtain ⟨n, v⟩ := h
    rw [formatZRest]
    simp only
    have key : ∀ (br br2 : Str) (j k : Nat), (br = [] ∨ br = lineBreak fmt) →
        (br2 = [] ∨ br2 = lineBreak fmt) →
        ZRest (lineBreak fmt) fmt.ascii ((n, v) :: hs)
          (br ++ '|' :: br2 ++ n ++ ':' :: (formatChunks fmt j (encodeCopied fmt.ascii v)).1 ++
            (formatZRest fmt k hs).1) := by
      intro br br2 j k h1 h2
      have := ZRest.cons (ascii := fmt.ascii) br br2 (n, v) hs _ _ h1 h2
        (.mk n v _ (formatChunks_folded fmt j (encodeCopied fmt.ascii v))) (ih k)
      simpa using this
    refine key _ _ _ _ ?_ ?_
    · split <;> simp
    · generalize (if i ≥ fmt.width then (lineBreak fmt, byteLen fmt.indent) else ([], i)) = q
      split <;> simp

/-- The text following `c=`. -/
def canonStr (c : Canonicalization) : Str :=
  match c.header, c.body with
  | .simple, .simple => []
  | .simple, .relaxed => c!"simple/relaxed"
  | .relaxed, .simple => c!"relaxed"
  | .relaxed, .relaxed => c!"relaxed/relaxed"

/-- The text after the equals sign of a tag; `bText` is the one of `b=`. -/
inductive TagText (ix : Idna) (u : UnsignedSig) (ascii : Bool) (brk bText : Str) : Str → Str → Prop
  | a : TagText ix u ascii brk bText c!"a" u.algorithm.canonicalStr
  | b : TagText ix u ascii brk bText c!"b" bText
  | bh (t : Str) : Folded brk (encodeBase64 u.bodyHash) t → TagText ix u ascii brk bText c!"bh" t
  | c : u.canonicalization ≠ ⟨.simple, .simple⟩ →
      TagText ix u ascii brk bText c!"c" (canonStr u.canonicalization)
  | d (t : Str) : domainForm ix ascii u.domain = some t → TagText ix u ascii brk bText c!"d" t
  | h (t : Str) : HText brk u.signedHeaders t → TagText ix u ascii brk bText c!"h" t
  | i (i : Identity) (t : Str) : u.identity = some i → identityForm ix ascii i = some t →
      TagText ix u ascii brk bText c!"i" t
  | l (n : Nat) : u.bodyLength = some n → TagText ix u ascii brk bText c!"l" (natToStr n)
  | s (t : Str) : domainForm ix ascii u.selector = some t → TagText ix u ascii brk bText c!"s" t
  | t (n : Nat) : u.timestamp = some n → TagText ix u ascii brk bText c!"t" (natToStr n)
  | v : TagText ix u ascii brk bText c!"v" c!"1"
  | x (n : Nat) : u.expiration = some n → TagText ix u ascii brk bText c!"x" (natToStr n)
  | z (t : Str) : ZText brk ascii u.copiedHeaders t → TagText ix u ascii brk bText c!"z" t
  | ext (n v : Str) : isOutputTag n = false → (n, v) ∈ u.extTags → TagText ix u ascii brk bText n v

/-- The space or line break in front of a tag. -/
def Lead (brk lead : Str) : Prop := lead = [' '] ∨ lead = brk

theorem advanceInitial_lead (fmt : Fmt) (i len : Nat) : Lead (lineBreak fmt) (advanceInitial fmt i len).1 := by
  unfold advanceInitial Lead
  split <;> simp

/-- One tag, without its semicolon. -/
inductive Piece (ix : Idna) (u : UnsignedSig) (ascii : Bool) (brk bText : Str) : Str → Str → Prop
  | mk (n lead t : Str) : Lead brk lead → TagText ix u ascii brk bText n t →
      Piece ix u ascii brk bText n (lead ++ n ++ '=' :: t)

theorem formatTag_shape (fmt : Fmt) (i : Nat) (n v : Str) : ∃ lead, Lead (lineBreak fmt) lead ∧
    (formatTag fmt i n v).1 = lead ++ n ++ '=' :: v ++ endTag fmt :=
  ⟨_, advanceInitial_lead fmt i _, rfl⟩

theorem formatTagH_eq (fmt : Fmt) (i : Nat) (first : Str) (rest : List Str) :
    ∃ len k, formatTagH fmt i (first :: rest) =
      some ((advanceInitial fmt i len).1 ++ c!"h=" ++ first ++
        (formatHRest fmt (advanceInitial fmt i len).2 rest).1 ++ endTag fmt, k) := ⟨_, _, rfl⟩

theorem formatTagH_shape {fmt : Fmt} {i : Nat} {names : List Str} {p : Str × Nat}
    (h : formatTagH fmt i names = some p) : ∃ lead t, Lead (lineBreak fmt) lead ∧
      HText (lineBreak fmt) names t ∧ p.1 = lead ++ c!"h" ++ '=' :: t ++ endTag fmt := by
  cases names with
  | nil => cases h
  | cons first rest =>
    obtain ⟨len, k, e⟩ := formatTagH_eq fmt i first rest
    rw [e] at h
    injection h with h
    subst h
    refine ⟨_, _, advanceInitial_lead fmt i len,
      .mk first rest _ (formatHRest_text fmt (advanceInitial fmt i len).2 rest), ?_⟩
    simp only [List.append_assoc, List.cons_append, List.nil_append]

theorem formatTagZ_eq (fmt : Fmt) (i : Nat) (n : Str) (v : Bytes) (rest : List (Str × Bytes)) :
    ∃ k, formatTagZ fmt i ((n, v) :: rest) =
      some ((advanceInitial fmt i (n.length + 3)).1 ++ c!"z=" ++ n ++
        ':' :: (formatChunks fmt (advanceInitial fmt i (n.length + 3)).2 (encodeCopied fmt.ascii v)).1 ++
        (formatZRest fmt (formatChunks fmt (advanceInitial fmt i (n.length + 3)).2
          (encodeCopied fmt.ascii v)).2 rest).1 ++ endTag fmt, k) := ⟨_, rfl⟩

theorem formatTagZ_shape {fmt : Fmt} {i : Nat} {hs : List (Str × Bytes)} {p : Str × Nat}
    (h : formatTagZ fmt i hs = some p) : ∃ lead t, Lead (lineBreak fmt) lead ∧
      ZText (lineBreak fmt) fmt.ascii hs t ∧ p.1 = lead ++ c!"z" ++ '=' :: t ++ endTag fmt := by
  cases hs with
  | nil => cases h
  | cons hd rest =>
    obtain ⟨n, v⟩ := hd
    obtain ⟨k, e⟩ := formatTagZ_eq fmt i n v rest
    rw [e] at h
    injection h with h
    subst h
    refine ⟨_, _, advanceInitial_lead fmt i (n.length + 3), .mk (n, v) rest _ _
      (.mk n v _ (formatChunks_folded fmt (advanceInitial fmt i (n.length + 3)).2 (encodeCopied fmt.ascii v)))
      (formatZRest_text fmt (formatChunks fmt (advanceInitial fmt i (n.length + 3)).2
          (encodeCopied fmt.ascii v)).2 rest), ?_⟩
    simp only [List.append_assoc, List.cons_append, List.nil_append]

theorem push_some {st st' : FmtState} {t : Option (Str × Nat)} (h : st.push? t = some st') :
    ∃ p, t = some p ∧ st' = st.push p := by
  unfold FmtState.push? at h
  rw [Option.map_eq_some_iff] at h
  obtain ⟨p, h1, h2⟩ := h
  exact ⟨p, h1, h2.symm⟩

/-- All but the `b=` tag: the text is appended, the insertion index unchanged. -/
theorem formatNamed_piece {ix : Idna} {u : UnsignedSig} {len : Nat} {fmt : Fmt} {st st' : FmtState} {name : Str}
    (h : formatNamed ix u len fmt st name = some st') (hb : name ≠ c!"b")
    (hc : name = c!"c" → u.canonicalization ≠ ⟨.simple, .simple⟩) (bText : Str) :
    ∃ t, Piece ix u fmt.ascii (lineBreak fmt) bText name t ∧ st'.out = st.out ++ t ++ endTag fmt ∧
      st'.insertion = st.insertion := by
  have simple : ∀ (n v : Str), TagText ix u fmt.ascii (lineBreak fmt) bText n v → name = n →
      st' = st.push (formatTag fmt st.i n v) →
      ∃ t, Piece ix u fmt.ascii (lineBreak fmt) bText name t ∧ st'.out = st.out ++ t ++ endTag fmt ∧
        st'.insertion = st.insertion := by
    rintro n v ht rfl rfl
    obtain ⟨lead, h1, h2⟩ := formatTag_shape fmt st.i name v
    exact ⟨_, .mk name lead v h1 ht, by simp [FmtState.push, h2], rfl⟩
  unfold formatNamed at h
  rcases ite_eq_cases h with ⟨e, h⟩ | ⟨na, h⟩
  · injection h with h
    exact simple _ _ .a e h.symm
  rcases ite_eq_cases h with ⟨e, h⟩ | ⟨_, h⟩
  · exact absurd e hb
  rcases ite_eq_cases h with ⟨e, h⟩ | ⟨nbh, h⟩
  · injection h with h
    subst h
    subst e
    refine ⟨_, .mk c!"bh" _ _ (advanceInitial_lead fmt st.i 4)
      (.bh _ (formatChunks_folded fmt ((advanceInitial fmt st.i 4).2 - 1) (encodeBase64 u.bodyHash))), ?_, rfl⟩
    simp [FmtState.push, formatTagBh]
  rcases ite_eq_cases h with ⟨e, h⟩ | ⟨nc, h⟩
  · injection h with h
    have hne := hc e
    have ht := TagText.c (ix := ix) (ascii := fmt.ascii) (brk := lineBreak fmt) (bText := bText) hne
    refine simple _ _ ht e ?_
    rw [← h]
    revert hne
    generalize u.canonicalization = c
    obtain ⟨hd, bd⟩ := c
    cases hd <;> cases bd <;> intro hne <;> first | exact absurd rfl hne | rfl
  rcases ite_eq_cases h with ⟨e, h⟩ | ⟨nd, h⟩
  · obtain ⟨p, h1, h2⟩ := push_some h
    obtain ⟨v, h3, rfl⟩ := Option.map_eq_some_iff.1 h1
    exact simple _ _ (.d v h3) e h2
  rcases ite_eq_cases h with ⟨e, h⟩ | ⟨nh, h⟩
  · obtain ⟨p, h1, rfl⟩ := push_some h
    subst e
    obtain ⟨lead, t, g1, g2, g3⟩ := formatTagH_shape h1
    exact ⟨_, .mk c!"h" lead t g1 (.h t g2), by simp [FmtState.push, g3], rfl⟩
  rcases ite_eq_cases h with ⟨e, h⟩ | ⟨ni, h⟩
  · obtain ⟨p, h1, h2⟩ := push_some h
    obtain ⟨v, h3, rfl⟩ := Option.map_eq_some_iff.1 h1
    obtain ⟨idn, h4, h5⟩ := Option.bind_eq_some_iff.1 h3
    exact simple _ _ (.i idn v h4 h5) e h2
  rcases ite_eq_cases h with ⟨e, h⟩ | ⟨nl, h⟩
  · obtain ⟨p, h1, h2⟩ := push_some h
    obtain ⟨v, h3, rfl⟩ := Option.map_eq_some_iff.1 h1
    exact simple _ _ (.l v h3) e h2
  rcases ite_eq_cases h with ⟨e, h⟩ | ⟨ns, h⟩
  · obtain ⟨p, h1, h2⟩ := push_some h
    obtain ⟨v, h3, rfl⟩ := Option.map_eq_some_iff.1 h1
    exact simple _ _ (.s v h3) e h2
  rcases ite_eq_cases h with ⟨e, h⟩ | ⟨nt, h⟩
  · obtain ⟨p, h1, h2⟩ := push_some h
    obtain ⟨v, h3, rfl⟩ := Option.map_eq_some_iff.1 h1
    exact simple _ _ (.t v h3) e h2
  rcases ite_eq_cases h with ⟨e, h⟩ | ⟨nv, h⟩
  · injection h with h
    exact simple _ _ .v e h.symm
  rcases ite_eq_cases h with ⟨e, h⟩ | ⟨nx, h⟩
  · obtain ⟨p, h1, h2⟩ := push_some h
    obtain ⟨v, h3, rfl⟩ := Option.map_eq_some_iff.1 h1
    exact simple _ _ (.x v h3) e h2
  rcases ite_eq_cases h with ⟨e, h⟩ | ⟨nz, h⟩
  · obtain ⟨p, h1, rfl⟩ := push_some h
    subst e
    obtain ⟨lead, t, g1, g2, g3⟩ := formatTagZ_shape h1
    exact ⟨_, .mk c!"z" lead t g1 (.z t g2), by simp [FmtState.push, g3], rfl⟩
  · obtain ⟨p, h1, h2⟩ := push_some h
    obtain ⟨t, h3, rfl⟩ := Option.map_eq_some_iff.1 h1
    obtain ⟨tn, tv⟩ := t
    have e : tn = name := by
      have := List.find?_some h3
      simpa using this
    subst e
    have hmem := List.mem_of_find?_eq_some h3
    refine simple tn tv (.ext tn tv ?_ hmem) rfl h2
    simp [isOutputTag, na, hb, nbh, nc, nd, nh, ni, nl, ns, nt, nv, nx, nz]

theorem formatNamed_b {ix : Idna} {u : UnsignedSig} {len : Nat} {fmt : Fmt} {st : FmtState} :
    ∃ lead i, Lead (lineBreak fmt) lead ∧ formatNamed ix u len fmt st c!"b" =
      some ⟨st.out ++ (lead ++ c!"b=") ++ endTag fmt, i, some (byteLen (st.out ++ (lead ++ c!"b=")))⟩ :=
  ⟨_, _, advanceInitial_lead fmt st.i 3, rfl⟩

/-- Tags that are each followed by a semicolon. -/
inductive Closed (P : Str → Str → Prop) : List Str → Str → Prop
  | nil : Closed P [] []
  | cons (n p : Str) (ns : List Str) (t : Str) : P n p → Closed P ns t → Closed P (n :: ns) (p ++ ';' :: t)

/-- Tags that each follow a semicolon. -/
inductive Tail (P : Str → Str → Prop) : List Str → Str → Prop
  | nil : Tail P [] []
  | cons (n p : Str) (ns : List Str) (t : Str) : P n p → Tail P ns t → Tail P (n :: ns) (';' :: p ++ t)

/-- The parts of formatted text: all tags before `b=`, the lead of `b=`, all tags
after it. -/
structure Formatted (P : Str → Str → Prop) (brk : Str) (names ns1 ns2 : List Str) (t1 lead t2 : Str) : Prop where
  names_eq : names = ns1 ++ c!"b" :: ns2
  before : Closed P ns1 t1
  lead_ok : Lead brk lead
  after : Tail P ns2 t2

variable {ix : Idna} {u : UnsignedSig} {len width : Nat} {indent : Str} {ascii : Bool}

theorem formatLoop_tail (brk : Str) (hbrk : brk = '\r' :: '\n' :: indent) (bText : Str) (names : List Str)
    (st st' : FmtState) (h : formatLoop ix u len width indent ascii st names = some st')
    (hb : c!"b" ∉ names) (hc : c!"c" ∈ names → u.canonicalization ≠ ⟨.simple, .simple⟩)
    (hne : names ≠ []) :
    ∃ t, Tail (Piece ix u ascii brk bText) names (';' :: t) ∧ st'.out = st.out ++ t ∧
      st'.insertion = st.insertion := by
  induction names generalizing st with
  | nil => exact absurd rfl hne
  | cons n ns ih =>
    rw [formatLoop] at h
    split at h
    · cases h
    · next st1 e =>
      obtain ⟨p, h1, h2, h3⟩ := formatNamed_piece e (fun e => hb (by simp [e]))
        (fun e => hc (by simp [e])) bText
      have hl : ∀ fl, lineBreak ⟨width, indent, fl, ascii⟩ = brk := fun _ => hbrk.symm
      rw [hl] at h1
      cases ns with
      | nil =>
        injection h with h
        subst h
        refine ⟨p, ?_, by simpa [endTag] using h2, h3⟩
        have := Tail.cons n p [] [] h1 .nil
        simpa using this
      | cons m ms =>
        obtain ⟨t, g1, g2, g3⟩ := ih st1 h (fun e => hb (List.mem_cons_of_mem _ e))
          (fun e => hc (List.mem_cons_of_mem _ e)) (by simp)
        refine ⟨p ++ ';' :: t, ?_, by rw [g2, h2]; simp [endTag], by rw [g3, h3]⟩
        exact Tail.cons n p (m :: ms) _ h1 g1

theorem formatLoop_shape (brk : Str) (hbrk : brk = '\r' :: '\n' :: indent) (bText : Str) (names : List Str)
    (st st' : FmtState) (h : formatLoop ix u len width indent ascii st names = some st')
    (hn : names.Nodup) (hb : c!"b" ∈ names)
    (hc : c!"c" ∈ names → u.canonicalization ≠ ⟨.simple, .simple⟩) :
    ∃ ns1 ns2 t1 lead t2, Formatted (Piece ix u ascii brk bText) brk names ns1 ns2 t1 lead t2 ∧
      st'.out = st.out ++ t1 ++ lead ++ c!"b=" ++ t2 ∧
      st'.insertion = some (byteLen (st.out ++ t1 ++ lead ++ c!"b=")) := by
  induction names generalizing st with
  | nil => cases hb
  | cons n ns ih =>
    have hl : ∀ fl, lineBreak ⟨width, indent, fl, ascii⟩ = brk := fun _ => hbrk.symm
    rw [formatLoop] at h
    rw [List.nodup_cons] at hn
    by_cases e : n = c!"b"
    · subst e
      obtain ⟨lead, i, h1, h2⟩ := formatNamed_b (ix := ix) (u := u) (len := len)
        (fmt := ⟨width, indent, ns.isEmpty, ascii⟩) (st := st)
      rw [h2] at h
      rw [hl] at h1
      simp only at h
      cases ns with
      | nil =>
        injection h with h
        subst h
        exact ⟨[], [], [], lead, [], ⟨rfl, .nil, h1, .nil⟩, by simp [endTag], by simp⟩
      | cons m ms =>
        obtain ⟨t, g1, g2, g3⟩ := formatLoop_tail brk hbrk bText (m :: ms) _ _ h hn.1
          (fun e => hc (List.mem_cons_of_mem _ e)) (by simp)
        exact ⟨[], m :: ms, [], lead, ';' :: t, ⟨rfl, .nil, h1, g1⟩, by rw [g2]; simp [endTag],
          by rw [g3]; simp⟩
    · split at h
      · cases h
      · next st1 e1 =>
        obtain ⟨p, h1, h2, h3⟩ := formatNamed_piece e1 e (fun e => hc (by simp [e])) bText
        rw [hl] at h1
        have hb' : c!"b" ∈ ns := by
          rcases List.mem_cons.1 hb with h | h
          · exact absurd h.symm e
          · exact h
        obtain ⟨ns1, ns2, t1, lead, t2, g1, g2, g3⟩ := ih st1 h hn.2 hb'
          (fun e => hc (List.mem_cons_of_mem _ e))
        have hne : ns.isEmpty = false := by
          cases ns with
          | nil => cases hb'
          | cons => rfl
        rw [hne] at h2
        have e2 : st1.out = st.out ++ (p ++ [';']) := by simpa [endTag] using h2
        refine ⟨n :: ns1, ns2, p ++ ';' :: t1, lead, t2,
          ⟨by rw [g1.names_eq]; rfl, .cons _ _ _ _ h1 g1.before, g1.lead_ok, g1.after⟩, ?_, ?_⟩
        · rw [g2, e2]; simp
        · rw [g3, e2]; simp

end Dkim
