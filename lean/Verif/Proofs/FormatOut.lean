import Verif.Proofs.FormatText

/-!
# The output of the formatter: tag list, removal of the signature, no panics
-/

namespace Dkim

open Spec

variable {ix : Idna} {u : UnsignedSig}

theorem TagText.change {ascii : Bool} {brk b1 n t : Str} (h : TagText ix u ascii brk b1 n t)
    (hn : n ≠ c!"b") (b2 : Str) : TagText ix u ascii brk b2 n t := by
  cases h with
  | a => exact .a
  | b => exact absurd rfl hn
  | bh t ht => exact .bh t ht
  | c hc => exact .c hc
  | d t ht => exact .d t ht
  | h t ht => exact .h t ht
  | i i t hi ht => exact .i i t hi ht
  | l k hk => exact .l k hk
  | s t ht => exact .s t ht
  | t k hk => exact .t k hk
  | v => exact .v
  | x k hk => exact .x k hk
  | z t ht => exact .z t ht
  | ext n v hn hm => exact .ext _ _ hn hm

theorem Piece.change {ascii : Bool} {brk b1 n p : Str} (h : Piece ix u ascii brk b1 n p)
    (hn : n ≠ c!"b") (b2 : Str) : Piece ix u ascii brk b2 n p := by
  cases h with
  | mk lead t hl ht => exact .mk _ _ _ hl (ht.change hn b2)

theorem Closed.mono {P Q : Str → Str → Prop} {ns : List Str} {t : Str} (h : Closed P ns t)
    (hpq : ∀ n p, n ∈ ns → P n p → Q n p) : Closed Q ns t := by
  induction h with
  | nil => exact .nil
  | cons n p ns t hp _ ih =>
    exact .cons _ _ _ _ (hpq n p (by simp) hp) (ih (fun m q hm => hpq m q (List.mem_cons_of_mem _ hm)))

theorem Tail.mono {P Q : Str → Str → Prop} {ns : List Str} {t : Str} (h : Tail P ns t)
    (hpq : ∀ n p, n ∈ ns → P n p → Q n p) : Tail Q ns t := by
  induction h with
  | nil => exact .nil
  | cons n p ns t hp _ ih =>
    exact .cons _ _ _ _ (hpq n p (by simp) hp) (ih (fun m q hm => hpq m q (List.mem_cons_of_mem _ hm)))

/-- What a value of the tag list was made from. -/
def Origin (ix : Idna) (u : UnsignedSig) (ascii : Bool) (brk bText : Str) (tag : Str × Str) : Prop :=
  ∃ f t, OptFws f ∧ t = f ++ tag.2 ∧ TagText ix u ascii brk bText tag.1 t ∧
    (tag.1 ≠ c!"b" → tag.1 ≠ c!"bh" → f = [])

theorem piece_spec (law : IdnaLaw ix) (hf : SigFine ix u) {ascii : Bool} {brk bText n p : Str} (hbrk : Fws brk)
    (hb : ValueText bText) (h : Piece ix u ascii brk bText n p) :
    ∃ v, SpecText n v p ∧ Origin ix u ascii brk bText (n, v) := by
  cases h with
  | mk lead t hl ht =>
    obtain ⟨h1, f, v, h2, h3, h4, _, h5⟩ := tagText_value law hf hbrk hb ht
    subst h4
    exact ⟨v, specText_of (lead_optFws hbrk hl) h1 h2 h3, f, _, h2, rfl, ht, h5⟩

theorem closed_listText (law : IdnaLaw ix) (hf : SigFine ix u) {ascii : Bool} {brk bText : Str} (hbrk : Fws brk)
    (hb : ValueText bText) {ns : List Str} {t : Str} (h : Closed (Piece ix u ascii brk bText) ns t)
    {tags : List (Str × Str)} {r : Str} (hr : ListText tags r)
    (ho : ∀ x ∈ tags, Origin ix u ascii brk bText x) :
    ∃ tags', tags'.map (·.1) = ns ++ tags.map (·.1) ∧ ListText tags' (t ++ r) ∧
      ∀ x ∈ tags', Origin ix u ascii brk bText x := by
  induction h with
  | nil => exact ⟨tags, rfl, hr, ho⟩
  | cons n p ns t hp _ ih =>
    obtain ⟨tags', h1, h2, h3⟩ := ih
    obtain ⟨v, g1, g2⟩ := piece_spec law hf hbrk hb hp
    refine ⟨(n, v) :: tags', by simp [h1], ?_, ?_⟩
    · have := ListText.more _ _ _ _ _ g1 h2
      simpa using this
    · intro x hx
      rcases List.mem_cons.1 hx with rfl | hx
      · exact g2
      · exact h3 x hx

theorem tail_tailText (law : IdnaLaw ix) (hf : SigFine ix u) {ascii : Bool} {brk bText : Str} (hbrk : Fws brk)
    (hb : ValueText bText) {ns : List Str} {t : Str} (h : Tail (Piece ix u ascii brk bText) ns t) :
    ∃ tags', tags'.map (·.1) = ns ∧ TailText tags' t ∧
      ∀ x ∈ tags', Origin ix u ascii brk bText x := by
  induction h with
  | nil => exact ⟨[], rfl, .nil, by simp⟩
  | cons n p ns t hp _ ih =>
    obtain ⟨tags', h1, h2, h3⟩ := ih
    obtain ⟨v, g1, g2⟩ := piece_spec law hf hbrk hb hp
    refine ⟨(n, v) :: tags', by simp [h1], ?_, ?_⟩
    · exact TailText.cons _ _ _ _ _ g1 h2
    · intro x hx
      rcases List.mem_cons.1 hx with rfl | hx
      · exact g2
      · exact h3 x hx

theorem formatted_listText (law : IdnaLaw ix) (hf : SigFine ix u) {ascii : Bool} {brk bText : Str}
    (hbrk : Fws brk) (hb : ValueText bText) {names ns1 ns2 : List Str} {t1 lead t2 : Str}
    (h : Formatted (Piece ix u ascii brk bText) brk names ns1 ns2 t1 lead t2) :
    ∃ tags, tags.map (·.1) = names ∧ ListText tags (t1 ++ lead ++ c!"b=" ++ bText ++ t2) ∧
      ∀ x ∈ tags, Origin ix u ascii brk bText x := by
  obtain ⟨tags2, h1, h2, h3⟩ := tail_tailText law hf hbrk hb h.after
  have hp : Piece ix u ascii brk bText c!"b" (lead ++ c!"b" ++ '=' :: bText) := .mk _ _ _ h.lead_ok .b
  obtain ⟨v, g1, g2⟩ := piece_spec law hf hbrk hb hp
  have hl := tail_listText g1 h2
  obtain ⟨tags', k1, k2, k3⟩ := closed_listText law hf hbrk hb h.before hl (by
    intro x hx
    rcases List.mem_cons.1 hx with rfl | hx
    · exact g2
    · exact h3 x hx)
  refine ⟨tags', by rw [k1, h.names_eq]; simp [h1], ?_, k3⟩
  simpa using k2

/-- The `b=` value of the formatted text is what is removed. -/
theorem formatted_cut (law : IdnaLaw ix) (hf : SigFine ix u) {ascii : Bool} {brk bText : Str}
    (hbrk : Fws brk) (hb : ValueText bText) {names ns1 ns2 : List Str} {t1 lead t2 : Str}
    (h : Formatted (Piece ix u ascii brk bText) brk names ns1 ns2 t1 lead t2) (hn : names.Nodup) :
    Cut (t1 ++ lead ++ c!"b=") bText t2 := by
  have hbs : ';' ∉ bText := by
    rcases hb with rfl | ⟨f, v, h1, h2, rfl⟩
    · simp
    · simp [optFws_noSemi h1, someValue_noSemi h2]
  have hpost : t2 = [] ∨ ∃ r, t2 = ';' :: r := by
    have := h.after
    cases this with
    | nil => exact .inl rfl
    | cons => exact .inr ⟨_, rfl⟩
  have here : Cut (lead ++ c!"b=") bText t2 := by
    refine .here _ _ _ ⟨lead, [], .inr (lead_optFws hbrk h.lead_ok), .inl rfl, by simp⟩ ?_ hbs hpost
    simp [optFws_noSemi (.inr (lead_optFws hbrk h.lead_ok))]
  have hnot : c!"b" ∉ ns1 := by
    rw [h.names_eq] at hn
    intro hm
    exact (List.nodup_append.1 hn).2.2 _ hm _ (by simp) rfl
  have key : ∀ ns t, Closed (Piece ix u ascii brk bText) ns t → c!"b" ∉ ns →
      Cut (t ++ (lead ++ c!"b=")) bText t2 := by
    intro ns t hc
    induction hc with
    | nil => intro _; exact here
    | cons n p ns t hp _ ih =>
      intro hm
      simp only [List.mem_cons, not_or] at hm
      obtain ⟨v, g1, _⟩ := piece_spec law hf hbrk hb hp
      obtain ⟨_, _, _, _, _, _, _, hs⟩ := specText_parts g1
      have := Cut.next p _ _ _ hs (specText_other g1 (fun e => hm.1 e.symm)) (ih hm.2)
      simpa using this
  have := key ns1 t1 h.before hnot
  rwa [← List.append_assoc] at this

/-! ## No panics -/

theorem formatNamed_some (law : IdnaLaw ix) (hf : SigFine ix u) (len : Nat) (fmt : Fmt) (st : FmtState)
    {name : Str} (hn : name ∈ tagNamesUnsorted u) : ∃ st', formatNamed ix u len fmt st name = some st' := by
  obtain ⟨pd, hd, _⟩ := domainForm_fine law hf.domain fmt.ascii
  obtain ⟨ps, hs, _⟩ := domainForm_fine law hf.selector fmt.ascii
  rw [tagNamesUnsorted_eq, List.mem_append, mem_fixedNames] at hn
  unfold formatNamed
  refine iteInduction (motive := fun x => ∃ st', x = some st') (fun _ => ⟨_, rfl⟩) (fun na => ?_)
  refine iteInduction (motive := fun x => ∃ st', x = some st') (fun _ => ⟨_, rfl⟩) (fun nb => ?_)
  refine iteInduction (motive := fun x => ∃ st', x = some st') (fun _ => ⟨_, rfl⟩) (fun nbh => ?_)
  refine iteInduction (motive := fun x => ∃ st', x = some st') (fun _ => ⟨_, rfl⟩) (fun nc => ?_)
  refine iteInduction (motive := fun x => ∃ st', x = some st') (fun _ => ?_) (fun nd => ?_)
  · rw [hd]; exact ⟨_, rfl⟩
  refine iteInduction (motive := fun x => ∃ st', x = some st') (fun _ => ?_) (fun nh => ?_)
  · have := hf.headers_ne
    cases e : u.signedHeaders with
    | nil => exact absurd e this
    | cons => exact ⟨_, rfl⟩
  refine iteInduction (motive := fun x => ∃ st', x = some st') (fun e => ?_) (fun ni => ?_)
  · subst e
    cases ei : u.identity with
    | none =>
      exfalso
      rcases hn with hn | hn
      · revert hn
        simp [ei]
      · obtain ⟨t, ht, e⟩ := List.mem_map.1 hn
        have := (hf.ext t ht).2.2
        rw [e] at this
        cases this
    | some i =>
      obtain ⟨p, h1, _⟩ := domainForm_fine law (hf.identity i ei) fmt.ascii
      simp only [Option.bind_some, identityForm, h1]
      exact ⟨_, rfl⟩
  have optional : ∀ {x : Option Nat} {n : Str} {f : Nat → Str × Nat}, name = n →
      (isOutputTag n = true) → (n ∈ fixedNames u → x.isSome = true) →
      ∃ st', st.push? (x.map f) = some st' := by
    intro x n f e ho hx
    subst e
    cases x with
    | some k => exact ⟨_, rfl⟩
    | none =>
      exfalso
      rcases hn with hn | hn
      · have := hx ((mem_fixedNames name).2 hn)
        cases this
      · obtain ⟨t, ht, e⟩ := List.mem_map.1 hn
        have := (hf.ext t ht).2.2
        rw [e, ho] at this
        cases this
  refine iteInduction (motive := fun x => ∃ st', x = some st') (fun e => ?_) (fun nl => ?_)
  · exact optional e rfl (by intro h; rw [mem_fixedNames] at h; revert h; simp)
  refine iteInduction (motive := fun x => ∃ st', x = some st') (fun _ => ?_) (fun ns => ?_)
  · rw [hs]; exact ⟨_, rfl⟩
  refine iteInduction (motive := fun x => ∃ st', x = some st') (fun e => ?_) (fun nt => ?_)
  · exact optional e rfl (by intro h; rw [mem_fixedNames] at h; revert h; simp)
  refine iteInduction (motive := fun x => ∃ st', x = some st') (fun _ => ⟨_, rfl⟩) (fun nv => ?_)
  refine iteInduction (motive := fun x => ∃ st', x = some st') (fun e => ?_) (fun nx => ?_)
  · exact optional e rfl (by intro h; rw [mem_fixedNames] at h; revert h; simp)
  refine iteInduction (motive := fun x => ∃ st', x = some st') (fun e => ?_) (fun nz => ?_)
  · subst e
    cases ec : u.copiedHeaders with
    | cons => exact ⟨_, rfl⟩
    | nil =>
      exfalso
      rcases hn with hn | hn
      · revert hn
        simp [ec]
      · obtain ⟨t, ht, e⟩ := List.mem_map.1 hn
        have := (hf.ext t ht).2.2
        rw [e] at this
        cases this
  · cases ef : u.extTags.find? (fun t => t.1 == name) with
    | some t => exact ⟨_, rfl⟩
    | none =>
      exfalso
      rw [List.find?_eq_none] at ef
      rcases hn with hn | hn
      · simp [na, nb, nbh, nc, nd, nh, ni, nl, ns, nt, nv, nx, nz] at hn
      · obtain ⟨t, ht, e⟩ := List.mem_map.1 hn
        exact ef t ht (by simp [e])

theorem formatLoop_some (law : IdnaLaw ix) (hf : SigFine ix u) (len width : Nat) (indent : Str)
    (ascii : Bool) (names : List Str) (st : FmtState) (hn : ∀ n ∈ names, n ∈ tagNamesUnsorted u) :
    ∃ st', formatLoop ix u len width indent ascii st names = some st' := by
  induction names generalizing st with
  | nil => exact ⟨_, rfl⟩
  | cons n ns ih =>
    rw [formatLoop]
    obtain ⟨st1, h1⟩ := formatNamed_some law hf len ⟨width, indent, ns.isEmpty, ascii⟩ st (hn n (by simp))
    rw [h1]
    exact ih st1 (fun m hm => hn m (List.mem_cons_of_mem _ hm))

/-- The indentation of accepted requests. -/
def GoodIndent (indent : Str) : Prop := indent ≠ [] ∧ ∀ c ∈ indent, wsp c

theorem GoodIndent.fws {indent : Str} (h : GoodIndent indent) : Fws ('\r' :: '\n' :: indent) :=
  .folded [] indent (by simp) h.1 h.2

theorem splitAtByte_append (a b : Str) : splitAtByte (byteLen a) (a ++ b) = some (a, b) := by
  induction a with
  | nil => cases b <;> rfl
  | cons c a ih =>
    have hp := c.utf8Size_pos
    have e : byteLen (c :: a) = byteLen a + c.utf8Size := by
      have h1 := utf8_length (c :: a)
      have h2 := utf8_length a
      rw [utf8_cons, List.length_append, String.length_utf8EncodeChar] at h1
      omega
    obtain ⟨k, hk⟩ : ∃ k, byteLen (c :: a) = k + 1 := ⟨byteLen (c :: a) - 1, by omega⟩
    rw [hk, List.cons_append, splitAtByte, if_pos (by omega)]
    have : k + 1 - c.utf8Size = byteLen a := by omega
    rw [this, ih]

/-- The structure of formatted text. -/
theorem formatWithoutSignature_spec (law : IdnaLaw ix) {sortBy : Comparator → List Str → List Str}
    (hs : SortLaw sortBy) (hf : SigFine ix u) (format : OutputFormat) (len : Nat) :
    ∃ ns1 ns2 t1 lead t2,
      formatWithoutSignature ix sortBy u format len =
        some (t1 ++ lead ++ c!"b=" ++ t2, byteLen (t1 ++ lead ++ c!"b=")) ∧
      (computeTagNames sortBy u format.tagOrder).Nodup ∧
      ∀ bText, Formatted (Piece ix u format.asciiOnly ('\r' :: '\n' :: format.indentation) bText)
        ('\r' :: '\n' :: format.indentation) (computeTagNames sortBy u format.tagOrder) ns1 ns2 t1 lead t2 := by
  have hp := computeTagNames_perm hs u format.tagOrder
  have hnd : (computeTagNames sortBy u format.tagOrder).Nodup := hp.nodup_iff.2 (tagNames_nodup hf)
  obtain ⟨st', h1⟩ := formatLoop_some law hf len format.lineWidth format.indentation format.asciiOnly
    (computeTagNames sortBy u format.tagOrder) ⟨[], byteLen format.headerName + 1, none⟩
    (fun n hn => hp.mem_iff.1 hn)
  have hb : c!"b" ∈ computeTagNames sortBy u format.tagOrder := by
    rw [hp.mem_iff, tagNamesUnsorted_eq, List.mem_append, mem_fixedNames]
    simp
  have hc : c!"c" ∈ computeTagNames sortBy u format.tagOrder →
      u.canonicalization ≠ ⟨.simple, .simple⟩ := by
    rw [hp.mem_iff, tagNamesUnsorted_eq, List.mem_append, mem_fixedNames]
    intro h
    rcases h with h | h
    · simpa using h
    · obtain ⟨t, ht, e⟩ := List.mem_map.1 h
      have := (hf.ext t ht).2.2
      rw [e] at this
      cases this
  obtain ⟨ns1, ns2, t1, lead, t2, g1, g2, g3⟩ := formatLoop_shape _ rfl [] _ _ _ h1 hnd hb hc
  refine ⟨ns1, ns2, t1, lead, t2, ?_, hnd, ?_⟩
  · unfold formatWithoutSignature
    simp only [h1, g3, g2]
    simp
  · intro bText
    have hnot := hnd
    rw [g1.names_eq] at hnot
    have h1 := List.nodup_append.1 hnot
    refine ⟨g1.names_eq, g1.before.mono ?_, g1.lead_ok, g1.after.mono ?_⟩
    · intro n p hn hp
      refine hp.change (fun e => ?_) bText
      exact h1.2.2 _ hn _ (by simp) e
    · intro n p hn hp
      refine hp.change (fun e => ?_) bText
      exact (List.nodup_cons.1 h1.2.1).1 (e ▸ hn)

/-- The structure of the text after insertion of the signature. -/
theorem insertSignatureData_spec {before after : Str} (headerName : Str) (sig : Bytes) (width : Nat)
    (indent : Str) :
    ∃ text, insertSignatureData (before ++ after) (byteLen before) headerName sig width indent =
      some (before ++ text ++ after) ∧ Folded ('\r' :: '\n' :: indent) (encodeBase64 sig) text := by
  unfold insertSignatureData
  rw [splitAtByte_append]
  exact ⟨_, rfl, formatChunks_folded ⟨width, indent, false, false⟩ _ _⟩

end Dkim
