import Verif.Proofs.Fws
import Verif.Proofs.Qp

/-! Helper lemmas about the tag-list parser. -/

namespace Dkim

open Spec

theorem isAsciiAlpha_iff (c : Char) : isAsciiAlpha c = true ↔
    (65 ≤ c.toNat ∧ c.toNat ≤ 90 ∨ 97 ≤ c.toNat ∧ c.toNat ≤ 122) := by
  simp [isAsciiAlpha, isAsciiUpper, isAsciiLower]

theorem isTagAlnum_iff (c : Char) : isTagAlnum c = true ↔
    ((65 ≤ c.toNat ∧ c.toNat ≤ 90 ∨ 97 ≤ c.toNat ∧ c.toNat ≤ 122) ∨
      (48 ≤ c.toNat ∧ c.toNat ≤ 57) ∨ c = '_') := by
  simp [isTagAlnum, isAsciiAlnum, isAsciiAlpha, isAsciiUpper, isAsciiLower, isAsciiDigit, or_assoc]

theorem isTvalChar_iff (c : Char) : isTvalChar c = true ↔ valChar c := by
  simp only [isTvalChar, valChar, Bool.or_eq_true, Bool.and_eq_true, decide_eq_true_eq,
    char_le_iff, char_eq_iff, ne_eq, isAscii, Bool.not_eq_true', decide_eq_false_iff_not]
  have h1 : ('!').toNat = 33 := rfl
  have h2 : (':').toNat = 58 := rfl
  have h3 : ('<').toNat = 60 := rfl
  have h5 : ('~').toNat = 126 := rfl
  have h6 : (';').toNat = 59 := rfl
  rw [h1, h2, h3, h5, h6]
  omega

theorem valChar_noFws {c : Char} (h : valChar c) : ¬ fwsChar c := by
  rintro (rfl | rfl | rfl | rfl) <;> revert h <;> unfold valChar <;> decide

theorem alpha_noFws {c : Char} (h : isAsciiAlpha c = true) : ¬ fwsChar c := by
  rintro (rfl | rfl | rfl | rfl) <;> revert h <;> decide

theorem semicolon_noFws : ¬ fwsChar ';' := by
  rintro (h | h | h | h) <;> exact absurd h (by decide)

/-- Empty, or starting with a semicolon. -/
def AtEnd (s : Str) : Prop := s = [] ∨ ∃ r, s = ';' :: r

theorem AtEnd.noFws {s : Str} (h : AtEnd s) : NoFws s := by
  rcases h with rfl | ⟨r, rfl⟩
  · exact noFws_nil
  · exact noFws_cons semicolon_noFws

/-! ### Names -/

theorem stripTagName_name {n r : Str} (hn : TagName n) (hr : NotStart isTagAlnum r) :
    stripTagName (n ++ r) = some (r, n) := by
  obtain ⟨c, n', rfl, hc, hn'⟩ := hn
  rw [List.cons_append, stripTagName, if_pos ((isAsciiAlpha_iff c).2 hc)]
  simp only
  rw [dropWhile_all _ _ (fun d hd => (isTagAlnum_iff d).2 (hn' d hd)), dropWhile_notStart hr,
    ← List.cons_append, stripSuffix_append]

theorem stripTagName_some {s r n : Str} (h : stripTagName s = some (r, n)) :
    s = n ++ r ∧ TagName n ∧ NotStart isTagAlnum r := by
  cases s with
  | nil => simp [stripTagName] at h
  | cons c s =>
    rw [stripTagName] at h
    split at h
    · next hc =>
      simp only [Option.some.injEq, Prod.mk.injEq] at h
      obtain ⟨rfl, h2⟩ := h
      have : c :: s = (c :: s.takeWhile isTagAlnum) ++ s.dropWhile isTagAlnum := by
        rw [List.cons_append, List.takeWhile_append_dropWhile]
      rw [this, stripSuffix_append] at h2
      subst h2
      refine ⟨this, ⟨c, _, rfl, (isAsciiAlpha_iff c).1 hc, ?_⟩, notStart_dropWhile _ _⟩
      intro d hd
      exact (isTagAlnum_iff d).1 (takeWhile_forall _ _ d hd)
    · simp at h

/-! ### Values -/

theorem stripTval_tval {v r : Str} (hv : Tval v) (hr : NotStart isTvalChar r) :
    stripTval (v ++ r) = some r := by
  cases v with
  | nil => exact absurd rfl hv.1
  | cons c v =>
    rw [List.cons_append, stripTval, if_pos ((isTvalChar_iff c).2 (hv.2 c (by simp))),
      dropWhile_all _ _ (fun d hd => (isTvalChar_iff d).2 (hv.2 d (by simp [hd]))),
      dropWhile_notStart hr]

theorem stripTval_some {s r : Str} (h : stripTval s = some r) :
    ∃ v, Tval v ∧ s = v ++ r ∧ NotStart isTvalChar r := by
  cases s with
  | nil => simp [stripTval] at h
  | cons c s =>
    rw [stripTval] at h
    split at h
    · next hc =>
      simp at h; subst h
      refine ⟨c :: s.takeWhile isTvalChar, ⟨by simp, ?_⟩, by simp, notStart_dropWhile _ _⟩
      intro d hd
      rcases List.mem_cons.1 hd with rfl | hd
      · exact (isTvalChar_iff _).1 hc
      · exact (isTvalChar_iff _).1 (takeWhile_forall _ _ d hd)
    · simp at h

theorem stripTval_none {s : Str} (h : NotStart isTvalChar s) : stripTval s = none := by
  cases s with
  | nil => rfl
  | cons c r => simp [stripTval, h c r rfl]

theorem AtEnd.notTval {s : Str} (h : AtEnd s) : NotStart isTvalChar s := by
  rcases h with rfl | ⟨r, rfl⟩
  · intro c r h; simp at h
  · intro c r h; obtain ⟨rfl, _⟩ := List.cons.inj h; decide

theorem fws_notTval {f r : Str} (h : Fws f) : NotStart isTvalChar (f ++ r) := by
  intro c x e
  obtain ⟨d, y, rfl, _⟩ := fws_head h
  have hc := fws_chars h d (by simp)
  obtain ⟨rfl, _⟩ := List.cons.inj e
  cases hd : isTvalChar d with
  | false => rfl
  | true => exact absurd hc (valChar_noFws ((isTvalChar_iff d).1 hd))

theorem optFws_notTval {f r : Str} (h : OptFws f) (hr : AtEnd r) : NotStart isTvalChar (f ++ r) := by
  rcases h with rfl | h
  · exact hr.notTval
  · exact fws_notTval h

theorem tval_noFws {v r : Str} (h : Tval v) : NoFws (v ++ r) := by
  cases v with
  | nil => exact absurd rfl h.1
  | cons c v => exact noFws_cons (valChar_noFws (h.2 c (by simp)))

theorem someValue_head {v : Str} (h : SomeValue v) : ∃ t r, Tval t ∧ v = t ++ r := by
  cases h with
  | one v h => exact ⟨v, [], h, by simp⟩
  | more v f r h _ _ => exact ⟨v, f ++ r, h, by simp⟩

theorem someValue_noFws {v r : Str} (h : SomeValue v) : NoFws (v ++ r) := by
  obtain ⟨t, x, ht, rfl⟩ := someValue_head h
  rw [List.append_assoc]; exact tval_noFws ht

/-- The tail of a value: `*( FWS tval )`. -/
inductive ValueTail : Str → Prop
  | nil : ValueTail []
  | cons (f v r : Str) : Fws f → Tval v → ValueTail r → ValueTail (f ++ v ++ r)

theorem someValue_tail {v : Str} (h : SomeValue v) : ∃ t r, Tval t ∧ ValueTail r ∧ v = t ++ r := by
  induction h with
  | one v h => exact ⟨v, [], h, .nil, by simp⟩
  | more v f r h hf _ ih =>
    obtain ⟨t, r', ht, hr', rfl⟩ := ih
    exact ⟨v, f ++ t ++ r', h, .cons f t r' hf ht hr', by simp⟩

theorem tail_someValue {t r : Str} (ht : Tval t) (hr : ValueTail r) : SomeValue (t ++ r) := by
  induction hr generalizing t with
  | nil => rw [List.append_nil]; exact .one t ht
  | cons f v r hf hv _ ih =>
    have := SomeValue.more t f _ ht hf (ih hv)
    simpa using this

theorem valueTail_notTval {r x : Str} (h : ValueTail r) (hx : NotStart isTvalChar x) :
    NotStart isTvalChar (r ++ x) := by
  cases h with
  | nil => exact hx
  | cons f v r hf _ _ => rw [List.append_assoc, List.append_assoc]; exact fws_notTval hf

theorem tvalLoop_tail {r x : Str} (h : ValueTail r) (hx : NotStart isTvalChar x)
    (hstop : (stripFws x).bind stripTval = none) (n : Nat) (hn : r.length ≤ n) :
    tvalLoop n (r ++ x) = x := by
  induction h generalizing n with
  | nil =>
    cases n with
    | zero => rfl
    | succ n => rw [List.nil_append, tvalLoop, hstop]
  | cons f v r hf hv hr ih =>
    have hpos : 0 < f.length := List.length_pos_iff.2 (fws_ne_nil hf)
    obtain ⟨n, rfl⟩ : ∃ m, n = m + 1 := ⟨n - 1, by simp at hn; omega⟩
    rw [tvalLoop, List.append_assoc, List.append_assoc, stripFws_fws hf (tval_noFws hv),
      Option.bind_some, stripTval_tval hv (valueTail_notTval hr hx)]
    simp only
    exact ih n (by simp at hn; omega)

theorem tvalLoop_some (n : Nat) (s : Str) : ∃ r, ValueTail r ∧ s = r ++ tvalLoop n s ∧
    (NotStart isTvalChar s → NotStart isTvalChar (tvalLoop n s)) := by
  induction n generalizing s with
  | zero => exact ⟨[], .nil, by simp [tvalLoop], fun h => h⟩
  | succ n ih =>
    rw [tvalLoop]
    cases h : (stripFws s).bind stripTval with
    | none => exact ⟨[], .nil, by simp, fun h => h⟩
    | some s' =>
      simp only
      cases h1 : stripFws s with
      | none => rw [h1] at h; simp at h
      | some s1 =>
        rw [h1] at h
        simp only [Option.bind_some] at h
        obtain ⟨f, hf, rfl⟩ := stripFws_some h1
        obtain ⟨v, hv, rfl, hns⟩ := stripTval_some h
        obtain ⟨r, hr, hr2, hr3⟩ := ih s'
        refine ⟨f ++ v ++ r, .cons f v r hf hv hr, ?_, fun _ => hr3 hns⟩
        conv => lhs; rw [hr2]
        simp

/-- When the loop stops for lack of fuel it would have stopped anyway. -/
theorem tvalLoop_stops (n : Nat) (s : Str) (hn : s.length ≤ n) :
    (stripFws (tvalLoop n s)).bind stripTval = none := by
  induction n generalizing s with
  | zero =>
    have : s = [] := List.length_eq_zero_iff.1 (by omega)
    subst this; rfl
  | succ n ih =>
    rw [tvalLoop]
    cases h : (stripFws s).bind stripTval with
    | none => exact h
    | some s' =>
      simp only
      apply ih
      cases h1 : stripFws s with
      | none => rw [h1] at h; simp at h
      | some s1 =>
        rw [h1] at h
        simp only [Option.bind_some] at h
        obtain ⟨f, hf, rfl⟩ := stripFws_some h1
        obtain ⟨v, hv, rfl, _⟩ := stripTval_some h
        have hpos : 0 < f.length := List.length_pos_iff.2 (fws_ne_nil hf)
        simp at hn; omega

theorem stripTagValue_value {v x : Str} (hv : SomeValue v) (hx : NotStart isTvalChar x)
    (hstop : (stripFws x).bind stripTval = none) : stripTagValue (v ++ x) = some (x, v) := by
  obtain ⟨t, r, ht, hr, rfl⟩ := someValue_tail hv
  rw [stripTagValue, List.append_assoc, stripTval_tval ht (valueTail_notTval hr hx)]
  simp only
  rw [tvalLoop_tail hr hx hstop _ (by simp), ← List.append_assoc, stripSuffix_append]

theorem stripTagValue_some {s r v : Str} (h : stripTagValue s = some (r, v)) :
    s = v ++ r ∧ SomeValue v := by
  unfold stripTagValue at h
  cases h1 : stripTval s with
  | none => rw [h1] at h; simp at h
  | some s' =>
    rw [h1] at h
    simp only [Option.some.injEq, Prod.mk.injEq] at h
    obtain ⟨rfl, h2⟩ := h
    obtain ⟨t, ht, rfl, _⟩ := stripTval_some h1
    obtain ⟨q, hq, hq2, _⟩ := tvalLoop_some s'.length s'
    generalize tvalLoop s'.length s' = z at *
    subst hq2
    rw [← List.append_assoc, stripSuffix_append] at h2
    subst h2
    exact ⟨by simp, tail_someValue ht hq⟩

theorem stripTagValue_none {s : Str} (h : NotStart isTvalChar s) : stripTagValue s = none := by
  rw [stripTagValue, stripTval_none h]

theorem optFws_stop {f r : Str} (hf : OptFws f) (hr : AtEnd r) :
    (stripFws (f ++ r)).bind stripTval = none := by
  rcases hf with rfl | hf
  · rw [List.nil_append, stripFws_none hr.noFws]; rfl
  · rw [stripFws_fws hf hr.noFws, Option.bind_some, stripTval_none hr.notTval]

/-! ### Tags -/

theorem eq_notAlnum (r : Str) : NotStart isTagAlnum ('=' :: r) := by
  intro c x e; obtain ⟨rfl, _⟩ := List.cons.inj e; decide

theorem optFws_eq_notAlnum {f : Str} (hf : OptFws f) (r : Str) : NotStart isTagAlnum (f ++ '=' :: r) := by
  rcases hf with rfl | hf
  · exact eq_notAlnum r
  · intro c x e
    obtain ⟨d, y, rfl, _⟩ := fws_head hf
    have hc := fws_chars hf d (by simp)
    obtain ⟨rfl, _⟩ := List.cons.inj e
    rcases hc with rfl | rfl | rfl | rfl <;> decide

theorem tagName_noFws {n r : Str} (h : TagName n) : NoFws (n ++ r) := by
  obtain ⟨c, n', rfl, hc, _⟩ := h
  exact noFws_cons (alpha_noFws ((isAsciiAlpha_iff c).2 hc))

theorem stripTagNameAndEquals_text {f1 n f2 : Str} (hf1 : OptFws f1) (hn : TagName n)
    (hf2 : OptFws f2) (r : Str) :
    stripTagNameAndEquals (f1 ++ n ++ f2 ++ ['='] ++ r) = some (r, n) := by
  have e : f1 ++ n ++ f2 ++ ['='] ++ r = f1 ++ (n ++ (f2 ++ '=' :: r)) := by simp
  rw [e, stripTagNameAndEquals, skipFws_opt hf1 (tagName_noFws hn),
    stripTagName_name hn (optFws_eq_notAlnum hf2 r)]
  simp only
  rw [skipFws_opt hf2 (noFws_cons eq_noFws)]
  rfl

theorem stripTagNameAndEquals_some {s r n : Str} (h : stripTagNameAndEquals s = some (r, n)) :
    ∃ f1 f2, OptFws f1 ∧ TagName n ∧ OptFws f2 ∧ s = f1 ++ n ++ f2 ++ ['='] ++ r := by
  unfold stripTagNameAndEquals at h
  obtain ⟨f1, hf1, e1⟩ := skipFws_some s
  cases h1 : stripTagName (skipFws s) with
  | none => rw [h1] at h; simp at h
  | some p =>
    obtain ⟨s1, n1⟩ := p
    rw [h1] at h
    simp only at h
    obtain ⟨e2, hn, _⟩ := stripTagName_some h1
    obtain ⟨f2, hf2, e3⟩ := skipFws_some s1
    split at h
    · next r' hr' =>
      simp only [Option.some.injEq, Prod.mk.injEq] at h
      obtain ⟨rfl, rfl⟩ := h
      refine ⟨f1, f2, hf1, hn, hf2, ?_⟩
      rw [e1, e2, e3, hr']; simp
    · simp at h

theorem stripTagSpec_text {n v t : Str} (h : SpecText n v t) {r : Str} (hr : AtEnd r) :
    stripTagSpec (t ++ r) = some (r, ⟨n, v⟩) := by
  cases h with
  | value f1 _ f2 f3 _ f4 h1 h2 h3 h4 h5 h6 =>
    have e : f1 ++ n ++ f2 ++ ['='] ++ f3 ++ v ++ f4 ++ r
        = f1 ++ n ++ f2 ++ ['='] ++ (f3 ++ (v ++ (f4 ++ r))) := by simp
    rw [e, stripTagSpec, stripTagNameAndEquals_text h1 h2 h3]
    simp only
    rw [skipFws_opt h4 (someValue_noFws h5),
      stripTagValue_value h5 (optFws_notTval h6 hr) (optFws_stop h6 hr)]
    simp only
    rw [skipFws_opt h6 hr.noFws]
  | empty f1 _ f2 f3 h1 h2 h3 h4 =>
    have e : f1 ++ n ++ f2 ++ ['='] ++ f3 ++ r = f1 ++ n ++ f2 ++ ['='] ++ (f3 ++ r) := by simp
    rw [e, stripTagSpec, stripTagNameAndEquals_text h1 h2 h3]
    simp only
    rw [skipFws_opt h4 hr.noFws, stripTagValue_none hr.notTval]

theorem stripTagSpec_some {s r : Str} {t : TagSpec} (h : stripTagSpec s = some (r, t)) :
    ∃ x, SpecText t.name t.value x ∧ s = x ++ r := by
  unfold stripTagSpec at h
  cases h1 : stripTagNameAndEquals s with
  | none => rw [h1] at h; simp at h
  | some p =>
    obtain ⟨s1, n⟩ := p
    rw [h1] at h
    simp only at h
    obtain ⟨f1, f2, hf1, hn, hf2, e1⟩ := stripTagNameAndEquals_some h1
    obtain ⟨f3, hf3, e2⟩ := skipFws_some s1
    cases h2 : stripTagValue (skipFws s1) with
    | none =>
      rw [h2] at h
      simp only [Option.some.injEq, Prod.mk.injEq] at h
      obtain ⟨rfl, rfl⟩ := h
      refine ⟨_, .empty f1 n f2 f3 hf1 hn hf2 hf3, ?_⟩
      rw [e1]
      conv => lhs; rw [e2]
      simp
    | some p =>
      obtain ⟨s2, v⟩ := p
      rw [h2] at h
      simp only [Option.some.injEq, Prod.mk.injEq] at h
      obtain ⟨rfl, rfl⟩ := h
      obtain ⟨e3, hv⟩ := stripTagValue_some h2
      obtain ⟨f4, hf4, e4⟩ := skipFws_some s2
      refine ⟨_, .value f1 n f2 f3 v f4 hf1 hn hf2 hf3 hv hf4, ?_⟩
      rw [e1, e2, e3]
      conv => lhs; rw [e4]
      simp

/-! ### Lists -/

def toPairs (tags : List TagSpec) : List (Str × Str) := tags.map fun t => (t.name, t.value)

def ofPairs (tags : List (Str × Str)) : List TagSpec := tags.map fun t => ⟨t.1, t.2⟩

theorem ofPairs_toPairs (tags : List TagSpec) : ofPairs (toPairs tags) = tags := by
  rw [ofPairs, toPairs, List.map_map]
  exact List.map_id tags

/-- The part of a list after the first tag. -/
inductive TailText : List (Str × Str) → Str → Prop
  | nil : TailText [] []
  | semicolon : TailText [] [';']
  | cons (n v s : Str) (tags : List (Str × Str)) (r : Str) : SpecText n v s → TailText tags r →
      TailText ((n, v) :: tags) (';' :: s ++ r)

theorem TailText.atEnd {tags : List (Str × Str)} {r : Str} (h : TailText tags r) : AtEnd r := by
  cases h with
  | nil => exact Or.inl rfl
  | semicolon => exact Or.inr ⟨[], rfl⟩
  | cons n v s tags r _ _ => exact Or.inr ⟨s ++ r, rfl⟩

theorem listText_tail {tags : List (Str × Str)} {t : Str} (h : ListText tags t) :
    ∃ n v tags' s r, tags = (n, v) :: tags' ∧ t = s ++ r ∧ SpecText n v s ∧ TailText tags' r := by
  induction h with
  | last n v s h => exact ⟨n, v, [], s, [], rfl, by simp, h, .nil⟩
  | lastSemicolon n v s h => exact ⟨n, v, [], s, [';'], rfl, rfl, h, .semicolon⟩
  | more n v s tags r h _ ih =>
    obtain ⟨n', v', tags', s', r', rfl, rfl, h1, h2⟩ := ih
    exact ⟨n, v, _, s, ';' :: s' ++ r', rfl, by simp, h, .cons n' v' s' tags' r' h1 h2⟩

theorem tail_listText {n v s : Str} {tags : List (Str × Str)} {r : Str} (h : SpecText n v s)
    (hr : TailText tags r) : ListText ((n, v) :: tags) (s ++ r) := by
  induction hr generalizing n v s with
  | nil => rw [List.append_nil]; exact .last n v s h
  | semicolon => exact .lastSemicolon n v s h
  | cons n' v' s' tags' r' h1 _ ih =>
    have := ListText.more n v s _ _ h (ih h1)
    simpa using this

theorem stripTagSpec_nil : stripTagSpec [] = none := by decide

theorem specText_length {n v s : Str} (h : SpecText n v s) : 0 < s.length := by
  cases h <;> simp <;> omega

theorem tagListLoop_text {tags : List (Str × Str)} {r : Str} (h : TailText tags r) (acc : List TagSpec)
    (n : Nat) (hn : r.length ≤ n) :
    (match tagListLoop n r acc with
      | (';' :: r, tags) => (r, tags)
      | (s, tags) => (s, tags)) = ([], acc ++ ofPairs tags) := by
  induction h generalizing acc n with
  | nil => cases n <;> simp [tagListLoop, ofPairs]
  | semicolon => cases n <;> simp [tagListLoop, ofPairs, stripTagSpec_nil]
  | cons nm v s tags r h1 h2 ih =>
    obtain ⟨n, rfl⟩ : ∃ m, n = m + 1 := ⟨n - 1, by simp at hn; omega⟩
    rw [List.cons_append, tagListLoop, stripTagSpec_text h1 h2.atEnd]
    simp only
    rw [ih _ n (by simp at hn; omega)]
    simp [ofPairs]

theorem tagListLoop_some (n : Nat) (s : Str) (acc : List TagSpec) :
    ∃ tags x, s = x ++ (tagListLoop n s acc).1 ∧ (tagListLoop n s acc).2 = acc ++ tags ∧
      ∀ r, TailText [] r → TailText (toPairs tags) (x ++ r) := by
  induction n generalizing s acc with
  | zero => exact ⟨[], [], by simp [tagListLoop], by simp [tagListLoop], fun r h => h⟩
  | succ n ih =>
    rw [tagListLoop.eq_def]
    simp only
    split
    · next r =>
      cases h : stripTagSpec r with
      | none => exact ⟨[], [], by simp, by simp, fun r h => h⟩
      | some p =>
        obtain ⟨s', t⟩ := p
        simp only
        obtain ⟨x, hx, rfl⟩ := stripTagSpec_some h
        obtain ⟨tags, y, e1, e2, e3⟩ := ih s' (acc ++ [t])
        refine ⟨t :: tags, ';' :: x ++ y, ?_, by rw [e2]; simp, ?_⟩
        · conv => lhs; rw [e1]
          simp
        · intro r' hr'
          have := TailText.cons t.name t.value x _ _ hx (e3 r' hr')
          simpa [toPairs] using this
    · exact ⟨[], [], by simp, by simp, fun r h => h⟩

theorem stripTagList_text {tags : List (Str × Str)} {t : Str} (h : ListText tags t) :
    stripTagList t = some ([], ofPairs tags) := by
  obtain ⟨n, v, tags', s, r, rfl, rfl, h1, h2⟩ := listText_tail h
  rw [stripTagList, stripTagSpec_text h1 h2.atEnd]
  simp only
  have := tagListLoop_text h2 [⟨n, v⟩] r.length (Nat.le_refl _)
  generalize tagListLoop r.length r [⟨n, v⟩] = z at this
  obtain ⟨s', ts⟩ := z
  simp only at this ⊢
  split at this <;> simp_all [ofPairs]

theorem stripTagList_some {s : Str} {tags : List TagSpec} (h : stripTagList s = some ([], tags)) :
    ListText (toPairs tags) s := by
  unfold stripTagList at h
  cases h1 : stripTagSpec s with
  | none => rw [h1] at h; simp at h
  | some p =>
    obtain ⟨s1, t⟩ := p
    rw [h1] at h
    simp only at h
    obtain ⟨x, hx, rfl⟩ := stripTagSpec_some h1
    obtain ⟨ts, y, e1, e2, e3⟩ := tagListLoop_some s1.length s1 [t]
    generalize tagListLoop s1.length s1 [t] = z at *
    obtain ⟨s2, ts2⟩ := z
    simp only at h e1 e2
    split at h
    · simp only [Option.some.injEq, Prod.mk.injEq] at h
      obtain ⟨rfl, rfl⟩ := h
      rw [e1, e2]
      exact tail_listText hx (e3 [';'] .semicolon)
    · simp only [Option.some.injEq, Prod.mk.injEq] at h
      obtain ⟨rfl, rfl⟩ := h
      rw [e1, e2]
      exact tail_listText hx (e3 [] .nil)

theorem hasDuplicate_iff (seen : List Str) (tags : List TagSpec) :
    hasDuplicate seen tags = false ↔
      (tags.map (·.name)).Nodup ∧ ∀ t ∈ tags, t.name ∉ seen := by
  induction tags generalizing seen with
  | nil => simp [hasDuplicate]
  | cons t ts ih =>
    rw [hasDuplicate]
    split
    · next h =>
      simp only [Bool.true_eq_false, false_iff]
      rintro ⟨_, h2⟩
      exact h2 t (by simp) (by simpa using h)
    · next h =>
      rw [ih]
      simp only [List.contains_eq_mem, decide_eq_true_eq] at h
      simp only [List.map_cons, List.nodup_cons, List.mem_map, List.mem_cons, not_or]
      constructor
      · rintro ⟨h1, h2⟩
        refine ⟨⟨?_, h1⟩, ?_⟩
        · rintro ⟨u, hu, e⟩; exact (h2 u hu).1 e
        · rintro u (rfl | hu)
          · exact h
          · exact (h2 u hu).2
      · rintro ⟨⟨h1, h2⟩, h3⟩
        refine ⟨h2, fun u hu => ⟨fun e => h1 ⟨u, hu, e⟩, h3 u (Or.inr hu)⟩⟩

end Dkim
