import Verif.Model.Format
import Verif.Proofs.Signature

/-!
# Removal of the signature value: helper lemmas for C13 and C14
-/

namespace Dkim

open Spec

theorem splitOnce_append {α : Type} [DecidableEq α] {x : α} {a b : List α} (h : x ∉ a) :
    splitOnce x (a ++ x :: b) = some (a, b) := by
  induction a with
  | nil => simp [splitOnce]
  | cons c r ih =>
    simp only [List.mem_cons, not_or] at h
    rw [List.cons_append, splitOnce, if_neg (fun e => h.1 e.symm), ih h.2]

/-- Splitting at the first separator is unique. -/
theorem sep_unique {α : Type} {x : α} {a b c d : List α} (ha : x ∉ a) (hc : x ∉ c)
    (h : a ++ x :: b = c ++ x :: d) : a = c ∧ b = d := by
  induction a generalizing c with
  | nil =>
    cases c with
    | nil => simpa using h
    | cons y c => simp at h; simp [h.1] at hc
  | cons y a ih =>
    cases c with
    | nil => simp at h; simp [h.1] at ha
    | cons z c =>
      simp only [List.cons_append, List.cons.injEq] at h
      simp only [List.mem_cons, not_or] at ha hc
      obtain ⟨e1, e2⟩ := ih ha.2 hc.2 h.2
      exact ⟨by rw [h.1, e1], e2⟩

/-- The start of a `b=` tag. -/
def BPrefix (p : Str) : Prop := ∃ f1 f2, OptFws f1 ∧ OptFws f2 ∧ p = f1 ++ 'b' :: f2 ++ ['=']

theorem tagName_b : TagName ['b'] := ⟨'b', [], rfl, by decide, by simp⟩

theorem bTagPrefix_some {s p : Str} (h : bTagPrefix s = some p) : BPrefix p ∧ ∃ val, s = p ++ val := by
  unfold bTagPrefix at h
  split at h
  · next rest name e =>
    obtain ⟨f1, f2, h1, h2, h3, h4⟩ := stripTagNameAndEquals_some e
    split at h
    · next en =>
      injection h with h
      have hs : s = (f1 ++ 'b' :: f2 ++ ['=']) ++ rest := by rw [h4, en]; simp
      rw [hs, stripSuffix_append] at h
      exact ⟨⟨f1, f2, h1, h3, h.symm⟩, rest, by rw [← h]; exact hs⟩
    · simp at h
  · simp at h

theorem bTagPrefix_text {p : Str} (h : BPrefix p) (val : Str) : bTagPrefix (p ++ val) = some p := by
  obtain ⟨f1, f2, h1, h2, rfl⟩ := h
  have := stripTagNameAndEquals_text h1 tagName_b h2 val
  have e : f1 ++ 'b' :: f2 ++ ['='] ++ val = f1 ++ ['b'] ++ f2 ++ ['='] ++ val := by simp
  unfold bTagPrefix
  rw [e, this]
  simp only [if_pos]
  rw [stripSuffix_append]
  simp

theorem bTagPrefix_other {f1 n f2 : Str} (hf1 : OptFws f1) (hn : TagName n) (hf2 : OptFws f2) (r : Str)
    (hb : n ≠ c!"b") : bTagPrefix (f1 ++ n ++ f2 ++ ['='] ++ r) = none := by
  unfold bTagPrefix
  rw [stripTagNameAndEquals_text hf1 hn hf2 r]
  exact if_neg hb

/-- The text is `pre ++ val ++ post`, where `pre` ends with the equals sign of the
first `b=` tag and `val` reaches to the next semicolon or the end. -/
inductive Cut : Str → Str → Str → Prop
  | here (p val post : Str) : BPrefix p → ';' ∉ p → ';' ∉ val → (post = [] ∨ ∃ r, post = ';' :: r) →
      Cut p val post
  | next (seg pre val post : Str) : ';' ∉ seg → bTagPrefix seg = none → Cut pre val post →
      Cut (seg ++ ';' :: pre) val post

theorem Cut.change {pre val post : Str} (h : Cut pre val post) {val' : Str} (hv : ';' ∉ val') :
    Cut pre val' post := by
  induction h with
  | here p val post h1 h2 h3 h4 => exact .here _ _ _ h1 h2 hv h4
  | next seg pre val post h1 h2 _ ih => exact .next _ _ _ _ h1 h2 ih

theorem Cut.val_clean {pre val post : Str} (h : Cut pre val post) : ';' ∉ val := by
  induction h with
  | here p val post h1 h2 h3 h4 => exact h3
  | next _ _ _ _ _ _ _ ih => exact ih

theorem Cut.post_start {pre val post : Str} (h : Cut pre val post) : post = [] ∨ ∃ r, post = ';' :: r := by
  induction h with
  | here p val post h1 h2 h3 h4 => exact h4
  | next _ _ _ _ _ _ _ ih => exact ih

theorem Cut.unique {pre val post pre' val' post' : Str} (h : Cut pre val post) (h' : Cut pre' val' post')
    (e : pre ++ val ++ post = pre' ++ val' ++ post') : pre = pre' ∧ val = val' ∧ post = post' := by
  induction h generalizing pre' val' post' with
  | here p val post h1 h2 h3 h4 =>
    have hpv : ';' ∉ p ++ val := by simp [h2, h3]
    cases h' with
    | here _ _ _ g1 g2 g3 g4 =>
      have gpv : ';' ∉ pre' ++ val' := by simp [g2, g3]
      have key : p ++ val = pre' ++ val' ∧ post = post' := by
        rcases h4 with rfl | ⟨r, rfl⟩ <;> rcases g4 with rfl | ⟨r', rfl⟩
        · simpa using e
        · refine absurd ?_ hpv
          have : p ++ val = pre' ++ val' ++ ';' :: r' := by simpa using e
          rw [this]; simp
        · refine absurd ?_ gpv
          have : p ++ val ++ ';' :: r = pre' ++ val' := by simpa using e
          rw [← this]; simp
        · obtain ⟨e1, e2⟩ := sep_unique hpv gpv e
          exact ⟨e1, by rw [e2]⟩
      have e1 := bTagPrefix_text h1 val
      rw [key.1, bTagPrefix_text g1 val'] at e1
      injection e1 with e1
      subst e1
      exact ⟨rfl, List.append_cancel_left key.1, key.2⟩
    | next seg pre'' _ _ g1 g2 g3 =>
      exfalso
      rcases h4 with rfl | ⟨r, rfl⟩
      · refine absurd ?_ hpv
        have : p ++ val = seg ++ ';' :: pre'' ++ val' ++ post' := by simpa using e
        rw [this]; simp
      · have e' : (p ++ val) ++ ';' :: r = seg ++ ';' :: (pre'' ++ val' ++ post') := by simpa using e
        obtain ⟨e1, _⟩ := sep_unique hpv g1 e'
        rw [← e1, bTagPrefix_text h1] at g2
        cases g2
  | next seg pre val post h1 h2 h3 ih =>
    cases h' with
    | here _ _ _ g1 g2 g3 g4 =>
      exfalso
      have gpv : ';' ∉ pre' ++ val' := by simp [g2, g3]
      rcases g4 with rfl | ⟨r, rfl⟩
      · refine absurd ?_ gpv
        have : seg ++ ';' :: pre ++ val ++ post = pre' ++ val' := by simpa using e
        rw [← this]; simp
      · have e' : seg ++ ';' :: (pre ++ val ++ post) = (pre' ++ val') ++ ';' :: r := by simpa using e
        obtain ⟨e1, _⟩ := sep_unique h1 gpv e'
        rw [e1, bTagPrefix_text g1] at h2
        cases h2
    | next seg' pre'' _ _ g1 g2 g3 =>
      have e' : seg ++ ';' :: (pre ++ val ++ post) = seg' ++ ';' :: (pre'' ++ val' ++ post') := by
        simpa using e
      obtain ⟨e1, e2⟩ := sep_unique h1 g1 e'
      obtain ⟨e3, e4, e5⟩ := ih g3 e2
      exact ⟨by rw [e1, e3], e4, e5⟩

/-- No part between semicolons begins with `b=`. -/
inductive NoB : Str → Prop
  | last (seg : Str) : ';' ∉ seg → bTagPrefix seg = none → NoB seg
  | more (seg r : Str) : ';' ∉ seg → bTagPrefix seg = none → NoB r → NoB (seg ++ ';' :: r)

theorem bTagPrefix_nil : bTagPrefix [] = none := by rfl

theorem originalLoop_spec (n : Nat) (before rest : Str) (hn : rest.length < n) :
    (∃ pre val post, rest = pre ++ val ++ post ∧ Cut pre val post ∧
      originalLoop n before rest = before ++ pre ++ post) ∨
    (NoB rest ∧ originalLoop n before rest = before ++ rest) := by
  induction n generalizing before rest with
  | zero => omega
  | succ n ih =>
    rw [originalLoop]
    cases e : splitOnce ';' rest with
    | none =>
      have hs := splitOnce_none.1 e
      simp only
      cases rest with
      | nil => right; exact ⟨.last _ hs bTagPrefix_nil, by simp⟩
      | cons c r =>
        simp only [List.isEmpty_cons, Bool.false_eq_true, if_false]
        cases eb : bTagPrefix (c :: r) with
        | none => right; exact ⟨.last _ hs eb, rfl⟩
        | some p =>
          left
          obtain ⟨hp, val, hval⟩ := bTagPrefix_some eb
          rw [hval] at hs
          simp only [List.mem_append, not_or] at hs
          exact ⟨p, val, [], by simp [hval], .here _ _ _ hp hs.1 hs.2 (.inl rfl), by simp⟩
    | some sp =>
      obtain ⟨seg, after⟩ := sp
      obtain ⟨h1, h2⟩ := splitOnce_some e
      simp only
      cases eb : bTagPrefix seg with
      | some p =>
        left
        obtain ⟨hp, val, hval⟩ := bTagPrefix_some eb
        rw [hval] at h2
        simp only [List.mem_append, not_or] at h2
        exact ⟨p, val, ';' :: after, by simp [h1, hval],
          .here _ _ _ hp h2.1 h2.2 (.inr ⟨_, rfl⟩), by simp⟩
      | none =>
        simp only
        have hlen : after.length < n := by
          have := congrArg List.length h1
          simp at this
          omega
        rcases ih (before ++ seg ++ [';']) after hlen with ⟨pre, val, post, g1, g2, g3⟩ | ⟨g1, g2⟩
        · left
          exact ⟨seg ++ ';' :: pre, val, post, by simp [h1, g1], .next _ _ _ _ h2 eb g2,
            by rw [g3]; simp⟩
        · right
          rw [h1]
          exact ⟨.more _ _ h2 eb g1, by rw [g2]; simp⟩

theorem makeOriginal_spec (txt : Str) :
    (∃ pre val post, txt = pre ++ val ++ post ∧ Cut pre val post ∧ makeOriginal txt = pre ++ post) ∨
    (NoB txt ∧ makeOriginal txt = txt) := by
  have := originalLoop_spec (txt.length + 1) [] txt (by omega)
  simpa [makeOriginal] using this

theorem cut_noB {pre val post : Str} (h : Cut pre val post) : ¬ NoB (pre ++ val ++ post) := by
  intro hn
  induction h with
  | here p val post h1 h2 h3 h4 =>
    have hpv : ';' ∉ p ++ val := by simp [h2, h3]
    generalize et : p ++ val ++ post = t at hn
    cases hn with
    | last _ g1 g2 =>
      rw [← et, List.append_assoc, bTagPrefix_text h1] at g2
      cases g2
    | more seg r g1 g2 g3 =>
      rcases h4 with rfl | ⟨r', rfl⟩
      · refine absurd ?_ hpv
        rw [List.append_nil] at et
        rw [et]; simp
      · obtain ⟨e1, _⟩ := sep_unique hpv g1 et
        rw [← e1, bTagPrefix_text h1] at g2
        cases g2
  | next seg pre val post h1 h2 h3 ih =>
    generalize et : seg ++ ';' :: pre ++ val ++ post = t at hn
    have et' : seg ++ ';' :: (pre ++ val ++ post) = t := by rw [← et]; simp
    cases hn with
    | last _ g1 g2 => rw [← et'] at g1; simp at g1
    | more seg' r g1 g2 g3 =>
      obtain ⟨_, e2⟩ := sep_unique h1 g1 et'
      rw [← e2] at g3
      exact ih g3

/-- The value of the first `b=` tag is removed. -/
theorem makeOriginal_cut {pre val post : Str} (h : Cut pre val post) :
    makeOriginal (pre ++ val ++ post) = pre ++ post := by
  rcases makeOriginal_spec (pre ++ val ++ post) with ⟨pre', val', post', g1, g2, g3⟩ | ⟨g1, _⟩
  · obtain ⟨rfl, rfl, rfl⟩ := h.unique g2 g1
    exact g3
  · exact absurd g1 (cut_noB h)

/-! ## Tag lists -/

theorem optFws_noSemi {f : Str} (hf : OptFws f) : ';' ∉ f := by
  rcases hf with rfl | hf
  · simp
  · intro h; exact semicolon_noFws (fws_chars hf _ h)

theorem tagName_noSemi {n : Str} (h : TagName n) : ';' ∉ n := by
  obtain ⟨c, r, rfl, h1, h2⟩ := h
  intro hm
  rcases List.mem_cons.1 hm with rfl | hm
  · revert h1; decide
  · have := h2 _ hm; revert this; decide

theorem someValue_noSemi {v : Str} (h : SomeValue v) : ';' ∉ v := by
  have ht : ∀ v, Tval v → ';' ∉ v := by
    intro v hv hm
    exact absurd (hv.2 _ hm) (by simp [valChar])
  induction h with
  | one v hv => exact ht _ hv
  | more v f r hv hf _ ih =>
    simp only [List.mem_append, not_or]
    exact ⟨⟨ht _ hv, optFws_noSemi (.inr hf)⟩, ih⟩

/-- The text of a tag, split at the equals sign. -/
theorem specText_parts {n v s : Str} (h : SpecText n v s) :
    ∃ f1 f2 val, OptFws f1 ∧ TagName n ∧ OptFws f2 ∧ s = f1 ++ n ++ f2 ++ ['='] ++ val ∧ ';' ∉ s := by
  cases h with
  | value f1 n f2 f3 v f4 h1 h2 h3 h4 h5 h6 =>
    refine ⟨f1, f2, f3 ++ v ++ f4, h1, h2, h3, by simp, ?_⟩
    simp [optFws_noSemi h1, tagName_noSemi h2, optFws_noSemi h3, optFws_noSemi h4, someValue_noSemi h5,
      optFws_noSemi h6]
  | empty f1 n f2 f3 h1 h2 h3 h4 =>
    refine ⟨f1, f2, f3, h1, h2, h3, by simp, ?_⟩
    simp [optFws_noSemi h1, tagName_noSemi h2, optFws_noSemi h3, optFws_noSemi h4]

theorem specText_other {n v s : Str} (h : SpecText n v s) (hb : n ≠ c!"b") : bTagPrefix s = none := by
  obtain ⟨f1, f2, val, h1, h2, h3, rfl, _⟩ := specText_parts h
  exact bTagPrefix_other h1 h2 h3 val hb

theorem specText_b {v s : Str} (h : SpecText c!"b" v s) :
    ∃ p val, s = p ++ val ∧ BPrefix p ∧ ';' ∉ p ∧ ';' ∉ val ∧ SpecText c!"b" [] p := by
  obtain ⟨f1, f2, val, h1, h2, h3, e, h5⟩ := specText_parts h
  rw [e] at h5
  refine ⟨f1 ++ c!"b" ++ f2 ++ ['='], val, e, ⟨f1, f2, h1, h3, by simp⟩, ?_, ?_, ?_⟩
  · exact fun hm => h5 (List.mem_append_left _ hm)
  · exact fun hm => h5 (List.mem_append_right _ hm)
  · have := SpecText.empty f1 c!"b" f2 [] h1 h2 h3 (.inl rfl)
    simpa using this

/-- The tags with an empty `b=` value. -/
def emptyB (tags : List (Str × Str)) : List (Str × Str) :=
  tags.map fun t => if t.1 = c!"b" then (t.1, []) else t

theorem emptyB_not_mem {tags : List (Str × Str)} (h : c!"b" ∉ tags.map (·.1)) : emptyB tags = tags := by
  unfold emptyB
  rw [List.map_congr_left (g := id), List.map_id]
  intro t ht
  rw [if_neg]
  · rfl
  · intro e
    exact h (e ▸ List.mem_map_of_mem ht)

theorem listText_noB {tags : List (Str × Str)} {txt : Str} (h : ListText tags txt)
    (hb : c!"b" ∉ tags.map (·.1)) : NoB txt := by
  induction h with
  | last n v s hs =>
    obtain ⟨_, _, _, _, _, _, _, hc⟩ := specText_parts hs
    exact .last _ hc (specText_other hs (fun e => hb (by simp [e])))
  | lastSemicolon n v s hs =>
    obtain ⟨_, _, _, _, _, _, _, hc⟩ := specText_parts hs
    exact .more _ _ hc (specText_other hs (fun e => hb (by simp [e]))) (.last _ (by simp) bTagPrefix_nil)
  | more n v s tags r hs _ ih =>
    obtain ⟨_, _, _, _, _, _, _, hc⟩ := specText_parts hs
    refine .more _ _ hc (specText_other hs (fun e => hb (by simp [e]))) (ih ?_)
    intro hm
    exact hb (by simp only [List.map_cons, List.mem_cons]; exact .inr hm)

theorem listText_cut {tags : List (Str × Str)} {txt : Str} (h : ListText tags txt)
    (hn : (tags.map (·.1)).Nodup) (hb : c!"b" ∈ tags.map (·.1)) :
    ∃ pre val post, txt = pre ++ val ++ post ∧ Cut pre val post ∧ ListText (emptyB tags) (pre ++ post) := by
  induction h with
  | last n v s hs =>
    have e : n = c!"b" := by simpa [eq_comm] using hb
    subst e
    obtain ⟨p, val, h1, h2, h3, h4, h5⟩ := specText_b hs
    exact ⟨p, val, [], by simp [h1], .here _ _ _ h2 h3 h4 (.inl rfl), by
      simpa [emptyB] using ListText.last _ _ _ h5⟩
  | lastSemicolon n v s hs =>
    have e : n = c!"b" := by simpa [eq_comm] using hb
    subst e
    obtain ⟨p, val, h1, h2, h3, h4, h5⟩ := specText_b hs
    exact ⟨p, val, [';'], by simp [h1], .here _ _ _ h2 h3 h4 (.inr ⟨_, rfl⟩), by
      simpa [emptyB] using ListText.lastSemicolon _ _ _ h5⟩
  | more n v s tags r hs hr ih =>
    simp only [List.map_cons, List.nodup_cons] at hn
    by_cases e : n = c!"b"
    · subst e
      obtain ⟨p, val, h1, h2, h3, h4, h5⟩ := specText_b hs
      refine ⟨p, val, ';' :: r, by simp [h1], .here _ _ _ h2 h3 h4 (.inr ⟨_, rfl⟩), ?_⟩
      have := ListText.more _ _ _ _ _ h5 hr
      rw [show emptyB ((c!"b", v) :: tags) = (c!"b", []) :: emptyB tags from rfl, emptyB_not_mem hn.1]
      exact this
    · obtain ⟨_, _, _, _, _, _, _, hc⟩ := specText_parts hs
      have hm : c!"b" ∈ tags.map (·.1) := by
        rcases List.mem_cons.1 hb with h | h
        · exact absurd h.symm e
        · exact h
      obtain ⟨pre, val, post, g1, g2, g3⟩ := ih hn.2 hm
      refine ⟨s ++ ';' :: pre, val, post, by simp [g1], .next _ _ _ _ hc (specText_other hs e) g2, ?_⟩
      have := ListText.more _ _ _ _ _ hs g3
      have e2 : emptyB ((n, v) :: tags) = (n, v) :: emptyB tags := by
        simp [emptyB, e]
      rw [e2]
      simpa using this

end Dkim
