import Verif.Model.Reading
import Verif.Proofs.TagList

/-!
# The work of reading text (helpers for C115)
-/

namespace Dkim

theorem dropWhileR_fst (p : Char → Bool) (s : Str) : (dropWhileR p s).1 = s.dropWhile p := by
  induction s with
  | nil => rfl
  | cons c r ih =>
    rw [dropWhileR, List.dropWhile_cons]
    split
    · exact ih
    · rfl

theorem dropWhileR_le {p : Char → Bool} {s t : Str} {n : Nat} (h : dropWhileR p s = (t, n)) :
    n + t.length ≤ s.length + 1 ∧ s.length ≤ n + t.length := by
  induction s generalizing t n with
  | nil => rw [dropWhileR] at h; cases h; exact ⟨Nat.le_add_right _ _, Nat.le_refl _⟩
  | cons c r ih =>
    rw [dropWhileR] at h
    split at h
    · rcases hr : dropWhileR p r with ⟨t', n'⟩
      rw [hr] at h
      dsimp only at h
      cases h
      have := ih hr
      simp only [List.length_cons]
      omega
    · cases h
      simp only [List.length_cons]
      omega

theorem stripManyR_some {p q : Char → Bool} {s t : Str} {n : Nat} (h : stripManyR p q s = (some t, n)) :
    n + t.length ≤ s.length + 1 ∧ s.length ≤ n + t.length ∧ t.length < s.length := by
  cases s with
  | nil => cases h
  | cons c r =>
    rw [stripManyR] at h
    split at h
    · rcases hr : dropWhileR q r with ⟨t', n'⟩
      rw [hr] at h
      dsimp only at h
      cases h
      have h1 := dropWhileR_le hr
      have h2 : t.length ≤ r.length := by
        have := dropWhileR_fst q r
        rw [hr] at this
        dsimp only at this
        rw [this]
        exact (List.dropWhile_sublist q).length_le
      simp only [List.length_cons]
      omega
    · cases h

theorem stripManyR_none {p q : Char → Bool} {s : Str} {n : Nat} (h : stripManyR p q s = (none, n)) : n ≤ 1 := by
  cases s with
  | nil => cases h; exact Nat.zero_le _
  | cons c r =>
    rw [stripManyR] at h
    split at h
    · cases h
    · cases h; exact Nat.le_refl _

theorem stripWspR_fst (s : Str) : (stripWspR s).1 = stripWsp s := by
  cases s with
  | nil => rfl
  | cons c r =>
    rw [stripWspR, stripManyR, stripWsp]
    split
    · exact congrArg some (dropWhileR_fst ..)
    · rfl

theorem stripTvalR_fst (s : Str) : (stripTvalR s).1 = stripTval s := by
  cases s with
  | nil => rfl
  | cons c r =>
    rw [stripTvalR, stripManyR, stripTval]
    split
    · exact congrArg some (dropWhileR_fst ..)
    · rfl

theorem stripDkimSafeR_fst (s : Str) : (stripDkimSafeR s).1 = stripDkimSafe s := by
  cases s with
  | nil => rfl
  | cons c r =>
    rw [stripDkimSafeR, stripManyR, stripDkimSafe]
    split
    · exact congrArg some (dropWhileR_fst ..)
    · rfl

theorem stripTagNameR_fst (s : Str) : (stripTagNameR s).1 = stripTagName s := by
  cases s with
  | nil => rfl
  | cons c r =>
    rw [stripTagNameR, stripManyR, stripTagName]
    by_cases hc : isAsciiAlpha c
    · rw [if_pos hc, if_pos hc]
      have := dropWhileR_fst isTagAlnum r
      rcases hr : dropWhileR isTagAlnum r with ⟨t, n⟩
      rw [hr] at this
      dsimp only at this ⊢
      rw [this]
    · rw [if_neg hc, if_neg hc]

theorem stripFwsR_fst (s : Str) : (stripFwsR s).1 = stripFws s := by
  rw [stripFwsR, stripFws, ← stripWspR_fst]
  rcases stripWspR s with ⟨_ | s', n⟩
  · simp only [stripCrlfR]
    cases stripCrlf s with
    | none => rfl
    | some t =>
      simp only [Option.bind_some]
      rw [← stripWspR_fst]
      rcases stripWspR t with ⟨_ | _, _⟩ <;> rfl
  · simp only [stripCrlfR]
    cases stripCrlf s' with
    | none => rfl
    | some t =>
      simp only [Option.bind_some]
      rw [← stripWspR_fst]
      rcases stripWspR t with ⟨_ | _, _⟩ <;> rfl

theorem stripCrlf_length {s t : Str} (h : stripCrlf s = some t) : s.length = t.length + 2 := by
  unfold stripCrlf at h
  split at h
  · cases h; rfl
  · cases h

theorem stripFwsR_some {s t : Str} {n : Nat} (h : stripFwsR s = (some t, n)) :
    n + t.length ≤ s.length + 4 ∧ s.length ≤ n + t.length ∧ t.length < s.length := by
  rw [stripFwsR] at h
  rcases hw : stripWspR s with ⟨_ | s', k⟩ <;> rw [hw] at h <;> simp only [stripCrlfR] at h
  · have h1 := stripManyR_none hw
    cases hc : stripCrlf s with
    | none => rw [hc] at h; cases h
    | some u =>
      rw [hc] at h
      dsimp only at h
      have h2 := stripCrlf_length hc
      rcases hw' : stripWspR u with ⟨_ | v, m⟩ <;> rw [hw'] at h <;> cases h
      have h3 := stripManyR_some hw'
      omega
  · have h1 := stripManyR_some hw
    cases hc : stripCrlf s' with
    | none => rw [hc] at h; cases h; omega
    | some u =>
      rw [hc] at h
      dsimp only at h
      have h2 := stripCrlf_length hc
      rcases hw' : stripWspR u with ⟨_ | v, m⟩ <;> rw [hw'] at h <;> cases h
      · have h3 := stripManyR_none hw'
        omega
      · have h3 := stripManyR_some hw'
        omega

theorem stripFwsR_none {s : Str} {n : Nat} (h : stripFwsR s = (none, n)) : n ≤ 4 := by
  rw [stripFwsR] at h
  rcases hw : stripWspR s with ⟨_ | s', k⟩ <;> rw [hw] at h <;> simp only [stripCrlfR] at h
  · have h1 := stripManyR_none hw
    cases hc : stripCrlf s with
    | none => rw [hc] at h; cases h; omega
    | some u =>
      rw [hc] at h
      dsimp only at h
      rcases hw' : stripWspR u with ⟨_ | v, m⟩ <;> rw [hw'] at h <;> cases h
      have h3 := stripManyR_none hw'
      omega
  · cases hc : stripCrlf s' with
    | none => rw [hc] at h; cases h
    | some u =>
      rw [hc] at h
      dsimp only at h
      rcases hw' : stripWspR u with ⟨_ | v, m⟩ <;> rw [hw'] at h <;> cases h

theorem skipFwsR_fst (s : Str) : (skipFwsR s).1 = skipFws s := by
  rw [skipFwsR, skipFws, ← stripFwsR_fst]
  rcases stripFwsR s with ⟨_ | _, _⟩ <;> rfl

theorem skipFwsR_le {s t : Str} {n : Nat} (h : skipFwsR s = (t, n)) :
    n + t.length ≤ s.length + 4 ∧ s.length ≤ n + t.length ∧ t.length ≤ s.length := by
  rw [skipFwsR] at h
  rcases hs : stripFwsR s with ⟨_ | u, k⟩ <;> rw [hs] at h <;> cases h
  · have := stripFwsR_none hs
    omega
  · have := stripFwsR_some hs
    omega

theorem skipFws_length_le (s : Str) : (skipFws s).length ≤ s.length := by
  rw [← skipFwsR_fst]
  exact (skipFwsR_le (s := s) (t := (skipFwsR s).1) (n := (skipFwsR s).2) rfl).2.2

/-! ## Tag lists -/

theorem tvalLoopR_fst (n : Nat) (s : Str) : (tvalLoopR n s).1 = tvalLoop n s := by
  induction n generalizing s with
  | zero => rfl
  | succ n ih =>
    rw [tvalLoopR, tvalLoop, ← stripFwsR_fst]
    rcases stripFwsR s with ⟨_ | t, k⟩
    · rfl
    · simp only [Option.bind_some]
      rw [← stripTvalR_fst]
      rcases stripTvalR t with ⟨_ | s', m⟩
      · rfl
      · exact ih s'

theorem tvalLoop_more (n : Nat) (s : Str) (h : s.length ≤ n) : tvalLoop (n + 1) s = tvalLoop n s := by
  induction n generalizing s with
  | zero =>
    have : s = [] := List.length_eq_zero_iff.1 (by omega)
    subst this
    rfl
  | succ n ih =>
    rw [tvalLoop, tvalLoop]
    cases hb : (stripFws s).bind stripTval with
    | none => rfl
    | some s' =>
      apply ih
      rw [Option.bind_eq_some_iff] at hb
      obtain ⟨t, h1, h2⟩ := hb
      rw [← stripFwsR_fst] at h1
      rw [← stripTvalR_fst] at h2
      have h3 := stripFwsR_some (s := s) (t := t) (n := (stripFwsR s).2) (by rw [← h1])
      have h4 := stripManyR_some (s := t) (t := s') (n := (stripTvalR t).2)
        (p := isTvalChar) (q := isTvalChar) (by rw [← h2]; rfl)
      omega

/-- The last part is for the attempt that does not succeed. -/
theorem tvalLoopR_le {fuel : Nat} {s t : Str} {n : Nat} (h : tvalLoopR fuel s = (t, n)) :
    n + 4 * t.length + (skipFws t).length ≤ 4 * s.length + t.length + 5 ∧ s.length ≤ n + t.length ∧
      t.length ≤ s.length := by
  induction fuel generalizing s t n with
  | zero =>
    cases h
    have := skipFws_length_le s
    omega
  | succ fuel ih =>
    rw [tvalLoopR] at h
    rcases hf : stripFwsR s with ⟨_ | u, k⟩ <;> rw [hf] at h <;> dsimp only at h
    · cases h
      have h1 := stripFwsR_none hf
      have := skipFws_length_le s
      omega
    · have h1 := stripFwsR_some hf
      rcases hv : stripTvalR u with ⟨_ | v, m⟩ <;> rw [hv] at h <;> dsimp only at h
      · cases h
        have h2 := stripManyR_none hv
        have h3 : skipFws s = u := by
          rw [← skipFwsR_fst, skipFwsR, hf]
        rw [h3]
        omega
      · have h2 := stripManyR_some hv
        rcases hl : tvalLoopR fuel v with ⟨r, l⟩
        rw [hl] at h
        dsimp only at h
        cases h
        have h3 := ih hl
        omega

theorem stripTagValueR_fst (s : Str) : (stripTagValueR s).1 = stripTagValue s := by
  rw [stripTagValueR, stripTagValue, ← stripTvalR_fst]
  rcases stripTvalR s with ⟨_ | s', n⟩
  · rfl
  · dsimp only
    have := tvalLoopR_fst (s'.length + 1) s'
    rw [tvalLoop_more _ _ (Nat.le_refl _)] at this
    rcases ht : tvalLoopR (s'.length + 1) s' with ⟨t, m⟩
    rw [ht] at this
    dsimp only at this ⊢
    rw [this]

theorem stripTagValueR_some {s t v : Str} {n : Nat} (h : stripTagValueR s = (some (t, v), n)) :
    n + 4 * t.length + (skipFws t).length ≤ 4 * s.length + t.length + 5 ∧ s.length ≤ n + t.length ∧
      t.length ≤ s.length := by
  rw [stripTagValueR] at h
  rcases hv : stripTvalR s with ⟨_ | u, k⟩ <;> rw [hv] at h <;> dsimp only at h
  · cases h
  · have h1 := stripManyR_some hv
    rcases hl : tvalLoopR (u.length + 1) u with ⟨r, l⟩
    rw [hl] at h
    dsimp only at h
    cases h
    have := tvalLoopR_le hl
    omega

theorem stripTagValueR_none {s : Str} {n : Nat} (h : stripTagValueR s = (none, n)) : n ≤ 1 := by
  rw [stripTagValueR] at h
  rcases hv : stripTvalR s with ⟨_ | u, k⟩ <;> rw [hv] at h <;> dsimp only at h
  · cases h
    exact stripManyR_none hv
  · cases h

theorem stripTagNameR_some {s t v : Str} {n : Nat} (h : stripTagNameR s = (some (t, v), n)) :
    n + t.length ≤ s.length + 1 ∧ s.length ≤ n + t.length ∧ t.length < s.length := by
  rw [stripTagNameR] at h
  rcases hv : stripManyR isAsciiAlpha isTagAlnum s with ⟨_ | u, k⟩ <;> rw [hv] at h <;> cases h
  exact stripManyR_some hv

theorem stripTagNameR_none {s : Str} {n : Nat} (h : stripTagNameR s = (none, n)) : n ≤ 1 := by
  rw [stripTagNameR] at h
  rcases hv : stripManyR isAsciiAlpha isTagAlnum s with ⟨_ | u, k⟩ <;> rw [hv] at h <;> cases h
  exact stripManyR_none hv

theorem stripTagNameAndEqualsR_fst (s : Str) : (stripTagNameAndEqualsR s).1 = stripTagNameAndEquals s := by
  rw [stripTagNameAndEqualsR, stripTagNameAndEquals, ← skipFwsR_fst]
  rcases skipFwsR s with ⟨s1, n⟩
  dsimp only
  rw [← stripTagNameR_fst]
  rcases stripTagNameR s1 with ⟨_ | ⟨s2, name⟩, m⟩
  · rfl
  · dsimp only
    rw [← skipFwsR_fst]
    rcases skipFwsR s2 with ⟨s3, k⟩
    dsimp only
    split
    · rfl
    · split
      · rename_i hx
        exact absurd rfl (hx _)
      · rfl

theorem stripTagNameAndEqualsR_some {s t v : Str} {n : Nat} (h : stripTagNameAndEqualsR s = (some (t, v), n)) :
    n + t.length ≤ s.length + 9 ∧ s.length ≤ n + t.length ∧ t.length + 2 ≤ s.length := by
  rw [stripTagNameAndEqualsR] at h
  rcases h1 : skipFwsR s with ⟨s1, k1⟩
  rw [h1] at h
  dsimp only at h
  have b1 := skipFwsR_le h1
  rcases h2 : stripTagNameR s1 with ⟨_ | ⟨s2, name⟩, k2⟩ <;> rw [h2] at h <;> dsimp only at h
  · cases h
  · have b2 := stripTagNameR_some h2
    rcases h3 : skipFwsR s2 with ⟨s3, k3⟩
    rw [h3] at h
    dsimp only at h
    have b3 := skipFwsR_le h3
    split at h
    · cases h
      simp only [List.length_cons] at b3
      omega
    · cases h

theorem stripTagNameAndEqualsR_none {s : Str} {n : Nat} (h : stripTagNameAndEqualsR s = (none, n)) :
    n ≤ s.length + 10 := by
  rw [stripTagNameAndEqualsR] at h
  rcases h1 : skipFwsR s with ⟨s1, k1⟩
  rw [h1] at h
  dsimp only at h
  have b1 := skipFwsR_le h1
  rcases h2 : stripTagNameR s1 with ⟨_ | ⟨s2, name⟩, k2⟩ <;> rw [h2] at h <;> dsimp only at h
  · cases h
    have b2 := stripTagNameR_none h2
    omega
  · have b2 := stripTagNameR_some h2
    rcases h3 : skipFwsR s2 with ⟨s3, k3⟩
    rw [h3] at h
    dsimp only at h
    have b3 := skipFwsR_le h3
    split at h
    · cases h
    · cases h
      omega

theorem stripTagSpecR_fst (s : Str) : (stripTagSpecR s).1 = stripTagSpec s := by
  rw [stripTagSpecR, stripTagSpec, ← stripTagNameAndEqualsR_fst]
  rcases stripTagNameAndEqualsR s with ⟨_ | ⟨s1, name⟩, n⟩
  · rfl
  · dsimp only
    rw [← skipFwsR_fst]
    rcases skipFwsR s1 with ⟨s2, m⟩
    dsimp only
    rw [← stripTagValueR_fst]
    rcases stripTagValueR s2 with ⟨_ | ⟨s3, v⟩, k⟩
    · rfl
    · dsimp only
      rw [← skipFwsR_fst]

theorem stripTagSpecR_some {s t : Str} {v : TagSpec} {n : Nat} (h : stripTagSpecR s = (some (t, v), n)) :
    n + 4 * t.length ≤ 4 * s.length + 16 ∧ s.length ≤ n + t.length ∧ t.length + 2 ≤ s.length := by
  rw [stripTagSpecR] at h
  rcases h1 : stripTagNameAndEqualsR s with ⟨_ | ⟨s1, name⟩, k1⟩ <;> rw [h1] at h <;> dsimp only at h
  · cases h
  · have b1 := stripTagNameAndEqualsR_some h1
    rcases h2 : skipFwsR s1 with ⟨s2, k2⟩
    rw [h2] at h
    dsimp only at h
    have b2 := skipFwsR_le h2
    rcases h3 : stripTagValueR s2 with ⟨_ | ⟨s3, val⟩, k3⟩ <;> rw [h3] at h <;> dsimp only at h
    · cases h
      have b3 := stripTagValueR_none h3
      omega
    · have b3 := stripTagValueR_some h3
      rcases h4 : skipFwsR s3 with ⟨s4, k4⟩
      rw [h4] at h
      dsimp only at h
      cases h
      have b4 := skipFwsR_le h4
      have e : skipFws s3 = t := by rw [← skipFwsR_fst, h4]
      rw [e] at b3
      omega

theorem stripTagSpecR_none {s : Str} {n : Nat} (h : stripTagSpecR s = (none, n)) : n ≤ s.length + 10 := by
  rw [stripTagSpecR] at h
  rcases h1 : stripTagNameAndEqualsR s with ⟨_ | ⟨s1, name⟩, k1⟩ <;> rw [h1] at h <;> dsimp only at h
  · cases h
    exact stripTagNameAndEqualsR_none h1
  · rcases h2 : skipFwsR s1 with ⟨s2, k2⟩
    rw [h2] at h
    dsimp only at h
    rcases h3 : stripTagValueR s2 with ⟨_ | ⟨s3, val⟩, k3⟩ <;> rw [h3] at h <;> cases h

theorem tagListLoopR_fst (n : Nat) (s : Str) (tags : List TagSpec) :
    (tagListLoopR n s tags).1 = tagListLoop n s tags := by
  induction n generalizing s tags with
  | zero => rfl
  | succ n ih =>
    rw [tagListLoopR.eq_def, tagListLoop.eq_def]
    dsimp only
    split
    · rename_i r
      show _ = (match stripTagSpec r with
        | some (s', t) => tagListLoop n s' (tags ++ [t])
        | none => (';' :: r, tags))
      rw [← stripTagSpecR_fst]
      rcases stripTagSpecR r with ⟨_ | ⟨s', t⟩, k⟩
      · rfl
      · exact ih s' _
    · split
      · rename_i hx
        exact absurd rfl (hx _)
      · rfl

theorem tagListLoop_more (n : Nat) (s : Str) (tags : List TagSpec) (h : s.length ≤ n) :
    tagListLoop (n + 1) s tags = tagListLoop n s tags := by
  induction n generalizing s tags with
  | zero =>
    have : s = [] := List.length_eq_zero_iff.1 (by omega)
    subst this
    rfl
  | succ n ih =>
    rw [tagListLoop.eq_def, tagListLoop.eq_def (n + 1)]
    dsimp only
    split
    · rename_i r
      cases hs : stripTagSpec r with
      | none => rfl
      | some p =>
        obtain ⟨s', t⟩ := p
        dsimp only
        apply ih
        rw [← stripTagSpecR_fst] at hs
        have := stripTagSpecR_some (s := r) (t := s') (v := t) (n := (stripTagSpecR r).2) (by rw [← hs])
        simp only [List.length_cons] at h
        omega
    · rfl

theorem tagListLoopR_le {fuel : Nat} {s t : Str} {tags tags' : List TagSpec} {n : Nat}
    (h : tagListLoopR fuel s tags = ((t, tags'), n)) :
    n + 9 * t.length ≤ 9 * s.length + t.length + 11 ∧ s.length ≤ n + t.length ∧ t.length ≤ s.length := by
  induction fuel generalizing s t tags n with
  | zero => cases h; omega
  | succ fuel ih =>
    rw [tagListLoopR.eq_def] at h
    dsimp only at h
    split at h
    · rename_i r
      rcases h1 : stripTagSpecR r with ⟨_ | ⟨s', tag⟩, k⟩ <;> rw [h1] at h <;> dsimp only at h
      · cases h
        have := stripTagSpecR_none h1
        simp only [List.length_cons]
        omega
      · have b1 := stripTagSpecR_some h1
        rcases h2 : tagListLoopR fuel s' (tags ++ [tag]) with ⟨⟨t', tags''⟩, l⟩
        rw [h2] at h
        dsimp only at h
        cases h
        have b2 := ih h2
        simp only [List.length_cons]
        omega
    · cases h
      omega

theorem stripTagListR_fst (s : Str) : (stripTagListR s).1 = stripTagList s := by
  rw [stripTagListR, stripTagList, ← stripTagSpecR_fst]
  rcases stripTagSpecR s with ⟨_ | ⟨s1, t⟩, n⟩
  · rfl
  · dsimp only
    have := tagListLoopR_fst (s1.length + 1) s1 [t]
    rw [tagListLoop_more _ _ _ (Nat.le_refl _)] at this
    rw [← this]
    rcases tagListLoopR (s1.length + 1) s1 [t] with ⟨⟨s2, tags⟩, m⟩
    dsimp only
    split
    · rfl
    · split
      · rename_i hx
        exact absurd rfl (hx _)
      · rfl

theorem stripTagListR_le (s : Str) : (stripTagListR s).2 ≤ 9 * s.length + 28 := by
  rw [stripTagListR]
  rcases h1 : stripTagSpecR s with ⟨_ | ⟨s1, t⟩, n⟩ <;> dsimp only
  · have := stripTagSpecR_none h1
    omega
  · have b1 := stripTagSpecR_some h1
    rcases h2 : tagListLoopR (s1.length + 1) s1 [t] with ⟨⟨s2, tags⟩, m⟩
    have b2 := tagListLoopR_le h2
    dsimp only
    split <;> dsimp only <;> omega

theorem stripTagListR_ge {s t : Str} {tags : List TagSpec} {n : Nat}
    (h : stripTagListR s = (some (t, tags), n)) : s.length ≤ n + t.length := by
  rw [stripTagListR] at h
  rcases h1 : stripTagSpecR s with ⟨_ | ⟨s1, tag⟩, k⟩ <;> rw [h1] at h <;> dsimp only at h
  · cases h
  · have b1 := stripTagSpecR_some h1
    rcases h2 : tagListLoopR (s1.length + 1) s1 [tag] with ⟨⟨s2, tags'⟩, m⟩
    have b2 := tagListLoopR_le h2
    rw [h2] at h
    dsimp only at h
    split at h <;> cases h
    · simp only [List.length_cons] at b2
      omega
    · omega

theorem parseTagListR_snd (s : Str) : (parseTagListR s).2 = (stripTagListR s).2 := by
  rw [parseTagListR]
  rcases stripTagListR s with ⟨_ | ⟨_ | _, _⟩, _⟩ <;> rfl

theorem specText_fits {n v s : Str} (h : Spec.SpecText n v s) : n.length + 1 + v.length ≤ s.length := by
  cases h with
  | value f1 _ f2 f3 _ f4 =>
    simp only [List.length_append, List.length_cons, List.length_nil]
    omega
  | empty f1 _ f2 f3 =>
    simp only [List.length_append, List.length_cons, List.length_nil]
    omega

theorem listText_fits {tags : List (Str × Str)} {s : Str} (h : Spec.ListText tags s) :
    (tags.map fun t => t.1.length + 1 + t.2.length).sum ≤ s.length := by
  induction h with
  | last n v s h =>
    have := specText_fits h
    simpa using this
  | lastSemicolon n v s h =>
    have := specText_fits h
    simp only [List.map_cons, List.map_nil, List.sum_cons, List.sum_nil, List.length_append, List.length_cons,
      List.length_nil]
    omega
  | more n v s tags r h _ ih =>
    have := specText_fits h
    simp only [List.map_cons, List.sum_cons, List.length_append, List.length_cons]
    omega

/-! ## Quoted-Printable -/

theorem stripHexdigR_fst (s : Str) : (stripHexdigR s).1 = stripHexdig s := by
  rw [stripHexdigR, stripHexdig, ← skipFwsR_fst]
  rcases skipFwsR s with ⟨s1, n⟩
  cases s1 with
  | nil => rfl
  | cons c r =>
    dsimp only
    split <;> rfl

theorem stripHexdigR_some {s t : Str} {c : Char} {n : Nat} (h : stripHexdigR s = (some (t, c), n)) :
    n + t.length ≤ s.length + 4 ∧ s.length ≤ n + t.length ∧ t.length < s.length := by
  rw [stripHexdigR] at h
  rcases h1 : skipFwsR s with ⟨s1, k⟩
  rw [h1] at h
  have b1 := skipFwsR_le h1
  cases s1 with
  | nil => cases h
  | cons d r =>
    dsimp only at h
    simp only [List.length_cons] at b1
    split at h <;> cases h
    omega

theorem stripHexdigR_none {s : Str} {n : Nat} (h : stripHexdigR s = (none, n)) : n ≤ s.length + 4 := by
  rw [stripHexdigR] at h
  rcases h1 : skipFwsR s with ⟨s1, k⟩
  rw [h1] at h
  have b1 := skipFwsR_le h1
  cases s1 with
  | nil => cases h; omega
  | cons d r =>
    dsimp only at h
    simp only [List.length_cons] at b1
    split at h <;> cases h
    omega

theorem stripHexOctetR_fst (s : Str) : (stripHexOctetR s).1 = stripHexOctet s := by
  rw [stripHexOctetR, stripHexOctet, ← stripHexdigR_fst]
  rcases stripHexdigR s with ⟨_ | ⟨s1, d1⟩, n⟩
  · rfl
  · dsimp only
    rw [← stripHexdigR_fst]
    rcases stripHexdigR s1 with ⟨_ | ⟨s2, d2⟩, m⟩
    · rfl
    · dsimp only
      cases u8FromDigits d1 d2 <;> rfl

theorem stripHexOctetR_le {s : Str} {o : Option (Option (Str × UInt8))} {n : Nat}
    (h : stripHexOctetR s = (o, n)) : n ≤ s.length + 8 := by
  rw [stripHexOctetR] at h
  rcases h1 : stripHexdigR s with ⟨_ | ⟨s1, d1⟩, k1⟩ <;> rw [h1] at h <;> dsimp only at h
  · cases h
    have := stripHexdigR_none h1
    omega
  · have b1 := stripHexdigR_some h1
    rcases h2 : stripHexdigR s1 with ⟨_ | ⟨s2, d2⟩, k2⟩ <;> rw [h2] at h <;> dsimp only at h
    · cases h
      have := stripHexdigR_none h2
      omega
    · have b2 := stripHexdigR_some h2
      cases hd : u8FromDigits d1 d2 <;> rw [hd] at h <;> cases h <;> omega

theorem stripHexOctetR_some {s t : Str} {x : UInt8} {n : Nat}
    (h : stripHexOctetR s = (some (some (t, x)), n)) :
    n + t.length ≤ s.length + 8 ∧ s.length ≤ n + t.length ∧ t.length + 2 ≤ s.length := by
  rw [stripHexOctetR] at h
  rcases h1 : stripHexdigR s with ⟨_ | ⟨s1, d1⟩, k1⟩ <;> rw [h1] at h <;> dsimp only at h
  · cases h
  · have b1 := stripHexdigR_some h1
    rcases h2 : stripHexdigR s1 with ⟨_ | ⟨s2, d2⟩, k2⟩ <;> rw [h2] at h <;> dsimp only at h
    · cases h
    · have b2 := stripHexdigR_some h2
      cases hd : u8FromDigits d1 d2 <;> rw [hd] at h <;> cases h
      omega

theorem qpDecodeLoopR_fst (n : Nat) (inFws : Bool) (s : Str) (result : Bytes) :
    (qpDecodeLoopR n inFws s result).1 = qpDecodeLoop n inFws s result := by
  induction n generalizing inFws s result with
  | zero => rfl
  | succ n ih =>
    have step : ∀ s : Str, (∀ r, s ≠ '=' :: r) → (qpDecodeLoopR (n + 1) inFws s result).1 =
        qpDecodeLoop (n + 1) inFws s result := by
      intro s hs
      rw [qpDecodeLoopR.eq_3 _ _ _ _ hs, qpDecodeLoop.eq_3 _ _ _ _ hs, ← stripDkimSafeR_fst,
        ← stripFwsR_fst]
      rcases stripDkimSafeR s with ⟨_ | s1, k⟩
      · dsimp only
        rcases stripFwsR s with ⟨_ | s2, m⟩
        · rfl
        · dsimp only
          split
          · rfl
          · exact ih ..
      · exact ih ..
    by_cases hs : ∃ r, s = '=' :: r
    · obtain ⟨r, rfl⟩ := hs
      rw [qpDecodeLoopR.eq_2, qpDecodeLoop.eq_2, ← stripHexOctetR_fst]
      rcases stripHexOctetR r with ⟨_ | _ | ⟨s1, x⟩, k⟩
      · rfl
      · rfl
      · exact ih ..
    · exact step s fun r e => hs ⟨r, e⟩

theorem qpDecodeLoopR_le {fuel : Nat} {inFws : Bool} {s : Str} {result : Bytes} {d : Decoded} {n : Nat}
    (h : qpDecodeLoopR fuel inFws s result = (d, n)) : n ≤ 7 * s.length + 6 := by
  induction fuel generalizing inFws s result d n with
  | zero => cases h; omega
  | succ fuel ih =>
    rw [qpDecodeLoopR.eq_def] at h
    dsimp only at h
    split at h
    · rename_i r
      simp only [List.length_cons]
      rcases h1 : stripHexOctetR r with ⟨o, k⟩
      have b1 := stripHexOctetR_le h1
      rw [h1] at h
      rcases o with _ | _ | ⟨s1, x⟩ <;> dsimp only at h
      · cases h; omega
      · cases h; omega
      · have b2 := stripHexOctetR_some h1
        rcases h2 : qpDecodeLoopR fuel false s1 (result ++ [x]) with ⟨d', l⟩
        rw [h2] at h
        dsimp only at h
        cases h
        have := ih h2
        omega
    · rcases h1 : stripDkimSafeR s with ⟨_ | s1, k⟩ <;> rw [h1] at h <;> dsimp only at h
      · have b1 := stripManyR_none h1
        rcases h2 : stripFwsR s with ⟨_ | s2, m⟩ <;> rw [h2] at h <;> dsimp only at h
        · have b2 := stripFwsR_none h2
          cases h
          omega
        · have b2 := stripFwsR_some h2
          split at h
          · cases h
            omega
          · rcases h3 : qpDecodeLoopR fuel true s2 result with ⟨d', l⟩
            rw [h3] at h
            dsimp only at h
            cases h
            have := ih h3
            omega
      · have b1 := stripManyR_some h1
        rcases h3 : qpDecodeLoopR fuel false s1 (result ++ utf8 (stripSuffix s s1)) with ⟨d', l⟩
        rw [h3] at h
        dsimp only at h
        cases h
        have := ih h3
        omega

theorem qpDecodeLoopR_ge {fuel : Nat} {inFws : Bool} {s : Str} {result bytes : Bytes} {n : Nat}
    (h : qpDecodeLoopR fuel inFws s result = (.ok bytes, n)) : s.length ≤ n := by
  induction fuel generalizing inFws s result n with
  | zero => cases h
  | succ fuel ih =>
    rw [qpDecodeLoopR.eq_def] at h
    dsimp only at h
    split at h
    · rename_i r
      simp only [List.length_cons]
      rcases h1 : stripHexOctetR r with ⟨_ | _ | ⟨s1, x⟩, k⟩ <;> rw [h1] at h <;> dsimp only at h
      · cases h
      · cases h
      · have b2 := stripHexOctetR_some h1
        rcases h2 : qpDecodeLoopR fuel false s1 (result ++ [x]) with ⟨d', l⟩
        rw [h2] at h
        dsimp only at h
        cases h
        have := ih h2
        omega
    · rcases h1 : stripDkimSafeR s with ⟨_ | s1, k⟩ <;> rw [h1] at h <;> dsimp only at h
      · rcases h2 : stripFwsR s with ⟨_ | s2, m⟩ <;> rw [h2] at h <;> dsimp only at h
        · by_cases he : s.isEmpty
          · rw [List.isEmpty_iff.1 he]
            exact Nat.zero_le _
          · rw [if_neg he] at h
            cases h
        · have b2 := stripFwsR_some h2
          split at h
          · cases h
          · rcases h3 : qpDecodeLoopR fuel true s2 result with ⟨d', l⟩
            rw [h3] at h
            dsimp only at h
            cases h
            have := ih h3
            omega
      · have b1 := stripManyR_some h1
        rcases h3 : qpDecodeLoopR fuel false s1 (result ++ utf8 (stripSuffix s s1)) with ⟨d', l⟩
        rw [h3] at h
        dsimp only at h
        cases h
        have := ih h3
        omega

/-! ## The value of the tag `b` -/

theorem bTagPrefixR_fst (s : Str) : (bTagPrefixR s).1 = bTagPrefix s := by
  rw [bTagPrefixR, bTagPrefix, ← stripTagNameAndEqualsR_fst]
  rcases stripTagNameAndEqualsR s with ⟨_ | ⟨_, _⟩, _⟩ <;> rfl

theorem bTagPrefixR_le (s : Str) : (bTagPrefixR s).2 ≤ s.length + 10 := by
  rw [bTagPrefixR]
  rcases h : stripTagNameAndEqualsR s with ⟨_ | ⟨t, v⟩, n⟩ <;> dsimp only
  · exact stripTagNameAndEqualsR_none h
  · have := stripTagNameAndEqualsR_some h
    omega

theorem splitOnceR_fst (sep : Char) (s : Str) : (splitOnceR sep s).1 = splitOnce sep s := by
  induction s with
  | nil => rfl
  | cons c cs ih =>
    rw [splitOnceR, splitOnce, ← ih]
    split
    · rfl
    · rcases splitOnceR sep cs with ⟨_ | ⟨_, _⟩, _⟩ <;> rfl

theorem splitOnceR_some {sep : Char} {s a b : Str} {n : Nat} (h : splitOnceR sep s = (some (a, b), n)) :
    n = a.length + 1 ∧ s.length = a.length + 1 + b.length := by
  induction s generalizing a n with
  | nil => cases h
  | cons c cs ih =>
    rw [splitOnceR] at h
    split at h
    · cases h
      refine ⟨rfl, ?_⟩
      simp only [List.length_cons, List.length_nil]
      omega
    · rcases h1 : splitOnceR sep cs with ⟨_ | ⟨a', b'⟩, k⟩ <;> rw [h1] at h <;> cases h
      have := ih h1
      simp only [List.length_cons]
      omega

theorem splitOnceR_none {sep : Char} {s : Str} {n : Nat} (h : splitOnceR sep s = (none, n)) : n = s.length := by
  induction s generalizing n with
  | nil => cases h; rfl
  | cons c cs ih =>
    rw [splitOnceR] at h
    split at h
    · cases h
    · rcases h1 : splitOnceR sep cs with ⟨_ | ⟨a', b'⟩, k⟩ <;> rw [h1] at h <;> cases h
      rw [ih h1]
      rfl

theorem originalLoopR_fst (n : Nat) (before rest : Str) :
    (originalLoopR n before rest).1 = originalLoop n before rest := by
  induction n generalizing before rest with
  | zero => rfl
  | succ n ih =>
    rw [originalLoopR, originalLoop, ← splitOnceR_fst]
    rcases splitOnceR ';' rest with ⟨_ | ⟨a, b⟩, k⟩ <;> dsimp only
    · split
      · rfl
      · rw [← bTagPrefixR_fst]
        rcases bTagPrefixR rest with ⟨_ | _, _⟩ <;> rfl
    · rw [← bTagPrefixR_fst]
      rcases bTagPrefixR a with ⟨_ | _, _⟩
      · exact ih ..
      · rfl

theorem originalLoopR_le (n : Nat) (before rest : Str) :
    (originalLoopR n before rest).2 ≤ 11 * rest.length + 10 := by
  induction n generalizing before rest with
  | zero => exact Nat.zero_le _
  | succ n ih =>
    rw [originalLoopR]
    rcases h1 : splitOnceR ';' rest with ⟨_ | ⟨a, b⟩, k⟩ <;> dsimp only
    · have b1 := splitOnceR_none h1
      split
      · dsimp only; omega
      · have b2 := bTagPrefixR_le rest
        rcases hb : bTagPrefixR rest with ⟨_ | _, _⟩ <;> rw [hb] at b2 <;> dsimp only at b2 ⊢ <;> omega
    · have b1 := splitOnceR_some h1
      have b2 := bTagPrefixR_le a
      rcases hb : bTagPrefixR a with ⟨_ | _, m⟩ <;> rw [hb] at b2 <;> dsimp only at b2 ⊢
      · have := ih (before ++ a ++ [';']) b
        omega
      · omega

end Dkim
