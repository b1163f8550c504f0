import Verif.Model.Canon
import Verif.Spec.Canon

/-! Helper lemmas about body canonicalization. -/

namespace Dkim

theorem BodyCanon.chunk_append (c : BodyCanon) (a b : Bytes) :
    c.chunk (a ++ b) =
      (c.chunk a).bind fun r => (r.1.chunk b).map fun r' => (r'.1, r.2 ++ r'.2) := by
  induction a generalizing c with
  | nil => simp [BodyCanon.chunk]
  | cons x xs ih =>
    simp only [List.cons_append, BodyCanon.chunk]
    cases h : c.step x with
    | none => simp
    | some r =>
      simp only [ih]
      cases h2 : BodyCanon.chunk r.1 xs with
      | none => simp
      | some r2 =>
        cases h3 : BodyCanon.chunk r2.1 b with
        | none => simp [h3]
        | some r3 => simp [h3]

theorem BodyCanon.chunks_eq (c : BodyCanon) (chs : List Bytes) :
    c.chunks chs = c.chunk chs.flatten := by
  induction chs generalizing c with
  | nil => simp [BodyCanon.chunks, BodyCanon.chunk]
  | cons x xs ih =>
    simp only [BodyCanon.chunks, List.flatten_cons, BodyCanon.chunk_append, ih]
    cases h : c.chunk x with
    | none => simp
    | some r =>
      simp only [Option.bind_some]
      cases h2 : r.1.chunk xs.flatten <;> simp

/-- Output of processing the remaining bytes and finishing. -/
def BodyCanon.run (c : BodyCanon) (bs : Bytes) : Option Bytes :=
  (c.chunk bs).bind fun r => r.1.finish.map (r.2 ++ ·)

theorem canonBody_eq_run (k : CanonAlg) (chs : List Bytes) :
    canonBody k chs = (BodyCanon.new k).run chs.flatten := by
  simp only [canonBody, BodyCanon.chunks_eq, BodyCanon.run]
  cases h : (BodyCanon.new k).chunk chs.flatten with
  | none => simp
  | some r => simp only [Option.bind_some]; cases h2 : r.1.finish <;> simp

theorem BodyCanon.run_nil (c : BodyCanon) : c.run [] = c.finish := by
  simp [BodyCanon.run, BodyCanon.chunk]

theorem BodyCanon.run_cons (c : BodyCanon) (b : UInt8) (bs : Bytes) :
    c.run (b :: bs) = (c.step b).bind fun r => (r.1.run bs).map (r.2 ++ ·) := by
  simp only [BodyCanon.run, BodyCanon.chunk]
  cases h : c.step b with
  | none => simp
  | some r =>
    simp only [Option.bind_some]
    cases h2 : r.1.chunk bs with
    | none => simp
    | some r2 => simp only [Option.bind_some]; cases h3 : r2.1.finish <;> simp

open Spec

/-! ### Facts about `splitLines` -/

theorem splitLines_cons_ne (b : UInt8) (r : Bytes) (h : ∀ r', ¬ (b = 13 ∧ r = 10 :: r')) :
    splitLines (b :: r) =
      match splitLines r with
      | ([], last) => ([], b :: last)
      | (l :: ls, last) => ((b :: l) :: ls, last) := by
  have h' : ∀ r', b = 13 → r = 10 :: r' → False := fun r' hb hr => h r' ⟨hb, hr⟩
  rw [splitLines]
  all_goals first
    | exact h'
    | (rcases splitLines r with ⟨_ | ⟨l, ls⟩, last⟩ <;> rfl)

/-- A byte in front of a split. -/
def consSplit (b : UInt8) : List Bytes × Bytes → List Bytes × Bytes
  | ([], last) => ([], b :: last)
  | (l :: ls, last) => ((b :: l) :: ls, last)

theorem splitLines_cons_notCR (b : UInt8) (r : Bytes) (h : b ≠ 13) :
    splitLines (b :: r) = consSplit b (splitLines r) := by
  rw [splitLines_cons_ne b r (by intro r' ⟨h1, _⟩; exact h h1)]
  rcases h2 : splitLines r with ⟨_ | ⟨l, ls⟩, last⟩ <;> rfl

theorem splitLines_CR_cons (b : UInt8) (r : Bytes) (h : b ≠ 10) :
    splitLines (13 :: b :: r) = consSplit 13 (splitLines (b :: r)) := by
  rw [splitLines_cons_ne 13 (b :: r) (by intro r' ⟨_, h1⟩; simp at h1; exact h h1.1)]
  rcases h2 : splitLines (b :: r) with ⟨_ | ⟨l, ls⟩, last⟩ <;> rfl

theorem splitLines_CRLF (r : Bytes) :
    splitLines (13 :: 10 :: r) = ([] :: (splitLines r).1, (splitLines r).2) := by
  rw [splitLines]

theorem splitLines_CR : splitLines [13] = ([], [13]) := by decide

/-! ### Simple -/

/-- Output from line level data, with a number of pending empty lines. -/
def simpleOut : Nat → List Bytes → Bytes → Bytes
  | n, [], last => if last = [] then [] else crlfs n ++ last ++ CRLF
  | n, l :: ls, last =>
    if l = [] then simpleOut (n + 1) ls last
    else crlfs n ++ l ++ CRLF ++ simpleOut 0 ls last

/-- Output when in the middle of a non-empty line. -/
def simpleMid : List Bytes × Bytes → Bytes
  | ([], last) => last ++ CRLF
  | (l :: ls, last) => l ++ CRLF ++ simpleOut 0 ls last

theorem simpleMid_consSplit (b : UInt8) (s : List Bytes × Bytes) :
    simpleMid (consSplit b s) = b :: simpleMid s := by
  rcases s with ⟨_ | ⟨l, ls⟩, last⟩ <;> simp [simpleMid, consSplit]

theorem simpleOut_consSplit (n : Nat) (b : UInt8) (s : List Bytes × Bytes) :
    simpleOut n (consSplit b s).1 (consSplit b s).2 = crlfs n ++ b :: simpleMid s := by
  rcases s with ⟨_ | ⟨l, ls⟩, last⟩ <;> simp [simpleMid, consSplit, simpleOut]

theorem crlfs_succ (n : Nat) : crlfs (n + 1) = CRLF ++ crlfs n := by
  simp [crlfs, List.replicate_succ]

theorem crlfs_zero : crlfs 0 = [] := rfl

theorem simple_run (bs : Bytes) :
    (∀ n, (BodyCanon.mk .simple .crlf true n).run bs
        = some (simpleOut n (splitLines bs).1 (splitLines bs).2)) ∧
    ((BodyCanon.mk .simple .byte false 0).run bs = some (simpleMid (splitLines bs))) ∧
    (∀ n, (BodyCanon.mk .simple .cr true n).run bs
        = some (simpleOut n (splitLines (13 :: bs)).1 (splitLines (13 :: bs)).2)) ∧
    ((BodyCanon.mk .simple .cr false 0).run bs = some (simpleMid (splitLines (13 :: bs)))) := by
  induction bs with
  | nil =>
    refine ⟨?_, ?_, ?_, ?_⟩ <;> (try intro n) <;>
      simp [BodyCanon.run_nil, BodyCanon.finish, splitLines, simpleOut, simpleMid, splitLines_CR,
        BodyCanon.flush, crlfs_zero, CR]
  | cons b r ih =>
    obtain ⟨ihA, ihB, ihC, ihD⟩ := ih
    refine ⟨?_, ?_, ?_, ?_⟩
    · intro n
      by_cases hb : b = 13
      · subst hb
        simp [BodyCanon.run_cons, BodyCanon.step, BodyCanon.stepSimple, CR, ihC]
      · rw [splitLines_cons_notCR b r hb, simpleOut_consSplit]
        simp [BodyCanon.run_cons, BodyCanon.step, BodyCanon.stepSimple, CR, hb, ihB,
          BodyCanon.flush]
    · by_cases hb : b = 13
      · subst hb
        simp [BodyCanon.run_cons, BodyCanon.step, BodyCanon.stepSimple, CR, ihD]
      · rw [splitLines_cons_notCR b r hb, simpleMid_consSplit]
        simp [BodyCanon.run_cons, BodyCanon.step, BodyCanon.stepSimple, CR, hb, ihB]
    · intro n
      by_cases hl : b = 10
      · subst hl
        simp [BodyCanon.run_cons, BodyCanon.step, BodyCanon.stepSimple, LF, ihA,
          splitLines_CRLF, simpleOut]
      · rw [splitLines_CR_cons b r hl, simpleOut_consSplit]
        by_cases hb : b = 13
        · subst hb
          simp [BodyCanon.run_cons, BodyCanon.step, BodyCanon.stepSimple, CR, LF, ihD,
            BodyCanon.flush]
        · rw [splitLines_cons_notCR b r hb, simpleMid_consSplit]
          simp [BodyCanon.run_cons, BodyCanon.step, BodyCanon.stepSimple, CR, LF, hl, hb, ihB,
            BodyCanon.flush]
    · by_cases hl : b = 10
      · subst hl
        simp [BodyCanon.run_cons, BodyCanon.step, BodyCanon.stepSimple, CR, LF, ihA,
          splitLines_CRLF, simpleMid, CRLF]
      · rw [splitLines_CR_cons b r hl, simpleMid_consSplit]
        by_cases hb : b = 13
        · subst hb
          simp [BodyCanon.run_cons, BodyCanon.step, BodyCanon.stepSimple, CR, LF, ihD,
            BodyCanon.flush, crlfs_zero]
        · rw [splitLines_cons_notCR b r hb, simpleMid_consSplit]
          simp [BodyCanon.run_cons, BodyCanon.step, BodyCanon.stepSimple, CR, LF, hl, hb, ihB,
            BodyCanon.flush, crlfs_zero]

theorem BodyCanon.run_init_cons (k : CanonAlg) (b : UInt8) (r : Bytes) :
    (BodyCanon.new k).run (b :: r) = (BodyCanon.mk k .crlf true 0).run (b :: r) := by
  cases k
  · simp [BodyCanon.run_cons, BodyCanon.new, BodyCanon.step, BodyCanon.stepSimple, BodyCanon.flush]
  · simp [BodyCanon.run_cons, BodyCanon.new, BodyCanon.step, BodyCanon.stepRelaxed,
      BodyCanon.flush]

/-! ### From pending empty lines to dropping trailing empty lines -/

theorem dropTrailingEmpty_nil : dropTrailingEmpty [] = [] := rfl

theorem dropTrailingEmpty_cons (l : Bytes) (ls : List Bytes) :
    dropTrailingEmpty (l :: ls) =
      if dropTrailingEmpty ls = [] then (if l = [] then [] else [l])
      else l :: dropTrailingEmpty ls := by
  unfold dropTrailingEmpty
  rw [List.reverse_cons, List.dropWhile_append]
  by_cases h : ls.reverse.dropWhile List.isEmpty = []
  · by_cases hl : l = [] <;> simp [h, hl]
  · simp [h, List.isEmpty_iff]

theorem dropTrailingEmpty_concat (ls : List Bytes) (l : Bytes) (h : l ≠ []) :
    dropTrailingEmpty (ls ++ [l]) = ls ++ [l] := by
  unfold dropTrailingEmpty
  rw [List.reverse_append]
  simp [h]

theorem joinLines_append (a b : List Bytes) : joinLines (a ++ b) = joinLines a ++ joinLines b := by
  induction a with
  | nil => simp [joinLines]
  | cons l ls ih => simp [joinLines, ih]

theorem simpleOut_eq (n : Nat) (ls : List Bytes) (last : Bytes) :
    simpleOut n ls last =
      (if dropTrailingEmpty (ls ++ if last = [] then [] else [last]) = [] then []
       else crlfs n ++ joinLines (dropTrailingEmpty (ls ++ if last = [] then [] else [last]))) := by
  induction ls generalizing n with
  | nil =>
    by_cases h : last = []
    · simp [simpleOut, h, dropTrailingEmpty_nil]
    · simp [simpleOut, h, dropTrailingEmpty_cons, dropTrailingEmpty_nil, joinLines, CRLF, CR, LF]
  | cons l ls ih =>
    simp only [simpleOut, List.cons_append, dropTrailingEmpty_cons]
    generalize hE : dropTrailingEmpty (ls ++ if last = [] then [] else [last]) = E at *
    by_cases hl : l = []
    · by_cases hE2 : E = []
      · simp [hl, ih, hE2]
      · simp [hl, ih, hE2, joinLines, crlfs_succ, CRLF, CR, LF]
        have : ∀ m, crlfs m ++ ([13, 10] : Bytes) = [13, 10] ++ crlfs m := by
          intro m
          induction m with
          | zero => rfl
          | succ m ihm => simp only [crlfs_succ, List.append_assoc, ihm]; simp [CRLF, CR, LF]
        have := congrArg (· ++ joinLines E) (this n)
        simpa using this.symm
    · by_cases hE2 : E = []
      · simp [hl, ih, hE2, joinLines, CRLF, CR, LF]
      · simp [hl, ih, hE2, joinLines, CRLF, CR, LF, crlfs_zero]

theorem simple_run_eq (body : Bytes) :
    (BodyCanon.new .simple).run body =
      some (if body = [] then [13, 10] else joinLines (dropTrailingEmpty (bodyLines body))) := by
  cases body with
  | nil => decide
  | cons b r =>
    rw [BodyCanon.run_init_cons, (simple_run (b :: r)).1 0, simpleOut_eq]
    simp only [reduceCtorEq, if_false, bodyLines]
    generalize dropTrailingEmpty _ = E
    by_cases h : E = []
    · simp [h, joinLines]
    · simp [h, crlfs_zero]

/-! ### Relaxed -/

theorem isWsp_eq (b : UInt8) : isWspByte b = isWsp b := by
  simp [isWspByte, isWsp, SP, TAB, Bool.or_comm]

theorem stripTrailingWsp_nil : stripTrailingWsp [] = [] := rfl

theorem stripTrailingWsp_cons (b : UInt8) (l : Bytes) :
    stripTrailingWsp (b :: l) =
      if stripTrailingWsp l = [] then (if isWsp b then [] else [b])
      else b :: stripTrailingWsp l := by
  unfold stripTrailingWsp
  rw [List.reverse_cons, List.dropWhile_append]
  by_cases h : l.reverse.dropWhile isWsp = []
  · by_cases hl : isWsp b <;> simp [h, hl]
  · simp [h, List.isEmpty_iff]

theorem reduceWsp_cons_notWsp (b : UInt8) (l : Bytes) (h : isWsp b = false) :
    reduceWsp (b :: l) = b :: reduceWsp l := by
  cases l <;> simp [reduceWsp, h]

theorem relaxLine_cons_notWsp (b : UInt8) (l : Bytes) (h : isWsp b = false) :
    relaxLine (b :: l) = b :: relaxLine l := by
  unfold relaxLine
  rw [stripTrailingWsp_cons]
  by_cases h2 : stripTrailingWsp l = []
  · simp [h2, h, reduceWsp]
  · simp [h2, reduceWsp_cons_notWsp b _ h]

theorem relaxLine_wsp_wsp (b c : UInt8) (l : Bytes) (hb : isWsp b = true) (hc : isWsp c = true) :
    relaxLine (b :: c :: l) = relaxLine (c :: l) := by
  unfold relaxLine
  rw [stripTrailingWsp_cons b]
  by_cases h2 : stripTrailingWsp (c :: l) = []
  · simp [h2, hb]
  · rw [if_neg h2]
    rw [stripTrailingWsp_cons] at h2 ⊢
    by_cases h3 : stripTrailingWsp l = []
    · simp [h3, hc] at h2
    · simp [h3, reduceWsp, hb, hc]

theorem relaxLine_wsp_notWsp (b c : UInt8) (l : Bytes) (hb : isWsp b = true)
    (hc : isWsp c = false) :
    relaxLine (b :: c :: l) = 32 :: c :: relaxLine l := by
  rw [← relaxLine_cons_notWsp c l hc]
  unfold relaxLine
  rw [stripTrailingWsp_cons b]
  have h2 : stripTrailingWsp (c :: l) ≠ [] := by
    rw [stripTrailingWsp_cons]; by_cases h3 : stripTrailingWsp l = [] <;> simp [h3, hc]
  rw [if_neg h2]
  have : ∃ l', stripTrailingWsp (c :: l) = c :: l' := by
    rw [stripTrailingWsp_cons]; by_cases h3 : stripTrailingWsp l = [] <;> simp [h3, hc]
  obtain ⟨l', hl'⟩ := this
  rw [hl']
  simp [reduceWsp, hb, hc]

theorem relaxLine_wsp_single (b : UInt8) (hb : isWsp b = true) : relaxLine [b] = [] := by
  simp [relaxLine, stripTrailingWsp, hb, reduceWsp]

theorem relaxLine_wsp_any (b c : UInt8) (l : Bytes) (hb : isWsp b = true) (hc : isWsp c = true) :
    relaxLine (b :: l) = relaxLine (c :: l) := by
  cases l with
  | nil => simp [relaxLine_wsp_single, hb, hc]
  | cons d l =>
    by_cases hd : isWsp d = true
    · rw [relaxLine_wsp_wsp b d l hb hd, relaxLine_wsp_wsp c d l hc hd]
    · simp at hd; rw [relaxLine_wsp_notWsp b d l hb hd, relaxLine_wsp_notWsp c d l hc hd]

/-- Line level output of the relaxed machine, with pending empty lines. -/
def relaxedOut : Nat → List Bytes → Bytes → Bytes
  | n, [], last =>
    if last = [] then [] else if relaxLine last = [] then CRLF
    else crlfs n ++ relaxLine last ++ CRLF
  | n, l :: ls, last =>
    if relaxLine l = [] then relaxedOut (n + 1) ls last
    else crlfs n ++ relaxLine l ++ CRLF ++ relaxedOut 0 ls last

/-- Output when in the middle of a line that already has a non-WSP byte. -/
def relaxedMid : List Bytes × Bytes → Bytes
  | ([], last) => relaxLine last ++ CRLF
  | (l :: ls, last) => relaxLine l ++ CRLF ++ relaxedOut 0 ls last

theorem relaxedMid_cons (b : UInt8) (s : List Bytes × Bytes) (h : isWsp b = false) :
    relaxedMid (consSplit b s) = b :: relaxedMid s := by
  rcases s with ⟨_ | ⟨l, ls⟩, last⟩ <;>
    simp [relaxedMid, consSplit, relaxLine_cons_notWsp _ _ h]

theorem relaxedOut_cons (n : Nat) (b : UInt8) (s : List Bytes × Bytes) (h : isWsp b = false) :
    relaxedOut n (consSplit b s).1 (consSplit b s).2 = crlfs n ++ b :: relaxedMid s := by
  rcases s with ⟨_ | ⟨l, ls⟩, last⟩ <;>
    simp [relaxedMid, consSplit, relaxedOut, relaxLine_cons_notWsp _ _ h]

theorem relaxedMid_wsp_cons (w b : UInt8) (s : List Bytes × Bytes) (hw : isWsp w = true)
    (h : isWsp b = false) :
    relaxedMid (consSplit w (consSplit b s)) = 32 :: b :: relaxedMid s := by
  rcases s with ⟨_ | ⟨l, ls⟩, last⟩ <;>
    simp [relaxedMid, consSplit, relaxLine_wsp_notWsp _ _ _ hw h]

theorem relaxedOut_wsp_cons (n : Nat) (w b : UInt8) (s : List Bytes × Bytes) (hw : isWsp w = true)
    (h : isWsp b = false) :
    relaxedOut n (consSplit w (consSplit b s)).1 (consSplit w (consSplit b s)).2
      = crlfs n ++ 32 :: b :: relaxedMid s := by
  rcases s with ⟨_ | ⟨l, ls⟩, last⟩ <;>
    simp [relaxedMid, consSplit, relaxedOut, relaxLine_wsp_notWsp _ _ _ hw h]

theorem relaxedMid_wsp_wsp (w b : UInt8) (s : List Bytes × Bytes) (hw : isWsp w = true)
    (h : isWsp b = true) :
    relaxedMid (consSplit w (consSplit b s)) = relaxedMid (consSplit w s) := by
  rcases s with ⟨_ | ⟨l, ls⟩, last⟩ <;>
    simp [relaxedMid, consSplit, relaxLine_wsp_wsp _ _ _ hw h, relaxLine_wsp_any b w _ h hw]

theorem relaxedOut_wsp_wsp (n : Nat) (w b : UInt8) (s : List Bytes × Bytes) (hw : isWsp w = true)
    (h : isWsp b = true) :
    relaxedOut n (consSplit w (consSplit b s)).1 (consSplit w (consSplit b s)).2
      = relaxedOut n (consSplit w s).1 (consSplit w s).2 := by
  rcases s with ⟨_ | ⟨l, ls⟩, last⟩ <;>
    simp [consSplit, relaxedOut, relaxLine_wsp_wsp _ _ _ hw h, relaxLine_wsp_any b w _ h hw]

theorem relaxedMid_any (w b : UInt8) (s : List Bytes × Bytes) (hw : isWsp w = true)
    (h : isWsp b = true) : relaxedMid (consSplit b s) = relaxedMid (consSplit w s) := by
  rcases s with ⟨_ | ⟨l, ls⟩, last⟩ <;>
    simp [relaxedMid, consSplit, relaxLine_wsp_any b w _ h hw]

theorem relaxedOut_any (n : Nat) (w b : UInt8) (s : List Bytes × Bytes) (hw : isWsp w = true)
    (h : isWsp b = true) : relaxedOut n (consSplit b s).1 (consSplit b s).2
      = relaxedOut n (consSplit w s).1 (consSplit w s).2 := by
  rcases s with ⟨_ | ⟨l, ls⟩, last⟩ <;>
    simp [consSplit, relaxedOut, relaxLine_wsp_any b w _ h hw]

theorem wsp32 : isWsp 32 = true := by decide
theorem wsp13 : isWsp 13 = false := by decide
theorem wsp10 : isWsp 10 = false := by decide

theorem wsp_ne13 {b : UInt8} (h : isWsp b = true) : b ≠ 13 := by
  rintro rfl; exact absurd h (by decide)
theorem wsp_ne10 {b : UInt8} (h : isWsp b = true) : b ≠ 10 := by
  rintro rfl; exact absurd h (by decide)

theorem splitLines_32 (r : Bytes) : splitLines (32 :: r) = consSplit 32 (splitLines r) :=
  splitLines_cons_notCR _ _ (by decide)

section
attribute [local simp] BodyCanon.run_cons BodyCanon.step BodyCanon.stepRelaxed BodyCanon.flush
  isWsp_eq CR LF wsp13 wsp10 SP CRLF crlfs_zero

theorem relaxed_run (bs : Bytes) :
    (∀ n, (BodyCanon.mk .relaxed .crlf true n).run bs
        = some (relaxedOut n (splitLines bs).1 (splitLines bs).2)) ∧
    ((BodyCanon.mk .relaxed .byte false 0).run bs = some (relaxedMid (splitLines bs))) ∧
    (∀ n, (BodyCanon.mk .relaxed .cr true n).run bs
        = some (relaxedOut n (splitLines (13 :: bs)).1 (splitLines (13 :: bs)).2)) ∧
    ((BodyCanon.mk .relaxed .cr false 0).run bs = some (relaxedMid (splitLines (13 :: bs)))) ∧
    (∀ n, (BodyCanon.mk .relaxed .wsp true n).run bs
        = some (relaxedOut n (splitLines (32 :: bs)).1 (splitLines (32 :: bs)).2)) ∧
    ((BodyCanon.mk .relaxed .wsp false 0).run bs = some (relaxedMid (splitLines (32 :: bs)))) ∧
    (∀ n, (BodyCanon.mk .relaxed .wspCr true n).run bs
        = some (relaxedOut n (splitLines (32 :: 13 :: bs)).1 (splitLines (32 :: 13 :: bs)).2)) ∧
    ((BodyCanon.mk .relaxed .wspCr false 0).run bs
        = some (relaxedMid (splitLines (32 :: 13 :: bs)))) := by
  induction bs with
  | nil =>
    have e1 : splitLines [32] = ([], [32]) := by decide
    have e2 : splitLines [32, 13] = ([], [32, 13]) := by decide
    have e3 : relaxLine [13] = [13] := by decide
    have e4 : relaxLine [32, 13] = [32, 13] := by decide
    have e5 : relaxLine [32] = [] := by decide
    have e6 : relaxLine [] = [] := by decide
    refine ⟨?_, ?_, ?_, ?_, ?_, ?_, ?_, ?_⟩ <;> (try intro n) <;>
      simp [BodyCanon.run_nil, BodyCanon.finish, splitLines, relaxedOut, relaxedMid, splitLines_CR,
        e1, e2, e3, e4, e5, e6]
  | cons b r ih =>
    obtain ⟨ihA, ihB, ihC, ihD, ihE, ihF, ihG, ihH⟩ := ih
    refine ⟨?_, ?_, ?_, ?_, ?_, ?_, ?_, ?_⟩
    · intro n
      by_cases hw : isWsp b = true
      · rw [splitLines_cons_notCR b r (wsp_ne13 hw), relaxedOut_any n 32 b _ wsp32 hw,
          ← splitLines_32]
        simp [hw, ihE]
      · simp at hw
        by_cases hb : b = 13
        · subst hb; simp [ihC]
        · rw [splitLines_cons_notCR b r hb, relaxedOut_cons n b _ hw]
          simp [hw, hb, ihB]
    · by_cases hw : isWsp b = true
      · rw [splitLines_cons_notCR b r (wsp_ne13 hw), relaxedMid_any 32 b _ wsp32 hw,
          ← splitLines_32]
        simp [hw, ihF]
      · simp at hw
        by_cases hb : b = 13
        · subst hb; simp [ihD]
        · rw [splitLines_cons_notCR b r hb, relaxedMid_cons b _ hw]
          simp [hw, hb, ihB]
    · intro n
      by_cases hl : b = 10
      · subst hl; simp [ihA, splitLines_CRLF, relaxedOut, relaxLine, stripTrailingWsp, reduceWsp]
      · rw [splitLines_CR_cons b r hl, relaxedOut_cons n 13 _ wsp13]
        by_cases hw : isWsp b = true
        · rw [splitLines_cons_notCR b r (wsp_ne13 hw), relaxedMid_any 32 b _ wsp32 hw,
            ← splitLines_32]
          simp [hw, hl, ihF]
        · simp at hw
          by_cases hb : b = 13
          · subst hb; simp [ihD]
          · rw [splitLines_cons_notCR b r hb, relaxedMid_cons b _ hw]
            simp [hw, hb, hl, ihB]
    · by_cases hl : b = 10
      · subst hl; simp [ihA, splitLines_CRLF, relaxedMid, relaxLine, stripTrailingWsp, reduceWsp]
      · rw [splitLines_CR_cons b r hl, relaxedMid_cons 13 _ wsp13]
        by_cases hw : isWsp b = true
        · rw [splitLines_cons_notCR b r (wsp_ne13 hw), relaxedMid_any 32 b _ wsp32 hw,
            ← splitLines_32]
          simp [hw, hl, ihF]
        · simp at hw
          by_cases hb : b = 13
          · subst hb; simp [ihD]
          · rw [splitLines_cons_notCR b r hb, relaxedMid_cons b _ hw]
            simp [hw, hb, hl, ihB]
    · intro n
      by_cases hb : b = 13
      · subst hb; simp [ihG]
      · rw [splitLines_32, splitLines_cons_notCR b r hb]
        by_cases hw : isWsp b = true
        · rw [relaxedOut_wsp_wsp n 32 b _ wsp32 hw, ← splitLines_32]
          simp [hw, hb, ihE]
        · simp at hw
          rw [relaxedOut_wsp_cons n 32 b _ wsp32 hw]
          simp [hw, hb, ihB]
    · by_cases hb : b = 13
      · subst hb; simp [ihH]
      · rw [splitLines_32, splitLines_cons_notCR b r hb]
        by_cases hw : isWsp b = true
        · rw [relaxedMid_wsp_wsp 32 b _ wsp32 hw, ← splitLines_32]
          simp [hw, hb, ihF]
        · simp at hw
          rw [relaxedMid_wsp_cons 32 b _ wsp32 hw]
          simp [hw, hb, ihB]
    · intro n
      by_cases hl : b = 10
      · subst hl
        have e5 : relaxLine [32] = [] := by decide
        simp [ihA, splitLines_32, splitLines_CRLF, relaxedOut, consSplit, e5]
      · rw [splitLines_32, splitLines_CR_cons b r hl, relaxedOut_wsp_cons n 32 13 _ wsp32 wsp13]
        by_cases hw : isWsp b = true
        · rw [splitLines_cons_notCR b r (wsp_ne13 hw), relaxedMid_any 32 b _ wsp32 hw,
            ← splitLines_32]
          simp [hw, hl, wsp_ne13 hw, ihF]
        · simp at hw
          by_cases hb : b = 13
          · subst hb; simp [ihD]
          · rw [splitLines_cons_notCR b r hb, relaxedMid_cons b _ hw]
            simp [hw, hb, hl, ihB]
    · by_cases hl : b = 10
      · subst hl
        have e5 : relaxLine [32] = [] := by decide
        simp [ihA, splitLines_32, splitLines_CRLF, relaxedMid, consSplit, e5]
      · rw [splitLines_32, splitLines_CR_cons b r hl, relaxedMid_wsp_cons 32 13 _ wsp32 wsp13]
        by_cases hw : isWsp b = true
        · rw [splitLines_cons_notCR b r (wsp_ne13 hw), relaxedMid_any 32 b _ wsp32 hw,
            ← splitLines_32]
          simp [hw, hl, wsp_ne13 hw, ihF]
        · simp at hw
          by_cases hb : b = 13
          · subst hb; simp [ihD]
          · rw [splitLines_cons_notCR b r hb, relaxedMid_cons b _ hw]
            simp [hw, hb, hl, ihB]

end


theorem relaxedOut_eq_simpleOut (n : Nat) (ls : List Bytes) (last : Bytes) :
    relaxedOut n ls last = simpleOut n (ls.map relaxLine) (relaxLine last) ++
      (if last ≠ [] ∧ relaxLine last = [] then CRLF else []) := by
  induction ls generalizing n with
  | nil =>
    by_cases h1 : last = []
    · subst h1; simp [relaxedOut, simpleOut, relaxLine, stripTrailingWsp, reduceWsp]
    · by_cases h2 : relaxLine last = [] <;> simp [relaxedOut, simpleOut, h1, h2]
  | cons l ls ih =>
    by_cases h : relaxLine l = [] <;> simp [relaxedOut, simpleOut, h, ih]

theorem dropTrailingEmpty_append_nil (ls : List Bytes) :
    dropTrailingEmpty (ls ++ [[]]) = dropTrailingEmpty ls := by
  simp [dropTrailingEmpty]

theorem relaxed_run_eq (body : Bytes) :
    (BodyCanon.new .relaxed).run body =
      some (rfcRelaxedBody body ++
        (if (splitLines body).2 ≠ [] ∧ relaxLine (splitLines body).2 = [] then [13, 10] else [])) := by
  cases body with
  | nil => decide
  | cons b r =>
    rw [BodyCanon.run_init_cons, (relaxed_run (b :: r)).1 0, relaxedOut_eq_simpleOut, simpleOut_eq]
    have e : dropTrailingEmpty ((splitLines (b :: r)).1.map relaxLine ++
          if relaxLine (splitLines (b :: r)).2 = [] then [] else [relaxLine (splitLines (b :: r)).2])
        = dropTrailingEmpty ((bodyLines (b :: r)).map relaxLine) := by
      unfold bodyLines
      by_cases h1 : (splitLines (b :: r)).2 = []
      · simp [h1, relaxLine, stripTrailingWsp, reduceWsp]
      · by_cases h2 : relaxLine (splitLines (b :: r)).2 = []
        · simp [h1, h2, dropTrailingEmpty_append_nil]
        · simp [h1, h2]
    rw [e, rfcRelaxedBody]
    generalize dropTrailingEmpty _ = E
    by_cases h : E = []
    · simp [h, joinLines, CRLF, CR, LF]
    · simp [h, crlfs_zero, CRLF, CR, LF]

/-! ### Lines are free of CRLF, and joining inverts splitting -/

/-- A line without CRLF, as a statement about splitting. -/
def NoCrlf (l : Bytes) : Prop := splitLines l = ([], l)

theorem noCrlf_nil : NoCrlf [] := rfl

theorem splitLines_cons_cases (b : UInt8) (r : Bytes) :
    (∃ r', b = 13 ∧ r = 10 :: r') ∨ splitLines (b :: r) = consSplit b (splitLines r) := by
  by_cases h : ∃ r', b = 13 ∧ r = 10 :: r'
  · exact Or.inl h
  · refine Or.inr ?_
    rw [splitLines_cons_ne b r (fun r' h' => h ⟨r', h'⟩)]
    rcases h2 : splitLines r with ⟨_ | ⟨l, ls⟩, last⟩ <;> rfl

theorem noCrlf_cons (b : UInt8) (l : Bytes) :
    NoCrlf (b :: l) ↔ NoCrlf l ∧ ¬ (b = 13 ∧ l.head? = some 10) := by
  unfold NoCrlf
  rcases splitLines_cons_cases b l with ⟨r', h1, h2⟩ | h
  · subst h1 h2
    simp [splitLines_CRLF]
  · have hne : ¬ (b = 13 ∧ l.head? = some 10) := by
      rintro ⟨rfl, h2⟩
      cases l with
      | nil => simp at h2
      | cons c l =>
        simp at h2; subst h2
        rw [splitLines_CRLF] at h
        rcases h3 : splitLines (10 :: l) with ⟨_ | ⟨l', ls⟩, last⟩ <;> rw [h3] at h <;>
          simp [consSplit] at h
    rw [h]
    simp only [hne, not_false_eq_true, and_true]
    rcases h3 : splitLines l with ⟨_ | ⟨l', ls⟩, last⟩ <;> simp [consSplit]

theorem splitLines_line (l r : Bytes) (h : NoCrlf l) :
    splitLines (l ++ 13 :: 10 :: r) = (l :: (splitLines r).1, (splitLines r).2) := by
  induction l with
  | nil => simp [splitLines_CRLF]
  | cons b l ih =>
    rw [noCrlf_cons] at h
    have ih := ih h.1
    rcases splitLines_cons_cases b (l ++ 13 :: 10 :: r) with ⟨r', h1, h2⟩ | h2
    · exfalso
      cases l with
      | nil => simp at h2
      | cons c l => simp at h2; exact h.2 ⟨h1, by simp [h2.1]⟩
    · rw [List.cons_append, h2, ih]; rfl

theorem splitLines_noCrlf (b : Bytes) :
    (∀ l ∈ (splitLines b).1, NoCrlf l) ∧ NoCrlf (splitLines b).2 := by
  generalize hn : b.length = n
  induction n using Nat.strongRecOn generalizing b with
  | ind n ih =>
    cases b with
    | nil => simp [splitLines, noCrlf_nil]
    | cons b r =>
      rcases splitLines_cons_cases b r with ⟨r', h1, h2⟩ | h
      · subst h1 h2
        have := ih r'.length (by simp at hn; omega) r' rfl
        rw [splitLines_CRLF]
        simp [this]
        exact ⟨noCrlf_nil, fun l hl => this.1 l hl⟩
      · have ih := ih r.length (by simp at hn; omega) r rfl
        have hd : b = 13 → r.head? = some 10 → False := by
          rintro rfl h2
          cases r with
          | nil => simp at h2
          | cons c l =>
            simp at h2; subst h2
            rw [splitLines_CRLF] at h
            rcases h3 : splitLines (10 :: l) with ⟨_ | ⟨l', ls⟩, last⟩ <;> rw [h3] at h <;>
              simp [consSplit] at h
        -- the first piece starts like `r`
        have hhead : ∀ x, NoCrlf x → x.head? = r.head? ∨ x = [] → NoCrlf (b :: x) := by
          intro x hx hxr
          rw [noCrlf_cons]
          refine ⟨hx, ?_⟩
          rintro ⟨hb, hx10⟩
          rcases hxr with h' | h'
          · exact hd hb (h' ▸ hx10)
          · simp [h'] at hx10
        have hfirst : ∀ l ls last, splitLines r = (l :: ls, last) → l.head? = r.head? ∨ l = [] := by
          intro l ls last hs
          cases r with
          | nil => simp [splitLines] at hs
          | cons c r =>
            rcases splitLines_cons_cases c r with ⟨r', h1, h2⟩ | h4
            · subst h1 h2; rw [splitLines_CRLF] at hs; simp at hs; right; exact hs.1.1
            · rw [h4] at hs
              rcases h3 : splitLines r with ⟨_ | ⟨l', ls'⟩, last'⟩ <;> rw [h3] at hs <;>
                simp [consSplit] at hs
              left; rw [← hs.1.1]; simp
        have hfirst' : ∀ last, splitLines r = ([], last) → last.head? = r.head? ∨ last = [] := by
          intro last hs
          cases r with
          | nil => simp [splitLines] at hs; right; exact hs
          | cons c r =>
            rcases splitLines_cons_cases c r with ⟨r', h1, h2⟩ | h4
            · subst h1 h2; rw [splitLines_CRLF] at hs; simp at hs
            · rw [h4] at hs
              rcases h3 : splitLines r with ⟨_ | ⟨l', ls'⟩, last'⟩ <;> rw [h3] at hs <;>
                simp [consSplit] at hs
              left; rw [← hs]; simp
        rw [h]
        rcases h3 : splitLines r with ⟨_ | ⟨l', ls'⟩, last'⟩
        · rw [h3] at ih
          simp only [consSplit]
          exact ⟨by simp, hhead _ ih.2 (hfirst' _ h3)⟩
        · rw [h3] at ih
          simp only [consSplit]
          refine ⟨?_, ih.2⟩
          intro l hl
          rcases List.mem_cons.1 hl with rfl | hl
          · exact hhead _ (ih.1 _ (by simp)) (hfirst _ _ _ h3)
          · exact ih.1 _ (by simp [hl])

theorem bodyLines_noCrlf (b : Bytes) : ∀ l ∈ bodyLines b, NoCrlf l := by
  intro l hl
  unfold bodyLines at hl
  rw [List.mem_append] at hl
  rcases hl with hl | hl
  · exact (splitLines_noCrlf b).1 l hl
  · by_cases h : (splitLines b).2 = []
    · simp [h] at hl
    · simp [h] at hl; rw [hl]; exact (splitLines_noCrlf b).2

theorem splitLines_join (ls : List Bytes) (r : Bytes) (h : ∀ l ∈ ls, NoCrlf l) :
    splitLines (joinLines ls ++ r) = (ls ++ (splitLines r).1, (splitLines r).2) := by
  induction ls with
  | nil => simp [joinLines]
  | cons l ls ih =>
    have : joinLines (l :: ls) ++ r = l ++ 13 :: 10 :: (joinLines ls ++ r) := by simp [joinLines]
    rw [this, splitLines_line l _ (h l (by simp)), ih (fun l hl => h l (by simp [hl]))]
    simp

theorem bodyLines_join (ls : List Bytes) (h : ∀ l ∈ ls, NoCrlf l) :
    bodyLines (joinLines ls) = ls := by
  have := splitLines_join ls [] h
  simp [splitLines] at this
  simp [bodyLines, this]

theorem join_splitLines (b : Bytes) : joinLines (splitLines b).1 ++ (splitLines b).2 = b := by
  generalize hn : b.length = n
  induction n using Nat.strongRecOn generalizing b with
  | ind n ih =>
    cases b with
    | nil => simp [splitLines, joinLines]
    | cons b r =>
      rcases splitLines_cons_cases b r with ⟨r', h1, h2⟩ | h
      · subst h1 h2
        rw [splitLines_CRLF]
        have := ih r'.length (by simp at hn; omega) r' rfl
        simp [joinLines, this]
      · have ih := ih r.length (by simp at hn; omega) r rfl
        rw [h]
        rcases h3 : splitLines r with ⟨_ | ⟨l', ls'⟩, last'⟩ <;> rw [h3] at ih <;>
          simp [consSplit, joinLines] at ih ⊢ <;> exact ih

theorem dropTrailingEmpty_idem (ls : List Bytes) :
    dropTrailingEmpty (dropTrailingEmpty ls) = dropTrailingEmpty ls := by
  induction ls with
  | nil => rfl
  | cons l ls ih =>
    rw [dropTrailingEmpty_cons]
    by_cases h : dropTrailingEmpty ls = []
    · by_cases hl : l = [] <;> simp [h, hl, dropTrailingEmpty_cons, dropTrailingEmpty_nil]
    · rw [if_neg h, dropTrailingEmpty_cons, ih, if_neg h]

theorem dropTrailingEmpty_subset (ls : List Bytes) : ∀ l ∈ dropTrailingEmpty ls, l ∈ ls := by
  induction ls with
  | nil => simp [dropTrailingEmpty_nil]
  | cons a ls ih =>
    intro l hl
    rw [dropTrailingEmpty_cons] at hl
    by_cases h : dropTrailingEmpty ls = []
    · by_cases ha : a = []
      · simp [h, ha] at hl
      · simp [h, ha] at hl; simp [hl]
    · rw [if_neg h] at hl
      rcases List.mem_cons.1 hl with rfl | hl
      · simp
      · simp [ih l hl]

theorem dropTrailingEmpty_eq_nil (ls : List Bytes) :
    dropTrailingEmpty ls = [] ↔ ∀ l ∈ ls, l = [] := by
  induction ls with
  | nil => simp [dropTrailingEmpty_nil]
  | cons a ls ih =>
    rw [dropTrailingEmpty_cons]
    by_cases h : dropTrailingEmpty ls = []
    · by_cases ha : a = []
      · simp [h, ha]; exact ih.1 h
      · simp [h, ha]
    · rw [if_neg h]
      simp only [reduceCtorEq, false_iff]
      intro h2; exact h (ih.2 fun l hl => h2 l (by simp [hl]))

theorem joinLines_eq_nil (ls : List Bytes) : joinLines ls = [] ↔ ls = [] := by
  cases ls <;> simp [joinLines]

theorem relaxLine_idem (l : Bytes) : relaxLine (relaxLine l) = relaxLine l := by
  generalize hn : l.length = n
  induction n using Nat.strongRecOn generalizing l with
  | ind n ih =>
    cases l with
    | nil => rfl
    | cons b l =>
      by_cases hb : isWsp b = true
      · cases l with
        | nil => rw [relaxLine_wsp_single b hb]; rfl
        | cons c l =>
          by_cases hc : isWsp c = true
          · rw [relaxLine_wsp_wsp b c l hb hc]
            exact ih (c :: l).length (by simp at hn ⊢; omega) _ rfl
          · simp at hc
            rw [relaxLine_wsp_notWsp b c l hb hc, relaxLine_wsp_notWsp 32 c _ wsp32 hc,
              ih l.length (by simp at hn; omega) l rfl]
      · simp at hb
        rw [relaxLine_cons_notWsp b l hb, relaxLine_cons_notWsp b _ hb,
          ih l.length (by simp at hn; omega) l rfl]

theorem relaxLine_head (l : Bytes) (h : (relaxLine l).head? = some 10) : l.head? = some 10 := by
  cases l with
  | nil => exact h
  | cons b l =>
    by_cases hb : isWsp b = true
    · exfalso
      induction l generalizing b with
      | nil => rw [relaxLine_wsp_single b hb] at h; simp at h
      | cons c l ih =>
        by_cases hc : isWsp c = true
        · rw [relaxLine_wsp_wsp b c l hb hc] at h; exact ih c h hc
        · simp at hc; rw [relaxLine_wsp_notWsp b c l hb hc] at h; simp at h
    · simp at hb; rw [relaxLine_cons_notWsp b l hb] at h; simpa using h

theorem relaxLine_noCrlf (l : Bytes) (h : NoCrlf l) : NoCrlf (relaxLine l) := by
  generalize hn : l.length = n
  induction n using Nat.strongRecOn generalizing l with
  | ind n ih =>
    cases l with
    | nil => exact noCrlf_nil
    | cons b l =>
      have hl := ((noCrlf_cons b l).1 h).1
      by_cases hb : isWsp b = true
      · cases l with
        | nil => rw [relaxLine_wsp_single b hb]; exact noCrlf_nil
        | cons c l =>
          by_cases hc : isWsp c = true
          · rw [relaxLine_wsp_wsp b c l hb hc]
            exact ih (c :: l).length (by simp at hn ⊢; omega) _ hl rfl
          · simp at hc
            rw [relaxLine_wsp_notWsp b c l hb hc, ← relaxLine_cons_notWsp c l hc]
            rw [noCrlf_cons]
            refine ⟨ih (c :: l).length (by simp at hn ⊢; omega) _ hl rfl, by simp⟩
      · simp at hb
        rw [relaxLine_cons_notWsp b l hb, noCrlf_cons]
        refine ⟨ih l.length (by simp at hn; omega) l hl rfl, ?_⟩
        rintro ⟨h1, h2⟩
        exact ((noCrlf_cons b l).1 h).2 ⟨h1, relaxLine_head l h2⟩

theorem relaxLine_eq_nil (l : Bytes) : relaxLine l = [] ↔ l.all isWsp = true := by
  induction l with
  | nil => simp [relaxLine, stripTrailingWsp, reduceWsp]
  | cons b l ih =>
    by_cases hb : isWsp b = true
    · cases l with
      | nil => simp [relaxLine_wsp_single b hb, hb]
      | cons c l =>
        by_cases hc : isWsp c = true
        · rw [relaxLine_wsp_wsp b c l hb hc, ih]; simp [hb]
        · simp at hc; rw [relaxLine_wsp_notWsp b c l hb hc]; simp [hc]
    · simp at hb; rw [relaxLine_cons_notWsp b l hb]; simp [hb]

theorem infix_noCrlf (l : Bytes) : NoCrlf l ↔ ¬ ([13, 10] <:+: l) := by
  induction l with
  | nil => simp [noCrlf_nil]
  | cons b l ih =>
    rw [noCrlf_cons, ih, List.infix_cons_iff]
    constructor
    · rintro ⟨h1, h2⟩ (h | h)
      · rcases h with ⟨t, ht⟩
        simp at ht
        exact h2 ⟨ht.1.symm, by rw [← ht.2]; rfl⟩
      · exact h1 h
    · intro h
      refine ⟨fun h' => h (Or.inr h'), ?_⟩
      rintro ⟨rfl, h2⟩
      cases l with
      | nil => simp at h2
      | cons c l => simp at h2; subst h2; exact h (Or.inl ⟨l, rfl⟩)

end Dkim
