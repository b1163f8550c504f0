import Verif.Spec.Relay
import Verif.Proofs.Refold
import Verif.Proofs.Appended
import Verif.Proofs.HeaderText

/-!
# Changes that relays make: helpers for C116
-/

namespace Dkim

open Spec

/-! ### The body -/

theorem isWspByte_of {b : UInt8} (h : isWsp b = true) : isWspByte b = true := by
  simp only [isWsp, Bool.or_eq_true, beq_iff_eq] at h
  rcases h with rfl | rfl <;> rfl

theorem isWsp_not {b : UInt8} (h : isWsp b = true) : b ≠ CR ∧ b ≠ LF := by
  refine ⟨?_, ?_⟩ <;> (rintro rfl; simp [isWsp, CR, LF] at h)

theorem run_prefix {c : BodyCanon} {x y : Bytes} (hk : c.kind = .relaxed)
    (h : ∀ d : BodyCanon, d.kind = .relaxed → d.run x = d.run y) (p : Bytes) : c.run (p ++ x) = c.run (p ++ y) := by
  induction p generalizing c with
  | nil => exact h c hk
  | cons b p ih =>
    rw [List.cons_append, List.cons_append, BodyCanon.run_cons, BodyCanon.run_cons]
    cases hs : c.step b with
    | none => rfl
    | some r =>
      simp only [Option.bind_some]
      rw [ih]
      have : c.step b = some (c.stepRelaxed b) := by simp [BodyCanon.step, hk]
      rw [this] at hs
      injection hs with hs
      subst hs
      unfold BodyCanon.stepRelaxed BodyCanon.flush
      dsimp only
      split <;> repeat' split
      all_goals exact hk

/-- The state after whitespace. -/
theorem run_wsp {c : BodyCanon} (hk : c.kind = .relaxed) {b b' : UInt8} (hb : isWsp b = true) (hb' : isWsp b' = true)
    (x : Bytes) : c.run (b :: x) = c.run (b' :: x) := by
  have e : isWspByte b = true := isWspByte_of hb
  have e' : isWspByte b' = true := isWspByte_of hb'
  rw [BodyCanon.run_cons, BodyCanon.run_cons]
  simp only [BodyCanon.step, hk, BodyCanon.stepRelaxed, e, e', (isWsp_not hb).1, (isWsp_not hb).2, (isWsp_not hb').1, (isWsp_not hb').2]
  cases c.state <;> rfl

theorem run_wsp_wsp {c : BodyCanon} (hk : c.kind = .relaxed) {b b' : UInt8} (hb : isWsp b = true)
    (hb' : isWsp b' = true) (x : Bytes) : c.run (b :: b' :: x) = c.run (b :: x) := by
  have e : isWspByte b = true := isWspByte_of hb
  have e' : isWspByte b' = true := isWspByte_of hb'
  rw [BodyCanon.run_cons, BodyCanon.run_cons]
  cases hs : c.state <;>
    simp [BodyCanon.step, hk, BodyCanon.stepRelaxed, e, e', (isWsp_not hb).1, (isWsp_not hb).2, (isWsp_not hb').1, (isWsp_not hb').2, hs,
      BodyCanon.run_cons, BodyCanon.flush]

theorem run_wsps {c : BodyCanon} (hk : c.kind = .relaxed) {b : UInt8} (hb : isWsp b = true) (w x : Bytes)
    (hw : ∀ b ∈ w, isWsp b = true) : c.run (b :: w ++ x) = c.run (b :: x) := by
  induction w with
  | nil => rfl
  | cons b' w ih =>
    have hb' := hw b' (by simp)
    rw [← ih fun b h => hw b (by simp [h])]
    show c.run (b :: b' :: (w ++ x)) = c.run (b :: (w ++ x))
    exact run_wsp_wsp hk hb hb' _

theorem run_wsp_crlf {c : BodyCanon} (hk : c.kind = .relaxed) {b : UInt8} (hb : isWsp b = true) (x : Bytes) :
    c.run (b :: 13 :: 10 :: x) = c.run (13 :: 10 :: x) := by
  have e : isWspByte b = true := isWspByte_of hb
  have hcr := isWsp_not hb
  have e13 : isWspByte 13 = false := by decide
  have e10 : isWspByte 10 = false := by decide
  have c13 : (13 : UInt8) = CR := rfl
  have c10 : (10 : UInt8) = LF := rfl
  have n1 : CR ≠ LF := by decide
  have n2 : LF ≠ CR := by decide
  rw [c13] at e13 ⊢
  rw [c10] at e10 ⊢
  rw [BodyCanon.run_cons, BodyCanon.run_cons]
  cases hs : c.state <;> cases hbl : c.blankLine <;>
    simp [BodyCanon.step, hk, BodyCanon.stepRelaxed, e, e13, e10, hcr.1, hcr.2, n1, n2, hs, hbl,
      BodyCanon.run_cons, BodyCanon.flush]

theorem codeBody_of_run {x y : Bytes} (h : (BodyCanon.new .relaxed).run x = (BodyCanon.new .relaxed).run y) :
    codeBody .relaxed x = codeBody .relaxed y := by
  have hx := canonBody_codeBody .relaxed [x]
  have hy := canonBody_codeBody .relaxed [y]
  rw [canonBody_eq_run] at hx hy
  simp only [List.flatten_cons, List.flatten_nil, List.append_nil] at hx hy
  rw [hx, hy] at h
  exact Option.some.inj h

theorem bodyLines_ending {x : Bytes} {b : UInt8} (hb : b ≠ 10) :
    bodyLines (x ++ [b] ++ [13, 10]) = bodyLines (x ++ [b]) ∧ (splitLines (x ++ [b] ++ [13, 10])).2 = [] ∧
    b ∈ (splitLines (x ++ [b])).2 := by
  have hj := join_splitLines (x ++ [b])
  have hn := splitLines_noCrlf (x ++ [b])
  have hb' : b ∈ (splitLines (x ++ [b])).2 := by
    rcases List.eq_nil_or_concat (splitLines (x ++ [b])).2 with e | ⟨l, c, e⟩
    · exfalso
      rw [e, List.append_nil] at hj
      rcases List.eq_nil_or_concat (splitLines (x ++ [b])).1 with e1 | ⟨ls, l, e1⟩
      · rw [e1] at hj
        simp [joinLines] at hj
      · rw [e1, List.concat_eq_append, joinLines_append] at hj
        have e2 : joinLines [l] = (l ++ [13]) ++ [10] := by simp [joinLines]
        rw [e2, ← List.append_assoc] at hj
        have := (List.append_inj_right' hj rfl)
        injection this with this _
        exact hb this.symm
    · rw [e, List.concat_eq_append, ← List.append_assoc] at hj
      have := (List.append_inj_right' hj rfl)
      injection this with this _
      rw [e, this]
      simp
  have he : x ++ [b] ++ [13, 10] = joinLines ((splitLines (x ++ [b])).1 ++ [(splitLines (x ++ [b])).2]) ++ [] := by
    rw [joinLines_append, List.append_nil]
    conv => lhs; rw [← hj]
    simp [joinLines]
  have hs := splitLines_join ((splitLines (x ++ [b])).1 ++ [(splitLines (x ++ [b])).2]) [] (by
    intro l hl
    rcases List.mem_append.1 hl with hl | hl
    · exact hn.1 l hl
    · rw [List.mem_singleton.1 hl]
      exact hn.2)
  rw [← he] at hs
  have h0 : (splitLines (x ++ [b])).2 ≠ [] := fun e => by rw [e] at hb'; cases hb'
  refine ⟨?_, by rw [hs]; rfl, hb'⟩
  unfold bodyLines
  rw [hs, if_neg h0]
  simp [splitLines]

/-- A change of the body does not change its canonical form. -/
theorem bodyStep_codeBody {alg : CanonAlg} {body body' : Bytes} (h : BodyStep alg body body') :
    codeBody alg body = codeBody alg body' := by
  cases h with
  | run x w w' y hn hn' hw hw' =>
    apply codeBody_of_run
    rw [List.append_assoc, List.append_assoc]
    refine run_prefix rfl (fun d hd => ?_) x
    cases w with
    | nil => exact absurd rfl hn
    | cons b w =>
      cases w' with
      | nil => exact absurd rfl hn'
      | cons b' w' =>
        rw [run_wsps hd (hw b (by simp)) w y fun b h => hw b (by simp [h]),
          run_wsps hd (hw' b' (by simp)) w' y fun b h => hw' b (by simp [h]),
          run_wsp hd (hw b (by simp)) (hw' b' (by simp))]
  | trailing x w y hw =>
    apply codeBody_of_run
    rw [List.append_assoc, List.append_assoc, List.append_assoc]
    refine run_prefix rfl (fun d hd => ?_) x
    cases w with
    | nil => rfl
    | cons b w =>
      rw [run_wsps hd (hw b (by simp)) w _ fun b h => hw b (by simp [h])]
      exact (run_wsp_crlf hd (hw b (by simp)) y).symm
  | ending _ x b hb hw =>
    obtain ⟨h1, h2, h3⟩ := bodyLines_ending (x := x) hb
    cases alg with
    | simple =>
      simp only [codeBody]
      rw [codeSimpleBody_of_ne (by simp), codeSimpleBody_of_ne (by simp), ← h1]
    | relaxed =>
      have h4 : (splitLines (x ++ [b])).2.all isWsp ≠ true := by
        intro h
        rw [List.all_eq_true.1 h b h3] at hw
        cases hw
      show codeRelaxedBody (x ++ [b]) = codeRelaxedBody (x ++ [b] ++ [13, 10])
      unfold codeRelaxedBody rfcRelaxedBody
      rw [if_neg (fun h => h4 h.2), if_neg (fun h => h.1 h2), h1]
  | blank _ _ extra hend hb =>
    obtain ⟨more, e, hm⟩ := codeBody_append alg hend extra
    rw [e, hm.2 hb, List.append_nil]

theorem bodyChanged_codeBody {alg : CanonAlg} {x y : Bytes} (h : BodyChanged alg x y) :
    codeBody alg x = codeBody alg y := by
  induction h with
  | same => rfl
  | step y z _ hs ih => exact ih.trans (bodyStep_codeBody hs)
  | back y z _ hs ih => exact ih.trans (bodyStep_codeBody hs).symm

theorem Spec.BodyChanged.trans {alg : CanonAlg} {x y z : Bytes} (h : BodyChanged alg x y) (h' : BodyChanged alg y z) :
    BodyChanged alg x z := by
  induction h' with
  | same => exact h
  | step y z _ hs ih => exact .step _ _ _ ih hs
  | back y z _ hs ih => exact .back _ _ _ ih hs

theorem Spec.BodyChanged.symm {alg : CanonAlg} {x y : Bytes} (h : BodyChanged alg x y) : BodyChanged alg y x := by
  induction h with
  | same => exact .same _
  | step y z _ hs ih => exact (BodyChanged.back _ _ _ (.same _) hs).trans ih
  | back y z _ hs ih => exact (BodyChanged.step _ _ _ (.same _) hs).trans ih

/-! Every body is connected with its canonical form. -/

theorem changed_reduce (l : Bytes) : ∀ p y, BodyChanged .relaxed (p ++ (l ++ y)) (p ++ (reduceWsp l ++ y)) := by
  have one : ∀ (b : UInt8) p y, isWsp b = true → BodyChanged .relaxed (p ++ b :: y) (p ++ 32 :: y) := by
    intro b p y hb
    have := BodyStep.run p [b] [32] y (by simp) (by simp) (by simpa using hb) (by simp [isWsp])
    exact .step _ _ _ (.same _) (by simpa using this)
  induction l using reduceWsp.induct with
  | case1 => intro p y; exact .same _
  | case2 b hb =>
    intro p y
    rw [reduceWsp, if_pos hb]
    exact one b p y hb
  | case3 b hb =>
    intro p y
    rw [reduceWsp, if_neg hb]
    exact .same _
  | case4 b c r hb hc ih =>
    intro p y
    rw [reduceWsp, if_pos hb, if_pos hc]
    have := BodyStep.run p [b, c] [c] (r ++ y) (by simp) (by simp) (by simpa using ⟨hb, hc⟩) (by simpa using hc)
    exact (BodyChanged.step _ _ _ (.same _) (by simpa using this)).trans (ih p y)
  | case5 b c r hb hc ih =>
    intro p y
    rw [reduceWsp, if_pos hb, if_neg hc]
    have := ih (p ++ [32]) y
    rw [List.append_assoc, List.append_assoc] at this
    exact (one b p _ hb).trans this
  | case6 b c r hb ih =>
    intro p y
    rw [reduceWsp, if_neg hb]
    have := ih (p ++ [b]) y
    rw [List.append_assoc, List.append_assoc] at this
    exact this

theorem stripTrailingWsp_eq (l : Bytes) : ∃ w, l = stripTrailingWsp l ++ w ∧ ∀ b ∈ w, isWsp b = true := by
  refine ⟨(l.reverse.takeWhile isWsp).reverse, ?_, ?_⟩
  · unfold stripTrailingWsp
    rw [← List.reverse_append, List.takeWhile_append_dropWhile, List.reverse_reverse]
  · intro b hb
    have := List.all_takeWhile (p := isWsp) (l := l.reverse)
    exact List.all_eq_true.1 this b (List.mem_reverse.1 hb)

theorem changed_lines (ls : List Bytes) : ∀ p,
    BodyChanged .relaxed (p ++ joinLines ls) (p ++ joinLines (ls.map relaxLine)) := by
  induction ls with
  | nil => intro p; exact .same _
  | cons l ls ih =>
    intro p
    obtain ⟨w, e, hw⟩ := stripTrailingWsp_eq l
    have h1 : BodyChanged .relaxed (p ++ joinLines (l :: ls)) (p ++ (stripTrailingWsp l ++ ([13, 10] ++ joinLines ls))) := by
      have := BodyStep.trailing (p ++ stripTrailingWsp l) w (joinLines ls) hw
      refine .back _ _ _ (.same _) ?_
      have e2 : p ++ joinLines (l :: ls) = p ++ stripTrailingWsp l ++ w ++ b!"\r\n" ++ joinLines ls := by
        rw [joinLines]
        conv => lhs; rw [e]
        simp
      rw [e2]
      simpa using this
    have h2 := changed_reduce (stripTrailingWsp l) p ([13, 10] ++ joinLines ls)
    have h3 := ih (p ++ (relaxLine l ++ [13, 10]))
    refine h1.trans (h2.trans ?_)
    rw [List.map_cons, joinLines]
    simpa [relaxLine] using h3

theorem dropTrailingEmpty_eq (ls : List Bytes) : ∃ k, ls = dropTrailingEmpty ls ++ List.replicate k [] := by
  refine ⟨(ls.reverse.takeWhile List.isEmpty).length, ?_⟩
  have h : ls.reverse.takeWhile List.isEmpty = List.replicate (ls.reverse.takeWhile List.isEmpty).length [] := by
    rw [List.eq_replicate_iff]
    refine ⟨rfl, fun l hl => ?_⟩
    have := List.all_eq_true.1 (List.all_takeWhile (p := List.isEmpty) (l := ls.reverse)) l hl
    simpa using this
  unfold dropTrailingEmpty
  conv => lhs; rw [← List.reverse_reverse ls, ← List.takeWhile_append_dropWhile (p := List.isEmpty) (l := ls.reverse),
    List.reverse_append, h, List.reverse_replicate]

/-- The canonical form, or a single line break if nothing remains. -/
def normalBody (ls : List Bytes) : Bytes :=
  if dropTrailingEmpty ls = [] then [13, 10] else joinLines (dropTrailingEmpty ls)

theorem changed_normal (alg : CanonAlg) {ls : List Bytes} (hn : ls ≠ []) :
    BodyChanged alg (joinLines ls) (normalBody ls) := by
  obtain ⟨k, e⟩ := dropTrailingEmpty_eq ls
  unfold normalBody
  have hb : ∀ k, BlankLines alg (joinLines (List.replicate k [])) := by
    intro k
    refine ⟨_, fun l hl => ?_, rfl⟩
    rw [(List.mem_replicate.1 hl).2]
    intro b hb
    cases hb
  split
  · next h =>
    rw [h, List.nil_append] at e
    cases k with
    | zero => exact absurd e hn
    | succ k =>
      have := BodyStep.blank alg [13, 10] (joinLines (List.replicate k [])) ⟨[], rfl⟩ (hb k)
      refine .back _ _ _ (.same _) ?_
      rw [e, List.replicate_succ, joinLines]
      exact this
  · next h =>
    have hend : b!"\r\n" <:+ joinLines (dropTrailingEmpty ls) := by
      rcases List.eq_nil_or_concat (dropTrailingEmpty ls) with h0 | ⟨ms, l, h0⟩
      · exact absurd h0 h
      · rw [h0, List.concat_eq_append, joinLines_append]
        exact ⟨joinLines ms ++ l, by simp [joinLines]⟩
    have := BodyStep.blank alg _ (joinLines (List.replicate k [])) hend (hb k)
    refine .back _ _ _ (.same _) ?_
    rw [← joinLines_append, ← e] at this
    exact this

theorem joinLines_nil {ls : List Bytes} (h : joinLines ls = []) : ls = [] := by
  cases ls with
  | nil => rfl
  | cons l ls => simp [joinLines] at h

theorem changed_of_codeBody {alg : CanonAlg} {x y : Bytes} (hx : b!"\r\n" <:+ x) (hy : b!"\r\n" <:+ y)
    (h : codeBody alg x = codeBody alg y) : BodyChanged alg x y := by
  have shape : ∀ {x : Bytes}, b!"\r\n" <:+ x → ∃ ls, ls ≠ [] ∧ x = joinLines ls ∧ bodyLines x = ls ∧ x ≠ [] ∧
      (splitLines x).2 = [] := by
    intro x hx
    obtain ⟨h1, h2, -⟩ := splitLines_append_of_ends hx []
    have hj := join_splitLines x
    rw [h2, List.append_nil] at hj
    refine ⟨(splitLines x).1, ?_, hj.symm, by simp [bodyLines, h2], h1, h2⟩
    intro e
    rw [e] at hj
    exact h1 hj.symm
  have norm : ∀ {ls ms : List Bytes}, joinLines (dropTrailingEmpty ls) = joinLines (dropTrailingEmpty ms) →
      normalBody ls = normalBody ms := by
    intro ls ms e
    unfold normalBody
    by_cases h1 : dropTrailingEmpty ls = []
    · rw [h1] at e
      rw [if_pos h1, if_pos (joinLines_nil e.symm)]
    · rw [if_neg h1, if_neg ?_, e]
      intro h2
      rw [h2] at e
      exact h1 (joinLines_nil e)
  obtain ⟨ls, l1, l2, l3, l4, l5⟩ := shape hx
  obtain ⟨ms, m1, m2, m3, m4, m5⟩ := shape hy
  cases alg with
  | simple =>
    simp only [codeBody] at h
    rw [codeSimpleBody_of_ne l4, codeSimpleBody_of_ne m4, l3, m3] at h
    have h1 := changed_normal .simple l1
    have h2 := changed_normal .simple m1
    rw [← l2, norm h] at h1
    rw [← m2] at h2
    exact h1.trans h2.symm
  | relaxed =>
    simp only [codeBody, codeRelaxedBody, rfcRelaxedBody] at h
    rw [if_neg (fun h => h.1 l5), if_neg (fun h => h.1 m5), l3, m3] at h
    have h1 := (changed_lines ls []).trans (changed_normal .relaxed (ls := ls.map relaxLine) (by simpa using l1))
    have h2 := (changed_lines ms []).trans (changed_normal .relaxed (ls := ms.map relaxLine) (by simpa using m1))
    rw [List.nil_append, ← l2, norm h] at h1
    rw [List.nil_append, ← m2] at h2
    exact h1.trans h2.symm

/-! ### Refolding the signature -/

theorem isFoldChar_utf8 {c : Char} (hc : ¬ fwsChar c) : ∀ b ∈ String.utf8EncodeChar c, isFoldChar b = false := by
  intro b hb
  have hb : b ∈ utf8 [c] := by simpa [utf8] using hb
  cases hf : isFoldChar b with
  | false => rfl
  | true =>
    exfalso
    apply hc
    have key : ∀ d : Char, d.toNat < 128 → b = UInt8.ofNat d.toNat → c = d := by
      intro d hd e
      rw [e, mem_utf8_ascii _ _ hd] at hb
      exact (List.mem_singleton.1 hb).symm
    simp only [isFoldChar, Bool.or_eq_true, beq_iff_eq] at hf
    rcases hf with ((h | h) | h) | h
    · exact .inl (key ' ' (by decide) (by rw [h]; rfl))
    · exact .inr (.inl (key '\t' (by decide) (by rw [h]; rfl)))
    · exact .inr (.inr (.inl (key '\r' (by decide) (by rw [h]; rfl))))
    · exact .inr (.inr (.inr (key '\n' (by decide) (by rw [h]; rfl))))

theorem wordsAux_folds (g v cur : Bytes) (hn : g ≠ []) (hg : ∀ b ∈ g, isFoldChar b = true) :
    wordsAux cur (g ++ v) = (if cur = [] then [] else [cur]) ++ wordsAux [] v := by
  cases g with
  | nil => exact absurd rfl hn
  | cons b g =>
    rw [List.cons_append, wordsAux, if_pos (hg b (by simp))]
    have := words_fold_prefix g v fun b h => hg b (by simp [h])
    unfold words at this
    rw [this]
    split <;> rfl

theorem isFoldChar_fws {f : Str} (hf : Fws f) : utf8 f ≠ [] ∧ ∀ b ∈ utf8 f, isFoldChar b = true := by
  refine ⟨fun h => fws_ne_nil hf (utf8_eq_nil.1 h), ?_⟩
  have h := fws_chars hf
  rw [utf8_ascii]
  · intro b hb
    obtain ⟨c, hc, rfl⟩ := List.mem_map.1 hb
    rcases h c hc with rfl | rfl | rfl | rfl <;> rfl
  · intro c hc
    rcases h c hc with rfl | rfl | rfl | rfl <;> decide

/-- The words are the same. -/
theorem refold_wordsAux {s t : Str} (h : Refold s t) : ∀ cur, wordsAux cur (utf8 s) = wordsAux cur (utf8 t) := by
  induction h with
  | nil => intro _; rfl
  | char c s t hc _ ih =>
    intro cur
    rw [utf8_cons, utf8_cons, wordsAux_append_solid _ _ (isFoldChar_utf8 hc),
      wordsAux_append_solid _ _ (isFoldChar_utf8 hc), ih]
  | fws f g s t hf hg _ _ ih =>
    intro cur
    rw [utf8_append, utf8_append, wordsAux_folds _ _ _ (isFoldChar_fws hf).1 (isFoldChar_fws hf).2,
      wordsAux_folds _ _ _ (isFoldChar_fws hg).1 (isFoldChar_fws hg).2, ih]

theorem refold_canonField {n n' s s' : Str} (hn : lower n = lower n') (h : Refold s s') :
    canonField .relaxed n (utf8 s) = canonField .relaxed n' (utf8 s') := by
  simp only [canonField, hn, rfcRelaxedValue, words, refold_wordsAux h]

theorem Spec.Refold.join {a a' b b' : Str} {c : Char} (hc : ¬ fwsChar c) (h : Refold a a') (h' : Refold b b') :
    Refold (a ++ c :: b) (a' ++ c :: b') := by
  induction h with
  | nil => exact .char c _ _ hc h'
  | char d s t hd _ ih => exact .char d _ _ hd ih
  | fws f g s t hf hg hs _ ih =>
    rw [List.append_assoc, List.append_assoc]
    refine .fws _ _ _ _ hf hg ?_ ih
    intro x r e
    cases s with
    | nil =>
      injection e with e _
      rw [← e]
      exact hc
    | cons y s =>
      injection e with e _
      rw [← e]
      exact hs y s rfl

theorem Spec.Refold.solid {s t : Str} (h : Refold s t) (hs : Solid s) : Solid t := by
  cases h with
  | nil => exact hs
  | char c s t hc _ =>
    intro d r e
    injection e with e _
    rw [← e]
    exact hc
  | fws f g s t hf hg _ _ =>
    cases f with
    | nil => exact absurd rfl (fws_ne_nil hf)
    | cons c f => exact absurd (fws_chars hf c (by simp)) (hs c (f ++ s) rfl)

theorem Spec.Refold.trans {s t u : Str} (h : Refold s t) (h' : Refold t u) : Refold s u := by
  induction h generalizing u with
  | nil => exact h'
  | char c s t hc _ ih =>
    obtain ⟨a, b, rfl, h1, h2⟩ := Refold.split (a := []) hc h'
    rw [h1.nil_left]
    exact .char _ _ _ hc (ih h2)
  | fws f g s t hf hg hs h ih =>
    cases t with
    | nil =>
      rw [h.symm.nil_left, List.append_nil] at *
      simpa using Refold.fws f u [] [] hf (h'.fws_iff hg) (by intro c r e; cases e) .nil
    | cons c t =>
      obtain ⟨a, b, rfl, h1, h2⟩ := Refold.before (by simp) (h.solid hs) h'
      exact .fws _ _ _ _ hf (h1.fws_iff hg) hs (ih h2)

theorem Spec.SameTags.trans {s t u : List (Str × Str)} (h : SameTags s t) (h' : SameTags t u) : SameTags s u := by
  induction h generalizing u with
  | nil => exact h'
  | cons n v w tags tags' h1 _ ih =>
    cases h' with
    | cons _ _ w' _ tags'' h2 h3 => exact .cons _ _ _ _ _ (h1.trans h2) (ih h3)

theorem Spec.Refold.clean_append {w s t : Str} (hw : ∀ c ∈ w, ¬ fwsChar c) (h : Refold s t) :
    Refold (w ++ s) (w ++ t) := by
  induction w with
  | nil => exact h
  | cons c w ih => exact .char _ _ _ (hw c (by simp)) (ih fun c hc => hw c (by simp [hc]))

theorem fwsChar_not : ¬ fwsChar '=' ∧ ¬ fwsChar ';' ∧ ¬ fwsChar 'b' := by
  refine ⟨?_, ?_, ?_⟩ <;> simp [fwsChar]

theorem upToB_refold {p t : Str} (h : UpToB p) (hr : Refold p t) : ∃ q, t = q ++ ['='] ∧ UpToB t := by
  obtain ⟨front, f1, f2, rfl, h1, h2, h3⟩ := h
  obtain ⟨heq, hsemi, hb⟩ := fwsChar_not
  obtain ⟨x, y, rfl, g1, g2⟩ := Refold.split (a := front ++ f1 ++ 'b' :: f2) (b := []) heq hr
  rw [g2.nil_left]
  have g1 : Refold ((front ++ f1) ++ 'b' :: f2) x := by simpa using g1
  obtain ⟨u, v, rfl, g3, g4⟩ := Refold.split hb g1
  refine ⟨_, rfl, ?_⟩
  rcases h1 with rfl | ⟨t, rfl⟩
  · exact ⟨[], u, v, by simp, .inl rfl, Refold.optFws (by simpa using g3) h2, g4.optFws h3⟩
  · obtain ⟨k, l, rfl, g5, g6⟩ := Refold.after hsemi g3
    refine ⟨k, l, v, by simp, .inr ?_, g6.optFws h2, g4.optFws h3⟩
    obtain ⟨k1, k2, rfl, _, g8⟩ := Refold.split (b := []) hsemi g5
    rw [g8.nil_left]
    exact ⟨k1, rfl⟩

/-- The value of `b=` is at the same place after refolding. -/
theorem withoutB_refold {value value' original : Str} (h : WithoutB value original) (hr : Refold value value') :
    ∃ original', WithoutB value' original' ∧ Refold original original' := by
  obtain ⟨p, val, post, rfl, ⟨h1, h2, h3⟩, rfl⟩ := h
  obtain ⟨heq, hsemi, hb⟩ := fwsChar_not
  have hp : ∃ q, p = q ++ ['='] := by
    obtain ⟨front, f1, f2, rfl, _⟩ := h1
    exact ⟨_, rfl⟩
  obtain ⟨q, rfl⟩ := hp
  rw [List.append_assoc] at hr
  obtain ⟨p', r, rfl, g1, g2⟩ := Refold.after heq hr
  obtain ⟨q', rfl, g3⟩ := upToB_refold h1 g1
  obtain ⟨q'', y, e, g4, g5⟩ := Refold.split (b := []) heq g1
  rw [g5.nil_left] at e
  have := List.append_inj_left' e rfl
  subst this
  rcases h3 with rfl | ⟨post, rfl⟩
  · rw [List.append_nil] at g2
    refine ⟨q' ++ ['='], ⟨q' ++ ['='], r, [], by simp, ⟨g3, fun h => h2 ((g2.mem_iff hsemi).2 h), .inl rfl⟩, by simp⟩,
      ?_⟩
    rw [List.append_nil]
    exact g1
  · obtain ⟨val', post', rfl, g6, g7⟩ := Refold.split hsemi g2
    refine ⟨q' ++ ['='] ++ ';' :: post', ⟨q' ++ ['='], val', ';' :: post', by simp,
      ⟨g3, fun h => h2 ((g6.mem_iff hsemi).2 h), .inr ⟨_, rfl⟩⟩, rfl⟩, ?_⟩
    rw [List.append_assoc, List.append_assoc]
    exact g4.join heq (.char _ _ _ hsemi g7)

/-! ### The closure -/

theorem Spec.Relayed.trans {signed guarded : List Str} {alg : Canonicalization} {a b c : Mail}
    (h : Relayed signed guarded alg a b) (h' : Relayed signed guarded alg b c) : Relayed signed guarded alg a c := by
  induction h' with
  | same => exact h
  | step m₂ m₃ _ hs ih => exact .step _ _ _ ih hs
  | back m₂ m₃ _ hs ih => exact .back _ _ _ ih hs

theorem Spec.Relayed.symm {signed guarded : List Str} {alg : Canonicalization} {a b : Mail}
    (h : Relayed signed guarded alg a b) : Relayed signed guarded alg b a := by
  induction h with
  | same => exact .same _
  | step m₂ m₃ _ hs ih => exact (Relayed.back _ _ _ (.same _) hs).trans ih
  | back m₂ m₃ _ hs ih => exact (Relayed.step _ _ _ (.same _) hs).trans ih

end Dkim
