import Verif.Proofs.Refold
import Verif.Proofs.Record

/-!
# Refolding of key records: helpers for C77
-/

namespace Dkim

open Spec

theorem fwsChar_wsp {c : Char} (h : wsp c) : fwsChar c := by
  rcases h with h | h
  · exact .inl h
  · exact .inr (.inl h)

theorem hexVal_noFws {c : Char} {n : Nat} (h : HexVal c n) : ¬ fwsChar c := by
  intro hf
  have : c.toNat = 32 ∨ c.toNat = 9 ∨ c.toNat = 13 ∨ c.toNat = 10 := by
    rcases hf with rfl | rfl | rfl | rfl <;> decide
  unfold HexVal at h
  omega

theorem dkimSafe_noFws {c : Char} (h : dkimSafe c) : ¬ fwsChar c := by
  intro hf
  have : c.toNat = 32 ∨ c.toNat = 9 ∨ c.toNat = 13 ∨ c.toNat = 10 := by
    rcases hf with rfl | rfl | rfl | rfl <;> decide
  unfold dkimSafe at h
  omega

/-- Notes do not contain line breaks. -/
theorem qpSection_chars {v : Str} {bs : Bytes} (h : QpSection v bs) : ∀ c ∈ v, fwsChar c → wsp c := by
  induction h with
  | nil => nofun
  | char c s bs hc _ ih =>
    intro d hd hf
    rcases List.mem_cons.1 hd with rfl | hd
    · rcases hc with hc | hc
      · exact absurd hf (dkimSafe_noFws hc)
      · exact hc
    · exact ih d hd hf
  | hex a b x y s bs ha hb _ ih =>
    intro d hd hf
    simp only [List.mem_cons] at hd
    rcases hd with rfl | rfl | rfl | hd
    · exact absurd hf eq_noFws
    · exact absurd hf (hexVal_noFws ha)
    · exact absurd hf (hexVal_noFws hb)
    · exact ih d hd hf

theorem qpSection_blank {f s : Str} {bs : Bytes} (hf : ∀ c ∈ f, fwsChar c) (h : QpSection (f ++ s) bs) :
    ∃ bs', bs = utf8 f ++ bs' ∧ QpSection s bs' := by
  induction f generalizing bs with
  | nil => exact ⟨bs, rfl, h⟩
  | cons c f ih =>
    generalize e : c :: f ++ s = x at h
    cases h with
    | nil => cases e
    | char d s' bs' hd h =>
      injection e with e1 e2
      subst e1 e2
      obtain ⟨bs'', e, h⟩ := ih (fun c hc => hf c (by simp [hc])) h
      refine ⟨bs'', ?_, h⟩
      rw [e, ← List.append_assoc, ← utf8_append]
      rfl
    | hex a b x y s' bs' _ _ _ =>
      injection e with e1 _
      exact absurd (hf c (by simp)) (e1 ▸ eq_noFws)

/-- The bytes other than spaces and tabs. -/
def inky (bs : Bytes) : Bytes := bs.filter fun b => b != 32 && b != 9

theorem inky_append (a b : Bytes) : inky (a ++ b) = inky a ++ inky b := List.filter_append ..

theorem inky_blank {f : Str} (h : ∀ c ∈ f, wsp c) : inky (utf8 f) = [] := by
  induction f with
  | nil => rfl
  | cons c f ih =>
    have e : utf8 (c :: f) = utf8 [c] ++ utf8 f := by rw [← utf8_append]; rfl
    rw [e, inky_append, ih fun c hc => h c (by simp [hc])]
    rcases h c (by simp) with rfl | rfl <;> rfl

theorem qpSection_blanks {f s : Str} {bs : Bytes} (hf : ∀ c ∈ f, wsp c) (h : QpSection s bs) :
    QpSection (f ++ s) (utf8 f ++ bs) := by
  induction f with
  | nil => exact h
  | cons c f ih =>
    have e : utf8 (c :: f) = utf8 [c] ++ utf8 f := by rw [← utf8_append]; rfl
    rw [e, List.append_assoc]
    exact .char c _ _ (.inr (hf c (by simp))) (ih fun c hc => hf c (by simp [hc]))

theorem fws_noBreak {g : Str} (h : Fws g) (hn : '\n' ∉ g) : ∀ c ∈ g, wsp c := by
  cases h with
  | plain _ _ h => exact h
  | folded v w => exact absurd (by simp) hn

theorem qpSection_refold : ∀ (n : Nat) {v w : Str} {bs : Bytes}, v.length ≤ n → QpSection v bs → Refold v w →
    '\n' ∉ w → ∃ bs', QpSection w bs' ∧ inky bs' = inky bs := by
  intro n
  induction n with
  | zero =>
    intro v w bs hl h hr _
    cases v with
    | nil => exact ⟨bs, hr.nil_left ▸ h, rfl⟩
    | cons => simp at hl
  | succ n ih =>
    intro v w bs hl h hr hn
    by_cases hb : ∃ c r, v = c :: r ∧ fwsChar c
    · obtain ⟨c, r, rfl, hc⟩ := hb
      generalize hx : c :: r = x at hr
      cases hr with
      | nil => cases hx
      | char d s t hd _ =>
        injection hx with hx _
        exact absurd hc (hx ▸ hd)
      | fws f g s t hf hg _ hr =>
        rw [hx] at h hl
        obtain ⟨bs1, e, h⟩ := qpSection_blank (fws_chars hf) h
        have hfw : ∀ c ∈ f, wsp c := by
          intro c hc
          exact qpSection_chars ‹QpSection (f ++ s) _› c (by simp [hc]) (fws_chars hf c hc)
        have hlf : 0 < f.length := List.length_pos_iff.2 (fws_ne_nil hf)
        obtain ⟨bs2, h2, e2⟩ := ih (by simp at hl; omega) h hr (fun hm => hn (by simp [hm]))
        have hgw := fws_noBreak hg fun hm => hn (by simp [hm])
        refine ⟨utf8 g ++ bs2, qpSection_blanks hgw h2, ?_⟩
        rw [e, inky_append, inky_append, inky_blank hgw, inky_blank hfw, e2]
    · cases h with
      | nil => exact ⟨[], hr.nil_left ▸ .nil, rfl⟩
      | char c s bs hc h =>
        have hcf : ¬ fwsChar c := fun hf => hb ⟨c, s, rfl, hf⟩
        obtain ⟨t, e, hr2⟩ := Refold.peel (w := [c]) (by simpa [Clean] using hcf) hr
        subst e
        obtain ⟨bs2, h2, e2⟩ := ih (by simpa using hl) h hr2 (fun hm => hn (by simp [hm]))
        exact ⟨utf8 [c] ++ bs2, .char c _ _ hc h2, by rw [inky_append, inky_append, e2]⟩
      | hex a b x y s bs ha hb' h =>
        have hcl : Clean ['=', a, b] := by
          intro c hc
          simp only [List.mem_cons, List.not_mem_nil, or_false] at hc
          rcases hc with rfl | rfl | rfl
          · exact eq_noFws
          · exact hexVal_noFws ha
          · exact hexVal_noFws hb'
        obtain ⟨t, e, hr2⟩ := Refold.peel (w := ['=', a, b]) hcl hr
        subst e
        obtain ⟨bs2, h2, e2⟩ := ih (by simp at hl; omega) h hr2 (fun hm => hn (by simp [hm]))
        refine ⟨UInt8.ofNat (x * 16 + y) :: bs2, .hex a b x y _ _ ha hb' h2, ?_⟩
        have e3 : ∀ z, inky (UInt8.ofNat (x * 16 + y) :: z) = inky [UInt8.ofNat (x * 16 + y)] ++ inky z :=
          fun z => inky_append [_] z
        rw [e3, e3 bs, e2]

theorem keyTypeText_foldFree : FoldFree KeyTypeText := by
  apply foldFree_of_clean
  rintro v x (⟨_, h⟩ | ⟨_, h⟩) <;> exact noFold_of_lower h (lit_clean _ (by decide))

theorem sameItems_named {α : Type} {named : Str → Option α} (hn : ∀ i x, named i = some x → Clean i)
    {is js : List Str} (h : SameItems is js) : js.filterMap named = is.filterMap named := by
  induction h with
  | nil => rfl
  | cons i j is js hij _ ih =>
    have : named j = named i := by
      cases hi : named i with
      | some x => rw [hij.clean_eq (hn i x hi), hi]
      | none =>
        cases hj : named j with
        | none => rfl
        | some x => rw [← hij.symm.clean_eq (hn j x hj), hi] at hj; cases hj
    rw [List.filterMap_cons, List.filterMap_cons, this, ih]

theorem itemsText_foldFree {α : Type} {named : Str → Option α} (hn : ∀ i x, named i = some x → Clean i) :
    FoldFree (ItemsText named) := by
  rintro v w x hr ⟨items, h1, h2, e⟩
  obtain ⟨items', h3, h4, h5⟩ := colonList_refold h1 h2 hr
  exact ⟨items', h3, h4, by rw [e, sameItems_named hn h5]⟩

theorem hashNamed_clean (pre : Bool) (i : Str) (x : HashAlg) (h : hashNamed pre i = some x) : Clean i := by
  unfold hashNamed at h
  split at h
  · next e => exact noFold_of_lower e (lit_clean _ (by decide))
  · split at h
    · next e => exact noFold_of_lower e.2 (lit_clean _ (by decide))
    · cases h

theorem serviceNamed_clean (i : Str) (x : ServiceType) (h : serviceNamed i = some x) : Clean i := by
  unfold serviceNamed at h
  split at h
  · next e => rw [e]; exact lit_clean _ (by decide)
  · split at h
    · next e => exact noFold_of_lower e (lit_clean _ (by decide))
    · cases h

theorem flagNamed_clean (i : Str) (x : SelectorFlag) (h : flagNamed i = some x) : Clean i := by
  unfold flagNamed at h
  split at h
  · next e => exact noFold_of_lower e (lit_clean _ (by decide))
  · split at h
    · next e => exact noFold_of_lower e (lit_clean _ (by decide))
    · cases h

theorem foldFree_and {α : Type} {means : Str → α → Prop} {p : α → Prop} (h : FoldFree means) :
    FoldFree fun v x => means v x ∧ p x := fun v w x hr hm => ⟨h v w x hr hm.1, hm.2⟩

end Dkim
