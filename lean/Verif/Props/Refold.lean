import Verif.Proofs.Refold
import Verif.Proofs.TestEnv

/-!
# Property C56: reading a signature does not depend on folding
-/

namespace Dkim

open Spec

variable {ix : Idna}

/-- C56: if a text is a signature, then any text with the same words, separated by
possibly different folding whitespace, is the same signature. Values of extension tags,
which are kept as they are, have the same words. -/
theorem C56_same_signature (law : CaseLaw ix) (blank : BlankLaw ix) (pre : Bool) (s t : Str) (h : Refold s t)
    (sig : DkimSignature) (hs : sigFromStr ix pre s = .ok sig) :
    ∃ ext, sigFromStr ix pre t = .ok { sig with extTags := ext } ∧ SameTags sig.extTags ext := by
  obtain ⟨tags, h1, h2, h3⟩ := (sigFromStr_iff law pre s sig).1 hs
  obtain ⟨tags', h4, h5⟩ := listText_refold h1 h
  refine ⟨tags'.filter fun t => !knownTags.contains t.1, ?_, ?_⟩
  · exact (sigFromStr_iff law pre t _).2 ⟨tags', h4, h5.names ▸ h2, signatureOf_refold blank h5 h3⟩
  · rw [h3.extTags]
    exact h5.filter fun n => !knownTags.contains n

/-- C56: one of two such texts is a signature exactly if the other is. -/
theorem C56_iff (law : CaseLaw ix) (blank : BlankLaw ix) (pre : Bool) (s t : Str) (h : Refold s t) :
    (∃ sig, sigFromStr ix pre s = .ok sig) ↔ ∃ sig, sigFromStr ix pre t = .ok sig := by
  constructor
  · rintro ⟨sig, hs⟩
    obtain ⟨_, h1, _⟩ := C56_same_signature law blank pre s t h sig hs
    exact ⟨_, h1⟩
  · rintro ⟨sig, hs⟩
    obtain ⟨_, h1, _⟩ := C56_same_signature law blank pre t s h.symm sig hs
    exact ⟨_, h1⟩

/-- C56: folding whitespace in front of a text does not matter, either. -/
theorem C56_leading (law : CaseLaw ix) (pre : Bool) (f s : Str) (hf : Fws f) (hs : Solid s) (sig : DkimSignature) :
    sigFromStr ix pre (f ++ s) = .ok sig ↔ sigFromStr ix pre s = .ok sig := by
  have spec : ∀ n v r, Solid r → (SpecText n v (f ++ r) ↔ SpecText n v r) := by
    intro n v r hr
    have strip : ∀ f1 n' rest, OptFws f1 → TagName n' → f ++ r = f1 ++ n' ++ rest → r = n' ++ rest := by
      intro f1 n' rest h1 hn e
      have hsol := (clean_solid (tagName_ne_nil hn) (tagName_noFold hn) rest).2
      rw [List.append_assoc] at e
      rcases List.append_eq_append_iff.1 e with ⟨m, e1, e2⟩ | ⟨m, e1, e2⟩
      · cases m with
        | nil => simpa using e2
        | cons c m =>
          exact absurd (optFws_fws h1 c (by rw [e1]; simp)) (hr c (m ++ (n' ++ rest)) (by rw [e2]; rfl))
      · cases m with
        | nil => simpa using e2.symm
        | cons c m =>
          exact absurd (fws_chars hf c (by rw [e1]; simp)) (hsol c (m ++ r) (by rw [e2]; rfl))
    constructor
    · intro h
      generalize hx : f ++ r = x at h
      cases h with
      | value f1 _ f2 f3 _ f4 h1 hn h2 h3 hv h4 =>
        have := strip f1 n (f2 ++ ['='] ++ f3 ++ v ++ f4) h1 hn (by rw [hx]; simp)
        rw [this]
        simpa using SpecText.value [] n f2 f3 v f4 (.inl rfl) hn h2 h3 hv h4
      | empty f1 _ f2 f3 h1 hn h2 h3 =>
        have := strip f1 n (f2 ++ ['='] ++ f3) h1 hn (by rw [hx]; simp)
        rw [this]
        simpa using SpecText.empty [] n f2 f3 (.inl rfl) hn h2 h3
    · intro h
      cases h with
      | value f1 _ f2 f3 _ f4 h1 hn h2 h3 hv h4 =>
        have h0 : f1 = [] := by
          cases f1 with
          | nil => rfl
          | cons c f1 => exact absurd (optFws_fws h1 c (by simp)) (hr c _ rfl)
        subst h0
        simpa using SpecText.value f n f2 f3 v f4 (.inr hf) hn h2 h3 hv h4
      | empty f1 _ f2 f3 h1 hn h2 h3 =>
        have h0 : f1 = [] := by
          cases f1 with
          | nil => rfl
          | cons c f1 => exact absurd (optFws_fws h1 c (by simp)) (hr c _ rfl)
        subst h0
        simpa using SpecText.empty f n f2 f3 (.inr hf) hn h2 h3
  have front : ∀ x y r : Str, f ++ r = x ++ ';' :: y → ∃ x', x = f ++ x' ∧ r = x' ++ ';' :: y := by
    intro x y r e
    rcases List.append_eq_append_iff.1 e with ⟨m, e1, e2⟩ | ⟨m, e1, e2⟩
    · exact ⟨m, e1, e2⟩
    · cases m with
      | nil => exact ⟨[], by simpa using e1.symm, by simpa using e2.symm⟩
      | cons c m =>
        injection e2 with e2 _
        exact absurd (fws_chars hf ';' (by rw [e1, e2]; simp)) semicolon_noFws
  have solid : ∀ x y : Str, Solid (x ++ y) → Solid x := fun x y h c r e => h c (r ++ y) (by rw [e]; rfl)
  have list : ∀ tags, ListText tags (f ++ s) ↔ ListText tags s := by
    intro tags
    constructor
    · intro h
      generalize hx : f ++ s = x at h
      cases h with
      | last n v _ h => exact .last _ _ _ ((spec n v s hs).1 (hx ▸ h))
      | lastSemicolon n v x h =>
        obtain ⟨x', rfl, e⟩ := front x [] s hx
        rw [e] at hs ⊢
        exact .lastSemicolon _ _ _ ((spec n v x' (solid _ _ hs)).1 h)
      | more n v x tags r h hl =>
        obtain ⟨x', rfl, e⟩ := front x r s hx
        rw [e] at hs ⊢
        exact .more _ _ _ _ _ ((spec n v x' (solid _ _ hs)).1 h) hl
    · intro h
      cases h with
      | last n v _ h => exact .last _ _ _ ((spec n v s hs).2 h)
      | lastSemicolon n v x h =>
        rw [← List.append_assoc]
        exact .lastSemicolon _ _ _ ((spec n v x (solid _ _ hs)).2 h)
      | more n v x tags r h hl =>
        rw [← List.append_assoc]
        exact .more _ _ _ _ _ ((spec n v x (solid _ _ hs)).2 h) hl
  rw [sigFromStr_iff law, sigFromStr_iff law]
  simp only [list]

/-! ## Concrete cases -/

theorem asciiIdna_blank : BlankLaw asciiIdna := by
  intro s a h c hc hf
  simp only [asciiIdna] at h
  split at h
  · injection h with h
    have h1 : c.toLower ∈ lower s := List.mem_map_of_mem hc
    have h2 : c.toLower = c := by rcases hf with rfl | rfl | rfl | rfl <;> decide
    rw [h2, h] at h1
    exact h1
  · cases h

theorem refold_word (w : Str) {s t : Str} (hw : (w.all fun c => !(c == ' ' || c == '\t' || c == '\r' || c == '\n')) = true)
    (h : Refold s t) : Refold (w ++ s) (w ++ t) := by
  induction w with
  | nil => exact h
  | cons c w ih =>
    simp only [List.all_cons, Bool.and_eq_true] at hw
    refine .char c _ _ ?_ (ih hw.2)
    intro hf
    have := hw.1
    rcases hf with rfl | rfl | rfl | rfl <;> revert this <;> decide

theorem solid_word (w s : Str) (hw : (w.all fun c => !(c == ' ' || c == '\t' || c == '\r' || c == '\n')) = true)
    (hne : w ≠ []) : Solid (w ++ s) := by
  cases w with
  | nil => exact absurd rfl hne
  | cons c w =>
    intro x r e hf
    injection e with e _
    subst e
    simp only [List.all_cons, Bool.and_eq_true] at hw
    have := hw.1
    rcases hf with rfl | rfl | rfl | rfl <;> revert this <;> decide

theorem refold_next (w f g : Str) {s t : Str}
    (hw : (w.all fun c => !(c == ' ' || c == '\t' || c == '\r' || c == '\n')) = true) (hf : Fws f) (hg : Fws g)
    (hs : Solid s) (h : Refold s t) : Refold (w ++ (f ++ s)) (w ++ (g ++ t)) :=
  refold_word w hw (.fws f g s t hf hg hs h)

/-- A signature with line breaks. -/
def foldedSig : Str :=
  c!"v=1;a=rsa-sha256;d=example.com;s=sel;\r\n\th=From :\r\n To;bh=AA  ==;b=AQ\r\n ==;foo=x\ty"

/-- The same words on one line. -/
def plainSig : Str :=
  c!"v=1;a=rsa-sha256;d=example.com;s=sel; h=From\t: To;bh=AA ==;b=AQ ==;foo=x  y"

theorem refold_example : Refold foldedSig plainSig := by
  have sp : Fws c!" " := .plain _ (by decide) (by simp [wsp])
  have sp2 : Fws c!"  " := .plain _ (by decide) (by simp [wsp])
  have tab : Fws c!"\t" := .plain _ (by decide) (by simp [wsp])
  have nl : Fws c!"\r\n " := .folded [] c!" " (by simp) (by decide) (by simp [wsp])
  have nlt : Fws c!"\r\n\t" := .folded [] c!"\t" (by simp) (by decide) (by simp [wsp])
  have w1 : Refold c!"y" c!"y" := refold_word c!"y" (by decide) .nil
  have w2 := refold_next c!"==;foo=x" _ _ (by decide) tab sp2 (solid_word c!"y" [] (by decide) (by decide)) w1
  have w3 := refold_next c!"==;b=AQ" _ _ (by decide) nl sp (solid_word c!"==;foo=x" _ (by decide) (by decide)) w2
  have w4 := refold_next c!"To;bh=AA" _ _ (by decide) sp2 sp (solid_word c!"==;b=AQ" _ (by decide) (by decide)) w3
  have w5 := refold_next c!":" _ _ (by decide) nl sp (solid_word c!"To;bh=AA" _ (by decide) (by decide)) w4
  have w6 := refold_next c!"h=From" _ _ (by decide) sp tab (solid_word c!":" _ (by decide) (by decide)) w5
  exact refold_next c!"v=1;a=rsa-sha256;d=example.com;s=sel;" _ _ (by decide) nlt sp
    (solid_word c!"h=From" _ (by decide) (by decide)) w6

set_option maxRecDepth 20000 in
/-- Non-vacuity: both are signatures, with differently spaced extension tag values. -/
example : ∃ sig, sigFromStr asciiIdna false foldedSig = .ok sig ∧ sig.extTags = [(c!"foo", c!"x\ty")] ∧
    sig.signedHeaders = [c!"From", c!"To"] ∧
    sigFromStr asciiIdna false plainSig = .ok { sig with extTags := [(c!"foo", c!"x  y")] } :=
  ⟨_, by rfl, by rfl, by rfl, by rfl⟩

end Dkim
