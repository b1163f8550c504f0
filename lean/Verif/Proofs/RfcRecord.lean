import Verif.Proofs.Rfc
import Verif.Proofs.Record

/-! The grammar of RFC 6376 for key records and what the library reads. -/

namespace Dkim

open Spec

theorem hyphenatedWord_chars {t : Str} (h : Rfc.HyphenatedWord t) : ∀ c ∈ t, letter c ∨ digit c ∨ c = '-' := by
  cases h with
  | one c hc => intro d hd; simp at hd; subst hd; exact .inl hc
  | more c m e hc hm he =>
    intro d hd
    simp only [List.mem_cons, List.mem_append, List.not_mem_nil, or_false] at hd
    have : Rfc.LetDig d ∨ d = '-' := by
      rcases hd with rfl | hd | rfl
      · exact .inl (.inl hc)
      · exact hm d hd
      · exact .inl he
    rcases this with (h | h) | h
    · exact .inl h
    · exact .inr (.inl h)
    · exact .inr (.inr h)

/-- What an item of a list must be. -/
def goodItem (i : Str) : Prop := i ≠ [] ∧ Trimmed i ∧ ':' ∉ i

theorem goodItem_of {t : Str} (hne : t ≠ []) (h : ∀ c ∈ t, ¬ fwsChar c ∧ c ≠ ':') : goodItem t := by
  refine ⟨hne, ⟨?_, ?_⟩, fun hc => (h _ hc).2 rfl⟩
  · rintro c r rfl; exact (h c (by simp)).1
  · rintro c r rfl; exact (h c (by simp)).1

theorem hyphenatedWord_good {t : Str} (h : Rfc.HyphenatedWord t) : goodItem t := by
  refine goodItem_of (by obtain ⟨c, r, rfl, _⟩ := hyphenatedWord_head h; simp) ?_
  intro c hc
  rcases hyphenatedWord_chars h c hc with h | h | rfl
  · exact ⟨letter_noFws h, by rintro rfl; simp [letter] at h⟩
  · exact ⟨digit_noFws h, by rintro rfl; simp [digit] at h⟩
  · exact ⟨by simp [fwsChar], by simp⟩

theorem rfcWords {word : Str → Prop} (hw : ∀ w, word w → goodItem w) {ws : List Str} {v : Str}
    (h : Rfc.Words word ws v) : (∀ g, OptFws g → ColonList ws (g ++ v)) ∧ ∀ w ∈ ws, goodItem w := by
  induction h with
  | one n hn =>
    refine ⟨fun g hg => ?_, by simpa using hw _ hn⟩
    have := ColonList.one g n [] hg (.inl rfl)
    simpa using this
  | more n f g ns s hn hf hg _ ih =>
    refine ⟨fun g' hg' => ?_, ?_⟩
    · have := ColonList.more g' n f ns _ hg' hf (ih.1 g hg)
      simpa using this
    · intro m hm
      rcases List.mem_cons.1 hm with rfl | hm
      · exact hw _ hn
      · exact ih.2 m hm

theorem rfcItems {α : Type} {word : Str → Prop} (hw : ∀ w, word w → goodItem w) {named : Str → Option α} {v : Str}
    {xs : List α} (h : ∃ ws, Rfc.Words word ws v ∧ xs = ws.filterMap named) : ItemsText named v xs := by
  obtain ⟨ws, h1, h2⟩ := h
  obtain ⟨h3, h4⟩ := rfcWords hw h1
  exact ⟨ws, by simpa using h3 [] (.inl rfl), h4, h2⟩

theorem rfcNotes {v : Str} {bs : Bytes} (hv : ';' ∉ v) (h : Rfc.QpText v bs) : QpSection v bs := by
  induction h with
  | nil => exact .nil
  | octet a b x y s bs ha hb _ ih =>
    exact .hex a b x y _ _ ha hb (ih fun h => hv (by simp [h]))
  | safe c s bs h1 h2 h3 _ ih =>
    have e : utf8 [c] = [UInt8.ofNat c.toNat] := by
      rw [utf8_ascii _ (by intro d hd; simp at hd; subst hd; omega)]; rfl
    have := QpSection.char c _ _ (.inl (.inl ⟨h1, h2, by rintro rfl; simp at hv, h3⟩)) (ih fun h => hv (by simp [h]))
    rw [e] at this
    exact this
  | blank c s bs h1 _ ih =>
    have e : utf8 [c] = [UInt8.ofNat c.toNat] := by
      rcases h1 with rfl | rfl <;> rfl
    have := QpSection.char c _ _ (.inr h1) (ih fun h => hv (by simp [h]))
    rw [e] at this
    exact this

theorem rfcKeyKind {v : Str} {k : KeyType} (h : Rfc.KeyKind v k) : KeyTypeText v k := by
  cases h with
  | rsa e => exact .inl ⟨rfl, e⟩
  | ed25519 e => exact .inr ⟨rfl, e⟩

theorem rfcRecord {lossy : Bytes → Str} {pre : Bool} {tags : List (Str × Str)} {r : KeyRecord}
    (hv : ∀ t ∈ tags, IsValue t.2) (h : Rfc.Record lossy pre tags r) (l : Rfc.RecordLimits r) :
    RecordOf lossy pre tags r where
  version := fun v hm => by
    obtain ⟨rfl, h2⟩ := h.version v hm
    cases tags with
    | nil => simp at hm
    | cons t ts =>
      simp only [List.head?_cons, Option.some.injEq] at h2
      subst h2
      exact ⟨ts, rfl⟩
  hashAlgorithms := defaulting_imp h.hashAlgorithms fun _ _ hi =>
    ⟨rfcItems (fun _ => hyphenatedWord_good) hi, l.hashAlgorithms⟩
  keyType := defaulting_imp h.keyType fun _ _ => rfcKeyKind
  notes := optional_imp h.notes fun v x _ hm ⟨bs, h1, h2⟩ =>
    ⟨bs, rfcNotes (isValue_noSemicolon (hv _ hm)) h1.1, h2⟩
  keyData := required_imp h.keyData fun v _ hk => by
    rcases hk with ⟨rfl, e⟩ | hk
    · rw [e]; rfl
    · exact hk.2
  serviceTypes := defaulting_imp h.serviceTypes fun _ _ hi =>
    ⟨rfcItems (fun w hw => by
      rcases hw with hw | rfl
      · exact hyphenatedWord_good hw
      · exact goodItem_of (by simp) (by simp [fwsChar])) hi, l.serviceTypes⟩
  flags := defaulting_imp h.flags fun _ _ hi => rfcItems (fun _ => hyphenatedWord_good) hi
  extTags := h.others

end Dkim
