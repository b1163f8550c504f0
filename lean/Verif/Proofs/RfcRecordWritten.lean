import Verif.Proofs.RfcRecord
import Verif.Proofs.RfcWritten

/-! Key records that the library reads and the grammar of RFC 6376. -/

namespace Dkim

open Spec

theorem words_of {α : Type} {word : Str → Prop} (hw : ∀ w, word w → goodItem w) {named : Str → Option α} {v : Str}
    {xs : List α} (h : ItemsText named v xs) (hs : ∃ ws, Rfc.Words word ws v) :
    ∃ ws, Rfc.Words word ws v ∧ xs = ws.filterMap named := by
  obtain ⟨ws, h1⟩ := hs
  obtain ⟨items, h2, h3, h4⟩ := h
  obtain ⟨h5, h6⟩ := rfcWords hw h1
  refine ⟨ws, h1, ?_⟩
  have e1 := parseColon_complete h2 (fun i hi => h3 i hi)
  have e2 := parseColon_complete (by simpa using h5 [] (.inl rfl)) (fun i hi => h6 i hi)
  rw [h4, ← e1, e2]

theorem qpText_of {v : Str} {bs : Bytes} (h : QpSection v bs) (ha : ∀ c ∈ v, c.toNat < 128) : Rfc.QpText v bs := by
  induction h with
  | nil => exact .nil
  | char c s bs hc _ ih =>
    have h128 := ha c (by simp)
    have e : utf8 [c] = [UInt8.ofNat c.toNat] := by
      rw [utf8_ascii _ (by intro d hd; simp at hd; subst hd; exact h128)]; rfl
    rw [e]
    have ih := ih fun d hd => ha d (by simp [hd])
    rcases hc with (⟨h1, h2, _, h4⟩ | h) | h
    · exact .safe c s bs h1 h2 h4 ih
    · omega
    · exact .blank c s bs h ih
  | hex a b x y s bs h1 h2 _ ih => exact .octet a b x y s bs h1 h2 (ih fun d hd => ha d (by simp [hd]))

theorem notes_of {v : Str} {bs : Bytes} (hv : IsValue v) (h : QpSection v bs) (ha : ∀ c ∈ v, c.toNat < 128) :
    Rfc.Notes v bs := by
  refine ⟨qpText_of h ha, fun r c e => ?_⟩
  have := isValue_ends hv r c e
  exact ⟨fun h => this (.inl h), fun h => this (.inr (.inl h))⟩

theorem keyData_of {v : Str} {bs : Bytes} (hv : IsValue v) (h : unfws v = base64 bs) : Rfc.KeyData v bs := by
  by_cases hb : bs = []
  · subst hb
    refine .inl ⟨?_, rfl⟩
    cases v with
    | nil => rfl
    | cons c r =>
      have h1 := isValue_starts hv c r rfl
      have h2 : isFwsChar c = false := by
        simp only [fwsChar, not_or] at h1
        simp [isFwsChar, h1]
      have : (unfws (c :: r)) = c :: unfws r := by rw [unfws_eq, List.filter_cons_of_pos (by simp [h2]), unfws_eq]
      rw [this] at h
      cases h
  · exact .inr (base64String_of hv ⟨hb, h⟩)

theorem words_of_defaulting {α : Type} {tags : List (Str × Str)} {n : Str} {word : Str → Prop} {f : List Str → α} {d x : α}
    (hn : (tags.map (·.1)).Nodup) (h : Defaulting tags n (fun v x => ∃ ws, Rfc.Words word ws v ∧ x = f ws) d x) (v : Str)
    (hv : (n, v) ∈ tags) : ∃ ws, Rfc.Words word ws v := by
  rcases h with ⟨w, hw, ws, h1, _⟩ | ⟨h1, _⟩
  · rw [nodup_fst hn hv hw]
    exact ⟨ws, h1⟩
  · exact absurd hv (h1 v)

theorem notes_ascii {v : Str} {bs : Bytes} (h : Rfc.QpText v bs) : ∀ c ∈ v, c.toNat < 128 := by
  have hex : ∀ {c : Char} {x : Nat}, HexVal c x → c.toNat < 128 := by
    intro c x h
    unfold HexVal at h
    omega
  induction h with
  | nil => simp
  | octet a b x y s bs h1 h2 _ ih =>
    intro c hc
    simp only [List.mem_cons] at hc
    rcases hc with rfl | rfl | rfl | hc
    · decide
    · exact hex h1
    · exact hex h2
    · exact ih c hc
  | safe d s bs h1 h2 h3 _ ih =>
    intro c hc
    rcases List.mem_cons.1 hc with rfl | hc
    · omega
    · exact ih c hc
  | blank d s bs h1 _ ih =>
    intro c hc
    rcases List.mem_cons.1 hc with rfl | hc
    · rcases h1 with rfl | rfl <;> decide
    · exact ih c hc

theorem rfcRecord_iff {lossy : Bytes → Str} {pre : Bool} {tags : List (Str × Str)} {r : KeyRecord}
    (hv : ∀ t ∈ tags, IsValue t.2) (hn : (tags.map (·.1)).Nodup) (h : RecordOf lossy pre tags r) :
    Rfc.Record lossy pre tags r ↔ Rfc.StrictRecord tags := by
  constructor
  · intro hr
    refine ⟨words_of_defaulting hn hr.hashAlgorithms, ?_, words_of_defaulting hn hr.serviceTypes,
      words_of_defaulting hn hr.flags⟩
    intro v hm
    have h1 := hr.notes
    cases hs : r.notes with
    | none => rw [hs] at h1; exact absurd hm (h1 v)
    | some x =>
      rw [hs] at h1
      obtain ⟨w, hw, bs, h2, _⟩ := h1
      rw [nodup_fst hn hm hw]
      exact notes_ascii h2.1
  · intro hs
    exact {
      version := fun v hm => by
        obtain ⟨rest, e⟩ := h.version v hm
        have e' : (c!"v", c!"DKIM1") ∈ tags := by rw [e]; simp
        have := nodup_fst hn hm e'
        subst this
        exact ⟨rfl, by rw [e]; rfl⟩
      hashAlgorithms := defaulting_imp h.hashAlgorithms fun v hm h1 =>
        words_of (fun _ => hyphenatedWord_good) h1.1 (hs.hashAlgorithms v hm)
      keyType := defaulting_imp h.keyType fun v _ h1 => by
        rcases h1 with ⟨e, h1⟩ | ⟨e, h1⟩
        · rw [e]; exact .rsa v h1
        · rw [e]; exact .ed25519 v h1
      notes := optional_imp h.notes fun v x _ hm ⟨bs, h1, h2⟩ => ⟨bs, notes_of (hv _ hm) h1 (hs.notes v hm), h2⟩
      keyData := required_imp h.keyData fun v hm h1 => keyData_of (hv _ hm) h1
      serviceTypes := defaulting_imp h.serviceTypes fun v hm h1 =>
        words_of (fun w hw => by
          rcases hw with hw | rfl
          · exact hyphenatedWord_good hw
          · exact goodItem_of (by simp) (by simp [fwsChar])) h1.1 (hs.serviceTypes v hm)
      flags := defaulting_imp h.flags fun v hm h1 =>
        words_of (fun _ => hyphenatedWord_good) h1 (hs.flags v hm)
      others := h.extTags }

end Dkim
