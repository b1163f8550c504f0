import Verif.Proofs.RfcWritten
import Verif.Proofs.Written

/-! Produced tags and the grammar of RFC 6376. -/

namespace Dkim

open Spec

theorem withoutFws_eq (s : Str) : withoutFws s = unfws s := by
  unfold withoutFws unfws
  congr 1
  funext c
  by_cases h1 : c = ' ' <;> by_cases h2 : c = '\t' <;> by_cases h3 : c = '\r' <;> by_cases h4 : c = '\n' <;>
    simp [h1, h2, h3, h4]

theorem hexChar_val {n : Nat} (h : n < 16) : HexVal (hexChar n) n := by
  have : ∀ n : Fin 16, ((48 ≤ (hexChar n).toNat ∧ (hexChar n).toNat ≤ 57 ∧ n.val = (hexChar n).toNat - 48) ∨
      (65 ≤ (hexChar n).toNat ∧ (hexChar n).toNat ≤ 70 ∧ n.val = (hexChar n).toNat - 55) ∨
      (97 ≤ (hexChar n).toNat ∧ (hexChar n).toNat ≤ 102 ∧ n.val = (hexChar n).toNat - 87)) := by decide
  exact this ⟨n, h⟩

theorem qp_written {lit : Char → Prop} (hl : ∀ c, lit c → dkimSafe c ∧ c.toNat < 128) {bs : Bytes} {t : Str}
    (h : QpWritten lit bs t) : ∀ {s : Str} {cs : Bytes}, Rfc.QuotedPrintable s cs →
      Rfc.QuotedPrintable (t ++ s) (bs ++ cs) := by
  induction h with
  | nil => exact fun h => h
  | char c bs t hc _ ih =>
    intro s cs hs
    obtain ⟨h1, h2⟩ := hl c hc
    have h3 : 33 ≤ c.toNat ∧ c.toNat ≤ 126 ∧ c ≠ ';' ∧ c ≠ '=' := by
      rcases h1 with h | h
      · exact h
      · omega
    rw [utf8_ascii [c] (by intro d hd; simp at hd; subst hd; omega)]
    exact .safe c _ _ h3.1 h3.2.1 h3.2.2.1 h3.2.2.2 (ih hs)
  | hex b bs t _ _ ih =>
    intro s cs hs
    have hb := b.toNat_lt
    have := Rfc.QuotedPrintable.octet _ _ _ _ _ _ (hexChar_val (n := b.toNat / 16) (by omega))
      (hexChar_val (n := b.toNat % 16) (by omega)) (ih hs)
    rw [show b.toNat / 16 * 16 + b.toNat % 16 = b.toNat by omega] at this
    simpa using this

theorem qpWritten_noBar {lit : Char → Prop} (hl : ∀ c, lit c → c ≠ '|') {bs : Bytes} {t : Str}
    (h : QpWritten lit bs t) : '|' ∉ t := by
  induction h with
  | nil => simp
  | char c bs t hc _ ih =>
    simp only [List.mem_cons, not_or]
    exact ⟨fun e => hl c hc e.symm, ih⟩
  | hex b bs t _ _ ih =>
    have hb := b.toNat_lt
    have key : ∀ n, n < 16 → '|' ≠ hexChar n := by
      intro n hn e
      have := hexChar_val hn
      rw [← e] at this
      simp [HexVal] at this
    simp only [List.mem_cons, not_or]
    exact ⟨by simp, key _ (by omega), key _ (by omega), ih⟩

theorem copied_written {hs : List (Str × Bytes)} {v : Str} (h : CopiedWritten true hs v)
    (hn : ∀ f ∈ hs, ValidName f.1) : Rfc.CopiedFields v hs := by
  have field : ∀ n b t, ValidName n → QpWritten (fun c => dkimSafe c ∧ c ≠ '|' ∧ (true = true → c.toNat < 128)) b t →
      Rfc.CopiedField n b (n ++ ':' :: t) := by
    intro n b t hn ht
    have h1 := qp_written (fun c hc => ⟨hc.1, hc.2.2 rfl⟩) ht .nil
    simp only [List.append_nil] at h1
    have := Rfc.CopiedField.mk n [] t b (hdrName_of hn) (.inl rfl) h1 (qpWritten_noBar (fun c hc => hc.2.1) ht)
    simpa using this
  induction h with
  | last n b t ht => exact .one n b _ (field n b t (hn (n, b) (by simp)) ht)
  | more n b t rest r ht _ ih =>
    have := Rfc.CopiedFields.more n b _ [] r rest (field n b t (hn (n, b) (by simp)) ht) (.inl rfl)
      (ih fun f hf => hn f (by simp [hf]))
    simpa using this

theorem writtenTag_i {ix : Idna} {ascii : Bool} {sig : DkimSignature} {v : Str}
    (h : WrittenTag ix ascii sig c!"i" v) : ∃ id l, sig.identity = some id ∧
      QpWritten (fun c => dkimSafe c ∧ (ascii = true → c.toNat < 128)) (utf8 (id.localPart.getD [])) l ∧
      v = l ++ '@' :: writtenName ix ascii id.domain := by
  generalize e : c!"i" = n at h
  cases h <;> first
    | exact absurd e (by decide)
    | (subst e; rename_i hn _; exact absurd (by simp) hn)
    | exact ⟨_, _, by assumption, by assumption, rfl⟩

theorem writtenTag_number {ix : Idna} {ascii : Bool} {sig : DkimSignature} {n v : Str}
    (h : WrittenTag ix ascii sig n v) (hn : n ∈ [c!"l", c!"t", c!"x"]) :
    ∃ x, v = (toString x).toList ∧ (n = c!"l" → sig.bodyLength = some x) ∧ (n = c!"t" → sig.timestamp = some x) ∧
      (n = c!"x" → sig.expiration = some x) := by
  cases h <;> first
    | exact absurd hn (by decide)
    | (rename_i h1 _; exact absurd (by simp only [List.mem_cons, List.not_mem_nil, or_false] at hn ⊢; rcases hn with rfl | rfl | rfl <;> simp) h1)
    | exact ⟨_, rfl, by first | (intro _; assumption) | (intro h; simp at h), by first | (intro _; assumption) | (intro h; simp at h), by first | (intro _; assumption) | (intro h; simp at h)⟩

theorem writtenTag_z {ix : Idna} {ascii : Bool} {sig : DkimSignature} {v : Str}
    (h : WrittenTag ix ascii sig c!"z" v) : CopiedWritten ascii sig.copiedHeaders (withoutFws v) := by
  generalize e : c!"z" = n at h
  cases h <;> first
    | exact absurd e (by decide)
    | (subst e; rename_i hn _; exact absurd (by simp) hn)
    | assumption

theorem toString_digits (n : Nat) : ∀ c ∈ (toString n).toList, digit c := by
  intro c hc
  rw [Nat.toString_eq_repr, Nat.toList_repr] at hc
  have := Nat.isDigit_of_mem_toDigits (by decide) (by decide) hc
  simp only [Char.isDigit, Bool.and_eq_true, decide_eq_true_eq] at this
  exact this

theorem toString_length {n k : Nat} (hk : 0 < k) (h : n < 10 ^ k) : (toString n).toList.length ≤ k := by
  rw [Nat.toString_eq_repr, Nat.toList_repr]
  exact (Nat.length_toDigits_le_iff (by decide) hk).2 h

/-! ### Unfolding `z=` -/

theorem unfolded_other {tags : List (Str × Str)} {n v : Str} (hn : n ≠ c!"z") :
    (n, v) ∈ Rfc.unfolded tags ↔ (n, v) ∈ tags := by
  unfold Rfc.unfolded
  rw [List.mem_map]
  constructor
  · rintro ⟨t, h1, h2⟩
    split at h2
    · next e => injection h2 with h2 _; exact absurd (h2 ▸ e) hn
    · rwa [← h2]
  · intro h
    exact ⟨(n, v), h, by rw [if_neg hn]⟩

theorem unfolded_z {tags : List (Str × Str)} {w : Str} :
    (c!"z", w) ∈ Rfc.unfolded tags ↔ ∃ v, (c!"z", v) ∈ tags ∧ w = withoutFws v := by
  unfold Rfc.unfolded
  rw [List.mem_map]
  constructor
  · rintro ⟨⟨n, v⟩, h1, h2⟩
    split at h2
    · next e =>
      simp only at e
      injection h2 with _ h3
      exact ⟨v, e ▸ h1, h3.symm⟩
    · next e => injection h2 with h2 _; exact absurd h2 e
  · rintro ⟨v, h1, rfl⟩
    exact ⟨(c!"z", v), h1, by simp⟩

theorem unfolded_names (tags : List (Str × Str)) : (Rfc.unfolded tags).map (·.1) = tags.map (·.1) := by
  unfold Rfc.unfolded
  rw [List.map_map]
  apply List.map_congr_left
  intro t _
  simp only [Function.comp_apply]
  split <;> rfl

theorem unfolded_filter (tags : List (Str × Str)) :
    (Rfc.unfolded tags).filter (fun t => !knownTags.contains t.1) = tags.filter fun t => !knownTags.contains t.1 := by
  unfold Rfc.unfolded
  induction tags with
  | nil => rfl
  | cons t ts ih =>
    rw [List.map_cons, List.filter_cons, List.filter_cons, ih]
    by_cases e : t.1 = c!"z"
    · have : knownTags.contains t.1 = true := by rw [e]; decide
      simp [e, this, knownTags]
    · simp [e]

theorem required_unfolded {α : Type} {tags : List (Str × Str)} {n : Str} {p : Str → α → Prop} {x : α} (hn : n ≠ c!"z")
    (h : Required tags n p x) : Required (Rfc.unfolded tags) n p x := by
  obtain ⟨v, h1, h2⟩ := h
  exact ⟨v, (unfolded_other hn).2 h1, h2⟩

theorem optional_unfolded {α : Type} {tags : List (Str × Str)} {n : Str} {p : Str → α → Prop} {x : Option α}
    (hn : n ≠ c!"z") (h : Optional tags n p x) : Optional (Rfc.unfolded tags) n p x := by
  cases x with
  | none => exact fun v hv => h v ((unfolded_other hn).1 hv)
  | some a => exact required_unfolded hn h

theorem defaulting_unfolded {α : Type} {tags : List (Str × Str)} {n : Str} {p : Str → α → Prop} {d x : α}
    (hn : n ≠ c!"z") (h : Defaulting tags n p d x) : Defaulting (Rfc.unfolded tags) n p d x := by
  rcases h with h | ⟨h1, h2⟩
  · exact .inl (required_unfolded hn h)
  · exact .inr ⟨fun v hv => h1 v ((unfolded_other hn).1 hv), h2⟩

theorem signatureOf_unfolded {ix : Idna} {pre : Bool} {tags : List (Str × Str)} {s : DkimSignature}
    (h : SignatureOf ix pre tags s) : SignatureOf ix pre (Rfc.unfolded tags) s where
  version := (unfolded_other (by decide)).2 h.version
  algorithm := required_unfolded (by decide) h.algorithm
  signatureData := required_unfolded (by decide) h.signatureData
  bodyHash := required_unfolded (by decide) h.bodyHash
  canonicalization := defaulting_unfolded (by decide) h.canonicalization
  domain := required_unfolded (by decide) h.domain
  signedHeaders := required_unfolded (by decide) h.signedHeaders
  identity := optional_unfolded (by decide) h.identity
  bodyLength := optional_unfolded (by decide) h.bodyLength
  queryMethods := fun v hv => h.queryMethods v ((unfolded_other (by decide)).1 hv)
  selector := required_unfolded (by decide) h.selector
  timestamp := optional_unfolded (by decide) h.timestamp
  expiration := optional_unfolded (by decide) h.expiration
  copiedHeaders := by
    rcases h.copiedHeaders with ⟨v, h1, h2⟩ | ⟨h1, h2⟩
    · refine .inl ⟨withoutFws v, unfolded_z.2 ⟨v, h1, rfl⟩, ?_⟩
      rw [withoutFws_eq]
      exact copied_unfws.2 h2
    · refine .inr ⟨fun w hw => ?_, h2⟩
      obtain ⟨v, hv, _⟩ := unfolded_z.1 hw
      exact h1 v hv
  extTags := by rw [unfolded_filter]; exact h.extTags
  identityUnderDomain := h.identityUnderDomain
  expirationAfter := h.expirationAfter

end Dkim
