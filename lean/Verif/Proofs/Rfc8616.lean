import Verif.Spec.Rfc8616
import Verif.Proofs.RfcWritten

/-! The grammar of RFC 8616 and what the library reads. -/

namespace Dkim

open Spec

theorem intlQp {v : Str} {bs : Bytes} (h : Rfc8616.QuotedPrintable v bs) : QpBytes (unfws v) bs := by
  induction h with
  | nil => exact .nil
  | fws f s bs hf _ ih => rw [unfws_append, unfws_fws hf]; exact ih
  | octet a b x y s bs ha hb _ ih =>
    rw [unfws_cons_keep (by simp [fwsChar]), unfws_cons_keep (rfcHex_noFws ha), unfws_cons_keep (rfcHex_noFws hb)]
    exact .hex a b x y _ _ ha hb ih
  | safe c s bs h1 h2 h3 h4 _ ih =>
    rw [unfws_cons_keep (visible_noFws h1)]
    have e : utf8 [c] = [UInt8.ofNat c.toNat] := by
      rw [utf8_ascii _ (by intro d hd; simp at hd; subst hd; omega)]; rfl
    have := QpBytes.char c _ _ (.inl ⟨h1, h2, h3, h4⟩) ih
    rw [e] at this
    exact this
  | other c s bs h _ ih =>
    rw [unfws_cons_keep (visible_noFws (by omega))]
    exact .char c _ _ (.inr h) ih

/-- RFC 8616 only adds to the texts of RFC 6376. -/
theorem intlQp_of {v : Str} {bs : Bytes} (h : Rfc.QuotedPrintable v bs) : Rfc8616.QuotedPrintable v bs := by
  induction h with
  | nil => exact .nil
  | fws f s bs hf _ ih => exact .fws f s bs hf ih
  | octet a b x y s bs ha hb _ ih => exact .octet a b x y s bs ha hb ih
  | safe c s bs h1 h2 h3 h4 _ ih => exact .safe c s bs h1 h2 h3 h4 ih

/-! ### Domain names -/

/-- ASCII forms with given labels are valid. -/
theorem dnsName_of_labels {b : Bool} {ls : List Str} (hne : ls ≠ [])
    (hs : ∀ l ∈ ls, Rfc.SubDomain l) (hf : Rfc.FitsDns (joinDots ls))
    (hn : b = true → ∀ init last, ls = init ++ [last] → ∃ c ∈ last, ¬ digit c) : DnsName b (joinDots ls) := by
  have hl : ∀ l ∈ ls, Label l := fun l h =>
    subDomain_label (hs l h) (hf.2 ls rfl (fun l h => subDomain_noDot (hs l h)) l h)
  have hlen : 1 ≤ (joinDots ls).length := by
    cases ls with
    | nil => exact absurd rfl hne
    | cons l ls =>
      have := (hl l (by simp)).1
      cases ls with
      | nil => exact this
      | cons m ls =>
        show 1 ≤ (l ++ '.' :: joinDots (m :: ls)).length
        simp
        omega
  refine ⟨hlen, hf.1, ?_⟩
  rcases List.eq_nil_or_concat ls with rfl | ⟨init, last, rfl⟩
  · exact absurd rfl hne
  rw [List.concat_eq_append] at *
  exact ⟨init, last, rfl, fun l h => hl l (by simp [h]), hl last (by simp), fun hb => hn hb init last rfl⟩

theorem intlSelector {ix : Idna} {v : Str} (h : Rfc8616.Selector ix v)
    (hf : ∀ a, ix.toAscii v = some a → Rfc.FitsDns a) : ValidDomain false ix v := by
  obtain ⟨a, ⟨_, h1, h2⟩, h3⟩ := h
  refine ⟨a, h1, h2, ?_⟩
  have hf := hf a h1
  obtain ⟨ls, h4, h5, rfl⟩ := h3
  exact dnsName_of_labels (by rintro rfl; simp at h4) h5 hf (by simp)

theorem intlDomain {ix : Idna} {v : Str} (h : Rfc8616.DomainName ix v)
    (hf : ∀ a, ix.toAscii v = some a → Rfc.FitsDns a ∧ Rfc.NotNumeric a) : ValidDomain true ix v := by
  obtain ⟨a, ⟨_, h1, h2⟩, h3⟩ := h
  refine ⟨a, h1, h2, ?_⟩
  obtain ⟨hf, hn⟩ := hf a h1
  obtain ⟨ls, h4, h5, rfl⟩ := h3
  refine dnsName_of_labels (by rintro rfl; simp at h4) h5 hf ?_
  rintro - init last rfl
  have hi : init ≠ [] := by rintro rfl; simp at h4
  exact hn (joinDots init) last (by rw [joinDots_append _ _ hi (by simp)]; rfl)
    (subDomain_noDot (h5 last (by simp)))

theorem intl_noAt {ix : Idna} {d : Str} (h : Rfc8616.DomainName ix d) : '@' ∉ d := by
  obtain ⟨_, ⟨h, _⟩, _⟩ := h
  intro hm
  have := h _ hm
  simp [Rfc8616.NameChar, Rfc.LetDig, letter, digit] at this

theorem intlIdentity {ix : Idna} {v : Str} {i : Identity} (h : Rfc8616.AgentIdentity ix v i)
    (hf : ∀ a, ix.toAscii i.domain = some a → Rfc.FitsDns a ∧ Rfc.NotNumeric a) : IdentityText ix v i :=
  ⟨⟨h.1, intlDomain h.2.1 hf, intl_noAt h.2.1⟩, intlQp h.2.2⟩

theorem intlUnder {ix : Idna} {d e : Str} : Rfc8616.SameOrSubdomain ix d e ↔ UnderDomain ix d e := by
  constructor
  · rintro ⟨a, b, h1, h2, more, ls, h3, h4, h5, h6⟩
    exact ⟨more, ls, a, b, h1, h2, h3, h4, h5, h6⟩
  · rintro ⟨more, ls, a, b, h1, h2, h3, h4, h5, h6⟩
    exact ⟨a, b, h1, h2, more, ls, h3, h4, h5, h6⟩

/-! ### Query methods -/

theorem intlMethod_head {m : Str} (h : Rfc8616.QueryMethod m) : ∃ c r, m = c :: r ∧ letter c ∧ ':' ∉ m := by
  cases h with
  | plain _ h => exact hyphenatedWord_head h
  | args t a bs ht ha hc =>
    obtain ⟨c, r, rfl, h1, h2⟩ := hyphenatedWord_head ht
    refine ⟨c, r ++ '/' :: a, rfl, h1, ?_⟩
    intro h
    rcases List.mem_append.1 h with h | h
    · exact h2 h
    · rcases List.mem_cons.1 h with h | h
      · simp at h
      · exact hc h

theorem intlMethods {ms : List Str} {v : Str} (h : Rfc8616.QueryMethods ms v) : ∀ g, OptFws g →
    (∀ i ∈ parseColonSeparated (g ++ v), i ≠ []) ∧
      ∀ m ∈ ms, Trimmed m → m ∈ parseColonSeparated (g ++ v) := by
  unfold parseColonSeparated
  induction h with
  | one m hm =>
    intro g hg
    obtain ⟨c, r, e, hc, hcol⟩ := intlMethod_head hm
    rw [splitOn_single _ _ (by
      simp only [List.mem_append, not_or]
      exact ⟨optFws_noColon hg, hcol⟩)]
    constructor
    · intro i hi
      simp at hi
      subst hi
      exact trimFws_ne_nil (c := c) (by rw [e]; simp) (letter_noFws hc)
    · intro m' hm' ht
      simp at hm'
      subst hm'
      have := trimFws_item (f := g) (n := m') (g := []) hg (.inl rfl) ht (by rw [e]; simp)
      simp only [List.append_nil] at this
      simp [this]
  | more m f g ms s hm hf hg _ ih =>
    intro g' hg'
    obtain ⟨c, r, e, hc, hcol⟩ := intlMethod_head hm
    rw [show g' ++ (m ++ f ++ ':' :: (g ++ s)) = (g' ++ m ++ f) ++ ':' :: (g ++ s) by simp]
    rw [splitOn_cons _ _ _ (by
      simp only [List.mem_append, not_or]
      exact ⟨⟨optFws_noColon hg', hcol⟩, optFws_noColon hf⟩)]
    obtain ⟨ih1, ih2⟩ := ih g hg
    constructor
    · intro i hi
      rw [List.map_cons] at hi
      rcases List.mem_cons.1 hi with rfl | hi
      · exact trimFws_ne_nil (c := c) (by rw [e]; simp) (letter_noFws hc)
      · exact ih1 i hi
    · intro m' hm' ht
      rw [List.map_cons]
      rcases List.mem_cons.1 hm' with rfl | hm'
      · rw [trimFws_item hg' hf ht (by rw [e]; simp)]
        exact .head _
      · exact .tail _ (ih2 m' hm' ht)

theorem intlQuery {ms : List Str} {v : Str} (hv : IsValue v) (h : Rfc8616.QueryMethods ms v)
    (hm : ∃ m ∈ ms, lower m = c!"dns/txt") : QueryText v := by
  rw [← parseTagQ_iff hv ()]
  unfold parseTagQ
  rw [parseTagQLoop_iff]
  have := intlMethods h [] (.inl rfl)
  simp only [List.nil_append] at this
  obtain ⟨m, h1, h2⟩ := hm
  exact ⟨this.1, .inr ⟨m, this.2 m h1 (trimmed_of_lower h2 (by decide)), h2⟩⟩

theorem intlQuery_of {ms : List Str} {v : Str} (h : Rfc.QueryMethods ms v) : Rfc8616.QueryMethods ms v := by
  have one : ∀ m, Rfc.QueryMethod m → Rfc8616.QueryMethod m := by
    intro m h
    cases h with
    | plain _ h => exact .plain _ h
    | args t a bs h1 h2 h3 => exact .args t a bs h1 (intlQp_of h2) h3
  induction h with
  | one m h => exact .one m (one m h)
  | more m f g ms s h hf hg _ ih => exact .more m f g ms s (one m h) hf hg ih

/-! ### Copied header fields -/

theorem intlCopiedField {n s : Str} {bs : Bytes} (h : Rfc8616.CopiedField n bs s) (h1 : '=' ∉ n) (h2 : '|' ∉ n)
    (h3 : ';' ∉ s) : '|' ∉ s ∧ ValidName n ∧ ∀ f, OptFws f → QpBytes (unfws (f ++ s)) (utf8 n ++ 58 :: bs) := by
  cases h with
  | mk _ f v hn hf hv hb =>
    have hn' := rfcName hn
    refine ⟨?_, hn', ?_⟩
    · intro h
      simp only [List.mem_append, List.mem_cons] at h
      rcases h with (h | h) | h | h
      · exact h2 h
      · have := optFws_fws hf _ h
        simp [fwsChar] at this
      · simp at h
      · exact hb h
    · intro f' hf'
      rw [unfws_append, unfws_append, unfws_append, unfws_optFws hf', unfws_optFws hf, validName_unfws hn',
        unfws_cons_keep (by simp [fwsChar])]
      simp only [List.nil_append, List.append_nil]
      refine qpBytes_name hn' h1 (fun h => h3 (by simp [h])) ?_
      have := QpBytes.char ':' _ _ (by simp [dkimSafe]) (intlQp hv)
      exact this

theorem intlCopied {v : Str} {hs : List (Str × Bytes)} (h : Rfc8616.CopiedFields v hs)
    (hl : ∀ f ∈ hs, '=' ∉ f.1 ∧ '|' ∉ f.1) (h3 : ';' ∉ v) : ∀ f, OptFws f → CopiedText (f ++ v) hs := by
  induction h with
  | one n bs s h =>
    intro f hf
    have hn := hl (n, bs) (by simp)
    obtain ⟨g1, g2, g3⟩ := intlCopiedField h hn.1 hn.2 h3
    refine .one _ n bs ?_ g2 (g3 f hf)
    simp only [List.mem_append, not_or]
    exact ⟨fun h => by have := optFws_fws hf _ h; simp [fwsChar] at this, g1⟩
  | more n bs s f r rest h hf _ ih =>
    intro f' hf'
    simp only [List.mem_append, List.mem_cons, not_or] at h3
    have hn := hl (n, bs) (by simp)
    obtain ⟨g1, g2, g3⟩ := intlCopiedField h hn.1 hn.2 h3.1
    rw [← List.append_assoc]
    refine .more _ n bs _ rest ?_ g2 (g3 f' hf') (ih (fun f hf => hl f (by simp [hf])) h3.2.2.2 f hf)
    simp only [List.mem_append, not_or]
    exact ⟨fun h => by have := optFws_fws hf' _ h; simp [fwsChar] at this, g1⟩

theorem intlCopied_of {v : Str} {hs : List (Str × Bytes)} (h : Rfc.CopiedFields v hs) : Rfc8616.CopiedFields v hs := by
  have one : ∀ n b s, Rfc.CopiedField n b s → Rfc8616.CopiedField n b s := by
    intro n b s h
    cases h with
    | mk _ _ _ h1 h2 h3 h4 => exact .mk n _ _ b h1 h2 (intlQp_of h3) h4
  induction h with
  | one n b s h => exact .one n b s (one n b s h)
  | more n b s f r rest h hf _ ih => exact .more n b s f r rest (one n b s h) hf ih

/-! ### Signatures -/

theorem intlSignature {ix : Idna} {pre : Bool} {tags : List (Str × Str)} {s : DkimSignature}
    (hv : ∀ t ∈ tags, IsValue t.2) (h : Rfc8616.Signature ix pre tags s) (l : Rfc8616.Limits ix s) :
    SignatureOf ix pre tags s where
  version := h.version
  algorithm := required_imp h.algorithm fun _ _ => rfcAlgorithm
  signatureData := required_imp h.signatureData fun _ _ => rfcBase64
  bodyHash := required_imp h.bodyHash fun _ _ => rfcBase64
  canonicalization := defaulting_imp h.canonicalization fun _ _ => rfcCanon
  domain := required_imp h.domain fun v _ hd => ⟨hd.1, intlDomain hd.2 (hd.1 ▸ l.domain)⟩
  signedHeaders := required_imp h.signedHeaders fun v _ hh =>
    ⟨by simpa using (rfcHeaders hh).1 [] (.inl rfl), (rfcHeaders hh).2, h.fromSigned⟩
  identity := optional_imp h.identity fun v i hi _ h => intlIdentity h fun a => l.identity i a hi
  bodyLength := optional_imp h.bodyLength fun v n hn _ h => rfcDigits h (l.bodyLength n hn)
  queryMethods := fun v hm => by
    obtain ⟨ms, h1, h2⟩ := h.queryMethods v hm
    exact intlQuery (hv _ hm) h1 h2
  selector := required_imp h.selector fun v _ hd => ⟨hd.1, intlSelector hd.2 (hd.1 ▸ l.selector)⟩
  timestamp := optional_imp h.timestamp fun v n hn _ h => rfcDigits h (rfcDigits12 h)
  expiration := optional_imp h.expiration fun v n hn _ h => rfcDigits h (rfcDigits12 h)
  copiedHeaders := defaulting_imp h.copiedHeaders fun v hm hc => by
    simpa using intlCopied hc l.copiedNames (isValue_noSemicolon (hv _ hm)) [] (.inl rfl)
  extTags := h.others
  identityUnderDomain := fun i hi => intlUnder.1 (h.identityUnderDomain i hi)
  expirationAfter := h.expirationAfter

theorem intlSignature_iff {ix : Idna} {pre : Bool} {tags : List (Str × Str)} {s : DkimSignature}
    (hv : ∀ n v, n ≠ c!"z" → (n, v) ∈ tags → IsValue v) (hn : (tags.map (·.1)).Nodup) (h : SignatureOf ix pre tags s) :
    Rfc8616.Signature ix pre tags s ↔ Rfc8616.Strict ix tags s := by
  constructor
  · intro r
    have digits : ∀ {n : Str} {k : Nat} {o : Option Nat}, Optional tags n (Rfc.Digits k) o →
        ∀ v, (n, v) ∈ tags → v.length ≤ k ∧ ∀ c ∈ v, digit c := by
      intro n k o h1 v hv
      cases o with
      | none => exact absurd hv (h1 v)
      | some x =>
        obtain ⟨w, hw, h2⟩ := h1
        rw [nodup_fst hn hv hw]
        exact ⟨h2.2.1, h2.2.2.1⟩
    refine ⟨?_, ?_, ?_, digits r.bodyLength, digits r.timestamp, digits r.expiration, r.queryMethods, ?_⟩
    · obtain ⟨v, _, h1, h2⟩ := r.domain
      rwa [h1]
    · obtain ⟨v, _, h1, h2⟩ := r.selector
      rwa [h1]
    · intro i hi
      have h1 := r.identity
      rw [hi] at h1
      obtain ⟨v, h2, h3⟩ := h1
      refine ⟨h3.2.1, fun w hw => ?_⟩
      rw [nodup_fst hn hw h2]
      exact ⟨_, h3.2.2⟩
    · intro v hv
      rcases r.copiedHeaders with ⟨w, hw, h1⟩ | ⟨h1, _⟩
      · rw [nodup_fst hn hv hw]
        exact h1
      · exact absurd hv (h1 v)
  · intro r
    exact {
      version := h.version
      algorithm := required_imp h.algorithm fun _ _ => algorithm_of
      signatureData := required_imp h.signatureData fun v hm => base64String_of (hv _ v (by simp) hm)
      bodyHash := required_imp h.bodyHash fun v hm => base64String_of (hv _ v (by simp) hm)
      canonicalization := defaulting_imp h.canonicalization fun _ _ => canon_of
      domain := required_imp h.domain fun v _ h1 => ⟨h1.1, h1.1 ▸ r.domain⟩
      signedHeaders := required_imp h.signedHeaders fun v hm => signedHeaders_of (hv _ v (by simp) hm)
      fromSigned := by
        obtain ⟨v, _, h1⟩ := h.signedHeaders
        exact h1.2.2
      identity := optional_imp h.identity fun v i hi hm h1 => by
        obtain ⟨h2, h3⟩ := r.identity i hi
        obtain ⟨bs, h4⟩ := h3 v hm
        have e := qpBytes_unique (intlQp h4) h1.2
        subst e
        exact ⟨h1.1.1, h2, h4⟩
      identityUnderDomain := fun i hi => intlUnder.2 (h.identityUnderDomain i hi)
      bodyLength := optional_imp h.bodyLength fun v n _ hm h1 => digits_of h1 (r.bodyLength v hm).2 (r.bodyLength v hm).1
      queryMethods := r.queryMethods
      selector := required_imp h.selector fun v _ h1 => ⟨h1.1, h1.1 ▸ r.selector⟩
      timestamp := optional_imp h.timestamp fun v n _ hm h1 => digits_of h1 (r.timestamp v hm).2 (r.timestamp v hm).1
      expiration := optional_imp h.expiration fun v n _ hm h1 => digits_of h1 (r.expiration v hm).2 (r.expiration v hm).1
      expirationAfter := h.expirationAfter
      copiedHeaders := defaulting_imp h.copiedHeaders fun v hm _ => r.copiedHeaders v hm
      others := h.extTags }

end Dkim
