import Verif.Proofs.Rfc
import Verif.Proofs.Copied
import Verif.Proofs.Values
import Verif.Proofs.Tamper
import Verif.Props.Encode

/-! What the library reads, and the grammar of RFC 6376. -/

namespace Dkim

open Spec

/-! ### Base64 -/

/-- Characters of the alphabet, then at most two equals signs. -/
inductive B64Shape : Str → Prop
  | nil : B64Shape []
  | char (c : Char) (s : Str) : Rfc.AlphaDigitPs c → B64Shape s → B64Shape (c :: s)
  | pad : B64Shape ['=']
  | pads : B64Shape ['=', '=']

theorem b64Char_ps (n : Nat) (h : n < 64) : Rfc.AlphaDigitPs (b64Char n) := by
  have : ∀ n : Fin 64, (((65 ≤ (b64Char n).toNat ∧ (b64Char n).toNat ≤ 90) ∨
      (97 ≤ (b64Char n).toNat ∧ (b64Char n).toNat ≤ 122)) ∨
      (48 ≤ (b64Char n).toNat ∧ (b64Char n).toNat ≤ 57) ∨ b64Char n = '+' ∨ b64Char n = '/') := by decide
  exact this ⟨n, h⟩

theorem base64_shape (bs : Bytes) : B64Shape (base64 bs) := by
  rw [← C20_base64_rfc4648]
  induction bs using encodeBase64.induct with
  | case1 => exact .nil
  | case2 a =>
    have ha := a.toNat_lt
    exact .char _ _ (b64Char_ps _ (by omega)) (.char _ _ (b64Char_ps _ (by omega)) .pads)
  | case3 a b =>
    have ha := a.toNat_lt
    have hb := b.toNat_lt
    exact .char _ _ (b64Char_ps _ (by omega)) (.char _ _ (b64Char_ps _ (by omega))
      (.char _ _ (b64Char_ps _ (by omega)) .pad))
  | case4 a b c r ih =>
    have ha := a.toNat_lt
    have hb := b.toNat_lt
    have hc := c.toNat_lt
    rw [encodeBase64]
    exact .char _ _ (b64Char_ps _ (by omega)) (.char _ _ (b64Char_ps _ (by omega))
      (.char _ _ (b64Char_ps _ (by omega)) (.char _ _ (b64Char_ps _ (by omega)) ih)))

/-- No whitespace at the end. -/
def endsPlain (v : Str) : Prop := ∀ r c, v = r ++ [c] → ¬ fwsChar c

theorem endsPlain_tail {a v : Str} (h : endsPlain (a ++ v)) : endsPlain v := by
  rintro r c rfl
  exact h (a ++ r) c (by simp)

theorem insertedNil {v : Str} (h : Inserted [] v) (he : endsPlain v) : v = [] := by
  cases h with
  | nil => rfl
  | final _ hf =>
    rcases List.eq_nil_or_concat v with e | ⟨r, c, e⟩
    · exact e
    · rw [List.concat_eq_append] at e
      exact absurd (fws_chars hf c (by rw [e]; simp)) (he r c e)

theorem inserted_cons {c : Char} {s v : Str} (h : Inserted (c :: s) v) :
    ∃ f t, OptFws f ∧ v = f ++ c :: t ∧ Inserted s t := by
  cases h with
  | keep _ _ t h => exact ⟨[], t, .inl rfl, rfl, h⟩
  | insert f _ _ t hf h => exact ⟨f, t, .inr hf, rfl, h⟩

theorem base64Rest_of {s v : Str} (hs : B64Shape s) (hi : Inserted s v) (he : endsPlain v) : Rfc.Base64Rest v := by
  induction hs generalizing v with
  | nil => rw [insertedNil hi he]; exact .nil
  | char c s hc _ ih =>
    obtain ⟨f, t, hf, rfl, h⟩ := inserted_cons hi
    refine .char f c t hf hc (ih h ?_)
    exact endsPlain_tail (a := f ++ [c]) (by simpa using he)
  | pad =>
    obtain ⟨f, t, hf, rfl, h⟩ := inserted_cons hi
    rw [insertedNil h (endsPlain_tail (a := f ++ ['=']) (by simpa using he))]
    exact .pad f hf
  | pads =>
    obtain ⟨f, t, hf, rfl, h⟩ := inserted_cons hi
    obtain ⟨g, u, hg, rfl, h'⟩ := inserted_cons h
    rw [insertedNil h' (endsPlain_tail (a := f ++ '=' :: (g ++ ['='])) (by simpa using he))]
    exact .pads f g hf hg

/-- No whitespace at the start. -/
def startsPlain (v : Str) : Prop := ∀ c r, v = c :: r → ¬ fwsChar c

theorem optFws_start {f v : Str} (hf : OptFws f) (h : startsPlain (f ++ v)) : f = [] := by
  cases f with
  | nil => rfl
  | cons c f => exact absurd (optFws_fws hf c (by simp)) (h c (f ++ v) rfl)

theorem optFws_end {f v : Str} (hf : OptFws f) (h : endsPlain (v ++ f)) : f = [] := by
  rcases List.eq_nil_or_concat f with e | ⟨r, c, rfl⟩
  · exact e
  · rw [List.concat_eq_append] at *
    exact absurd (optFws_fws hf c (by simp)) (h (v ++ r) c (by simp))

theorem isValue_starts {v : Str} (h : IsValue v) : startsPlain v := by
  rintro c r rfl
  rcases h with h | h
  · cases h
  · obtain ⟨t, x, ht, e⟩ := someValue_head h
    cases t with
    | nil => exact absurd rfl ht.1
    | cons d t =>
      cases e
      exact valChar_noFws (ht.2 c (by simp))

theorem isValue_ends {v : Str} (h : IsValue v) : endsPlain v := by
  rcases h with rfl | h
  · intro r c e; simp at e
  · induction h with
    | one v ht =>
      rintro r c rfl
      exact valChar_noFws (ht.2 c (by simp))
    | more v f s hv hf hs ih =>
      intro r c e
      have hne : s ≠ [] := by
        rintro rfl
        obtain ⟨t, x, ht, e⟩ := someValue_head hs
        exact ht.1 (List.append_eq_nil_iff.1 e.symm).1
      rcases List.eq_nil_or_concat s with e' | ⟨r', c', rfl⟩
      · exact absurd e' hne
      · rw [List.concat_eq_append] at *
        have : c' = c := by
          have := congrArg List.getLast? e
          simpa using this
        subst this
        exact ih r' c' rfl

theorem base64_first {bs : Bytes} (h : bs ≠ []) : ∃ c s, base64 bs = c :: s ∧ Rfc.AlphaDigitPs c := by
  rw [← C20_base64_rfc4648]
  cases bs with
  | nil => exact absurd rfl h
  | cons a bs =>
    have ha := a.toNat_lt
    refine ⟨b64Char (a.toNat / 4), ?_⟩
    cases bs with
    | nil => exact ⟨_, rfl, b64Char_ps _ (by omega)⟩
    | cons b bs =>
      cases bs with
      | nil => exact ⟨_, rfl, b64Char_ps _ (by omega)⟩
      | cons c bs => exact ⟨_, rfl, b64Char_ps _ (by omega)⟩

theorem base64String_of {v : Str} {bs : Bytes} (hv : IsValue v) (h : Base64Text v bs) : Rfc.Base64String v bs := by
  refine ⟨?_, h.2⟩
  have hi := (isValue_inserted hv).1
  have hs := base64_shape bs
  rw [h.2] at hi
  obtain ⟨c, s, e, hc⟩ := base64_first h.1
  rw [e] at hi hs
  have hs' : B64Shape s := by
    cases hs with
    | char _ _ _ hs => exact hs
    | pad => exact .nil
    | pads => exact .pad
  obtain ⟨f, t, hf, rfl, ht⟩ := inserted_cons hi
  have := optFws_start hf (isValue_starts hv)
  subst this
  exact ⟨c, t, hc, base64Rest_of hs' ht (endsPlain_tail (a := [c]) (isValue_ends hv)), rfl⟩

/-! ### Header names and canonicalization -/

theorem hdrName_of {n : Str} (h : ValidName n) : Rfc.HdrName n := by
  refine ⟨h.1, fun c hc => ?_⟩
  obtain ⟨h1, h2, h3⟩ := h.2 c hc
  have : c.toNat ≠ 58 := fun e => h3 (Char.toNat_inj.1 e)
  omega

theorem signedHeaders_of' {ns : List Str} {v : Str} (h : ColonList ns v) (hn : ∀ n ∈ ns, ValidName n)
    (he : endsPlain v) : ∃ f s, OptFws f ∧ v = f ++ s ∧ Rfc.SignedHeaders ns s := by
  induction h with
  | one f n g hf hg =>
    have := optFws_end hg he
    subst this
    exact ⟨f, n, hf, by simp, .one n (hdrName_of (hn n (by simp)))⟩
  | more f n g ns s hf hg _ ih =>
    obtain ⟨f', s', h1, rfl, h3⟩ := ih (fun m hm => hn m (by simp [hm]))
      (endsPlain_tail (a := f ++ n ++ g ++ [':']) (by simpa using he))
    exact ⟨f, n ++ g ++ ':' :: (f' ++ s'), hf, by simp, .more n g f' ns s' (hdrName_of (hn n (by simp))) hg h1 h3⟩

theorem signedHeaders_of {ns : List Str} {v : Str} (hv : IsValue v) (h : HeadersText v ns) :
    Rfc.SignedHeaders ns v := by
  obtain ⟨f, s, h1, rfl, h3⟩ := signedHeaders_of' h.1 h.2.1 (isValue_ends hv)
  have := optFws_start h1 (isValue_starts hv)
  subst this
  exact h3

theorem canonWord_of {v : Str} {a : CanonAlg} (h : lower v = canonName a) : Rfc.CanonWord v a := by
  cases a with
  | simple => exact .simple v h
  | relaxed => exact .relaxed v h

theorem canon_of {v : Str} {c : Canonicalization} (h : CanonText v c) : Rfc.Canon v c := by
  rcases h with h | ⟨h1, h2⟩
  · unfold lower at h
    obtain ⟨a, b, rfl, h1, h2⟩ := List.map_eq_append_iff.1 h
    obtain ⟨x, b', rfl, h3, h4⟩ := List.map_eq_cons_iff.1 h2
    rw [lower_char (by simp [letter])] at h3
    subst h3
    exact .two a b' _ _ (canonWord_of h1) (canonWord_of h4)
  · have := Rfc.Canon.one v c.header (canonWord_of h1)
    rw [← h2] at this
    exact this

theorem algorithm_of {pre : Bool} {v : Str} {a : SigAlg} (h : AlgText pre v a) : Rfc.Algorithm pre v a := by
  rcases h with ⟨rfl, h⟩ | ⟨rfl, h⟩ | ⟨hp, rfl, h⟩
  · exact .rsaSha256 v h
  · exact .ed25519Sha256 v h
  · exact .rsaSha1 v hp h

/-! ### Domains, identities, numbers -/

theorem sameOrSubdomain_of {ix : Idna} {d e : Str} (h : UnderDomain ix d e) (hd : Rfc.AsciiForm ix d)
    (he : Rfc.AsciiForm ix e) : Rfc.SameOrSubdomain d e := by
  obtain ⟨more, ls, a, b, h1, h2, h3, h4, h5, h6⟩ := h
  rw [hd.1] at h1
  rw [he.1] at h2
  cases h1
  cases h2
  have hl : ∀ s : Str, lower (lower s) = lower s := by
    intro s
    unfold lower
    rw [List.map_map]
    apply List.map_congr_left
    intro c _
    apply Char.toNat_inj.1
    have h1 := toLower_toNat c
    have h2 := toLower_toNat c.toLower
    simp only [Function.comp_apply]
    split at h1 <;> split at h2 <;> omega
  rw [hl] at h5 h6
  exact ⟨more, ls, h3, h4, h5, h6⟩

theorem digits_of {n : Nat} {v : Str} {x : Nat} (h : PlusDecimal v x) (hd : ∀ c ∈ v, digit c) (hl : v.length ≤ n) :
    Rfc.Digits n v x := by
  rcases h with ⟨h1, h2, h3, _⟩ | ⟨ds, rfl, _⟩
  · exact ⟨List.length_pos_iff.2 h1, hl, h2, h3⟩
  · have := hd '+' (by simp)
    simp [digit] at this

/-! ### Signatures -/

theorem rfcSignature_iff {ix : Idna} {pre : Bool} {tags : List (Str × Str)} {s : DkimSignature}
    (hv : ∀ n v, n ≠ c!"z" → (n, v) ∈ tags → IsValue v) (hn : (tags.map (·.1)).Nodup) (h : SignatureOf ix pre tags s)
    (hd : Rfc.AsciiForm ix s.domain) (hi : ∀ i, s.identity = some i → Rfc.AsciiForm ix i.domain) :
    Rfc.Signature pre tags s ↔ Rfc.Strict tags s := by
  constructor
  · intro r
    refine ⟨?_, ?_, ?_, ?_, ?_, ?_, r.queryMethods, ?_⟩
    · obtain ⟨v, _, h1, h2⟩ := r.domain
      rwa [h1]
    · obtain ⟨v, _, h1, h2⟩ := r.selector
      rwa [h1]
    · intro i hi
      have h1 := r.identity
      rw [hi] at h1
      obtain ⟨v, h2, h3⟩ := h1
      refine ⟨h3.2.1, fun w hw => ?_⟩
      rw [nodup_fst hn hw h2]
      exact ⟨_, h3.2.2⟩
    · intro v hv
      have h1 := r.bodyLength
      cases hs : s.bodyLength with
      | none => rw [hs] at h1; exact absurd hv (h1 v)
      | some x =>
        rw [hs] at h1
        obtain ⟨w, hw, h2⟩ := h1
        rw [nodup_fst hn hv hw]
        exact ⟨h2.2.1, h2.2.2.1⟩
    · intro v hv
      have h1 := r.timestamp
      cases hs : s.timestamp with
      | none => rw [hs] at h1; exact absurd hv (h1 v)
      | some x =>
        rw [hs] at h1
        obtain ⟨w, hw, h2⟩ := h1
        rw [nodup_fst hn hv hw]
        exact ⟨h2.2.1, h2.2.2.1⟩
    · intro v hv
      have h1 := r.expiration
      cases hs : s.expiration with
      | none => rw [hs] at h1; exact absurd hv (h1 v)
      | some x =>
        rw [hs] at h1
        obtain ⟨w, hw, h2⟩ := h1
        rw [nodup_fst hn hv hw]
        exact ⟨h2.2.1, h2.2.2.1⟩
    · intro v hv
      rcases r.copiedHeaders with ⟨w, hw, h1⟩ | ⟨h1, _⟩
      · rw [nodup_fst hn hv hw]
        exact h1
      · exact absurd hv (h1 v)
  · intro r
    exact {
      version := h.version
      algorithm := required_imp h.algorithm fun _ _ => algorithm_of
      signatureData := required_imp h.signatureData fun v hm => base64String_of (hv _ v (by simp) hm)
      bodyHash := required_imp h.bodyHash fun v hm => base64String_of (hv _ v (by simp) hm)
      canonicalization := defaulting_imp h.canonicalization fun _ _ => canon_of
      domain := required_imp h.domain fun v _ h1 => ⟨h1.1, h1.1 ▸ r.domain⟩
      signedHeaders := required_imp h.signedHeaders fun v hm => signedHeaders_of (hv _ v (by simp) hm)
      fromSigned := by
        obtain ⟨v, _, h1⟩ := h.signedHeaders
        exact h1.2.2
      identity := optional_imp h.identity fun v i hi hm h1 => by
        obtain ⟨h2, h3⟩ := r.identity i hi
        obtain ⟨bs, h4⟩ := h3 v hm
        have e := qpBytes_unique (rfcQp h4) h1.2
        subst e
        exact ⟨h1.1.1, h2, h4⟩
      identityUnderDomain := fun i hi' => sameOrSubdomain_of (h.identityUnderDomain i hi') (hi i hi') hd
      bodyLength := optional_imp h.bodyLength fun v n _ hm h1 => digits_of h1 (r.bodyLength v hm).2 (r.bodyLength v hm).1
      queryMethods := r.queryMethods
      selector := required_imp h.selector fun v _ h1 => ⟨h1.1, h1.1 ▸ r.selector⟩
      timestamp := optional_imp h.timestamp fun v n _ hm h1 => digits_of h1 (r.timestamp v hm).2 (r.timestamp v hm).1
      expiration := optional_imp h.expiration fun v n _ hm h1 => digits_of h1 (r.expiration v hm).2 (r.expiration v hm).1
      expirationAfter := h.expirationAfter
      copiedHeaders := defaulting_imp h.copiedHeaders fun v hm _ => r.copiedHeaders v hm
      others := h.extTags }

end Dkim
