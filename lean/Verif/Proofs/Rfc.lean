import Verif.Spec.Rfc
import Verif.Proofs.Signature
import Verif.Proofs.RoundTrip
import Verif.Proofs.Errors

/-! The grammar of RFC 6376 and what the library reads. -/

namespace Dkim

open Spec

theorem letter_noFws {c : Char} (h : letter c) : ¬ fwsChar c := by
  rintro (rfl | rfl | rfl | rfl) <;> simp [letter] at h

theorem digit_noFws {c : Char} (h : digit c) : ¬ fwsChar c := by
  rintro (rfl | rfl | rfl | rfl) <;> simp [digit] at h

theorem visible_noFws {c : Char} (h : 33 ≤ c.toNat) : ¬ fwsChar c := by
  rintro (rfl | rfl | rfl | rfl) <;> simp at h

theorem unfws_cons_keep {c : Char} (h : ¬ fwsChar c) (s : Str) : unfws (c :: s) = c :: unfws s := by
  have : unfws [c] = [c] := unfws_of_clean (by intro d hd; simp at hd; subst hd; exact h)
  have e := unfws_append [c] s
  rw [this] at e
  simpa using e

theorem rfcBase64 {v : Str} {bs : Bytes} (h : Rfc.Base64String v bs) : Base64Text v bs := by
  obtain ⟨⟨c, r, hc, _, rfl⟩, h2⟩ := h
  refine ⟨?_, h2⟩
  rintro rfl
  rw [(base64_nil_iff []).2 rfl] at h2
  have hf : ¬ fwsChar c := by
    rcases hc with h | h | rfl | rfl
    · exact letter_noFws h
    · exact digit_noFws h
    · simp [fwsChar]
    · simp [fwsChar]
  rw [unfws_cons_keep hf] at h2
  simp at h2

theorem rfcHex_noFws {c : Char} {n : Nat} (h : HexVal c n) : ¬ fwsChar c := by
  apply visible_noFws
  rcases h with ⟨h, _⟩ | ⟨h, _⟩ | ⟨h, _⟩ <;> omega

theorem rfcQp {v : Str} {bs : Bytes} (h : Rfc.QuotedPrintable v bs) : QpBytes (unfws v) bs := by
  induction h with
  | nil => exact .nil
  | fws f s bs hf _ ih => rw [unfws_append, unfws_fws hf]; exact ih
  | octet a b x y s bs ha hb _ ih =>
    rw [unfws_cons_keep (by simp [fwsChar]), unfws_cons_keep (rfcHex_noFws ha), unfws_cons_keep (rfcHex_noFws hb)]
    exact .hex a b x y _ _ ha hb ih
  | safe c s bs h1 h2 h3 h4 _ ih =>
    rw [unfws_cons_keep (visible_noFws h1)]
    have e : utf8 [c] = [UInt8.ofNat c.toNat] := by
      rw [utf8_ascii _ (by intro d hd; simp at hd; subst hd; omega)]; rfl
    have := QpBytes.char c _ _ (.inl ⟨h1, h2, h3, h4⟩) ih
    rw [e] at this
    exact this

theorem rfcName {n : Str} (h : Rfc.HdrName n) : ValidName n := by
  refine ⟨h.1, fun c hc => ?_⟩
  have := h.2 c hc
  refine ⟨by omega, by omega, ?_⟩
  rintro rfl
  simp at this

theorem rfcHeaders {ns : List Str} {v : Str} (h : Rfc.SignedHeaders ns v) :
    (∀ g, OptFws g → ColonList ns (g ++ v)) ∧ ∀ n ∈ ns, ValidName n := by
  induction h with
  | one n hn =>
    refine ⟨fun g hg => ?_, by simpa using rfcName hn⟩
    have := ColonList.one g n [] hg (.inl rfl)
    simpa using this
  | more n f g ns s hn hf hg _ ih =>
    refine ⟨fun g' hg' => ?_, ?_⟩
    · have := ColonList.more g' n f ns _ hg' hf (ih.1 g hg)
      simpa using this
    · intro m hm
      rcases List.mem_cons.1 hm with rfl | hm
      · exact rfcName hn
      · exact ih.2 m hm

theorem rfcCanon {v : Str} {c : Canonicalization} (h : Rfc.Canon v c) : CanonText v c := by
  have hw : ∀ v a, Rfc.CanonWord v a → lower v = canonName a := by
    intro v a h
    cases h with
    | simple h => exact h
    | relaxed h => exact h
  cases h with
  | one _ _ hv => exact .inr ⟨hw _ _ hv, rfl⟩
  | two v w h b hv hb =>
    refine .inl ?_
    have e : '/'.toLower = '/' := by decide
    rw [lower_append, hw _ _ hv]
    show canonName h ++ lower ('/' :: w) = _
    rw [show lower ('/' :: w) = '/'.toLower :: lower w from rfl, hw _ _ hb, e]

theorem rfcAlgorithm {pre : Bool} {v : Str} {a : SigAlg} (h : Rfc.Algorithm pre v a) : AlgText pre v a := by
  cases h with
  | rsaSha256 h => exact .inl ⟨rfl, h⟩
  | ed25519Sha256 h => exact .inr (.inl ⟨rfl, h⟩)
  | rsaSha1 hp h => exact .inr (.inr ⟨hp, rfl, h⟩)

theorem decimalVal_lt {v : Str} (h : ∀ c ∈ v, digit c) : decimalVal v < 10 ^ v.length := by
  induction v with
  | nil => simp [decimalVal]
  | cons c r ih =>
    have h1 := ih fun d hd => h d (by simp [hd])
    have h2 := h c (by simp)
    unfold digit at h2
    rw [decimalVal, List.length_cons, Nat.pow_succ]
    have h3 : (c.toNat - 48) * 10 ^ r.length ≤ 9 * 10 ^ r.length := Nat.mul_le_mul_right _ (by omega)
    omega

theorem rfcDigits {n : Nat} {v : Str} {x : Nat} (h : Rfc.Digits n v x) (hx : x < 2 ^ 64) : PlusDecimal v x := by
  obtain ⟨h1, _, h3, h4⟩ := h
  exact .inl ⟨by rintro rfl; simp at h1, h3, h4, hx⟩

theorem rfcDigits12 {v : Str} {x : Nat} (h : Rfc.Digits 12 v x) : x < 2 ^ 64 := by
  obtain ⟨_, h2, h3, rfl⟩ := h
  have h4 := decimalVal_lt h3
  have h5 : 10 ^ v.length ≤ 10 ^ 12 := Nat.pow_le_pow_right (by decide) h2
  omega

/-! ### Domain names -/

theorem subDomain_chars {l : Str} (h : Rfc.SubDomain l) : ∀ c ∈ l, letter c ∨ digit c ∨ c = '-' := by
  cases h with
  | one c hc =>
    intro d hd
    simp at hd; subst hd
    rcases hc with h | h
    · exact .inl h
    · exact .inr (.inl h)
  | more c m e hc hm he =>
    intro d hd
    simp only [List.mem_cons, List.mem_append, List.not_mem_nil, or_false] at hd
    have : Rfc.LetDig d ∨ d = '-' := by
      rcases hd with rfl | hd | rfl
      · exact .inl hc
      · exact hm d hd
      · exact .inl he
    rcases this with (h | h) | h
    · exact .inl h
    · exact .inr (.inl h)
    · exact .inr (.inr h)

theorem letDig_hyphen : ¬ Rfc.LetDig '-' := by
  rintro (h | h) <;> simp [letter, digit] at h

theorem subDomain_noDot {l : Str} (h : Rfc.SubDomain l) : '.' ∉ l := by
  intro hm
  rcases subDomain_chars h _ hm with h | h | h
  · simp [letter] at h
  · simp [digit] at h
  · simp at h

theorem subDomain_label {l : Str} (h : Rfc.SubDomain l) (hl : l.length ≤ 63) : Label l := by
  refine ⟨?_, hl, ?_, ?_, ?_⟩
  · cases h <;> simp
  · intro c hc
    rcases subDomain_chars h c hc with h | h | h
    · exact .inl h
    · exact .inr (.inl h)
    · exact .inr (.inr (.inl h))
  · intro r e
    cases h with
    | one c hc => cases e; exact letDig_hyphen hc
    | more c m d hc hm hd => cases e; exact letDig_hyphen hc
  · intro r e
    cases h with
    | one c hc =>
      have := congrArg List.getLast? e
      simp at this
      subst this
      exact letDig_hyphen hc
    | more c m d hc hm hd =>
      have := congrArg List.getLast? e
      rw [← List.cons_append] at this
      simp only [List.getLast?_append, List.getLast?_singleton, Option.some_or] at this
      cases this
      exact letDig_hyphen hd

theorem lower_letter {c : Char} : letter c.toLower ↔ letter c := by
  have := toLower_toNat c
  unfold letter
  split at this <;> omega

theorem lower_digit {c : Char} : digit c.toLower ↔ digit c := by
  have := toLower_toNat c
  unfold digit
  split at this <;> omega

theorem lower_char {c d : Char} (hd : ¬ letter d) : c.toLower = d ↔ c = d := by
  have h1 := toLower_toNat c
  constructor
  · intro e
    subst e
    split at h1
    · next h =>
      exact absurd (lower_letter.2 (.inl h)) hd
    · exact (Char.toNat_inj.1 h1).symm
  · rintro rfl
    split at h1
    · next h => exact absurd (.inl h) hd
    · exact Char.toNat_inj.1 h1

theorem lower_mem {l : Str} {d : Char} (hd : ¬ letter d) : d ∈ lower l ↔ d ∈ l := by
  unfold lower
  rw [List.mem_map]
  constructor
  · rintro ⟨c, hc, e⟩
    rw [(lower_char hd).1 e] at hc
    exact hc
  · intro h
    exact ⟨d, h, (lower_char hd).2 rfl⟩

theorem lower_label {l : Str} (h : Label l) : Label (lower l) := by
  obtain ⟨h1, h2, h3, h4, h5⟩ := h
  have hh : ¬ letter '-' := by simp [letter]
  have hu : ¬ letter '_' := by simp [letter]
  refine ⟨by simpa [lower_length] using h1, by simpa [lower_length] using h2, ?_, ?_, ?_⟩
  · intro c hc
    obtain ⟨d, hd, rfl⟩ := List.mem_map.1 hc
    rw [lower_letter, lower_digit, lower_char hh, lower_char hu]
    exact h3 d hd
  · intro r e
    cases l with
    | nil => simp [lower] at e
    | cons c l =>
      injection e with e1 e2
      rw [lower_char hh] at e1
      subst e1
      exact h4 l rfl
  · intro r e
    rcases List.eq_nil_or_concat l with rfl | ⟨l', c, rfl⟩
    · simp [lower] at e
    · rw [List.concat_eq_append, lower_append] at e
      have := congrArg List.getLast? e
      simp [lower] at this
      rw [lower_char hh] at this
      subst this
      exact h5 l' (by simp)

theorem lower_joinDots (ls : List Str) : lower (joinDots ls) = joinDots (ls.map lower) := by
  induction ls with
  | nil => rfl
  | cons l ls ih =>
    cases ls with
    | nil => rfl
    | cons m ls =>
      have e : '.'.toLower = '.' := by decide
      have h1 : joinDots (l :: m :: ls) = l ++ '.' :: joinDots (m :: ls) := rfl
      have h2 : joinDots (lower l :: lower m :: ls.map lower) = lower l ++ '.' :: joinDots (lower m :: ls.map lower) := rfl
      rw [h1, lower_append, List.map_cons, List.map_cons, h2,
        show lower ('.' :: joinDots (m :: ls)) = '.'.toLower :: lower (joinDots (m :: ls)) from rfl, ih, e]
      rfl

/-- Names with given labels are valid. -/
theorem validDomain_of_labels {ix : Idna} {b : Bool} {ls : List Str} (hne : ls ≠ [])
    (hs : ∀ l ∈ ls, Rfc.SubDomain l) (hf : Rfc.FitsDns (joinDots ls))
    (hn : b = true → ∀ init last, ls = init ++ [last] → ∃ c ∈ last, ¬ digit c)
    (ha : Rfc.AsciiForm ix (joinDots ls)) : ValidDomain b ix (joinDots ls) := by
  refine ⟨lower (joinDots ls), ha.1, ha.2, ?_⟩
  have hl : ∀ l ∈ ls, Label l := fun l h =>
    subDomain_label (hs l h) (hf.2 ls rfl (fun l h => subDomain_noDot (hs l h)) l h)
  have hlen : 1 ≤ (joinDots ls).length := by
    cases ls with
    | nil => exact absurd rfl hne
    | cons l ls =>
      have := (hl l (by simp)).1
      cases ls with
      | nil => exact this
      | cons m ls =>
        show 1 ≤ (l ++ '.' :: joinDots (m :: ls)).length
        simp
        omega
  refine ⟨by rw [lower_length]; exact hlen, by rw [lower_length]; exact hf.1, ?_⟩
  rcases List.eq_nil_or_concat ls with rfl | ⟨init, last, rfl⟩
  · exact absurd rfl hne
  rw [List.concat_eq_append] at *
  refine ⟨init.map lower, lower last, ?_, ?_, ?_, ?_⟩
  · rw [lower_joinDots]; simp
  · intro l h
    obtain ⟨m, hm, rfl⟩ := List.mem_map.1 h
    exact lower_label (hl m (by simp [hm]))
  · exact lower_label (hl last (by simp))
  · intro hb
    obtain ⟨c, hc, hd⟩ := hn hb init last rfl
    exact ⟨c.toLower, List.mem_map.2 ⟨c, hc, rfl⟩, by rwa [lower_digit]⟩

theorem rfcSelector {ix : Idna} {v : Str} (h : Rfc.Selector v) (hf : Rfc.FitsDns v) (ha : Rfc.AsciiForm ix v) :
    ValidDomain false ix v := by
  obtain ⟨ls, h1, h2, rfl⟩ := h
  exact validDomain_of_labels (by rintro rfl; simp at h1) h2 hf (by simp) ha

theorem rfcDomain {ix : Idna} {v : Str} (h : Rfc.DomainName v) (hf : Rfc.FitsDns v) (hn : Rfc.NotNumeric v)
    (ha : Rfc.AsciiForm ix v) : ValidDomain true ix v := by
  obtain ⟨ls, h1, h2, rfl⟩ := h
  refine validDomain_of_labels (by rintro rfl; simp at h1) h2 hf ?_ ha
  rintro - init last rfl
  have hi : init ≠ [] := by rintro rfl; simp at h1
  exact hn (joinDots init) last (by rw [joinDots_append _ _ hi (by simp)]; rfl)
    (subDomain_noDot (h2 last (by simp)))

theorem rfcUnder {ix : Idna} {d e : Str} (h : Rfc.SameOrSubdomain d e) (hd : ix.toAscii d = some (lower d))
    (he : ix.toAscii e = some (lower e)) : UnderDomain ix d e := by
  obtain ⟨more, ls, h1, h2, h3, h4⟩ := h
  have hl : ∀ s : Str, lower (lower s) = lower s := by
    intro s
    unfold lower
    rw [List.map_map]
    apply List.map_congr_left
    intro c _
    apply Char.toNat_inj.1
    have h1 := toLower_toNat c
    have h2 := toLower_toNat c.toLower
    simp only [Function.comp_apply]
    split at h1 <;> split at h2 <;> omega
  exact ⟨more, ls, _, _, hd, he, h1, h2, (hl d).trans h3, (hl e).trans h4⟩

theorem domainName_noAt {d : Str} (h : Rfc.DomainName d) : '@' ∉ d := by
  obtain ⟨ls, _, h2, rfl⟩ := h
  intro hm
  rcases joinDots_chars ls _ hm with h | ⟨l, hl, hc⟩
  · simp at h
  · rcases subDomain_chars (h2 l hl) _ hc with h | h | h
    · simp [letter] at h
    · simp [digit] at h
    · simp at h

theorem rfcIdentity {ix : Idna} {v : Str} {i : Identity} (h : Rfc.AgentIdentity v i) (hf : Rfc.FitsDns i.domain)
    (hn : Rfc.NotNumeric i.domain) (ha : Rfc.AsciiForm ix i.domain) : IdentityText ix v i :=
  ⟨⟨h.1, rfcDomain h.2.1 hf hn ha, domainName_noAt h.2.1⟩, rfcQp h.2.2⟩

/-! ### Query methods -/

theorem hyphenatedWord_head {t : Str} (h : Rfc.HyphenatedWord t) : ∃ c r, t = c :: r ∧ letter c ∧ ':' ∉ t := by
  cases h with
  | one c hc => exact ⟨c, [], rfl, hc, by intro h; simp at h; subst h; simp [letter] at hc⟩
  | more c m d hc hm hd =>
    refine ⟨c, m ++ [d], rfl, hc, ?_⟩
    intro h
    simp only [List.mem_cons, List.mem_append, List.not_mem_nil, or_false] at h
    have : Rfc.LetDig ':' ∨ ':' = '-' := by
      rcases h with rfl | h | rfl
      · exact .inl (.inl hc)
      · exact hm _ h
      · exact .inl hd
    rcases this with (h | h) | h
    · simp [letter] at h
    · simp [digit] at h
    · simp at h

theorem queryMethod_head {m : Str} (h : Rfc.QueryMethod m) : ∃ c r, m = c :: r ∧ letter c ∧ ':' ∉ m := by
  cases h with
  | plain _ h => exact hyphenatedWord_head h
  | args t a bs ht ha hc =>
    obtain ⟨c, r, rfl, h1, h2⟩ := hyphenatedWord_head ht
    refine ⟨c, r ++ '/' :: a, rfl, h1, ?_⟩
    intro h
    rcases List.mem_append.1 h with h | h
    · exact h2 h
    · rcases List.mem_cons.1 h with h | h
      · simp at h
      · exact hc h

theorem trimFws_ne_nil {p : Str} {c : Char} (hc : c ∈ p) (hl : ¬ fwsChar c) : trimFws p ≠ [] := by
  intro e
  obtain ⟨f, g, hf, hg, h⟩ := trimFws_split p
  rw [e, List.append_nil] at h
  rw [h] at hc
  rcases List.mem_append.1 hc with h | h
  · exact hl (optFws_fws hf c h)
  · exact hl (optFws_fws hg c h)

theorem rfcMethods {ms : List Str} {v : Str} (h : Rfc.QueryMethods ms v) : ∀ g, OptFws g →
    (∀ i ∈ parseColonSeparated (g ++ v), i ≠ []) ∧
      ∀ m ∈ ms, Trimmed m → m ∈ parseColonSeparated (g ++ v) := by
  unfold parseColonSeparated
  induction h with
  | one m hm =>
    intro g hg
    obtain ⟨c, r, e, hc, hcol⟩ := queryMethod_head hm
    rw [splitOn_single _ _ (by
      simp only [List.mem_append, not_or]
      exact ⟨optFws_noColon hg, hcol⟩)]
    constructor
    · intro i hi
      simp at hi
      subst hi
      exact trimFws_ne_nil (c := c) (by rw [e]; simp) (letter_noFws hc)
    · intro m' hm' ht
      simp at hm'
      subst hm'
      have := trimFws_item (f := g) (n := m') (g := []) hg (.inl rfl) ht (by rw [e]; simp)
      simp only [List.append_nil] at this
      simp [this]
  | more m f g ms s hm hf hg _ ih =>
    intro g' hg'
    obtain ⟨c, r, e, hc, hcol⟩ := queryMethod_head hm
    rw [show g' ++ (m ++ f ++ ':' :: (g ++ s)) = (g' ++ m ++ f) ++ ':' :: (g ++ s) by simp]
    rw [splitOn_cons _ _ _ (by
      simp only [List.mem_append, not_or]
      exact ⟨⟨optFws_noColon hg', hcol⟩, optFws_noColon hf⟩)]
    obtain ⟨ih1, ih2⟩ := ih g hg
    constructor
    · intro i hi
      rw [List.map_cons] at hi
      rcases List.mem_cons.1 hi with rfl | hi
      · exact trimFws_ne_nil (c := c) (by rw [e]; simp) (letter_noFws hc)
      · exact ih1 i hi
    · intro m' hm' ht
      rw [List.map_cons]
      rcases List.mem_cons.1 hm' with rfl | hm'
      · rw [trimFws_item hg' hf ht (by rw [e]; simp)]
        exact .head _
      · exact .tail _ (ih2 m' hm' ht)

theorem trimmed_of_lower {m w : Str} (h : lower m = w) (hw : ∀ c ∈ w, 33 ≤ c.toNat) : Trimmed m := by
  have : ∀ c ∈ m, ¬ fwsChar c := by
    intro c hc
    have h1 := hw c.toLower (by rw [← h]; exact List.mem_map.2 ⟨c, hc, rfl⟩)
    have h2 := toLower_toNat c
    apply visible_noFws
    split at h2 <;> omega
  refine ⟨?_, ?_⟩
  · rintro c r rfl
    exact this c (by simp)
  · rintro c r rfl
    exact this c (by simp)

theorem rfcQuery {ms : List Str} {v : Str} (hv : IsValue v) (h : Rfc.QueryMethods ms v)
    (hm : ∃ m ∈ ms, lower m = c!"dns/txt") : QueryText v := by
  rw [← parseTagQ_iff hv ()]
  unfold parseTagQ
  rw [parseTagQLoop_iff]
  have := rfcMethods h [] (.inl rfl)
  simp only [List.nil_append] at this
  obtain ⟨m, h1, h2⟩ := hm
  exact ⟨this.1, .inr ⟨m, this.2 m h1 (trimmed_of_lower h2 (by decide)), h2⟩⟩

/-! ### Copied header fields -/

theorem qpBytes_name {n : Str} (h : ValidName n) (h1 : '=' ∉ n) (h2 : ';' ∉ n) {s : Str} {bs : Bytes}
    (hs : QpBytes s bs) : QpBytes (n ++ s) (utf8 n ++ bs) := by
  replace h := h.2
  induction n with
  | nil => exact hs
  | cons c n ih =>
    have hc := h c (by simp)
    simp only [List.mem_cons, not_or] at h1 h2
    have := QpBytes.char c _ _ (.inl ⟨hc.1, hc.2.1, fun e => h2.1 e.symm, fun e => h1.1 e.symm⟩)
      (ih h1.2 h2.2 fun d hd => h d (by simp [hd]))
    rw [utf8_single] at this
    rw [utf8_cons, List.append_assoc]
    exact this

theorem validName_unfws {n : Str} (h : ValidName n) : unfws n = n :=
  unfws_of_clean fun c hc => visible_noFws (h.2 c hc).1

theorem rfcCopiedField {n s : Str} {bs : Bytes} (h : Rfc.CopiedField n bs s) (h1 : '=' ∉ n) (h2 : '|' ∉ n)
    (h3 : ';' ∉ s) : '|' ∉ s ∧ ValidName n ∧ ∀ f, OptFws f → QpBytes (unfws (f ++ s)) (utf8 n ++ 58 :: bs) := by
  cases h with
  | mk _ f v hn hf hv hb =>
    have hn' := rfcName hn
    refine ⟨?_, hn', ?_⟩
    · intro h
      simp only [List.mem_append, List.mem_cons] at h
      rcases h with (h | h) | h | h
      · exact h2 h
      · have := optFws_fws hf _ h
        simp [fwsChar] at this
      · simp at h
      · exact hb h
    · intro f' hf'
      rw [unfws_append, unfws_append, unfws_append, unfws_optFws hf', unfws_optFws hf, validName_unfws hn',
        unfws_cons_keep (by simp [fwsChar])]
      simp only [List.nil_append, List.append_nil]
      refine qpBytes_name hn' h1 (fun h => h3 (by simp [h])) ?_
      have := QpBytes.char ':' _ _ (by simp [dkimSafe]) (rfcQp hv)
      exact this

theorem rfcCopied {v : Str} {hs : List (Str × Bytes)} (h : Rfc.CopiedFields v hs)
    (hl : ∀ f ∈ hs, '=' ∉ f.1 ∧ '|' ∉ f.1) (h3 : ';' ∉ v) : ∀ f, OptFws f → CopiedText (f ++ v) hs := by
  induction h with
  | one n bs s h =>
    intro f hf
    have hn := hl (n, bs) (by simp)
    obtain ⟨g1, g2, g3⟩ := rfcCopiedField h hn.1 hn.2 h3
    refine .one _ n bs ?_ g2 (g3 f hf)
    simp only [List.mem_append, not_or]
    exact ⟨fun h => by have := optFws_fws hf _ h; simp [fwsChar] at this, g1⟩
  | more n bs s f r rest h hf _ ih =>
    intro f' hf'
    simp only [List.mem_append, List.mem_cons, not_or] at h3
    have hn := hl (n, bs) (by simp)
    obtain ⟨g1, g2, g3⟩ := rfcCopiedField h hn.1 hn.2 h3.1
    rw [← List.append_assoc]
    refine .more _ n bs _ rest ?_ g2 (g3 f' hf') (ih (fun f hf => hl f (by simp [hf])) h3.2.2.2 f hf)
    simp only [List.mem_append, not_or]
    exact ⟨fun h => by have := optFws_fws hf' _ h; simp [fwsChar] at this, g1⟩

/-! ### Signatures -/

theorem required_imp {α : Type} {tags : List (Str × Str)} {n : Str} {p q : Str → α → Prop} {x : α}
    (h : Required tags n p x) (hi : ∀ v, (n, v) ∈ tags → p v x → q v x) : Required tags n q x := by
  obtain ⟨v, h1, h2⟩ := h
  exact ⟨v, h1, hi v h1 h2⟩

theorem optional_imp {α : Type} {tags : List (Str × Str)} {n : Str} {p q : Str → α → Prop} {x : Option α}
    (h : Optional tags n p x) (hi : ∀ v a, x = some a → (n, v) ∈ tags → p v a → q v a) : Optional tags n q x := by
  cases x with
  | none => exact h
  | some a => exact required_imp h fun v hv => hi v a rfl hv

theorem defaulting_imp {α : Type} {tags : List (Str × Str)} {n : Str} {p q : Str → α → Prop} {d x : α}
    (h : Defaulting tags n p d x) (hi : ∀ v, (n, v) ∈ tags → p v x → q v x) : Defaulting tags n q d x := by
  rcases h with h | h
  · exact .inl (required_imp h hi)
  · exact .inr h

theorem isValue_noSemicolon {v : Str} (h : IsValue v) : ';' ∉ v := by
  intro hm
  have := (isValue_inserted h).2 ';' (by
    unfold unfws
    rw [List.mem_filter]
    exact ⟨hm, by decide⟩)
  simp [valChar] at this

theorem rfcSignature {ix : Idna} {pre : Bool} {tags : List (Str × Str)} {s : DkimSignature}
    (hv : ∀ t ∈ tags, IsValue t.2) (h : Rfc.Signature pre tags s) (l : Rfc.Limits ix s) :
    SignatureOf ix pre tags s where
  version := h.version
  algorithm := required_imp h.algorithm fun _ _ => rfcAlgorithm
  signatureData := required_imp h.signatureData fun _ _ => rfcBase64
  bodyHash := required_imp h.bodyHash fun _ _ => rfcBase64
  canonicalization := defaulting_imp h.canonicalization fun _ _ => rfcCanon
  domain := required_imp h.domain fun v _ hd => ⟨hd.1, by
    have hl := l.domain
    rw [hd.1] at hl
    exact rfcDomain hd.2 hl.1 hl.2.1 hl.2.2⟩
  signedHeaders := required_imp h.signedHeaders fun v _ hh =>
    ⟨by simpa using (rfcHeaders hh).1 [] (.inl rfl), (rfcHeaders hh).2, h.fromSigned⟩
  identity := optional_imp h.identity fun v i hi _ h =>
    rfcIdentity h (l.identity i hi).1 (l.identity i hi).2.1 (l.identity i hi).2.2
  bodyLength := optional_imp h.bodyLength fun v n hn _ h => rfcDigits h (l.bodyLength n hn)
  queryMethods := fun v hm => by
    obtain ⟨ms, h1, h2⟩ := h.queryMethods v hm
    exact rfcQuery (hv _ hm) h1 h2
  selector := required_imp h.selector fun v _ hd => ⟨hd.1, by
    have hl := l.selector
    rw [hd.1] at hl
    exact rfcSelector hd.2 hl.1 hl.2⟩
  timestamp := optional_imp h.timestamp fun v n hn _ h => rfcDigits h (rfcDigits12 h)
  expiration := optional_imp h.expiration fun v n hn _ h => rfcDigits h (rfcDigits12 h)
  copiedHeaders := defaulting_imp h.copiedHeaders fun v hm hc => by
    simpa using rfcCopied hc l.copiedNames (isValue_noSemicolon (hv _ hm)) [] (.inl rfl)
  extTags := h.others
  identityUnderDomain := fun i hi =>
    rfcUnder (h.identityUnderDomain i hi) (l.identity i hi).2.2.1 l.domain.2.2.1
  expirationAfter := h.expirationAfter

end Dkim
