import Verif.Proofs.Rfc
import Verif.Proofs.Instances
import Verif.Props.Signature
import Verif.Props.TagListExact

/-!
# Property C100: signatures in the grammar of the RFC are read as what they mean

`Spec.Rfc.Signature` is the grammar of RFC 6376, section 3.5, with the meaning of each tag.
`Spec.Rfc.Limits` lists what the library asks beyond it.
-/

namespace Dkim

open Spec

/-- C100: every text that is a signature by the grammar of the RFC, and is within the limits, is
read, and with the content that the RFC gives it. `SingleFws` is the exception of C22. -/
theorem C100_reads_rfc (ix : Idna) (law : CaseLaw ix) (pre : Bool) (txt : Str) (tags : List (Str × Str))
    (s : DkimSignature) (ht : RfcListText tags txt) (hn : (tags.map (·.1)).Nodup) (hw : SingleFws txt)
    (h : Rfc.Signature pre tags s) (l : Rfc.Limits ix s) : sigFromStr ix pre txt = .ok s := by
  have ht' := rfcListText_single ht hw
  exact (C30_parse_exact ix law pre txt s).2 ⟨tags, ht', hn, rfcSignature (fun t h => listText_values ht' t h) h l⟩

/-- C100: within the limits, the grammar of the RFC gives a text at most one meaning. -/
theorem C100_unambiguous (ix : Idna) (law : CaseLaw ix) (pre : Bool) (txt : Str) (tags tags' : List (Str × Str))
    (s s' : DkimSignature) (ht : RfcListText tags txt) (ht' : RfcListText tags' txt) (hn : (tags.map (·.1)).Nodup)
    (hn' : (tags'.map (·.1)).Nodup) (hw : SingleFws txt) (h : Rfc.Signature pre tags s)
    (h' : Rfc.Signature pre tags' s') (l : Rfc.Limits ix s) (l' : Rfc.Limits ix s') : s = s' := by
  have e1 := C100_reads_rfc ix law pre txt tags s ht hn hw h l
  have e2 := C100_reads_rfc ix law pre txt tags' s' ht' hn' hw h' l'
  rw [e1] at e2
  injection e2

/-! ### A concrete signature, and the limits -/

theorem optFws_space : OptFws c!" " := .inr (.plain _ (by simp) (by simp [wsp]))

theorem optFws_break : OptFws c!"\r\n " := .inr (.folded [] c!" " (by simp) (by simp) (by simp [wsp]))

local macro "optfws" : tactic => `(tactic| first | exact optFws_space | exact optFws_break)

local instance (c : Char) : Decidable (letter c) := by unfold letter; infer_instance
local instance (c : Char) : Decidable (digit c) := by unfold digit; infer_instance
local instance (c : Char) : Decidable (Rfc.LetDig c) := by unfold Rfc.LetDig; infer_instance
local instance (n : Nat) (v : Str) (x : Nat) : Decidable (Rfc.Digits n v x) := by unfold Rfc.Digits; infer_instance
local instance (c : Char) (n : Nat) : Decidable (HexVal c n) := by unfold HexVal; infer_instance

/-- The tags of a signature with a given domain, length and copied header fields. -/
def rfcTags (d l z : Str) : List (Str × Str) :=
  [(c!"v", c!"1"), (c!"a", c!"RSA-SHA256"), (c!"c", c!"Relaxed/simple"), (c!"d", d), (c!"s", c!"sel.mail"),
    (c!"i", c!"=22J.=20D=6Fe=22@\r\n " ++ d), (c!"h", c!"From : Subject:\r\n To"), (c!"q", c!"x-my/a=3Db : dns/txt"),
    (c!"t", c!"1"), (c!"x", c!"000000000020"), (c!"l", l), (c!"z", z), (c!"y", c!"?"), (c!"bh", c!"AA =\r\n ="),
    (c!"b", c!"/+A=")]

/-- The text of these tags. -/
def rfcText (d l z : Str) : Str :=
  (rfcTags d l z).flatMap fun t => c!"\r\n\t" ++ t.1 ++ c!" = " ++ t.2 ++ c!";"

/-- What they mean. -/
def rfcMeaning (d : Str) (n : Nat) (fields : List (Str × Bytes)) : DkimSignature where
  algorithm := .rsaSha256
  signatureData := [255, 224]
  bodyHash := [0]
  canonicalization := ⟨.relaxed, .simple⟩
  domain := d
  signedHeaders := [c!"From", c!"Subject", c!"To"]
  identity := some ⟨some c!"\"J. Doe\"", d⟩
  bodyLength := some n
  selector := c!"sel.mail"
  timestamp := some 1
  expiration := some 20
  copiedHeaders := fields
  extTags := [(c!"y", c!"?")]

theorem qp_plain {s : Str} (h : ∀ c ∈ s, 33 ≤ c.toNat ∧ c.toNat ≤ 126 ∧ c ≠ ';' ∧ c ≠ '=') :
    Rfc.QuotedPrintable s (utf8 s) := by
  induction s with
  | nil => exact .nil
  | cons c s ih =>
    obtain ⟨h1, h2, h3, h4⟩ := h c (by simp)
    have := Rfc.QuotedPrintable.safe c s _ h1 h2 h3 h4 (ih fun d hd => h d (by simp [hd]))
    rw [utf8_cons]
    rw [← utf8_single, utf8_ascii [c] (by intro d hd; simp at hd; subst hd; omega)]
    exact this

theorem domainName_safe {d : Str} (h : Rfc.DomainName d) :
    ∀ c ∈ d, 33 ≤ c.toNat ∧ c.toNat ≤ 126 ∧ c ≠ ';' ∧ c ≠ '=' := by
  obtain ⟨ls, _, h2, rfl⟩ := h
  intro c hc
  have key : letter c ∨ digit c ∨ c = '-' ∨ c = '.' := by
    rcases joinDots_chars ls _ hc with h | ⟨l, hl, hc⟩
    · simp [h]
    · rcases subDomain_chars (h2 l hl) _ hc with h | h | h <;> simp [h]
  refine ⟨?_, ?_, ?_, ?_⟩
  · rcases key with h | h | rfl | rfl
    · unfold letter at h; omega
    · unfold digit at h; omega
    · decide
    · decide
  · rcases key with h | h | rfl | rfl
    · unfold letter at h; omega
    · unfold digit at h; omega
    · decide
    · decide
  · rintro rfl
    simp [letter, digit] at key
  · rintro rfl
    simp [letter, digit] at key

theorem rfcExample {d l z : Str} {n : Nat} {fields : List (Str × Bytes)} (hd : Rfc.DomainName d)
    (hl : Rfc.Digits 76 l n) (hz : Rfc.CopiedFields z fields) :
    Rfc.Signature false (rfcTags d l z) (rfcMeaning d n fields) where
  version := by simp [rfcTags]
  algorithm := ⟨c!"RSA-SHA256", by simp [rfcTags], .rsaSha256 _ (by decide)⟩
  signatureData := by
    refine ⟨c!"/+A=", by simp [rfcTags], ⟨'/', c!"+A=", by simp [Rfc.AlphaDigitPs], ?_, rfl⟩, by rfl⟩
    exact .char [] '+' _ (.inl rfl) (by simp [Rfc.AlphaDigitPs])
      (.char [] 'A' _ (.inl rfl) (by simp [Rfc.AlphaDigitPs, letter]) (.pad [] (.inl rfl)))
  bodyHash := by
    refine ⟨c!"AA =\r\n =", by simp [rfcTags], ⟨'A', c!"A =\r\n =", by simp [Rfc.AlphaDigitPs, letter], ?_, rfl⟩, by rfl⟩
    refine .char [] 'A' _ (.inl rfl) (by simp [Rfc.AlphaDigitPs, letter]) ?_
    exact .pads c!" " c!"\r\n " (by optfws) (by optfws)
  canonicalization := .inl ⟨c!"Relaxed/simple", by simp [rfcTags],
    .two c!"Relaxed" c!"simple" .relaxed .simple (.relaxed _ (by decide)) (.simple _ (by decide))⟩
  domain := ⟨d, by simp [rfcTags], rfl, hd⟩
  signedHeaders := by
    refine ⟨c!"From : Subject:\r\n To", by simp [rfcTags], ?_⟩
    refine .more c!"From" c!" " c!" " _ c!"Subject:\r\n To" ⟨by simp, by decide⟩ (by optfws) (by optfws) ?_
    exact .more c!"Subject" [] c!"\r\n " _ c!"To" ⟨by simp, by decide⟩ (.inl rfl) (by optfws)
      (.one c!"To" ⟨by simp, by decide⟩)
  fromSigned := ⟨c!"From", by simp [rfcMeaning], by decide⟩
  identity := by
    refine ⟨c!"=22J.=20D=6Fe=22@\r\n " ++ d, by simp [rfcTags], ?_, hd, ?_⟩
    · intro l hl
      injection hl with hl
      subst hl
      refine ⟨by decide, .inr ⟨c!"J. Doe", ?_, rfl⟩⟩
      repeat first | exact .nil | refine .text _ _ (by decide) ?_
    · have h : Rfc.QuotedPrintable (c!"=22J.=20D=6Fe=22@\r\n " ++ d) (b!"\"J. Doe\"@" ++ utf8 d) := by
        refine .octet '2' '2' 2 2 _ _ (by decide) (by decide) ?_
        refine .safe 'J' _ _ (by decide) (by decide) (by decide) (by decide) ?_
        refine .safe '.' _ _ (by decide) (by decide) (by decide) (by decide) ?_
        refine .octet '2' '0' 2 0 _ _ (by decide) (by decide) ?_
        refine .safe 'D' _ _ (by decide) (by decide) (by decide) (by decide) ?_
        refine .octet '6' 'F' 6 15 _ _ (by decide) (by decide) ?_
        refine .safe 'e' _ _ (by decide) (by decide) (by decide) (by decide) ?_
        refine .octet '2' '2' 2 2 _ _ (by decide) (by decide) ?_
        refine .safe '@' _ _ (by decide) (by decide) (by decide) (by decide) ?_
        exact .fws c!"\r\n " _ _ (.folded [] c!" " (by simp) (by simp) (by simp [wsp])) (qp_plain (domainName_safe hd))
      have e : utf8 ((some c!"\"J. Doe\"").getD [] ++ '@' :: d) = b!"\"J. Doe\"@" ++ utf8 d := by
        rw [show (some c!"\"J. Doe\"").getD [] ++ '@' :: d = c!"\"J. Doe\"@" ++ d from rfl, utf8_append]
        rfl
      rw [e]
      exact h
  identityUnderDomain := by
    intro i hi
    injection hi with hi
    subst hi
    obtain ⟨ls, h1, h2, rfl⟩ := hd
    have hne : ls ≠ [] := by rintro rfl; simp at h1
    refine ⟨[], ls.map lower, by simpa using hne, ?_, ?_, ?_⟩
    · intro l hl
      simp only [List.nil_append] at hl
      obtain ⟨m, hm, rfl⟩ := List.mem_map.1 hl
      rw [lower_mem (by simp [letter])]
      exact subDomain_noDot (h2 m hm)
    · simp only [List.nil_append]; exact lower_joinDots ls
    · exact lower_joinDots ls
  bodyLength := ⟨l, by simp [rfcTags], hl⟩
  queryMethods := by
    intro v hv
    have : v = c!"x-my/a=3Db : dns/txt" := by
      simpa [rfcTags] using hv
    subst this
    refine ⟨[c!"x-my/a=3Db", c!"dns/txt"], ?_, c!"dns/txt", by simp, by decide⟩
    refine .more c!"x-my/a=3Db" c!" " c!" " _ c!"dns/txt" ?_ (by optfws) (by optfws) (.one _ ?_)
    · refine .args c!"x-my" c!"a=3Db" _ ?_ (.safe 'a' _ _ (by decide) (by decide) (by decide) (by decide)
        (.octet '3' 'D' 3 13 _ _ (by decide) (by decide)
          (.safe 'b' _ _ (by decide) (by decide) (by decide) (by decide) .nil))) (by decide)
      exact .more 'x' c!"-m" 'y' (by simp [letter]) (by decide) (by decide)
    · refine .args c!"dns" c!"txt" _ (.more 'd' c!"n" 's' (by decide) (by decide) (by decide)) (qp_plain (by decide)) (by decide)
  selector := ⟨c!"sel.mail", by simp [rfcTags], rfl, [c!"sel", c!"mail"], by decide, by
    intro l hl
    simp at hl
    rcases hl with rfl | rfl
    · exact .more 's' c!"e" 'l' (by decide) (by decide) (by decide)
    · exact .more 'm' c!"ai" 'l' (by decide) (by decide) (by decide), rfl⟩
  timestamp := ⟨c!"1", by simp [rfcTags], by decide, by decide, by decide, by decide⟩
  expiration := ⟨c!"000000000020", by simp [rfcTags], by decide, by decide, by decide, by decide⟩
  expirationAfter := by
    intro t x ht hx
    injection ht with ht
    injection hx with hx
    omega
  copiedHeaders := .inl ⟨z, by simp [rfcTags], hz⟩
  others := by rfl

/-- What the limits are about, for a name in ASCII. -/
theorem asciiForm_plain {d : Str} (h : Rfc.DomainName d) : Rfc.AsciiForm asciiIdna d := by
  refine ⟨?_, rfl⟩
  have : (d.all fun c => decide (c.toNat < 128)) = true := by
    rw [List.all_eq_true]
    intro c hc
    have := domainName_safe h c hc
    simp; omega
  simp only [asciiIdna, this, if_true]

def rfcDomainExample : Rfc.DomainName c!"A-1.example" :=
  ⟨[c!"A-1", c!"example"], by decide, by
    intro l hl
    simp at hl
    rcases hl with rfl | rfl
    · exact .more 'A' c!"-" '1' (by decide) (by decide) (by decide)
    · exact .more 'e' c!"xampl" 'e' (by decide) (by decide) (by decide), rfl⟩

theorem rfcCopiedExample : Rfc.CopiedFields c!"Subject : =20a|\r\n b:" [(c!"Subject", b!" a"), (c!"b", [])] := by
  refine .more c!"Subject" b!" a" c!"Subject : =20a" c!"\r\n " c!"b:" _ ?_ optFws_break (.one _ _ _ ?_)
  · exact .mk c!"Subject" c!" " c!" =20a" _ ⟨by simp, by decide⟩ optFws_space
      (.fws c!" " _ _ (.plain _ (by simp) (by simp [wsp])) (.octet '2' '0' 2 0 _ _ (by decide) (by decide)
        (.safe 'a' _ _ (by decide) (by decide) (by decide) (by decide) .nil))) (by decide)
  · exact .mk c!"b" [] [] _ ⟨by simp, by decide⟩ (.inl rfl) .nil (by simp)

theorem length_joinDots (ls : List Str) : ∀ l ∈ ls, l.length ≤ (joinDots ls).length := by
  induction ls with
  | nil => simp
  | cons m ls ih =>
    cases ls with
    | nil => simp [joinDots]
    | cons k ls =>
      have e : joinDots (m :: k :: ls) = m ++ '.' :: joinDots (k :: ls) := rfl
      intro l hl
      rw [e, List.length_append, List.length_cons]
      rcases List.mem_cons.1 hl with rfl | hl
      · omega
      · have := ih l hl
        omega

theorem fitsDns_short {s : Str} (h : s.length ≤ 63) : Rfc.FitsDns s := by
  refine ⟨by omega, ?_⟩
  rintro ls rfl - l hl
  exact Nat.le_trans (length_joinDots ls l hl) h

theorem notNumeric_of {before last : Str} (h : '.' ∉ last) (hc : ∃ c ∈ last, ¬ digit c) :
    Rfc.NotNumeric (before ++ '.' :: last) := by
  intro b l e hl
  have : last = l := lastSplit_unique (P := (· ≠ '.')) e (fun c hc h' => h (h' ▸ hc)) (fun c hc h' => hl (h' ▸ hc))
    (by simp) (by simp)
  rwa [← this]

theorem rfcLimitsExample : Rfc.Limits asciiIdna
    (rfcMeaning c!"A-1.example" 5 [(c!"Subject", b!" a"), (c!"b", [])]) where
  domain := ⟨fitsDns_short (by decide), notNumeric_of (before := c!"A-1") (last := c!"example") (by decide) (by decide),
    asciiForm_plain rfcDomainExample⟩
  selector := ⟨fitsDns_short (by decide), by decide, rfl⟩
  identity := by
    intro i hi
    injection hi with hi
    subst hi
    exact ⟨fitsDns_short (by decide), notNumeric_of (before := c!"A-1") (last := c!"example") (by decide) (by decide),
      asciiForm_plain rfcDomainExample⟩
  bodyLength := by
    intro n hn
    injection hn with hn
    subst hn
    decide
  copiedNames := by decide

/-- The text is a signature by the grammar of the RFC, with the given meaning. -/
def ByRfc (tags : List (Str × Str)) (txt : Str) (s : DkimSignature) : Prop :=
  RfcListText tags txt ∧ (tags.map (·.1)).Nodup ∧ SingleFws txt ∧ Rfc.Signature false tags s

theorem byRfc {d l z : Str} {n : Nat} {fields : List (Str × Bytes)} (hd : Rfc.DomainName d)
    (hl : Rfc.Digits 76 l n) (hz : Rfc.CopiedFields z fields)
    (hp : parseTagList (rfcText d l z) = .ok (ofPairs (rfcTags d l z))) :
    ByRfc (rfcTags d l z) (rfcText d l z) (rfcMeaning d n fields) := by
  obtain ⟨h1, h2, h3⟩ := (C22_rfc_exactly _ _).1 hp
  exact ⟨h1, h2, h3, rfcExample hd hl hz⟩

set_option maxRecDepth 8000 in
/-- Non-vacuity: a text with all the tags, whitespace in many places and encoded characters. -/
example : sigFromStr asciiIdna false (rfcText c!"A-1.example" c!"05" c!"Subject : =20a|\r\n b:") =
    .ok (rfcMeaning c!"A-1.example" 5 [(c!"Subject", b!" a"), (c!"b", [])]) := by
  obtain ⟨h1, h2, h3, h4⟩ := byRfc rfcDomainExample (n := 5) (l := c!"05") (by decide) rfcCopiedExample (by rfl)
  exact C100_reads_rfc asciiIdna asciiIdna_caseLaw false _ _ _ h1 h2 h3 h4 rfcLimitsExample

set_option maxRecDepth 8000 in
/-- C100: the limits are needed. Each of four texts is a signature by the grammar of the RFC with the
given meaning; it differs from the one above, which is read, in a single tag (and `i=`, for the
domain); but a length of 2^64, a domain name that ends with a number, and a bar in the name of a
copied header field are refused, and an equals sign in such a name is read as the start of an
encoded character. -/
theorem C100_limits_needed :
    (ByRfc (rfcTags c!"A-1.example" c!"18446744073709551616" c!"Subject : =20a|\r\n b:")
        (rfcText c!"A-1.example" c!"18446744073709551616" c!"Subject : =20a|\r\n b:")
        (rfcMeaning c!"A-1.example" (2 ^ 64) [(c!"Subject", b!" a"), (c!"b", [])]) ∧
      ∃ e, sigFromStr asciiIdna false (rfcText c!"A-1.example" c!"18446744073709551616" c!"Subject : =20a|\r\n b:") =
        .err e) ∧
    (ByRfc (rfcTags c!"a.1" c!"05" c!"Subject : =20a|\r\n b:") (rfcText c!"a.1" c!"05" c!"Subject : =20a|\r\n b:")
        (rfcMeaning c!"a.1" 5 [(c!"Subject", b!" a"), (c!"b", [])]) ∧
      ∃ e, sigFromStr asciiIdna false (rfcText c!"a.1" c!"05" c!"Subject : =20a|\r\n b:") = .err e) ∧
    (ByRfc (rfcTags c!"A-1.example" c!"05" c!"a|b:") (rfcText c!"A-1.example" c!"05" c!"a|b:")
        (rfcMeaning c!"A-1.example" 5 [(c!"a|b", [])]) ∧
      ∃ e, sigFromStr asciiIdna false (rfcText c!"A-1.example" c!"05" c!"a|b:") = .err e) ∧
    (ByRfc (rfcTags c!"A-1.example" c!"05" c!"a=41:") (rfcText c!"A-1.example" c!"05" c!"a=41:")
        (rfcMeaning c!"A-1.example" 5 [(c!"a=41", [])]) ∧
      sigFromStr asciiIdna false (rfcText c!"A-1.example" c!"05" c!"a=41:") =
        .ok (rfcMeaning c!"A-1.example" 5 [(c!"aA", [])])) := by
  refine ⟨⟨byRfc rfcDomainExample (by decide) rfcCopiedExample (by rfl), _, rfl⟩,
    ⟨byRfc ?_ (by decide) rfcCopiedExample (by rfl), _, rfl⟩,
    ⟨byRfc rfcDomainExample (by decide) (.one _ _ _ ?_) (by rfl), _, rfl⟩,
    ⟨byRfc rfcDomainExample (by decide) (.one _ _ _ ?_) (by rfl), rfl⟩⟩
  · refine ⟨[c!"a", c!"1"], by decide, ?_, rfl⟩
    intro l hl
    simp at hl
    rcases hl with rfl | rfl
    · exact .one 'a' (by decide)
    · exact .one '1' (by decide)
  · exact .mk c!"a|b" [] [] _ ⟨by simp, by decide⟩ (.inl rfl) .nil (by simp)
  · exact .mk c!"a=41" [] [] _ ⟨by simp, by decide⟩ (.inl rfl) .nil (by simp)

end Dkim
