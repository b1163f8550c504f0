import Verif.Proofs.Sign
import Verif.Proofs.Signature

/-!
# Parsing of formatted signatures: helper lemmas for C15 and C37
-/

namespace Dkim

open Spec

variable {ix : Idna} {u : UnsignedSig}

/-! ## Whitespace -/

theorem unfws_append (a b : Str) : unfws (a ++ b) = unfws a ++ unfws b := by
  unfold unfws
  exact List.filter_append ..

theorem unfws_of_clean {s : Str} (h : Clean s) : unfws s = s := by
  unfold unfws
  rw [List.filter_eq_self]
  intro c hc
  have := h c hc
  unfold fwsChar at this
  simpa [and_assoc] using this

theorem unfws_fws {f : Str} (h : Fws f) : unfws f = [] := by
  unfold unfws
  rw [List.filter_eq_nil_iff]
  have hw : ∀ c, wsp c → (!(c == ' ' || c == '\t' || c == '\r' || c == '\n')) = false := by
    rintro c (rfl | rfl) <;> rfl
  cases h with
  | plain _ hne hv =>
    intro c hc
    rw [hw c (hv c hc)]
    simp
  | folded v w hv hne hw' =>
    intro c hc
    simp only [List.mem_append, List.mem_cons] at hc
    rcases hc with hc | rfl | rfl | hc
    · rw [hw c (hv c hc)]; simp
    · decide
    · decide
    · rw [hw c (hw' c hc)]; simp

theorem unfws_optFws {f : Str} (h : OptFws f) : unfws f = [] := by
  rcases h with rfl | h
  · rfl
  · exact unfws_fws h

theorem unfws_folded {brk s t : Str} (hbrk : Fws brk) (h : Folded brk s t) (hs : Clean s) : unfws t = s := by
  induction h with
  | nil => rfl
  | keep c s t _ ih =>
    have := unfws_append [c] t
    rw [unfws_of_clean (s := [c]) (fun d hd => hs d (by simp at hd; simp [hd])), ih hs.tail] at this
    simpa using this
  | fold c s t _ ih =>
    have := unfws_append [c] t
    rw [unfws_of_clean (s := [c]) (fun d hd => hs d (by simp at hd; simp [hd])), ih hs.tail] at this
    rw [unfws_append, unfws_fws hbrk]
    simpa using this

theorem valChar_clean {s : Str} (h : ∀ c ∈ s, valChar c) : Clean s := by
  intro c hc hf
  have := h c hc
  unfold valChar at this
  rcases hf with rfl | rfl | rfl | rfl <;> revert this <;> decide

theorem folded_mem {brk s t : Str} (h : Folded brk s t) : ∀ c ∈ t, c ∈ s ∨ c ∈ brk := by
  induction h with
  | nil => simp
  | keep c s t _ ih =>
    intro d hd
    rcases List.mem_cons.1 hd with rfl | hd
    · simp
    · rcases ih d hd with h | h <;> simp [h]
  | fold c s t _ ih =>
    intro d hd
    rcases List.mem_append.1 hd with hd | hd
    · exact .inr hd
    · rcases List.mem_cons.1 hd with rfl | hd
      · simp
      · rcases ih d hd with h | h <;> simp [h]

/-! ## Values of the tags -/

theorem natToStr_val (n : Nat) : decimalVal (natToStr n) = n := by
  have h := Nat.ofDigitChars_toDigits (b := 10) (n := n) (by decide) (by decide)
  rw [Nat.ofDigitChars_eq_foldl] at h
  rw [← digitsVal_eq]
  unfold digitsVal natToStr
  have e : (fun (a : Nat) (c : Char) => a * 10 + (c.toNat - 48)) =
      fun a c => 10 * a + (c.toNat - '0'.toNat) := by
    funext a c
    rw [Nat.mul_comm]
    rfl
  rw [e]
  exact h

theorem natToStr_decimal {n : Nat} (h : n < 2 ^ 64) : Decimal (natToStr n) n :=
  ⟨(natToStr_digits n).1, (natToStr_digits n).2, (natToStr_val n).symm, h⟩

/-- A number is read back as it was written. -/
theorem natToStr_plusDecimal {n m : Nat} : PlusDecimal (natToStr n) m ↔ m = n ∧ n < 2 ^ 64 := by
  constructor
  · rintro (h | ⟨ds, e, _⟩)
    · obtain ⟨_, _, h1, h2⟩ := h
      rw [natToStr_val] at h1
      subst h1
      exact ⟨rfl, h2⟩
    · exfalso
      have := (natToStr_digits n).2 '+' (by rw [e]; simp)
      revert this
      unfold digit
      decide
  · rintro ⟨rfl, h⟩
    exact .inl (natToStr_decimal h)

theorem hRest_colonList {brk t : Str} {ns : List Str} (hbrk : Fws brk) (h : HRest brk ns t) :
    ∀ f n, OptFws f → ColonList (n :: ns) (f ++ n ++ t) := by
  induction h with
  | nil =>
    intro f n hf
    exact .one f n [] hf (.inl rfl)
  | plain m ns t _ ih =>
    intro f n hf
    have := ColonList.more f n [] _ _ hf (.inl rfl) (ih [] m (.inl rfl))
    simpa using this
  | fold m ns t _ ih =>
    intro f n hf
    have := ColonList.more f n [] _ _ hf (.inl rfl) (ih brk m (.inr hbrk))
    simpa using this

theorem hText_colonList {brk t : Str} {ns : List Str} (hbrk : Fws brk) (h : HText brk ns t) : ColonList ns t := by
  cases h with
  | mk n ns t h => simpa using hRest_colonList hbrk h [] n (.inl rfl)

theorem hexDigit_hexVal (n : Nat) (h : n < 16) : HexVal (hexDigit n) n :=
  (hexVal_spec _ _).1 (hexDigit_facts n h).1

theorem qpText_qpBytes {safe : Char → Bool} (hsafe : ∀ c, safe c = true → isDkimSafe c = true) {s : Str}
    {bs : Bytes} (h : QpText safe s bs) : QpBytes s bs := by
  induction h with
  | nil => exact .nil
  | char c s bs hc _ ih =>
    rw [← utf8_single]
    exact .char _ _ _ ((dkimSafe_iff c).1 (hsafe c hc)) ih
  | hex b s bs _ ih =>
    have hb := b.toNat_lt
    have := QpBytes.hex _ _ _ _ s bs (hexDigit_hexVal (b.toNat / 16) (by omega))
      (hexDigit_hexVal (b.toNat % 16) (by omega)) ih
    rw [show b.toNat / 16 * 16 + b.toNat % 16 = b.toNat by omega, UInt8.ofNat_toNat] at this
    exact this

theorem qpBytes_append {s t : Str} {a b : Bytes} (h : QpBytes s a) (h' : QpBytes t b) :
    QpBytes (s ++ t) (a ++ b) := by
  induction h with
  | nil => exact h'
  | char c s bs hc _ ih =>
    rw [List.append_assoc]
    exact .char _ _ _ hc ih
  | hex x y m n s bs hx hy _ ih => exact .hex _ _ _ _ _ _ hx hy ih

theorem qpBytes_plain {s : Str} (h : ∀ c ∈ s, dkimSafe c) : QpBytes s (utf8 s) := by
  induction s with
  | nil => exact .nil
  | cons c s ih =>
    rw [utf8_cons, ← utf8_single]
    exact .char _ _ _ (h c (by simp)) (ih (fun d hd => h d (List.mem_cons_of_mem _ hd)))

theorem qpEncode_qpBytes (bs : Bytes) (special : Option Char) (a : Bool) :
    QpBytes (qpEncode bs special a) bs :=
  qpText_qpBytes (fun _ h => (qpSafe_safe h).1) (qpEncode_text bs special a)

/-- The domain in the text written for an identity. -/
theorem identityForm_text (law : IdnaLaw ix) {ascii : Bool} {i : Identity} {t p : Str}
    (hi : ValidDomain true ix i.domain) (hp : domainForm ix ascii i.domain = some p)
    (h : identityForm ix ascii i = some t) :
    QpBytes (unfws t) (utf8 (identityText ⟨i.localPart, p⟩)) := by
  obtain ⟨p', h1, h2, h3, h4⟩ := domainForm_fine law hi ascii
  rw [hp] at h1
  injection h1 with h1
  subst h1
  unfold identityForm at h
  rw [hp] at h
  injection h with h
  subst h
  have hdom : QpBytes ('@' :: p) (utf8 ('@' :: p)) := by
    refine qpBytes_plain ?_
    intro c hc
    rcases List.mem_cons.1 hc with rfl | hc
    · unfold dkimSafe; decide
    · exact (domainChar_valChar (h4 c hc)).2.1
  have hclean : Clean ('@' :: p) := by
    refine valChar_clean ?_
    intro c hc
    rcases List.mem_cons.1 hc with rfl | hc
    · exact at_valChar
    · exact (domainChar_valChar (h4 c hc)).1
  rw [unfws_append, unfws_of_clean hclean]
  unfold identityText
  rw [utf8_append]
  refine qpBytes_append ?_ hdom
  cases i.localPart with
  | none => exact .nil
  | some l =>
    simp only [Option.getD_some]
    rw [unfws_of_clean (valChar_clean (qpEncode_valChars _ _ _))]
    exact qpEncode_qpBytes _ _ _

theorem bar_noFws : ¬ fwsChar '|' := by
  rintro (h | h | h | h) <;> exact absurd h (by decide)

theorem qpText_noSpecial {x : Char} {a : Bool} {s : Str} {bs : Bytes}
    (h : QpText (qpSafe (some x) a) s bs) (hx : x ≠ '=') (hh : isAsciiHexdigit x = false) : x ∉ s := by
  induction h with
  | nil => simp
  | char c s bs hc _ ih =>
    have := (qpSafe_safe hc).2.1
    intro hm
    rcases List.mem_cons.1 hm with rfl | hm
    · exact this rfl
    · exact ih hm
  | hex b s bs _ ih =>
    have hb := b.toNat_lt
    have h1 := (hexDigit_facts (b.toNat / 16) (by omega)).2.1
    have h2 := (hexDigit_facts (b.toNat % 16) (by omega)).2.1
    intro hm
    simp only [List.mem_cons] at hm
    rcases hm with hm | hm | hm | hm
    · exact hx hm
    · rw [hm, h1] at hh; cases hh
    · rw [hm, h2] at hh; cases hh
    · exact ih hm

/-! ## Inversion of the text of a tag -/

section
variable {ascii : Bool} {brk bText n t : Str}

theorem tagText_inv (h : TagText ix u ascii brk bText n t) :
    (n = c!"a" ∧ t = u.algorithm.canonicalStr) ∨ (n = c!"b" ∧ t = bText) ∨
    (n = c!"bh" ∧ Folded brk (encodeBase64 u.bodyHash) t) ∨
    (n = c!"c" ∧ u.canonicalization ≠ ⟨.simple, .simple⟩ ∧ t = canonStr u.canonicalization) ∨
    (n = c!"d" ∧ domainForm ix ascii u.domain = some t) ∨ (n = c!"h" ∧ HText brk u.signedHeaders t) ∨
    (n = c!"i" ∧ ∃ i, u.identity = some i ∧ identityForm ix ascii i = some t) ∨
    (n = c!"l" ∧ ∃ k, u.bodyLength = some k ∧ t = natToStr k) ∨
    (n = c!"s" ∧ domainForm ix ascii u.selector = some t) ∨
    (n = c!"t" ∧ ∃ k, u.timestamp = some k ∧ t = natToStr k) ∨ (n = c!"v" ∧ t = c!"1") ∨
    (n = c!"x" ∧ ∃ k, u.expiration = some k ∧ t = natToStr k) ∨
    (n = c!"z" ∧ ZText brk ascii u.copiedHeaders t) ∨ (isOutputTag n = false ∧ (n, t) ∈ u.extTags) := by
  cases h with
  | a => simp
  | b => simp
  | bh t ht => simp [ht]
  | c hc => simp [hc]
  | d t ht => simp [ht]
  | h t ht => simp [ht]
  | i i t hi ht => simp [hi, ht]
  | l k hk => simp [hk]
  | s t ht => simp [ht]
  | t k hk => simp [hk]
  | v => simp
  | x k hk => simp [hk]
  | z t ht => simp [ht]
  | ext n v hn hm => simp [hn, hm]

end

/-! ## The tags of the formatted text -/

/-- What is needed in addition to `SigFine` for the text to be parsed. -/
structure Reads (ix : Idna) (pre : Bool) (u : UnsignedSig) : Prop where
  alg : u.algorithm = .rsaSha1 → pre = true
  hash_ne : u.bodyHash ≠ []
  from_signed : ∃ n ∈ u.signedHeaders, lower n = c!"from"
  localPart : ∀ i l, u.identity = some i → i.localPart = some l → l = [] ∨ LocalPart l
  length : ∀ n, u.bodyLength = some n → n < 2 ^ 64
  timestamp : ∀ n, u.timestamp = some n → n < 2 ^ 64
  expiration : ∀ n, u.expiration = some n → n < 2 ^ 64
  query : ∀ v, (c!"q", v) ∈ u.extTags → QueryText v
  order : ∀ t x, u.timestamp = some t → u.expiration = some x → t < x

/-- The tags were made from the data. -/
structure TagsOf (ix : Idna) (u : UnsignedSig) (ascii : Bool) (brk bText : Str) (tags : List (Str × Str)) :
    Prop where
  names : (tags.map (·.1)).Perm (tagNamesUnsorted u)
  origin : ∀ x ∈ tags, Origin ix u ascii brk bText x

section
variable {ascii : Bool} {brk bText : Str} {tags : List (Str × Str)}

theorem TagsOf.mem (h : TagsOf ix u ascii brk bText tags) {n : Str} (hn : n ∈ fixedNames u) :
    ∃ v, (n, v) ∈ tags := by
  have : n ∈ tags.map (·.1) := h.names.mem_iff.2 (by rw [tagNamesUnsorted_eq]; simp [hn])
  obtain ⟨⟨a, v⟩, h1, rfl⟩ := List.mem_map.1 this
  exact ⟨v, h1⟩

theorem TagsOf.not_mem (hf : SigFine ix u) (h : TagsOf ix u ascii brk bText tags) {n : Str}
    (hn : n ∉ fixedNames u) (ho : isOutputTag n = true) (v : Str) : (n, v) ∉ tags := by
  intro hm
  have : n ∈ tagNamesUnsorted u := h.names.mem_iff.1 (List.mem_map.2 ⟨_, hm, rfl⟩)
  rw [tagNamesUnsorted_eq, List.mem_append] at this
  rcases this with h1 | h1
  · exact hn h1
  · obtain ⟨t, ht, rfl⟩ := List.mem_map.1 h1
    rw [(hf.ext t ht).2.2] at ho
    cases ho

theorem TagsOf.text (h : TagsOf ix u ascii brk bText tags) {n v : Str} (hm : (n, v) ∈ tags)
    (h1 : n ≠ c!"b") (h2 : n ≠ c!"bh") : TagText ix u ascii brk bText n v := by
  obtain ⟨f, t, _, g2, g3, g4⟩ := h.origin _ hm
  have := g4 h1 h2
  subst this
  simp only [List.nil_append] at g2
  subst g2
  exact g3

theorem isOutputTag_known {n : Str} (h : isOutputTag n = true) : knownTags.contains n = true := by
  unfold isOutputTag at h
  simp only [List.contains_iff_mem, List.mem_cons, List.not_mem_nil, or_false] at h
  rcases h with rfl | rfl | rfl | rfl | rfl | rfl | rfl | rfl | rfl | rfl | rfl | rfl | rfl <;> rfl

theorem not_output {n : Str} (h : isOutputTag n = false) : knownTags.contains n = true ↔ n = c!"q" := by
  constructor
  · intro h1
    unfold isOutputTag at h
    simp only [knownTags, List.contains_iff_mem, List.mem_cons, List.not_mem_nil, or_false] at h1
    rcases h1 with rfl | rfl | rfl | rfl | rfl | rfl | rfl | rfl | rfl | rfl | rfl | rfl | rfl | rfl
    all_goals first | rfl | (exfalso; revert h; decide)
  · rintro rfl; rfl

/-- The extension tags of the text are those of the data. -/
theorem TagsOf.ext_mem (h : TagsOf ix u ascii brk bText tags) {n v : Str} (hm : (n, v) ∈ tags)
    (ho : isOutputTag n = false) : (n, v) ∈ u.extTags := by
  have h1 := h.text hm (by rintro rfl; revert ho; decide) (by rintro rfl; revert ho; decide)
  rcases tagText_inv h1 with ⟨e, _⟩ | ⟨e, _⟩ | ⟨e, _⟩ | ⟨e, _⟩ | ⟨e, _⟩ | ⟨e, _⟩ | ⟨e, _⟩ | ⟨e, _⟩ | ⟨e, _⟩ |
    ⟨e, _⟩ | ⟨e, _⟩ | ⟨e, _⟩ | ⟨e, _⟩ | ⟨_, h⟩
  all_goals first | exact h | (exfalso; subst e; revert ho; decide)

theorem pairs_eq_map {l m : List (Str × Str)} (hm : (m.map (·.1)).Nodup) (h : ∀ x ∈ l, x ∈ m) :
    l = (l.map (·.1)).map fun n => (n, ((m.find? fun t => t.1 == n).map (·.2)).getD []) := by
  rw [List.map_map]
  conv => lhs; rw [← List.map_id l]
  refine List.map_congr_left ?_
  intro x hx
  have hmem := h x hx
  clear h hx
  induction m with
  | nil => cases hmem
  | cons y m ih =>
    rw [List.map_cons, List.nodup_cons] at hm
    simp only [Function.comp, id, List.find?_cons]
    rcases List.mem_cons.1 hmem with rfl | hmem
    · simp
    · have hne : (y.1 == x.1) = false := by
        rw [beq_eq_false_iff_ne]
        intro e
        exact hm.1 (e ▸ List.mem_map_of_mem hmem)
      rw [hne]
      exact ih hm.2 hmem

theorem map_filter_fst (p : Str → Bool) (l : List (Str × Str)) :
    (l.filter fun t => p t.1).map (·.1) = (l.map (·.1)).filter p := by
  rw [List.filter_map]
  rfl

theorem ext_names_filter (hf : SigFine ix u) :
    (tagNamesUnsorted u).filter (fun n => !knownTags.contains n) =
      (u.extTags.filter fun t => t.1 != c!"q").map (·.1) := by
  rw [tagNamesUnsorted_eq, List.filter_append]
  have e1 : (fixedNames u).filter (fun n => !knownTags.contains n) = [] := by
    rw [List.filter_eq_nil_iff]
    intro n hn
    rw [isOutputTag_known (fixedNames_output u n hn)]
    simp
  rw [e1, List.nil_append, map_filter_fst (fun n => n != c!"q")]
  refine List.filter_congr ?_
  intro n hn
  obtain ⟨t, ht, rfl⟩ := List.mem_map.1 hn
  have := not_output (hf.ext t ht).2.2
  rw [Bool.eq_iff_iff]
  simp only [Bool.not_eq_true', bne_iff_ne, ne_eq]
  rw [← this]
  simp

theorem filter_keys_nodup {l : List (Str × Str)} (h : (l.map (·.1)).Nodup) (p : Str → Bool) :
    ((l.filter fun t => p t.1).map (·.1)).Nodup := by
  rw [map_filter_fst]
  exact h.sublist List.filter_sublist

/-- The extension tags of the text, all but `q`, in some order, -/
theorem TagsOf.ext_perm (hf : SigFine ix u) (h : TagsOf ix u ascii brk bText tags) :
    (tags.filter fun t => !knownTags.contains t.1).Perm (u.extTags.filter fun t => t.1 != c!"q") := by
  have hsub : ∀ x ∈ tags.filter (fun t => !knownTags.contains t.1),
      x ∈ u.extTags.filter fun t => t.1 != c!"q" := by
    intro x hx
    obtain ⟨h1, h2⟩ := List.mem_filter.1 hx
    have ho : isOutputTag x.1 = false := by
      rw [← Bool.not_eq_true]
      intro e
      rw [isOutputTag_known e] at h2
      cases h2
    refine List.mem_filter.2 ⟨h.ext_mem (n := x.1) (v := x.2) h1 ho, ?_⟩
    rw [bne_iff_ne]
    intro e
    rw [e] at h2
    exact absurd h2 (by decide)
  have hnd : ((u.extTags.filter fun t => t.1 != c!"q").map (·.1)).Nodup :=
    filter_keys_nodup hf.ext_nodup (fun n => n != c!"q")
  have hp : ((tags.filter fun t => !knownTags.contains t.1).map (·.1)).Perm
      ((u.extTags.filter fun t => t.1 != c!"q").map (·.1)) := by
    rw [map_filter_fst (fun n => !knownTags.contains n), ← ext_names_filter hf]
    exact h.names.filter _
  have e2 := pairs_eq_map hnd (fun x hx => hx)
  have := hp.map fun n =>
    (n, (((u.extTags.filter fun t => t.1 != c!"q").find? fun t => t.1 == n).map (·.2)).getD [])
  rw [← e2, ← pairs_eq_map hnd hsub] at this
  exact this

/-- and in the given order if the names are. -/
theorem TagsOf.ext_eq (hf : SigFine ix u) (h : TagsOf ix u ascii brk bText tags)
    (hn : tags.map (·.1) = tagNamesUnsorted u) :
    tags.filter (fun t => !knownTags.contains t.1) = u.extTags.filter fun t => t.1 != c!"q" := by
  have hsub : ∀ x ∈ tags.filter (fun t => !knownTags.contains t.1),
      x ∈ u.extTags.filter fun t => t.1 != c!"q" := by
    intro x hx
    exact (h.ext_perm hf).mem_iff.1 hx
  have hnd : ((u.extTags.filter fun t => t.1 != c!"q").map (·.1)).Nodup :=
    filter_keys_nodup hf.ext_nodup (fun n => n != c!"q")
  rw [pairs_eq_map hnd hsub, map_filter_fst (fun n => !knownTags.contains n), hn, ext_names_filter hf,
    ← pairs_eq_map hnd (fun x hx => hx)]

theorem underDomain_congr {d d' e e' : Str} (hd : ix.toAscii d' = ix.toAscii d)
    (he : ix.toAscii e' = ix.toAscii e) (h : UnderDomain ix d e) : UnderDomain ix d' e' := by
  obtain ⟨more, ls, a, b, h1, h2, h3⟩ := h
  exact ⟨more, ls, a, b, hd.trans h1, he.trans h2, h3⟩

theorem base64_clean (bs : Bytes) : Clean (encodeBase64 bs) := valChar_clean (base64_valChars bs)

/-- How a local part is read: empty is the same as absent. -/
def dropEmpty (l : Option Str) : Option Str := if l = some [] then none else l

theorem dropEmpty_getD (l : Option Str) : (dropEmpty l).getD [] = l.getD [] := by
  unfold dropEmpty
  split
  · next h => rw [h]; rfl
  · rfl

/-- The data that the text stands for. -/
def readData (u : UnsignedSig) (sig : Bytes) (pd ps : Str) (pi : Option Identity) (cz : List (Str × Bytes))
    (ext : List (Str × Str)) : DkimSignature :=
  { withSignature u sig with
    domain := pd, selector := ps, identity := pi, copiedHeaders := cz, extTags := ext }

/-- The text stands for the data. -/
theorem tags_signature (law : IdnaLaw ix) (hf : SigFine ix u) {pre : Bool} (hr : Reads ix pre u)
    (hbrk : Fws brk) (h : TagsOf ix u ascii brk bText tags) {sig : Bytes} (hsig : sig ≠ [])
    (hb : Folded brk (encodeBase64 sig) bText) {pd ps : Str} (hpd : domainForm ix ascii u.domain = some pd)
    (d2 : ValidDomain true ix pd) (hps : domainForm ix ascii u.selector = some ps) (s2 : ValidDomain false ix ps)
    {pi : Option Identity}
    (hpi : ∀ i, u.identity = some i → ∃ p, domainForm ix ascii i.domain = some p ∧
      pi = some ⟨dropEmpty i.localPart, p⟩ ∧ ValidDomain true ix p ∧ UnderDomain ix p pd)
    (hpn : u.identity = none → pi = none) {cz : List (Str × Bytes)}
    (hz : ∀ t, ZText brk ascii u.copiedHeaders t → CopiedText t cz) (hz0 : u.copiedHeaders = [] → cz = []) :
    SignatureOf ix pre tags
      (readData u sig pd ps pi cz (tags.filter fun t => !knownTags.contains t.1)) := by
  have get : ∀ n, n ∈ fixedNames u → n ≠ c!"b" → n ≠ c!"bh" →
      ∃ v, (n, v) ∈ tags ∧ TagText ix u ascii brk bText n v := by
    intro n hn h1 h2
    obtain ⟨v, hv⟩ := h.mem hn
    exact ⟨v, hv, h.text hv h1 h2⟩
  have inv := fun {n v : Str} (ht : TagText ix u ascii brk bText n v) => tagText_inv ht
  have b64 : ∀ {n f t v : Str} {bs : Bytes}, OptFws f → t = f ++ v → Folded brk (encodeBase64 bs) t → bs ≠ [] →
      Base64Text v bs := by
    intro n f t v bs h1 h2 h3 h4
    refine ⟨h4, ?_⟩
    have := unfws_folded hbrk h3 (base64_clean bs)
    rw [h2, unfws_append, unfws_optFws h1, List.nil_append] at this
    rw [this, C20_base64_rfc4648]
  have num : ∀ {n : Str} {o : Option Nat}, (n = c!"l" ∨ n = c!"t" ∨ n = c!"x") →
      (∀ k, o = some k → n ∈ fixedNames u) → (o = none → n ∉ fixedNames u) →
      (∀ v, TagText ix u ascii brk bText n v → ∃ k, o = some k ∧ v = natToStr k) →
      (∀ k, o = some k → k < 2 ^ 64) → Optional tags n PlusDecimal o := by
    intro n o hn h1 h2 h3 h4
    have hb1 : n ≠ c!"b" ∧ n ≠ c!"bh" ∧ isOutputTag n = true := by
      rcases hn with rfl | rfl | rfl <;> decide
    cases o with
    | none => exact fun v => h.not_mem hf (h2 rfl) hb1.2.2 v
    | some k =>
      obtain ⟨v, g1, g2⟩ := get n (h1 k rfl) hb1.1 hb1.2.1
      obtain ⟨k', e1, e2⟩ := h3 v g2
      injection e1 with e1
      subst e1
      subst e2
      exact ⟨_, g1, .inl (natToStr_decimal (h4 _ rfl))⟩
  constructor
  · -- v
    obtain ⟨v, g1, g2⟩ := get c!"v" ((mem_fixedNames _).2 (by simp)) (by decide) (by decide)
    have := inv g2
    simp [isOutputTag] at this
    rwa [this] at g1
  · -- a
    obtain ⟨v, g1, g2⟩ := get c!"a" ((mem_fixedNames _).2 (by simp)) (by decide) (by decide)
    have := inv g2
    simp [isOutputTag] at this
    refine ⟨v, g1, ?_⟩
    subst this
    show AlgText pre _ u.algorithm
    have ha := hr.alg
    cases e : u.algorithm with
    | rsaSha1 => exact .inr (.inr ⟨ha e, rfl, rfl⟩)
    | rsaSha256 => exact .inl ⟨rfl, rfl⟩
    | ed25519Sha256 => exact .inr (.inl ⟨rfl, rfl⟩)
  · -- b
    obtain ⟨v, hv⟩ := h.mem (n := c!"b") ((mem_fixedNames _).2 (by simp))
    obtain ⟨f, t, g1, g2, g3, _⟩ := h.origin _ hv
    have := inv g3
    simp [isOutputTag] at this
    subst this
    exact ⟨v, hv, b64 (n := c!"b") g1 g2 hb hsig⟩
  · -- bh
    obtain ⟨v, hv⟩ := h.mem (n := c!"bh") ((mem_fixedNames _).2 (by simp))
    obtain ⟨f, t, g1, g2, g3, _⟩ := h.origin _ hv
    have := inv g3
    simp [isOutputTag] at this
    exact ⟨v, hv, b64 (n := c!"bh") g1 g2 this hr.hash_ne⟩
  · -- c
    by_cases hc : u.canonicalization = ⟨.simple, .simple⟩
    · exact .inr ⟨fun v => h.not_mem hf (by rw [mem_fixedNames]; simp [hc]) rfl v, hc⟩
    · left
      obtain ⟨v, g1, g2⟩ := get c!"c" ((mem_fixedNames _).2 (by simp [hc])) (by decide) (by decide)
      have := inv g2
      simp [isOutputTag] at this
      refine ⟨v, g1, ?_⟩
      rw [this.2]
      show CanonText _ u.canonicalization
      revert hc
      generalize u.canonicalization = c
      obtain ⟨hd, bd⟩ := c
      cases hd <;> cases bd <;> intro hne
      · exact absurd rfl hne
      · exact .inl rfl
      · exact .inr ⟨rfl, rfl⟩
      · exact .inl rfl
  · -- d
    obtain ⟨v, g1, g2⟩ := get c!"d" ((mem_fixedNames _).2 (by simp)) (by decide) (by decide)
    have := inv g2
    simp [isOutputTag] at this
    rw [hpd] at this
    injection this with this
    subst this
    exact ⟨_, g1, rfl, d2⟩
  · -- h
    obtain ⟨v, g1, g2⟩ := get c!"h" ((mem_fixedNames _).2 (by simp)) (by decide) (by decide)
    have := inv g2
    simp [isOutputTag] at this
    exact ⟨_, g1, hText_colonList hbrk this, fun n hn => (hf.headers n hn).1, hr.from_signed⟩
  · -- i
    show Optional tags _ _ pi
    cases hi : u.identity with
    | none =>
      rw [hpn hi]
      exact fun v => h.not_mem hf (by rw [mem_fixedNames]; simp [hi]) rfl v
    | some i =>
      obtain ⟨p, p1, p2, i2, _⟩ := hpi i hi
      obtain ⟨p', i1, _, _, i4⟩ := domainForm_fine law (hf.identity i hi) ascii
      rw [p1] at i1
      injection i1 with i1
      subst i1
      rw [p2]
      obtain ⟨v, g1, g2⟩ := get c!"i" ((mem_fixedNames _).2 (by simp [hi])) (by decide) (by decide)
      have := inv g2
      simp [isOutputTag, hi] at this
      have ht := identityForm_text law (hf.identity i hi) p1 this
      have et : identityText ⟨dropEmpty i.localPart, p⟩ = identityText ⟨i.localPart, p⟩ := by
        simp only [identityText, dropEmpty_getD]
      refine ⟨_, g1, ⟨fun l hl => ?_, i2, ?_⟩, by rw [et]; exact ht⟩
      · unfold dropEmpty at hl
        rcases ite_eq_cases hl with ⟨_, hl⟩ | ⟨hne, hl⟩
        · cases hl
        · rcases hr.localPart i l hi hl with rfl | h
          · exact absurd hl hne
          · exact h
      intro hm
      exact (domainChar_valChar (i4 _ hm)).2.2 rfl
  · -- l
    refine num (o := u.bodyLength) (.inl rfl) (fun k hk => (mem_fixedNames _).2 (by simp [hk])) ?_ ?_ hr.length
    · intro ho
      rw [mem_fixedNames]
      have : u.bodyLength = none := ho
      simp [this]
    · intro v ht
      have := inv ht
      simp [isOutputTag] at this
      exact this
  · -- q
    intro v hv
    exact hr.query v (h.ext_mem hv rfl)
  · -- s
    obtain ⟨v, g1, g2⟩ := get c!"s" ((mem_fixedNames _).2 (by simp)) (by decide) (by decide)
    have := inv g2
    simp [isOutputTag] at this
    rw [hps] at this
    injection this with this
    subst this
    exact ⟨_, g1, rfl, s2⟩
  · -- t
    refine num (o := u.timestamp) (.inr (.inl rfl)) (fun k hk => (mem_fixedNames _).2 (by simp [hk])) ?_ ?_ hr.timestamp
    · intro ho
      rw [mem_fixedNames]
      have : u.timestamp = none := ho
      simp [this]
    · intro v ht
      have := inv ht
      simp [isOutputTag] at this
      exact this
  · -- x
    refine num (o := u.expiration) (.inr (.inr rfl)) (fun k hk => (mem_fixedNames _).2 (by simp [hk])) ?_ ?_ hr.expiration
    · intro ho
      rw [mem_fixedNames]
      have : u.expiration = none := ho
      simp [this]
    · intro v ht
      have := inv ht
      simp [isOutputTag] at this
      exact this
  · -- z
    by_cases hc : u.copiedHeaders = []
    · exact .inr ⟨fun v => h.not_mem hf (by rw [mem_fixedNames]; simp [hc]) rfl v, hz0 hc⟩
    · left
      obtain ⟨v, g1, g2⟩ := get c!"z" ((mem_fixedNames _).2 (by simp [hc])) (by decide) (by decide)
      have := inv g2
      simp [isOutputTag] at this
      exact ⟨v, g1, hz v this⟩
  · rfl
  · intro j hj
    cases hi : u.identity with
    | none =>
      have : pi = some j := hj
      rw [hpn hi] at this
      cases this
    | some i =>
      obtain ⟨p, p1, p2, _, i3⟩ := hpi i hi
      have : pi = some j := hj
      rw [p2] at this
      injection this with this
      subst this
      exact i3
  · exact hr.order

end

end Dkim
