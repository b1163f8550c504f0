import Verif.Model.Asserts
import Verif.Proofs.Slices
import Verif.Proofs.Signature
import Verif.Proofs.SignRequest
import Verif.Proofs.Domain
import Verif.Proofs.Errors
import Verif.Proofs.Rfc5322
import Verif.Proofs.Strip
import Verif.Proofs.FormatText

/-! # Lemmas: debug assertions, parsing -/

namespace Dkim
open Spec

/-! ## Domain names -/

theorem isLabelD_eq {s : Str} (h : '.' ∉ s) : isLabelD s = some (isLabel s) := by
  unfold isLabelD
  rw [if_neg (by simpa using h)]

theorem allLabelsD_eq {ls : List Str} (h : ∀ l ∈ ls, '.' ∉ l) : allLabelsD ls = some (ls.all isLabel) := by
  induction ls with
  | nil => rfl
  | cons l ls ih =>
    rw [allLabelsD, isLabelD_eq (h l (by simp)), List.all_cons]
    cases isLabel l with
    | false => rfl
    | true => simp only [Bool.true_and]; exact ih fun x hx => h x (by simp [hx])

theorem isValidDnsNameD_eq (s : Str) (checkTld : Bool) :
    isValidDnsNameD s checkTld = some (isValidDnsName s checkTld) := by
  unfold isValidDnsNameD isValidDnsName
  have hs : ∀ p ∈ (splitOn '.' s).reverse, '.' ∉ p := by
    intro p hp; exact splitOn_not_mem '.' s p (List.mem_reverse.1 hp)
  have hne : (splitOn '.' s).reverse ≠ [] := by
    rw [Ne, List.reverse_eq_nil_iff]
    cases s with
    | nil => simp [splitOn]
    | cons c r => rw [splitOn]; split <;> (try split) <;> simp
  cases hasValidDomainLen s with
  | false => rfl
  | true =>
    simp only [Bool.not_true, Bool.false_eq_true, if_false]
    cases e : (splitOn '.' s).reverse with
    | nil => exact absurd e hne
    | cons l ls =>
      rw [e] at hs
      have h1 : ∀ x ∈ ls, '.' ∉ x := fun x hx => hs x (List.mem_cons_of_mem _ hx)
      simp only [isLabelD_eq (hs l (by simp)), allLabelsD_eq h1]
      split <;> rfl

theorem isValidDomainStringD_eq (ix : Idna) (s : Str) (checkTld : Bool) :
    isValidDomainStringD ix s checkTld = some (isValidDomainString ix s checkTld) := by
  unfold isValidDomainStringD isValidDomainString
  cases ix.toAscii s with
  | none => rfl
  | some a => simp only [isValidDnsNameD_eq]; rfl

theorem Identity.newD_eq (ix : Idna) (s : Str) : Identity.newD ix s = some (Identity.new ix s) := by
  unfold Identity.newD Identity.new isValidDomainName
  cases rsplitOnce '@' s with
  | none => rfl
  | some p =>
    obtain ⟨l, d⟩ := p
    simp only [isValidDomainStringD_eq, Option.map_some]
    split
    · rfl
    · split <;> rfl

/-! ## Tag values -/

theorem isTagValue_of {v : Str} (h : IsValue v) : isTagValue v = true := (isTagValue_iff v).2 h

theorem parseColonSeparatedD_eq {v : Str} (h : IsValue v) :
    parseColonSeparatedD v = some (parseColonSeparated v) := by
  unfold parseColonSeparatedD; rw [if_pos (isTagValue_of h)]

theorem parseBase64ValueD_eq {v : Str} (h : IsValue v) :
    parseBase64ValueD v = some (parseBase64Value v) := by
  unfold parseBase64ValueD; rw [if_pos (isTagValue_of h)]

theorem parseQpSectionD_eq {v : Str} (h : IsValue v) : parseQpSectionD v = qpSectionDecode v := by
  unfold parseQpSectionD; rw [if_pos (isTagValue_of h), qpSectionLoopAt_eq]; rfl

theorem parseQpD_eq {v : Str} (h : IsValue v) : parseQpD v = qpDecode v := by
  unfold parseQpD; rw [if_pos (isTagValue_of h), qpDecodeAt, qpDecodeLoopAt_eq]; rfl

theorem someValue_single {c : Char} (hc : valChar c) : SomeValue [c] :=
  .one _ ⟨by simp, by simpa using hc⟩

theorem someValue_prepend {c : Char} {f v : Str} (hc : valChar c) (hf : OptFws f) (h : SomeValue v) :
    SomeValue (c :: (f ++ v)) := by
  rcases hf with rfl | hf
  · exact someValue_cons hc h
  · exact .more [c] f v ⟨by simp, by simpa using hc⟩ hf h

theorem someValue_ne {v : Str} (h : SomeValue v) : v ≠ [] := by
  cases h with
  | one v h => exact h.1
  | more v f r hv hf hr => simp [hv.1]

/-- Text with insertions is a tag value surrounded by FWS. -/
theorem inserted_value {s t : Str} (h : Inserted s t) (hs : ∀ c ∈ s, valChar c) :
    ∃ f n g, OptFws f ∧ OptFws g ∧ t = f ++ n ++ g ∧ ((n = [] ∧ g = [] ∧ s = []) ∨ SomeValue n) := by
  induction h with
  | nil => exact ⟨[], [], [], .inl rfl, .inl rfl, rfl, .inl ⟨rfl, rfl, rfl⟩⟩
  | final f hf => exact ⟨f, [], [], .inr hf, .inl rfl, by simp, .inl ⟨rfl, rfl, rfl⟩⟩
  | keep c s t h ih =>
    obtain ⟨f, n, g, hf, hg, rfl, h0⟩ := ih fun x hx => hs x (by simp [hx])
    have hc := hs c (by simp)
    rcases h0 with ⟨rfl, rfl, rfl⟩ | h0
    · exact ⟨[], [c], f, .inl rfl, hf, by simp, .inr (someValue_single hc)⟩
    · exact ⟨[], c :: (f ++ n), g, .inl rfl, hg, by simp, .inr (someValue_prepend hc hf h0)⟩
  | insert f' c s t hf' h ih =>
    obtain ⟨f, n, g, hf, hg, rfl, h0⟩ := ih fun x hx => hs x (by simp [hx])
    have hc := hs c (by simp)
    rcases h0 with ⟨rfl, rfl, rfl⟩ | h0
    · exact ⟨f', [c], f, .inr hf', hf, by simp, .inr (someValue_single hc)⟩
    · exact ⟨f', c :: (f ++ n), g, .inr hf', hg, by simp, .inr (someValue_prepend hc hf h0)⟩

theorem someValue_trimmed {v : Str} (h : SomeValue v) : Trimmed v := by
  refine ⟨?_, ?_⟩
  · intro c r e
    cases h with
    | one v h => exact valChar_noFws (h.2 c (by simp [e]))
    | more v f r' hv hf hr =>
      cases v with
      | nil => exact absurd rfl hv.1
      | cons d v =>
        obtain ⟨rfl, _⟩ := List.cons.inj e
        exact valChar_noFws (hv.2 d (by simp))
  · induction h with
    | one v h => intro c r e; exact valChar_noFws (h.2 c (by simp [e]))
    | more v f r' hv hf hr ih =>
      intro c r e
      obtain ⟨q, d, rfl⟩ : ∃ q d, r' = q ++ [d] :=
        ⟨r'.dropLast, r'.getLast (someValue_ne hr), (List.dropLast_concat_getLast (someValue_ne hr)).symm⟩
      have e' : (v ++ f ++ q) ++ [d] = r ++ [c] := by rw [← e]; simp
      have := List.append_inj' e' rfl
      have hd : d = c := by simpa using this.2
      rw [← hd]
      exact ih d q rfl

theorem trimFws_value {v p : Str} (h : IsValue v) {x : Char} (hx : ¬ fwsChar x) (hp : p ∈ splitOn x v) :
    IsValue (trimFws p) := by
  obtain ⟨h1, h2⟩ := isValue_inserted h
  obtain ⟨s', h3, h4⟩ := splitOn_inserted hx h1 p hp
  obtain ⟨f, n, g, hf, hg, rfl, h0⟩ := inserted_value h3 fun c hc => h2 c (h4 c hc)
  rcases h0 with ⟨rfl, rfl, _⟩ | h0
  · left
    rw [List.append_nil, List.append_nil]
    exact trimFws_fws hf
  · right
    rw [trimFws_item hf hg (someValue_trimmed h0) (someValue_ne h0)]
    exact h0

/-! ## Signatures -/

theorem parseTagBD_eq {v : Str} (h : IsValue v) (e : SigErrorKind) : parseTagBD e v = parseTagB e v := by
  unfold parseTagBD parseTagB
  rw [parseBase64ValueD_eq h]
  cases parseBase64Value v <;> rfl

theorem parseTagNameD_eq (ix : Idna) (b : Bool) (e : SigErrorKind) (v : Str) :
    parseTagNameD ix b e v = if isValidDomainString ix v b then .ok v else .err e := by
  unfold parseTagNameD
  rw [isValidDomainStringD_eq]
  cases isValidDomainString ix v b <;> rfl

theorem parseTagHD_eq {v : Str} (h : IsValue v) : parseTagHD v = parseTagH v := by
  unfold parseTagHD parseTagH
  rw [parseColonSeparatedD_eq h]

theorem parseTagID_eq (ix : Idna) {v : Str} (h : IsValue v) : parseTagID ix v = parseTagI ix v := by
  unfold parseTagID parseTagI
  rw [parseQpD_eq h]
  cases qpDecode v with
  | panic => rfl
  | err => rfl
  | ok bytes =>
    simp only []
    cases fromUtf8 bytes with
    | none => rfl
    | some s =>
      simp only [Identity.newD_eq]
      cases Identity.new ix s <;> rfl

theorem parseTagQD_eq {v : Str} (h : IsValue v) : parseTagQD v = parseTagQ v := by
  unfold parseTagQD parseTagQ
  rw [parseColonSeparatedD_eq h]

theorem parseTagZLoopD_eq {ps : List Str} (h : ∀ p ∈ ps, IsValue (trimFws p)) :
    parseTagZLoopD ps = parseTagZLoop ps := by
  induction ps with
  | nil => rfl
  | cons p ps ih =>
    rw [parseTagZLoopD, parseTagZLoop, ih fun x hx => h x (by simp [hx])]
    have e : parseQpHeaderFieldD p = parseQpHeaderField p := by
      unfold parseQpHeaderFieldD parseQpHeaderField
      rw [if_pos (isTagValue_of (h p (by simp))), qpDecodeAt, qpDecodeLoopAt_eq]
      unfold qpDecode
      cases qpDecodeLoop (p.length + 1) false p [] with
      | panic => rfl
      | err => rfl
      | ok val =>
        simp only []
        cases splitOnce (58 : UInt8) val with
        | none => rfl
        | some q =>
          obtain ⟨name, value⟩ := q
          simp only []
          cases fromUtf8 name <;> rfl
    rw [e]
    cases parseQpHeaderField p with
    | none => rfl
    | some o => cases o <;> rfl

theorem sigTagD_eq (ix : Idna) (pre : Bool) (acc : SigAcc) {t : TagSpec} (h : IsValue t.value) :
    sigTagD ix pre acc t = sigTag ix pre acc t := by
  unfold sigTagD sigTag
  rw [parseTagBD_eq h, parseTagBD_eq h, parseTagNameD_eq, parseTagNameD_eq, parseTagHD_eq h,
    parseTagID_eq ix h, parseTagQD_eq h,
    parseTagZLoopD_eq fun p hp => trimFws_value h (by unfold fwsChar; decide) hp]
  rfl

theorem sigLoopD_eq (ix : Idna) (pre : Bool) (acc : SigAcc) {ts : List TagSpec}
    (h : ∀ t ∈ ts, IsValue t.value) : sigLoopD ix pre acc ts = sigLoop ix pre acc ts := by
  induction ts generalizing acc with
  | nil => rfl
  | cons t ts ih =>
    rw [sigLoopD, sigLoop, sigTagD_eq ix pre acc (h t (by simp))]
    cases sigTag ix pre acc t with
    | ok acc => exact ih acc fun x hx => h x (by simp [hx])
    | err e => rfl
    | panic => rfl

theorem sigFromStrD_eq (ix : Idna) (pre : Bool) (s : Str) : sigFromStrD ix pre s = sigFromStr ix pre s := by
  unfold sigFromStrD sigFromStr
  rw [parseTagListAt_eq]
  cases e : parseTagList s with
  | error _ => rfl
  | ok tags =>
    simp only []
    unfold sigFromTagListD sigFromTagList sigFromTagListInternal
    rw [sigLoopD_eq ix pre {} (parseTagList_values e).1]
    cases sigLoop ix pre {} tags with
    | ok acc => simp only []; cases sigFinish ix acc <;> rfl
    | err e => rfl
    | panic => rfl

/-! ## Key records -/

theorem recTagD_eq (lossy : Bytes → Str) (pre : Bool) (acc : RecAcc) (i : Nat) {t : TagSpec}
    (h : IsValue t.value) : recTagD lossy pre acc i t = recTag lossy pre acc i t := by
  unfold recTagD recTag
  have e1 : recListD (recHashes pre) t.value = recTagH pre t.value := by
    unfold recListD recTagH recHashes; rw [parseColonSeparatedD_eq h]; rfl
  have e2 : recListD recServices t.value = recTagS t.value := by
    unfold recListD recTagS recServices; rw [parseColonSeparatedD_eq h]; rfl
  have e3 : recListD recFlags t.value = recTagT t.value := by
    unfold recListD recTagT recFlags; rw [parseColonSeparatedD_eq h]; rfl
  have e4 : recTagND lossy t.value = recTagN lossy t.value := by
    unfold recTagND recTagN; rw [parseQpSectionD_eq h]; cases qpSectionDecode t.value <;> rfl
  have e5 : recTagPD t.value = recTagP t.value := by
    unfold recTagPD recTagP; rw [parseBase64ValueD_eq h]; cases parseBase64Value t.value <;> rfl
  rw [e1, e2, e3, e4, e5]

theorem recLoopD_eq (lossy : Bytes → Str) (pre : Bool) (acc : RecAcc) (i : Nat) {ts : List TagSpec}
    (h : ∀ t ∈ ts, IsValue t.value) : recLoopD lossy pre acc i ts = recLoop lossy pre acc i ts := by
  induction ts generalizing acc i with
  | nil => rfl
  | cons t ts ih =>
    rw [recLoopD, recLoop, recTagD_eq lossy pre acc i (h t (by simp))]
    cases recTag lossy pre acc i t with
    | ok acc => exact ih acc _ fun x hx => h x (by simp [hx])
    | err e => rfl
    | panic => rfl

theorem recordFromStrD_eq (lossy : Bytes → Str) (pre : Bool) (s : Str) :
    recordFromStrD lossy pre s = recordFromStr lossy pre s := by
  unfold recordFromStrD recordFromStr
  rw [parseTagListAt_eq]
  cases e : parseTagList s with
  | error _ => rfl
  | ok tags =>
    simp only []
    unfold recordFromTagListD recordFromTagList
    rw [recLoopD_eq lossy pre {} 0 (parseTagList_values e).1]
    cases recLoop lossy pre {} 0 tags <;> rfl

/-! ## Canonicalization -/

theorem canonHeaderD_eq (alg : CanonAlg) (name : Str) {value : Bytes} (h : ValidBody value) :
    canonHeaderD alg name value = some (canonHeader alg name value) := by
  unfold canonHeaderD canonHeader
  cases alg with
  | simple => rfl
  | relaxed => simp only []; rw [if_pos ((fieldBodyOk_iff value).2 h)]

theorem findUnprocessed_mem {sel : Str} {processed : List Nat} {rev : List (Nat × Field)} {i : Nat}
    {f : Field} (h : findUnprocessed sel processed rev = some (i, f)) : (i, f) ∈ rev := by
  induction rev with
  | nil => simp [findUnprocessed] at h
  | cons p rev ih =>
    obtain ⟨j, g⟩ := p
    rw [findUnprocessed] at h
    split at h
    · exact List.mem_cons_of_mem _ (ih h)
    · first
        | (split at h
           · simp only [Option.some.injEq] at h; simp [← h]
           · exact List.mem_cons_of_mem _ (ih h))
        | (simp only [Option.some.injEq] at h; simp [← h])

theorem canonHeadersLoopD_eq (alg : CanonAlg) {rev : List (Nat × Field)} (h : ∀ p ∈ rev, ValidBody p.2.body)
    (processed : List Nat) (sels : List Str) :
    canonHeadersLoopD alg rev processed sels = some (canonHeadersLoop alg rev processed sels) := by
  induction sels generalizing processed with
  | nil => rfl
  | cons sel sels ih =>
    rw [canonHeadersLoopD, canonHeadersLoop]
    cases e : findUnprocessed sel processed rev with
    | none => exact ih processed
    | some p =>
      obtain ⟨i, f⟩ := p
      simp only [canonHeaderD_eq alg f.name (h (i, f) (findUnprocessed_mem e)), ih (i :: processed)]

end Dkim
