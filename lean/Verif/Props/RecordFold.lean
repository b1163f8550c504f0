import Verif.Proofs.RecordFold
import Verif.Props.Monotone
import Verif.Props.Refold

/-!
# Property C77: reading a key record does not depend on folding

The full claim: if a text is a key record, then any text with the same words,
separated by possibly different folding whitespace, is a key record that says the
same. It fails for line breaks in the notes (`n=`), see `C77_exception`; this is the
only exception, see `C77_exactly`.
-/

namespace Dkim

open Spec

/-- The notes of two key records agree up to spaces and tabs. -/
inductive Spec.SimilarNotes (lossy : Bytes → Str) : Option Str → Option Str → Prop
  | none : SimilarNotes lossy none none
  | some (b c : Bytes) : (b.filter fun x => x != 32 && x != 9) = (c.filter fun x => x != 32 && x != 9) →
      SimilarNotes lossy (some (lossy b)) (some (lossy c))

/-- There is no line break in the notes of a key record. -/
def Spec.NotesOnOneLine (txt : Str) : Prop := ∀ tags v, ListText tags txt → (c!"n", v) ∈ tags → '\n' ∉ v

theorem recordOf_refold {lossy : Bytes → Str} {pre : Bool} {tags tags' : List (Str × Str)} {r : KeyRecord}
    (h : SameTags tags tags') (hn : ∀ v, (c!"n", v) ∈ tags' → '\n' ∉ v) (hr : RecordOf lossy pre tags r) :
    ∃ notes, RecordOf lossy pre tags'
        { r with notes := notes, extTags := tags'.filter fun t => !knownRecordTags.contains t.1 } ∧
      SimilarNotes lossy r.notes notes := by
  have hnotes : ∃ notes, Optional tags' c!"n" (fun v x => ∃ bs, QpSection v bs ∧ x = lossy bs) notes ∧
      SimilarNotes lossy r.notes notes := by
    have h1 := hr.notes
    revert h1
    cases r.notes with
    | none => exact fun h1 => ⟨none, absent_refold h h1, .none⟩
    | some x =>
      rintro ⟨v, hv, bs, hq, rfl⟩
      obtain ⟨w, hw, hvw⟩ := h.mem hv
      obtain ⟨bs', h2, e⟩ := qpSection_refold _ (Nat.le_refl _) hq hvw (hn w hw)
      exact ⟨some (lossy bs'), ⟨w, hw, bs', h2, rfl⟩, .some _ _ e.symm⟩
  obtain ⟨notes, h1, h2⟩ := hnotes
  refine ⟨notes, ?_, h2⟩
  exact {
    version := by
      intro v hv
      obtain ⟨w, hw, hvw⟩ := h.symm.mem hv
      obtain ⟨rest, e⟩ := hr.version w hw
      rw [e] at h
      generalize hx : (c!"v", c!"DKIM1") :: rest = x at h
      cases h with
      | nil => cases hx
      | cons n v w tags tags' hvw _ =>
        simp only [List.cons.injEq, Prod.mk.injEq] at hx
        obtain ⟨⟨rfl, rfl⟩, rfl⟩ := hx
        rw [hvw.clean_eq (lit_clean _ (by decide))]
        exact ⟨_, rfl⟩
    hashAlgorithms := defaulting_refold (foldFree_and (itemsText_foldFree (hashNamed_clean pre))) h hr.hashAlgorithms
    keyType := defaulting_refold keyTypeText_foldFree h hr.keyType
    notes := h1
    keyData := required_refold (foldFree_of_unfws fun _ _ _ h hm => h ▸ hm) h hr.keyData
    serviceTypes := defaulting_refold (foldFree_and (itemsText_foldFree serviceNamed_clean)) h hr.serviceTypes
    flags := defaulting_refold (itemsText_foldFree flagNamed_clean) h hr.flags
    extTags := rfl }

/-- C77: if a text is a key record, then any text with the same words, separated by
possibly different folding whitespace (but no line break in the notes), is the same
key record, where the notes and the values of extension tags, in which whitespace is
kept, have the same words. -/
theorem C77_same_record (lossy : Bytes → Str) (pre : Bool) (s t : Str) (h : Refold s t)
    (hn : NotesOnOneLine t) (r : KeyRecord) (hs : recordFromStr lossy pre s = .ok r) :
    ∃ notes ext, recordFromStr lossy pre t = .ok { r with notes := notes, extTags := ext } ∧
      SimilarNotes lossy r.notes notes ∧ SameTags r.extTags ext := by
  obtain ⟨tags, h1, h2, h3⟩ := (recordFromStr_iff lossy pre s r).1 hs
  obtain ⟨tags', h4, h5⟩ := listText_refold h1 h
  obtain ⟨notes, h6, h7⟩ := recordOf_refold h5 (fun v => hn tags' v h4) h3
  refine ⟨notes, _, (recordFromStr_iff lossy pre t _).2 ⟨tags', h4, h5.names ▸ h2, h6⟩, h7, ?_⟩
  rw [h3.extTags]
  exact h5.filter fun n => !knownRecordTags.contains n

/-- C77: a text with a line break in the notes is not a key record. -/
theorem C77_line_break (lossy : Bytes → Str) (pre : Bool) (t : Str) (tags : List (Str × Str)) (v : Str)
    (ht : ListText tags t) (hv : (c!"n", v) ∈ tags) (hb : '\n' ∈ v) (r : KeyRecord) :
    recordFromStr lossy pre t ≠ .ok r := by
  intro h
  obtain ⟨tags', h1, h2, h3⟩ := (recordFromStr_iff lossy pre t r).1 h
  have := listText_unique h1 ht
  subst this
  have h4 := h3.notes
  cases hx : r.notes with
  | none => rw [hx] at h4; exact h4 v hv
  | some x =>
    rw [hx] at h4
    obtain ⟨w, hw, bs, hq, _⟩ := h4
    have hn' : ((ofPairs tags').map (·.name)).Nodup := by simpa [ofPairs, Function.comp_def] using h2
    have hvw := name_unique hn' ⟨_, v⟩ ⟨_, w⟩ (List.mem_map.2 ⟨_, hv, rfl⟩) (List.mem_map.2 ⟨_, hw, rfl⟩) rfl
    have hvw : v = w := congrArg TagSpec.value hvw
    subst hvw
    have := qpSection_chars hq '\n' hb (.inr (.inr (.inr rfl)))
    revert this
    unfold wsp
    decide

/-- C77: exactly when a refolded key record is a key record. -/
theorem C77_exactly (lossy : Bytes → Str) (pre : Bool) (s t : Str) (h : Refold s t) (r : KeyRecord)
    (hs : recordFromStr lossy pre s = .ok r) :
    (∃ r', recordFromStr lossy pre t = .ok r') ↔ NotesOnOneLine t := by
  constructor
  · rintro ⟨r', ht⟩ tags v h1 h2 hb
    exact C77_line_break lossy pre t tags v h1 h2 hb r' ht
  · intro hn
    obtain ⟨_, _, h1, _⟩ := C77_same_record lossy pre s t h hn r hs
    exact ⟨_, h1⟩

/-- C77: to the verifier, TXT records that are the same key record up to folding are
similar in the sense of C72, so that they lead to the same status. -/
theorem C77_similar (E : Env) (s t : Str) (h : Refold s t) (hn : NotesOnOneLine t) (r : KeyRecord)
    (hs : recordFromStr E.lossy E.pre s = .ok r) : SimilarTxt E (.ok (utf8 s)) (.ok (utf8 t)) := by
  obtain ⟨notes, ext, ht, _⟩ := C77_same_record E.lossy E.pre s t h hn r hs
  obtain ⟨tags, h1, h2, h3⟩ := (recordFromStr_iff _ _ s _).1 hs
  obtain ⟨tags', h4, h5, h6⟩ := (recordFromStr_iff _ _ t _).1 ht
  exact .inr ⟨_, _, ⟨s, tags, rfl, h1, h2, h3⟩, ⟨t, tags', rfl, h4, h5, h6⟩, ⟨rfl, rfl, fun _ => Iff.rfl, Iff.rfl⟩⟩

/-- Two answers to a query have the same TXT records, except that key records may be
folded differently (without line breaks in the notes). -/
inductive Spec.RefoldedAnswer (E : Env) : List (Except IoErr Bytes) → List (Except IoErr Bytes) → Prop
  | nil : RefoldedAnswer E [] []
  | same (x : Except IoErr Bytes) (l l' : List (Except IoErr Bytes)) :
      RefoldedAnswer E l l' → RefoldedAnswer E (x :: l) (x :: l')
  | refolded (s t : Str) (r : KeyRecord) (l l' : List (Except IoErr Bytes)) :
      recordFromStr E.lossy E.pre s = .ok r → Refold s t → NotesOnOneLine t →
      RefoldedAnswer E l l' → RefoldedAnswer E (.ok (utf8 s) :: l) (.ok (utf8 t) :: l')

/-- C77: the results of verification do not depend on how key records are folded. -/
theorem C77_same_result {E : Env} (L : Lawful E) {resolver resolver' : Resolver} {cfg : Config}
    {clock : Nat → Int} (T : TypedTimes cfg clock) {headers : List Field} {chunks chunks' : List Bytes}
    {results results' : List VerificationResult} {asked asked' : List Str}
    (h : Run E resolver cfg clock headers chunks results asked)
    (h' : Run E resolver' cfg clock headers chunks' results' asked') (hbody : chunks.flatten = chunks'.flatten)
    (hfold : ∀ name, (resolver name).result = (resolver' name).result ∨
      ∃ l l', (resolver name).result = .ok l ∧ (resolver' name).result = .ok l' ∧ RefoldedAnswer E l l')
    (r r' : VerificationResult) (hr : r ∈ results) (hr' : r' ∈ results') (hi : r'.index = r.index) :
    r'.status = r.status ∧ r'.signature = r.signature := by
  refine C72_relevant_parts L T h h' hbody ?_ r r' hr hr' hi
  have hself : ∀ l, SimilarAnswer E l l := by
    intro l
    induction l with
    | nil => exact .nil
    | cons x l ih => exact .cons _ _ _ _ (.inl rfl) ih
  intro name
  rcases hfold name with e | ⟨l, l', e, e', g⟩
  · rw [e]
    cases (resolver' name).result with
    | error _ => rfl
    | ok l => exact hself l
  · rw [e, e']
    show SimilarAnswer E l l'
    clear e e'
    induction g with
    | nil => exact .nil
    | same x l l' _ ih => exact .cons _ _ _ _ (.inl rfl) ih
    | refolded s t r l l' h1 h2 h3 _ ih => exact .cons _ _ _ _ (C77_similar E s t h2 h3 r h1) ih

/-! ## Concrete cases -/

/-- A key record with line breaks. -/
def foldedRecord : Str :=
  c!"v=DKIM1;h=sha1 :\r\n sha256;\r\n\tn=a  note;p=aGVs\r\n bG8=;t=y : s;q=1\t2"

/-- The same words on one line. -/
def plainRecord : Str := c!"v=DKIM1;h=sha1 : sha256; n=a note;p=aGVs bG8=;t=y : s;q=1 2"

/-- The same words with a line break in the notes. -/
def brokenRecord : Str := c!"v=DKIM1;h=sha1 : sha256; n=a\r\n note;p=aGVs bG8=;t=y : s;q=1 2"

theorem refold_records : Refold foldedRecord plainRecord ∧ Refold plainRecord brokenRecord := by
  have sp : Fws c!" " := .plain _ (by decide) (by simp [wsp])
  have sp2 : Fws c!"  " := .plain _ (by decide) (by simp [wsp])
  have tab : Fws c!"\t" := .plain _ (by decide) (by simp [wsp])
  have nl : Fws c!"\r\n " := .folded [] c!" " (by simp) (by decide) (by simp [wsp])
  have nlt : Fws c!"\r\n\t" := .folded [] c!"\t" (by simp) (by decide) (by simp [wsp])
  have go : ∀ f1 g1 f2 g2 f3 g3 f4 g4 f5 g5 : Str, Fws f1 → Fws g1 → Fws f2 → Fws g2 → Fws f3 → Fws g3 →
      Fws f4 → Fws g4 → Fws f5 → Fws g5 →
      Refold
        (c!"v=DKIM1;h=sha1" ++ (c!" " ++ (c!":" ++ (f1 ++ (c!"sha256;" ++ (f2 ++ (c!"n=a" ++ (f3 ++ (c!"note;p=aGVs" ++
          (f4 ++ (c!"bG8=;t=y" ++ (c!" " ++ (c!":" ++ (c!" " ++ (c!"s;q=1" ++ (f5 ++ c!"2"))))))))))))))))
        (c!"v=DKIM1;h=sha1" ++ (c!" " ++ (c!":" ++ (g1 ++ (c!"sha256;" ++ (g2 ++ (c!"n=a" ++ (g3 ++ (c!"note;p=aGVs" ++
          (g4 ++ (c!"bG8=;t=y" ++ (c!" " ++ (c!":" ++ (c!" " ++ (c!"s;q=1" ++ (g5 ++ c!"2")))))))))))))))) := by
    intro f1 g1 f2 g2 f3 g3 f4 g4 f5 g5 hf1 hg1 hf2 hg2 hf3 hg3 hf4 hg4 hf5 hg5
    have w1 : Refold c!"2" c!"2" := refold_word c!"2" (by decide) .nil
    have w2 := refold_next c!"s;q=1" _ _ (by decide) hf5 hg5 (solid_word c!"2" [] (by decide) (by decide)) w1
    have w3 := refold_next c!":" _ _ (by decide) sp sp (solid_word c!"s;q=1" _ (by decide) (by decide)) w2
    have w4 := refold_next c!"bG8=;t=y" _ _ (by decide) sp sp (solid_word c!":" _ (by decide) (by decide)) w3
    have w5 := refold_next c!"note;p=aGVs" _ _ (by decide) hf4 hg4 (solid_word c!"bG8=;t=y" _ (by decide) (by decide)) w4
    have w6 := refold_next c!"n=a" _ _ (by decide) hf3 hg3 (solid_word c!"note;p=aGVs" _ (by decide) (by decide)) w5
    have w7 := refold_next c!"sha256;" _ _ (by decide) hf2 hg2 (solid_word c!"n=a" _ (by decide) (by decide)) w6
    have w8 := refold_next c!":" _ _ (by decide) hf1 hg1 (solid_word c!"sha256;" _ (by decide) (by decide)) w7
    exact refold_next c!"v=DKIM1;h=sha1" _ _ (by decide) sp sp (solid_word c!":" _ (by decide) (by decide)) w8
  exact ⟨go _ _ _ _ _ _ _ _ _ _ nl sp nlt sp sp2 sp nl sp tab sp, go _ _ _ _ _ _ _ _ _ _ sp sp sp sp sp nl sp sp sp sp⟩

/-- A stand-in for `String::from_utf8_lossy`. -/
def latin (b : Bytes) : Str := b.map fun x => Char.ofNat x.toNat

set_option maxRecDepth 20000 in
theorem folded_plain_records :
    (∃ r, recordFromStr latin false foldedRecord = .ok r ∧ r.notes = some c!"a  note" ∧
      r.flags = [.testing, .noSubdomains]) ∧
    (∃ r, recordFromStr latin false plainRecord = .ok r ∧ r.notes = some c!"a note") ∧
    recordFromStr latin false brokenRecord = .err .invalidQuotedPrintable :=
  ⟨⟨_, by rfl, by rfl, by rfl⟩, ⟨_, by rfl, by rfl⟩, by rfl⟩

/-- Non-vacuity of `C77_same_record`: the notes of the plain record are on one
line. -/
example : NotesOnOneLine plainRecord := by
  obtain ⟨_, ⟨r, h, _⟩, _⟩ := folded_plain_records
  obtain ⟨⟨r', h', _⟩, _⟩ := folded_plain_records
  exact (C77_exactly latin false _ _ refold_records.1 r' h').1 ⟨r, h⟩

/-- C77: the exception cannot be dropped, as a line break in the notes makes a key
record unusable. -/
theorem C77_exception : ¬ ∀ (lossy : Bytes → Str) (pre : Bool) (s t : Str), Refold s t →
    ∀ r, recordFromStr lossy pre s = .ok r → ∃ r', recordFromStr lossy pre t = .ok r' := by
  intro h
  obtain ⟨_, ⟨r, h1, _⟩, h2⟩ := folded_plain_records
  obtain ⟨r', h3⟩ := h latin false _ _ refold_records.2 r h1
  rw [h2] at h3
  cases h3

end Dkim
