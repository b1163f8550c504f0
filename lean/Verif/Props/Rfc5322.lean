import Verif.Proofs.Rfc5322
import Verif.Props.Header
import Verif.Props.OutputField
import Verif.Props.Rfc8616Valid

/-!
# C107: header fields are exactly those of RFC 5322 (with RFC 6532)
-/

namespace Dkim

open Spec

variable {E : Env}

/-- C107: the accepted field names are exactly those of RFC 5322. -/
theorem C107_name_exact (n : Str) : fieldNameOk n = true ↔ Rfc5322.FieldName n :=
  (fieldNameOk_iff n).trans (validName_fieldName n)

/-- C107: the accepted values that are text are exactly the `unstructured` of RFC 5322 (with RFC 6532). -/
theorem C107_value_exact (v : Str) : fieldBodyOk (utf8 v) = true ↔ Rfc5322.Unstructured v :=
  (fieldBodyOk_iff _).trans (validBody_unstructured v)

theorem crlfLines_append {s t : Str} (hs : Rfc5322.CrlfLines s) (ht : Rfc5322.CrlfLines t) :
    Rfc5322.CrlfLines (s ++ t) := by
  obtain ⟨a, rfl, ha⟩ := hs
  obtain ⟨b, rfl, hb⟩ := ht
  refine ⟨a ++ b, by simp, fun l hl => ?_⟩
  rcases List.mem_append.1 hl with hl | hl
  · exact ha l hl
  · exact hb l hl

theorem field_no_lf {m : Str} (h : ∀ c ∈ m, wsp c ∨ Rfc5322.VChar c) : '\n' ∉ m := by
  intro hm
  rcases h _ hm with (h | h) | h
  · exact absurd h (by decide)
  · exact absurd h (by decide)
  · exact absurd h (by unfold Rfc5322.VChar; decide)

theorem crlfLines_field {n v : Str} (hn : Rfc5322.FieldName n) (hv : Rfc5322.Unstructured v) :
    Rfc5322.CrlfLines (n ++ ':' :: v ++ c!"\r\n") := by
  obtain ⟨m, ms, rfl, h1, h2⟩ := unstructured_lines hv
  refine ⟨(n ++ ':' :: m) :: ms, ?_, ?_⟩
  · simp only [List.flatMap_cons, List.append_assoc, List.cons_append]
    congr 3
    have : ∀ ms : List Str, ms.flatMap (fun l => '\r' :: '\n' :: l) ++ ['\r', '\n'] =
        '\r' :: '\n' :: ms.flatMap (· ++ ['\r', '\n']) := by
      intro ms
      induction ms with
      | nil => rfl
      | cons l ms ih => simp [ih]
    simpa using this ms
  · intro l hl
    rcases List.mem_cons.1 hl with rfl | hl
    · simp only [List.mem_append, List.mem_cons, not_or]
      refine ⟨fun h => ?_, by decide, field_no_lf h1⟩
      rcases hn.2 _ h with h | h <;> exact absurd h (by decide)
    · exact field_no_lf (h2 l hl).1

theorem crlfLines_header {s : Str} {fs : List (Str × Str)} (h : Rfc5322.Header s fs) : Rfc5322.CrlfLines s := by
  induction h with
  | one n v hn hv => exact crlfLines_field hn hv
  | more n v s fs hn hv _ ih => exact crlfLines_append (crlfLines_field hn hv) ih

theorem crlfLines_inj {s t : Str} (hs : Rfc5322.CrlfLines s) (ht : Rfc5322.CrlfLines t) (h : strLines s = strLines t) :
    s = t := by
  obtain ⟨a, rfl, ha⟩ := hs
  obtain ⟨b, rfl, hb⟩ := ht
  have h1 := strLines_crlf a ha
  have h2 := strLines_crlf b hb
  have : a = b := h1.symm.trans (h.trans h2)
  rw [this]

/-- C107: of the texts with CRLF line ends, those that are read as a header are exactly the headers
of RFC 5322 (with RFC 6532), and what is read is the names and values of the fields. -/
theorem C107_header_exact (s : Str) (hs : Rfc5322.CrlfLines s) (out : List Field) :
    headerFieldsFromStr s = some out ↔
      ∃ fs, Rfc5322.Header s fs ∧ out = fs.map fun f => ⟨f.1, utf8 f.2⟩ := by
  constructor
  · intro h
    obtain ⟨fs, h1, h2, h3, h4⟩ := C24_parsed_block s out h
    have hb := header_of_block h1 h2
    exact ⟨fs, crlfLines_inj hs (crlfLines_header hb) h4.symm ▸ hb, h3⟩
  · rintro ⟨fs, h, rfl⟩
    obtain ⟨rfl, h1, h2⟩ := header_block h
    exact C24_block_round_trip fs h1 h2

/-- C107: every header of RFC 5322 is read, also if all of its line ends are LF instead of CRLF. -/
theorem C107_header_read (s : Str) (fs : List (Str × Str)) (h : Rfc5322.Header s fs) :
    headerFieldsFromStr s = some (fs.map fun f => ⟨f.1, utf8 f.2⟩) ∧
    headerFieldsFromStr (toLf s) = some (fs.map fun f => ⟨f.1, utf8 f.2⟩) := by
  obtain ⟨rfl, h1, h2⟩ := header_block h
  exact ⟨C24_block_round_trip fs h1 h2, C24_block_round_trip_lf fs h1 h2⟩

/-- C107: whatever is read, with any line ends, is a header of RFC 5322 when written with CRLF. -/
theorem C107_read_header (s : Str) (out : List Field) (h : headerFieldsFromStr s = some out) :
    ∃ fs t, Rfc5322.Header t fs ∧ out = fs.map (fun f => ⟨f.1, utf8 f.2⟩) ∧ strLines t = strLines s := by
  obtain ⟨fs, h1, h2, h3, h4⟩ := C24_parsed_block s out h
  exact ⟨fs, _, header_of_block h1 h2, h3, h4⟩

/-- C107: the grammar is unambiguous. -/
theorem C107_unambiguous (s : Str) (fs gs : List (Str × Str)) (h1 : Rfc5322.Header s fs) (h2 : Rfc5322.Header s gs) :
    fs = gs := by
  have h := (C107_header_read s fs h1).1.symm.trans (C107_header_read s gs h2).1
  have inj : ∀ fs gs : List (Str × Str), (fs.map fun f => (⟨f.1, utf8 f.2⟩ : Field)) = (gs.map fun f => ⟨f.1, utf8 f.2⟩) →
      fs = gs := by
    intro fs
    induction fs with
    | nil =>
      intro gs h
      cases gs with
      | nil => rfl
      | cons => cases h
    | cons f fs ih =>
      intro gs h
      cases gs with
      | nil => cases h
      | cons g gs =>
        simp only [List.map_cons, List.cons.injEq, Field.mk.injEq] at h
        rw [ih gs h.2, Prod.ext h.1.1 (utf8_injective h.1.2)]
  exact inj fs gs (Option.some.inj h)

/-- C107: what the signer produces is a header field of RFC 5322; on top of a header it gives a header
with one more field. -/
theorem C107_produced (law : IdnaLaw E.idna) (hs : SortLaw E.sortBy) (hset : SetLaw E.keySet)
    (headers : List Field) (requests : List (SignRequest E)) (hh : TypedHeaders headers)
    (ht : ∀ r ∈ requests, TypedRequest r) (chunks : List Bytes) (clock : Nat → Nat)
    (out : List (Except SigningError SigningOutput))
    (h : Signed headers requests chunks clock out)
    (hlen : ∀ k, (codeBody k chunks.flatten).length < 2 ^ 64) (o : SigningOutput) (ho : .ok o ∈ out) :
    Rfc5322.Header (o.formatHeader ++ c!"\r\n") [(o.headerName, o.headerValue)] ∧
    ∀ s fs, Rfc5322.Header s fs →
      Rfc5322.Header (o.formatHeader ++ c!"\r\n" ++ s) ((o.headerName, o.headerValue) :: fs) := by
  obtain ⟨h1, _, h2⟩ := C17_well_formed law hs hset headers requests hh ht chunks clock out h hlen o ho
  have hn := (validName_fieldName _).1 h1
  have hv : Rfc5322.Unstructured o.headerValue := by
    rw [← C107_value_exact]
    unfold SigningOutput.toHeaderField at h2
    split at h2
    · rename_i h3
      simp only [Bool.and_eq_true] at h3
      exact h3.2
    · cases h2
  exact ⟨.one _ _ hn hv, fun s fs hf => .more _ _ s fs hn hv hf⟩

/-! ## The hypotheses are met -/

theorem unstructured_line {m : Str} (h : ∀ c ∈ m, wsp c ∨ Rfc5322.VChar c) : Rfc5322.Unstructured m := by
  have := unstructured_of_lines (m := m) (ms := []) ⟨h, nofun⟩
  simpa using this

/-- A header with a folded value, a value outside of ASCII and an empty value. -/
theorem sample_header : Rfc5322.Header c!"Subject: a\r\n\tbücher \r\nFrom:é\r\nX:\r\n"
    [(c!"Subject", c!" a\r\n\tbücher "), (c!"From", c!"é"), (c!"X", [])] := by
  have hs : Rfc5322.Unstructured c!" a\r\n\tbücher " := by
    rw [← C107_value_exact]
    rfl
  exact .more c!"Subject" c!" a\r\n\tbücher " _ _ (by unfold Rfc5322.FieldName; decide) hs
    (.more c!"From" c!"é" _ _ (by unfold Rfc5322.FieldName; decide) ((C107_value_exact _).1 rfl)
      (.one c!"X" [] (by unfold Rfc5322.FieldName; decide) (.blank [] nofun)))

example : headerFieldsFromStr (toLf c!"Subject: a\r\n\tbücher \r\nFrom:é\r\nX:\r\n") =
    some [⟨c!"Subject", utf8 c!" a\r\n\tbücher "⟩, ⟨c!"From", utf8 c!"é"⟩, ⟨c!"X", []⟩] :=
  (C107_header_read _ _ sample_header).2

/-- A text with CRLF line ends that is no header: its second line is blank. -/
example : Rfc5322.CrlfLines c!"A: b\r\n \r\n c\r\n" ∧ ¬ ∃ fs, Rfc5322.Header c!"A: b\r\n \r\n c\r\n" fs := by
  refine ⟨⟨[c!"A: b", c!" ", c!" c"], rfl, by decide⟩, ?_⟩
  rintro ⟨fs, h⟩
  exact absurd (C107_header_read _ _ h).1 (by
    have : headerFieldsFromStr c!"A: b\r\n \r\n c\r\n" = none := rfl
    rw [this]
    exact nofun)

example : ¬ Rfc5322.FieldName c!"a:b" ∧ ¬ Rfc5322.Unstructured c!" a\r\nb" ∧ ¬ Rfc5322.Unstructured c!"a\nb" := by
  rw [← C107_name_exact, ← C107_value_exact, ← C107_value_exact]
  decide

example : ∃ o : SigningOutput, Rfc5322.Header (o.formatHeader ++ c!"\r\n" ++ c!"Subject: a\r\n\tbücher \r\nFrom:é\r\nX:\r\n")
    [(o.headerName, o.headerValue), (c!"Subject", c!" a\r\n\tbücher "), (c!"From", c!"é"), (c!"X", [])] := by
  obtain ⟨o, s, record, h1, _⟩ := book_run
  exact ⟨o, (C107_produced (E := bookEnv) bookIdna_law testEnv_sort testEnv_set testHeaders [bookRequest] testHeaders_typed
    (by simpa using book_typed) testBody (fun _ => 1000) _ h1 (by intro k; cases k <;> decide) o (by simp)).2 _ _
    sample_header⟩

end Dkim
