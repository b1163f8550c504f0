import Verif.Proofs.FieldText
import Verif.Props.RereadCases
import Verif.Props.Header

/-!
# Property C17: the produced header field is well-formed
-/

namespace Dkim

open Spec

variable {E : Env}

theorem lower_validName {n : Str} (h : lower n = c!"dkim-signature") : ValidName n := by
  refine ⟨fun e => by subst e; exact absurd h (by decide), ?_⟩
  intro c hc
  have h1 : c.toLower ∈ lower n := List.mem_map_of_mem hc
  rw [h] at h1
  have h2 : ∀ d ∈ c!"dkim-signature", d = '-' ∨ 97 ≤ d.toNat ∧ d.toNat ≤ 122 := by decide
  have h3 := toLower_toNat c
  rcases h2 _ h1 with e | e
  · rw [e] at h3
    have e1 : ('-' : Char).toNat = 45 := rfl
    rw [e1] at h3
    have : c.toNat = 45 := by
      split at h3 <;> omega
    refine ⟨by omega, by omega, ?_⟩
    rintro rfl
    exact absurd this (by decide)
  · refine ⟨?_, ?_, ?_⟩
    · split at h3 <;> omega
    · split at h3 <;> omega
    · rintro rfl
      revert e
      decide

/-- C17: the name of a produced header field is a valid field name, and its value
consists of a first line and continuation lines; no line has control characters (in
particular, no other CR and LF) except TAB; each continuation line starts with
whitespace and is not blank. The conversion to a header field does not panic. -/
theorem C17_well_formed (law : IdnaLaw E.idna) (hs : SortLaw E.sortBy) (hset : SetLaw E.keySet)
    (headers : List Field) (requests : List (SignRequest E)) (hh : TypedHeaders headers)
    (ht : ∀ r ∈ requests, TypedRequest r) (chunks : List Bytes) (clock : Nat → Nat)
    (out : List (Except SigningError SigningOutput))
    (h : Signed headers requests chunks clock out)
    (hlen : ∀ k, (codeBody k chunks.flatten).length < 2 ^ 64) (o : SigningOutput) (ho : .ok o ∈ out) :
    ValidName o.headerName ∧
    (∃ (first : Bytes) (conts : List Bytes),
      utf8 o.headerValue = first ++ conts.flatMap (fun l => b!"\r\n" ++ l) ∧
      (∀ l ∈ first :: conts, ∀ b ∈ l, b = 9 ∨ (32 ≤ b.toNat ∧ b.toNat ≠ 127)) ∧
      ∀ l ∈ conts, (∃ w r, l = w :: r ∧ (w = 32 ∨ w = 9)) ∧ ∃ b ∈ l, b ≠ 32 ∧ b ≠ 9) ∧
    o.toHeaderField = some ⟨o.headerName, utf8 o.headerValue⟩ := by
  obtain ⟨i, ho⟩ := List.getElem?_of_mem ho
  have hlt : i < requests.length := by
    have h1 := (List.getElem?_eq_some_iff.1 ho).1
    obtain ⟨s, s', ss, g1, g2, g3⟩ := h
    obtain ⟨_, _, s2, ss2, out2, k1, k2, k3, _⟩ := signing_run law hs hset hh ht g1 chunks clock hlen
    rw [g2] at k1
    obtain ⟨rfl, _⟩ : s' = s2 ∧ ss = ss2 := by simpa using k1
    rw [g3] at k2; injection k2 with k2; subst k2
    omega
  have hr : requests[i]? = some requests[i] := List.getElem?_eq_getElem hlt
  obtain ⟨h1, h2, h3, part, h4, h5⟩ := signed_output law hs hset hh ht h hlen hr ho
  have hf := sigData_fine h1 h2 hh h3 part (clock i)
  obtain ⟨ns1, ns2, before, after, g1, ⟨t1, lead, g2, g3, g4⟩, hp⟩ := produceSignature_spec law hs hf
    requests[i].signingKey h2.keyType requests[i].format h2.indent headers
  rcases hp with ⟨_, e⟩ | ⟨sig, text, k1, k2, k3, e⟩
  · rw [h5] at e; cases e
  · rw [h5] at e
    injection e with e
    subst e
    have hn : ValidName requests[i].format.headerName := lower_validName h2.headerName
    have hb := (formatted_folded law hf (GoodIndent.fws h2.indent) (folded_base64_value h2.indent k3)
      (g4 text)).validBody
    rw [← g2] at hb
    refine ⟨hn, ?_, ?_⟩
    · obtain ⟨first, conts, b1, b2, b3⟩ := hb
      have hw : ∀ b, isWsp b = true ↔ b = 32 ∨ b = 9 := by simp [isWsp]
      refine ⟨first, conts, b1, ?_, ?_⟩
      · intro l hl
        rcases List.mem_cons.1 hl with rfl | hl
        · exact b2
        · exact (b3 l hl).1
      · intro l hl
        obtain ⟨⟨w, r, e1, e2⟩, b, b4, b5⟩ := (b3 l hl).2
        refine ⟨⟨w, r, e1, (hw w).1 e2⟩, b, b4, ?_⟩
        rw [← not_or, ← hw b, b5]
        simp
    · unfold SigningOutput.toHeaderField
      rw [if_pos]
      rw [Bool.and_eq_true, fieldNameOk_iff, fieldBodyOk_iff]
      exact ⟨hn, hb⟩

/-- C17: no header injection: the produced text, put on top of a header, is read as one
additional header field. -/
theorem C17_no_injection (law : IdnaLaw E.idna) (hs : SortLaw E.sortBy) (hset : SetLaw E.keySet)
    (headers : List Field) (requests : List (SignRequest E)) (hh : TypedHeaders headers)
    (ht : ∀ r ∈ requests, TypedRequest r) (chunks : List Bytes) (clock : Nat → Nat)
    (out : List (Except SigningError SigningOutput))
    (h : Signed headers requests chunks clock out)
    (hlen : ∀ k, (codeBody k chunks.flatten).length < 2 ^ 64) (o : SigningOutput) (ho : .ok o ∈ out)
    (fs : List (Str × Str)) (hfs : ∀ f ∈ fs, ValidName f.1 ∧ ValidBody (utf8 f.2)) :
    headerFieldsFromStr (o.formatHeader ++ ['\r', '\n'] ++ writeBlock fs) =
      some (⟨o.headerName, utf8 o.headerValue⟩ :: fs.map fun f => ⟨f.1, utf8 f.2⟩) := by
  obtain ⟨h1, _, h2⟩ := C17_well_formed law hs hset headers requests hh ht chunks clock out h hlen o ho
  have h3 : ValidBody (utf8 o.headerValue) := by
    unfold SigningOutput.toHeaderField at h2
    rw [← fieldBodyOk_iff]
    cases hb : fieldBodyOk (utf8 o.headerValue) with
    | true => rfl
    | false => simp [hb] at h2
  have := C24_block_round_trip ((o.headerName, o.headerValue) :: fs) (by simp) (by
    intro f hf
    rcases List.mem_cons.1 hf with rfl | hf
    · exact ⟨h1, h3⟩
    · exact hfs f hf)
  simpa [writeBlock, SigningOutput.formatHeader] using this

set_option maxRecDepth 20000 in
/-- Non-vacuity: a request with folded and non-ASCII extension tags, narrow lines, and
copied header fields. -/
theorem test_odd_output : ∃ o, TestRun testHeaders { testRequest with
    extTags := [(c!"y", c!"é\r\n\t ü"), (c!"z9", [])]
    format := { testRequest.format with lineWidth := 5 } } o ∧ 300 < o.headerValue.length :=
  ⟨_, ⟨testHeaders_typed, typed_of_check (by decide), _, _, _, rfl, rfl, rfl⟩, by decide⟩

end Dkim
