import Verif.Proofs.SelectingText
import Verif.Props.Selecting
import Verif.Props.Signature

/-!
# Property C113 for the verifier: messages that make it do work with the square of their size

Continues `Verif.Props.Selecting`: the names come from a signature that is part of the header.
-/

namespace Dkim

open Spec

/-- What it stands for. -/
def manyNamesData (n : Nat) : DkimSignature where
  algorithm := .rsaSha256
  signatureData := [1, 2, 3]
  bodyHash := [1, 2, 3]
  canonicalization := ⟨.simple, .simple⟩
  domain := c!"a.b"
  signedHeaders := manyNames n
  identity := none
  bodyLength := none
  selector := c!"s"
  timestamp := none
  expiration := none
  copiedHeaders := []
  extTags := []

/-- C113: there are such signatures. -/
theorem C113_written (pre : Bool) (n : Nat) :
    sigFromStr asciiIdna pre (manyNamesSig n) = .ok (manyNamesData n) := by
  rw [C30_parse_exact asciiIdna asciiIdna_caseLaw]
  refine ⟨manyNamesTags n, listText_many n, by simp [manyNamesTags], ?_⟩
  have hd : ValidDomain true asciiIdna c!"a.b" := (C27_domain_exact asciiIdna c!"a.b").1 rfl
  have hs : ValidDomain false asciiIdna c!"s" := (C27_selector_exact asciiIdna c!"s").1 rfl
  have hb : Base64Text c!"AQID" [1, 2, 3] := ⟨by decide, rfl⟩
  constructor
  · simp [manyNamesTags]
  · exact ⟨c!"rsa-sha256", by simp [manyNamesTags], .inl ⟨rfl, rfl⟩⟩
  · exact ⟨c!"AQID", by simp [manyNamesTags], hb⟩
  · exact ⟨c!"AQID", by simp [manyNamesTags], hb⟩
  · exact .inr ⟨by simp [manyNamesTags], rfl⟩
  · exact ⟨c!"a.b", by simp [manyNamesTags], rfl, hd⟩
  · refine ⟨_, by simp [manyNamesTags], colonList_many c!"From" n, (C113_worst .simple n).2.1, c!"From", ?_, rfl⟩
    exact List.mem_cons_self
  · simp [Optional, manyNamesTags, manyNamesData]
  · simp [Optional, manyNamesTags, manyNamesData]
  · simp [manyNamesTags]
  · exact ⟨c!"s", by simp [manyNamesTags], rfl, hs⟩
  · simp [Optional, manyNamesTags, manyNamesData]
  · simp [Optional, manyNamesTags, manyNamesData]
  · exact .inr ⟨by simp [manyNamesTags], rfl⟩
  · simp [manyNamesTags, manyNamesData, knownTags]
  · simp [manyNamesData]
  · simp [manyNamesData]

/-- A message with this signature. -/
def manyNamesMessage (n : Nat) : List Field := ⟨c!"DKIM-Signature", utf8 (manyNamesSig n)⟩ :: manyFields n

theorem typed_manyNames (n : Nat) : TypedHeaders (manyNamesMessage n) := by
  intro f hf
  rcases List.mem_cons.1 hf with rfl | hf
  · refine ⟨?_, ?_⟩
    · show ValidName c!"DKIM-Signature"
      rw [← fieldNameOk_iff]
      decide
    · apply FoldedText.validBody
      apply FoldedText.solids
      intro c hc
      rcases List.mem_append.1 hc with hc | hc
      · have : ∀ c ∈ c!"v=1;a=rsa-sha256;d=a.b;s=s;bh=AQID;b=AQID;h=From",
            (33 ≤ c.toNat ∧ c.toNat ≤ 126 ∧ c ≠ ';') ∨ c = ';' := by decide
        rcases this c hc with h | h
        · exact .inl (.inl h)
        · exact .inr h
      · rcases mem_manyNamesSig hc with rfl | rfl <;> exact .inl (.inl (by decide))
  · exact (C113_worst .simple n).1 f hf

/-- C113: the violation, of the verifier: not even in the size of the header, among which is the signature,
is there a linear bound on the work for one signature. -/
theorem C113_violation_verifier (pre : Bool) : ¬ ∃ c, ∀ (headers : List Field) (f : Field) (txt : Str)
    (s : DkimSignature), TypedHeaders headers → f ∈ headers → lower f.name = c!"dkim-signature" →
    f.body = utf8 txt → sigFromStr asciiIdna pre txt = .ok s →
    (canonHeadersV s.canonicalization.header headers s.signedHeaders).2 ≤ c * headerSize headers := by
  rintro ⟨c, h⟩
  have h1 := h (manyNamesMessage (80 * c)) _ _ _ (typed_manyNames _) List.mem_cons_self rfl rfl
    (C113_written pre (80 * c))
  have e1 : headerSize (manyNamesMessage (80 * c)) ≤ 80 * (80 * c + 1) := by
    rw [headerSize, manyNamesMessage, manyFields, List.map_cons, List.map_cons, List.map_replicate,
      List.sum_cons, List.sum_cons, List.sum_replicate_nat]
    simp only [length_manyNamesSig]
    rw [show byteLen c!"DKIM-Signature" = 14 from rfl, show byteLen c!"From" = 4 from rfl,
      show byteLen c!"a" = 1 from rfl, show (b!" me").length = 3 from rfl, List.length_nil]
    omega
  have hl : (manyNamesMessage (80 * c)).length = 80 * c + 2 := by
    rw [manyNamesMessage, List.length_cons, (C113_worst .simple _).2.2.1]
  have e2 : (canonHeadersV (manyNamesData (80 * c)).canonicalization.header (manyNamesMessage (80 * c))
      (manyNamesData (80 * c)).signedHeaders).2 = (80 * c + 1) + 80 * c * (80 * c + 2) := by
    rw [C113_exact]
    show fieldsLookedAt _ [] (manyNames _) = _
    rw [manyNames, fieldsLookedAt, fieldsLookedAt_absent, hl]
    · rw [manyNamesMessage, manyFields, List.reverse_cons, List.reverse_cons, List.reverse_replicate,
        List.append_assoc, fieldsUpTo_append, List.length_replicate]
      · rfl
      · intro f hf
        rw [List.eq_of_mem_replicate hf]
        decide
    · intro f hf
      rcases List.mem_cons.1 hf with rfl | hf
      · rfl
      rcases List.mem_cons.1 hf with rfl | hf
      · decide
      · rw [List.eq_of_mem_replicate hf]
        decide
  rw [e2] at h1
  have h2 : c * headerSize (manyNamesMessage (80 * c)) ≤ 80 * c * (80 * c + 1) := by
    rw [Nat.mul_comm 80 c, Nat.mul_assoc c 80, Nat.mul_comm c 80]
    exact Nat.mul_le_mul_left c e1
  have h3 : 80 * c * (80 * c + 1) ≤ 80 * c * (80 * c + 2) := Nat.mul_le_mul_left _ (by omega)
  omega

end Dkim
