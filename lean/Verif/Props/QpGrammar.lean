import Verif.Proofs.QpExact

/-!
# Property C68: what the Quoted-Printable decoders accept
-/

namespace Dkim

open Spec

/-- C68: decoding succeeds with bytes `bs` exactly if the text is a sequence of printable
characters other than `;` and `=`, each standing for its UTF-8 encoding, and of equals
signs followed by two hexadecimal digits (of either case), with at most one FWS inserted
at each place. -/
theorem C68_decode (t : Str) (bs : Bytes) : qpDecode t = .ok bs ↔ ∃ s, Inserted s t ∧ QpBytes s bs := by
  constructor
  · intro h
    obtain ⟨s, bs', h1, h2, h3, _⟩ := qpDecodeLoop_ok _ _ _ _ _ h
    rw [List.nil_append] at h3
    exact ⟨s, h1, h3 ▸ h2⟩
  · rintro ⟨s, h1, h2⟩
    rw [qpDecode_inserted (qpBytes_clean h2) h1, (qpRef_iff s bs).2 h2]
    rfl

/-- C68: decoding never panics: it fails or yields bytes. -/
theorem C68_decode_total (t : Str) : qpDecode t = .err ∨ ∃ bs, qpDecode t = .ok bs := by
  cases h : qpDecode t with
  | ok bs => exact .inr ⟨bs, rfl⟩
  | err => exact .inl rfl
  | panic => exact absurd h (qpDecodeLoop_noPanic _ _ _ _)

/-- C68: the decoder for sections, where spaces and tabs stand for themselves and there
is no folding. -/
theorem C68_section (t : Str) (bs : Bytes) : qpSectionDecode t = .ok bs ↔ QpSection t bs := by
  unfold qpSectionDecode
  rw [qpSectionLoop_ref, ← qpsRef_iff]
  cases qpsRef t <;> simp [qpOut]

/-- C68: it does not panic either. -/
theorem C68_section_total (t : Str) : qpSectionDecode t = .err ∨ ∃ bs, qpSectionDecode t = .ok bs := by
  unfold qpSectionDecode
  rw [qpSectionLoop_ref]
  cases qpsRef t with
  | none => exact .inl rfl
  | some bs => exact .inr ⟨_, rfl⟩

/-- Non-vacuity: a lower case pair with folding inside, and text outside ASCII. -/
example : qpDecode c!"é=\r\n f\tFx " = .ok [0xc3, 0xa9, 0xff, 0x78] ∧
    qpDecode c!"a  \r\n  b" = .ok b!"ab" ∧ qpDecode c!"a \r\n \r\n b" = .err ∧ qpDecode c!"a=4" = .err ∧
    qpSectionDecode c!"a =3d\t" = .ok b!"a =\t" ∧ qpSectionDecode c!"a\r\n b" = .err := by decide

end Dkim
