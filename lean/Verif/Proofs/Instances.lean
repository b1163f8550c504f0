import Verif.Spec.Domain
import Verif.Proofs.HeaderText
import Verif.Proofs.Domain

/-! Concrete instances of external functions, used to show that assumed laws can
be met. -/

namespace Dkim

open Spec

/-- IDNA conversion restricted to ASCII names: lower case. -/
def asciiIdna : Idna where
  toAscii s := if s.all fun c => c.toNat < 128 then some (lower s) else none
  toUnicode s := (lower s, true)

theorem lower_all_ascii (s : Str) :
    ((lower s).all fun c => c.toNat < 128) = s.all fun c => c.toNat < 128 := by
  have h : ∀ c : Char, decide (c.toLower.toNat < 128) = decide (c.toNat < 128) := by
    intro c
    have := toLower_toNat c
    rw [decide_eq_decide]
    split at this <;> omega
  simp [lower, List.all_map, Function.comp_def, h]

theorem asciiIdna_caseLaw : CaseLaw asciiIdna where
  case_ignored s t h := by
    have e : (s.all fun c => decide (c.toNat < 128)) = t.all fun c => decide (c.toNat < 128) := by
      rw [← lower_all_ascii s, h, lower_all_ascii t]
    simp only [asciiIdna, h, e]

theorem lower_lower (s : Str) : lower (lower s) = lower s := by
  have : ∀ c : Char, c.toLower.toLower = c.toLower := by
    intro c
    apply Char.toNat_inj.1
    have h1 := toLower_toNat c
    have h2 := toLower_toNat c.toLower
    split at h1 <;> split at h2 <;> omega
  simp [lower, this]

theorem asciiIdna_idnaLaw : IdnaLaw asciiIdna where
  toCaseLaw := asciiIdna_caseLaw
  empty := rfl
  unicode_chars b d h := by
    obtain ⟨a, h1, _, h3⟩ := h
    simp only [asciiIdna] at h1 ⊢
    split at h1
    · injection h1 with h1
      subst h1
      refine ⟨h3.ne_nil, ?_⟩
      intro c hc
      have := h3.chars c hc
      unfold dnsChar at this
      unfold domainChar
      rcases this with h | h | h | h | h <;> simp [h]
    · cases h1

theorem asciiIdna_consistent (d : Str) : Consistent asciiIdna d where
  ascii_form a ha := by
    simp only [asciiIdna] at ha ⊢
    split at ha
    · injection ha with ha
      subst ha
      rename_i hd
      rw [lower_all_ascii, if_pos hd, lower_lower]
      simp
    · cases ha
  unicode_form := by
    simp only [asciiIdna]
    rw [lower_all_ascii, lower_lower]
    simp

end Dkim
