import Verif.Props.RereadCases
import Verif.Props.Refold

/-!
# C37: domain names that do not keep their meaning when they are written

The signer writes the converted form of a name. Where a conversion is not stable, that is,
where the converted form is itself converted to something else, the name that is written is
not the name in the request. Older versions of the conversion that decode labels such as
`xn--abc-` (which encode nothing) to `abc` are such conversions.
-/

namespace Dkim

open Spec

/-- Decoding of a label that begins with `xn--`: without the prefix and the final hyphen;
nothing else can be decoded. Other labels stay as they are. -/
def plainLabel : Str → Option Str
  | 'x' :: 'n' :: '-' :: '-' :: r => if r.getLast? = some '-' then some r.dropLast else none
  | l => some l

/-- The decoded labels. -/
def plainName (s : Str) : Option Str :=
  if s.all fun c => c.toNat < 128 then ((splitOn '.' (lower s)).mapM plainLabel).map joinDots else none

/-- A conversion that decodes labels which encode nothing. -/
def plainIdna : Idna where
  toAscii := plainName
  toUnicode s := match plainName s with
    | some a => (a, true)
    | none => (s, false)

theorem plainIdna_law : IdnaLaw plainIdna where
  case_ignored s t h := by
    have e : (s.all fun c => decide (c.toNat < 128)) = t.all fun c => decide (c.toNat < 128) := by
      rw [← lower_all_ascii s, h, lower_all_ascii t]
    simp only [plainIdna, plainName, h, e]
  empty := rfl
  unicode_chars b d h := by
    obtain ⟨a, h1, _, h3⟩ := h
    simp only [plainIdna] at h1 ⊢
    rw [h1]
    refine ⟨h3.ne_nil, ?_⟩
    intro c hc
    have := h3.chars c hc
    unfold dnsChar at this
    unfold domainChar
    rcases this with h | h | h | h | h <;> simp [h]

/-- The test environment with this conversion. -/
def plainEnv : Env := { testEnv with idna := plainIdna }

/-- A request to sign for `d`. -/
def encodedRequest (d : Str) : SignRequest plainEnv :=
  SignRequest.new d c!"sel" .ed25519Sha256 (.ed25519 ())

theorem encodedRequest_typed {d : Str} (h : isValidDomainString plainIdna d true = true) :
    TypedRequest (encodedRequest d) where
  domain := (isValidDomainString_iff _ _ _).1 h
  selector := (isValidDomainString_iff plainIdna c!"sel" false).1 (by decide)
  identity := by intro i h; cases h
  names := by intro ns h; cases h
  length := by intro n h; cases h
  timestamp := by intro n h; cases h
  duration := by intro n h; injection h with h; subst h; decide
  width := show 1 ≤ 78 by decide
  sha1 := by intro h; cases h

set_option maxRecDepth 20000 in
/-- C37 is violated if the conversion is not stable: the domain `xn--xn--abc-.com` is
accepted, and is written as `xn--abc.com`, which is not accepted. -/
theorem C37_violation_names : IdnaLaw plainEnv.idna ∧ ∃ o,
    TypedRequest (encodedRequest c!"xn--xn--abc-.com") ∧
    Signed testHeaders [encodedRequest c!"xn--xn--abc-.com"] [b!"ab", b!"\r\n"] (fun _ => 5) [.ok o] ∧
    ∀ s, sigFromStr plainEnv.idna plainEnv.pre o.headerValue ≠ .ok s :=
  ⟨plainIdna_law, _, encodedRequest_typed (by decide), ⟨_, _, _, rfl, rfl, rfl⟩, Res.errOf_ne (e := _) (by rfl)⟩

end Dkim
