import Verif.Spec.KeyFile
import Verif.Proofs.TestEnv

/-!
# Property C73: loading of private keys
-/

namespace Dkim

open Spec

variable {C : Crypto} (P : Pkcs8 C) (s : Str)

/-- C73: a key is loaded exactly if the text is a PEM document labelled as private key
that contains private key info, and the key is the RSA or else the Ed25519 key
therein. -/
theorem C73_loaded (k : SigningKey C) :
    signingKeyFromPem P s = .ok k ↔ ∃ info, KeyDocument P s info ∧ InfoKey P info k := by
  unfold signingKeyFromPem KeyDocument LabelledDocument PemDocument
  cases h1 : P.fromPem s with
  | none => simp
  | some p =>
    obtain ⟨label, doc⟩ := p
    dsimp only
    cases h2 : P.labelValid label with
    | false =>
      simp only [Bool.false_eq_true, if_false, reduceCtorEq, Option.some.injEq, Prod.mk.injEq, false_iff]
      rintro ⟨_, ⟨_, ⟨_, ⟨rfl, rfl⟩, h⟩, _⟩, _⟩
      rw [h2] at h
      cases h
    | true =>
      cases h3 : P.keyInfo doc with
      | none =>
        simp only [if_true, reduceCtorEq, Option.some.injEq, Prod.mk.injEq, false_iff]
        rintro ⟨_, ⟨_, ⟨_, ⟨rfl, rfl⟩, _⟩, h⟩, _⟩
        rw [h3] at h
        cases h
      | some pk =>
        have key : (∃ info, (∃ content, (∃ label', some (label, doc) = some (label', content) ∧
            P.labelValid label' = true) ∧ P.keyInfo content = some info) ∧ InfoKey P info k) ↔ InfoKey P pk k := by
          constructor
          · rintro ⟨info, ⟨content, ⟨l, e, _⟩, h⟩, hk⟩
            simp only [Option.some.injEq, Prod.mk.injEq] at e
            obtain ⟨rfl, rfl⟩ := e
            rw [h3] at h
            injection h with h
            rw [h]
            exact hk
          · intro hk
            exact ⟨pk, ⟨doc, ⟨label, rfl, h2⟩, h3⟩, hk⟩
        rw [key]
        simp only [if_true, h3]
        cases h4 : P.toRsa pk with
        | some r => cases k <;> simp [InfoKey, h4]
        | none =>
          cases h5 : P.toEd pk with
          | some r => cases k <;> simp [InfoKey, h4, h5]
          | none => cases k <;> simp [InfoKey, h4, h5]

/-- C73: each error names the first step that failed. -/
theorem C73_error (e : KeyFileError) : signingKeyFromPem P s = .error e ↔
    match e with
    | .invalidPemDocument => ∀ label content, ¬ PemDocument P s label content
    | .notAPrivateKeyInfoDocument =>
      (∃ label content, PemDocument P s label content) ∧ ∀ content, ¬ LabelledDocument P s content
    | .invalidKeyData => (∃ content, LabelledDocument P s content) ∧ ∀ info, ¬ KeyDocument P s info
    | .unsupportedKeyType => ∃ info, KeyDocument P s info ∧ ∀ k, ¬ InfoKey P info k := by
  unfold signingKeyFromPem KeyDocument LabelledDocument PemDocument
  cases h1 : P.fromPem s with
  | none => cases e <;> simp
  | some p =>
    obtain ⟨label, doc⟩ := p
    have hl : ∀ content, (∃ label', some (label, doc) = some (label', content) ∧ P.labelValid label' = true) ↔
        doc = content ∧ P.labelValid label = true := by
      intro content
      constructor
      · rintro ⟨l, h, hv⟩
        simp only [Option.some.injEq, Prod.mk.injEq] at h
        obtain ⟨rfl, rfl⟩ := h
        exact ⟨rfl, hv⟩
      · rintro ⟨rfl, hv⟩
        exact ⟨label, rfl, hv⟩
    simp only [hl]
    cases h2 : P.labelValid label with
    | false => cases e <;> simp
    | true =>
      cases h3 : P.keyInfo doc with
      | none => cases e <;> simp [h3]
      | some pk =>
        simp only [if_true, h3]
        cases h4 : P.toRsa pk with
        | some r =>
          cases e <;> simp [h3]
          exact ⟨.rsa r, h4⟩
        | none =>
          cases h5 : P.toEd pk with
          | some r =>
            cases e <;> simp [h3]
            exact ⟨.ed25519 r, h4, h5⟩
          | none =>
            cases e <;> simp [h3]
            intro k
            cases k <;> simp [InfoKey, h4, h5]

/-- A toy document format: `R` and `E` are keys. -/
def testPkcs8 : Pkcs8 testCrypto where
  Info := Str
  fromPem s := if s = [] then none else some (s.take 1, utf8 (s.drop 1))
  labelValid l := l = c!"P"
  keyInfo d := if d = [] then none else fromUtf8 d
  toRsa i := if i = c!"R" then some () else none
  toEd i := if i = c!"E" then some () else none

/-- Non-vacuity: both kinds of keys, and all errors. -/
example : signingKeyFromPem testPkcs8 c!"PR" = .ok (.rsa ()) ∧ signingKeyFromPem testPkcs8 c!"PE" = .ok (.ed25519 ()) ∧
    signingKeyFromPem testPkcs8 [] = .error .invalidPemDocument ∧
    signingKeyFromPem testPkcs8 c!"CR" = .error .notAPrivateKeyInfoDocument ∧
    signingKeyFromPem testPkcs8 c!"P" = .error .invalidKeyData ∧
    signingKeyFromPem testPkcs8 c!"PX" = .error .unsupportedKeyType :=
  ⟨by rfl, by rfl, by rfl, by rfl, by rfl, by rfl⟩

end Dkim
