import Verif.Model.KeyFile

/-!
# Specification: private key files

From the model only data types are used (`Pkcs8`, `SigningKey`).
-/

namespace Dkim.Spec

variable {C : Crypto} (P : Pkcs8 C)

/-- A PEM document with a label and content. -/
def PemDocument (s : Str) (label : Str) (content : Bytes) : Prop := P.fromPem s = some (label, content)

/-- A PEM document labelled as private key. -/
def LabelledDocument (s : Str) (content : Bytes) : Prop :=
  ∃ label, PemDocument P s label content ∧ P.labelValid label = true

/-- A PEM document labelled as private key that contains private key info. -/
def KeyDocument (s : Str) (info : P.Info) : Prop :=
  ∃ content, LabelledDocument P s content ∧ P.keyInfo content = some info

/-- The key in private key info: an RSA key, or else an Ed25519 key. -/
def InfoKey (info : P.Info) : SigningKey C → Prop
  | .rsa k => P.toRsa info = some k
  | .ed25519 k => P.toRsa info = none ∧ P.toEd info = some k

end Dkim.Spec
