import Verif.Spec.Verifier
import Verif.Spec.Refold
import Verif.Spec.BodyHash

/-!
# Specification: what relays do to a message
-/

namespace Dkim.Spec

/-- A message with a DKIM-Signature field. -/
structure Mail where
  /-- The header fields above the signature. -/
  above : List Field
  /-- The DKIM-Signature field. -/
  field : Field
  /-- The header fields below the signature. -/
  below : List Field
  /-- The body. -/
  body : Bytes

/-- The header of the message. -/
def Mail.headers (m : Mail) : List Field := m.above ++ m.field :: m.below

/-- One change of a part of the header, given the names in the `h=` tag, the names that the
verifier requires to be signed completely, and the canonicalization of the header. -/
inductive FieldsStep (signed guarded : List Str) (alg : CanonAlg) : List Field → List Field → Prop
  /-- A field is added that is neither signed nor guarded. -/
  | add (a b : List Field) (g : Field) : (∀ n ∈ signed, lower g.name ≠ lower n) →
      (∀ n ∈ guarded, lower g.name ≠ lower n) → FieldsStep signed guarded alg (a ++ b) (a ++ g :: b)
  /-- Two neighbours with different names change places. -/
  | exchange (a b : List Field) (g h : Field) : lower g.name ≠ lower h.name →
      FieldsStep signed guarded alg (a ++ g :: h :: b) (a ++ h :: g :: b)
  /-- With relaxed canonicalization, a field is folded differently, and the case of its name
  changes; the words stay the same. -/
  | refold (a b : List Field) (g h : Field) (ws : List Bytes) : alg = .relaxed →
      lower g.name = lower h.name → Spaced ws g.body → Spaced ws h.body →
      FieldsStep signed guarded alg (a ++ g :: b) (a ++ h :: b)

/-- One change of the body, given its canonicalization. -/
inductive BodyStep : CanonAlg → Bytes → Bytes → Prop
  /-- With relaxed canonicalization, a run of spaces and tabs is replaced with another one. -/
  | run (x w w' y : Bytes) : w ≠ [] → w' ≠ [] → (∀ b ∈ w, isWsp b = true) → (∀ b ∈ w', isWsp b = true) →
      BodyStep .relaxed (x ++ w ++ y) (x ++ w' ++ y)
  /-- With relaxed canonicalization, spaces and tabs are added at the end of a line. -/
  | trailing (x w y : Bytes) : (∀ b ∈ w, isWsp b = true) →
      BodyStep .relaxed (x ++ b!"\r\n" ++ y) (x ++ w ++ b!"\r\n" ++ y)
  /-- The last line, which ends with a visible character, gets its line break. -/
  | ending (alg : CanonAlg) (x : Bytes) (b : UInt8) : b ≠ 10 → isWsp b = false →
      BodyStep alg (x ++ [b]) (x ++ [b] ++ b!"\r\n")
  /-- Blank lines are added at the end. -/
  | blank (alg : CanonAlg) (body extra : Bytes) : b!"\r\n" <:+ body → BlankLines alg extra →
      BodyStep alg body (body ++ extra)

/-- One change of a header: of any part of it, or a field is added on top that is not guarded, and the name of which
occurs already as often as it is signed. -/
inductive HeaderStep (signed guarded : List Str) (alg : CanonAlg) : List Field → List Field → Prop
  | part (x y : List Field) : FieldsStep signed guarded alg x y → HeaderStep signed guarded alg x y
  | onTop (x : List Field) (g : Field) : mentions signed g.name ≤ occurrences x g.name →
      (∀ n ∈ guarded, lower g.name ≠ lower n) → HeaderStep signed guarded alg x (g :: x)

/-- Any number of changes of a header, each of which may also be undone. -/
inductive HeaderChanged (signed guarded : List Str) (alg : CanonAlg) : List Field → List Field → Prop
  | same (x : List Field) : HeaderChanged signed guarded alg x x
  | step (x y z : List Field) : HeaderChanged signed guarded alg x y → HeaderStep signed guarded alg y z →
      HeaderChanged signed guarded alg x z
  | back (x y z : List Field) : HeaderChanged signed guarded alg x y → HeaderStep signed guarded alg z y →
      HeaderChanged signed guarded alg x z

/-- Any number of changes of the body, each of which may also be undone. -/
inductive BodyChanged (alg : CanonAlg) : Bytes → Bytes → Prop
  | same (x : Bytes) : BodyChanged alg x x
  | step (x y z : Bytes) : BodyChanged alg x y → BodyStep alg y z → BodyChanged alg x z
  | back (x y z : Bytes) : BodyChanged alg x y → BodyStep alg z y → BodyChanged alg x z

/-- One change of a message. -/
inductive RelayStep (signed guarded : List Str) (alg : Canonicalization) : Mail → Mail → Prop
  /-- The fields above the signature change. -/
  | above (a a' : List Field) (f : Field) (b : List Field) (body : Bytes) :
      FieldsStep signed guarded alg.header a a' → RelayStep signed guarded alg ⟨a, f, b, body⟩ ⟨a', f, b, body⟩
  /-- The fields below the signature change. -/
  | below (a : List Field) (f : Field) (b b' : List Field) (body : Bytes) :
      FieldsStep signed guarded alg.header b b' → RelayStep signed guarded alg ⟨a, f, b, body⟩ ⟨a, f, b', body⟩
  /-- A field is added on top, as relays do. Its name may be signed if there are already as
  many fields with that name as are signed. -/
  | onTop (m : Mail) (g : Field) : mentions signed g.name ≤ occurrences m.headers g.name →
      (∀ n ∈ guarded, lower g.name ≠ lower n) →
      RelayStep signed guarded alg m ⟨g :: m.above, m.field, m.below, m.body⟩
  /-- The signature changes places with the field below it. -/
  | down (a : List Field) (f g : Field) (b : List Field) (body : Bytes) : lower f.name ≠ lower g.name →
      RelayStep signed guarded alg ⟨a, f, g :: b, body⟩ ⟨a ++ [g], f, b, body⟩
  /-- With relaxed canonicalization, the signature itself is folded differently. -/
  | signature (a : List Field) (n n' s s' : Str) (b : List Field) (body : Bytes) : alg.header = .relaxed →
      lower n = lower n' → Refold s s' →
      RelayStep signed guarded alg ⟨a, ⟨n, utf8 s⟩, b, body⟩ ⟨a, ⟨n', utf8 s'⟩, b, body⟩
  /-- The body changes. -/
  | body (a : List Field) (f : Field) (b : List Field) (body body' : Bytes) : BodyStep alg.body body body' →
      RelayStep signed guarded alg ⟨a, f, b, body⟩ ⟨a, f, b, body'⟩

/-- Any number of changes, each of which may also be undone. -/
inductive Relayed (signed guarded : List Str) (alg : Canonicalization) : Mail → Mail → Prop
  | same (m : Mail) : Relayed signed guarded alg m m
  | step (m₁ m₂ m₃ : Mail) : Relayed signed guarded alg m₁ m₂ → RelayStep signed guarded alg m₂ m₃ →
      Relayed signed guarded alg m₁ m₃
  | back (m₁ m₂ m₃ : Mail) : Relayed signed guarded alg m₁ m₂ → RelayStep signed guarded alg m₃ m₂ →
      Relayed signed guarded alg m₁ m₃

end Dkim.Spec
