import Verif.Spec.Signature
import Verif.Model.Record

/-!
# Specification: what a key record means

Only data types are taken from the model. `lossy` is the conversion
`String::from_utf8_lossy`.
-/

namespace Dkim.Spec

/-- The hash algorithm with a given name. -/
def hashNamed (pre : Bool) (s : Str) : Option HashAlg :=
  if lower s = c!"sha256" then some .sha256
  else if pre = true ∧ lower s = c!"sha1" then some .sha1 else none

/-- The service type with a given name. -/
def serviceNamed (s : Str) : Option ServiceType :=
  if s = c!"*" then some .any else if lower s = c!"email" then some .email else none

/-- The flag with a given name. -/
def flagNamed (s : Str) : Option SelectorFlag :=
  if lower s = c!"y" then some .testing else if lower s = c!"s" then some .noSubdomains else none

/-- A list of non-empty items, of which the recognised ones are meant. -/
def ItemsText {α : Type} (named : Str → Option α) (v : Str) (xs : List α) : Prop :=
  ∃ items, ColonList items v ∧ (∀ i ∈ items, i ≠ [] ∧ Trimmed i ∧ ':' ∉ i) ∧ xs = items.filterMap named

/-- `k=`. -/
def KeyTypeText (v : Str) (k : KeyType) : Prop :=
  (k = .rsa ∧ lower v = c!"rsa") ∨ (k = .ed25519 ∧ lower v = c!"ed25519")

/-- Quoted-Printable text as in `n=`, where spaces and tabs stand for themselves. -/
inductive QpSection : Str → Bytes → Prop
  | nil : QpSection [] []
  | char (c : Char) (s : Str) (bs : Bytes) : dkimSafe c ∨ wsp c → QpSection s bs →
      QpSection (c :: s) (utf8 [c] ++ bs)
  | hex (a b : Char) (x y : Nat) (s : Str) (bs : Bytes) : HexVal a x → HexVal b y → QpSection s bs →
      QpSection ('=' :: a :: b :: s) (UInt8.ofNat (x * 16 + y) :: bs)

/-- The names of the tags of RFC 6376, section 3.6.1. -/
def knownRecordTags : List Str := [c!"v", c!"h", c!"k", c!"n", c!"p", c!"s", c!"t"]

/-- The key record that a list of tags stands for. -/
structure RecordOf (lossy : Bytes → Str) (pre : Bool) (tags : List (Str × Str)) (r : KeyRecord) : Prop where
  version : ∀ v, (c!"v", v) ∈ tags → ∃ rest, tags = (c!"v", c!"DKIM1") :: rest
  hashAlgorithms : Defaulting tags c!"h" (fun v x => ItemsText (hashNamed pre) v x ∧ x ≠ [])
    (if pre then [.sha256, .sha1] else [.sha256]) r.hashAlgorithms
  keyType : Defaulting tags c!"k" KeyTypeText .rsa r.keyType
  notes : Optional tags c!"n" (fun v x => ∃ bs, QpSection v bs ∧ x = lossy bs) r.notes
  keyData : Required tags c!"p" (fun v bs => unfws v = base64 bs) r.keyData
  serviceTypes : Defaulting tags c!"s" (fun v x => ItemsText serviceNamed v x ∧ x ≠ []) [.any] r.serviceTypes
  flags : Defaulting tags c!"t" (ItemsText flagNamed) [] r.flags
  extTags : r.extTags = tags.filter fun t => !knownRecordTags.contains t.1

end Dkim.Spec
