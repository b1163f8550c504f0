import Verif.Spec.Canon
import Verif.Model.Canon

/-!
# Specification: header fields

Only the data type `Field` (a name and a body) is taken from the model. Lower
case is `Char.toLower` of Lean's core library, which affects ASCII letters only.
-/

namespace Dkim.Spec

/-- ASCII lower case. -/
def lower (s : Str) : Str := s.map Char.toLower

/-- Names equal up to the case of ASCII letters. -/
def sameName (a b : Str) : Bool := lower a == lower b

/-- RFC 6376, section 5.4.2: the instances of header fields with a name, counted
from the bottom of the header. -/
def fromBottom (headers : List Field) (n : Str) : List Field :=
  headers.reverse.filter fun f => sameName f.name n

/-- The fields selected by a list of names: a name mentioned for the (k+1)-th
time selects the instance number k from the bottom, or none if there is no such
instance. The second argument holds the earlier mentions. -/
def selectAux (headers : List Field) : List Str → List Str → List Field
  | _, [] => []
  | earlier, n :: ns =>
    ((fromBottom headers n)[earlier.countP (sameName n)]?).toList
      ++ selectAux headers (n :: earlier) ns

def selectedFields (headers : List Field) (sel : List Str) : List Field :=
  selectAux headers [] sel

/-- How often a name is mentioned in an `h=` list. -/
def mentions (sel : List Str) (n : Str) : Nat := sel.countP (sameName n)

/-- How often header fields with a name occur. -/
def occurrences (headers : List Field) (n : Str) : Nat :=
  headers.countP fun f => sameName n f.name

/-- RFC 6376, section 3.4.1 and 3.4.2, for one header field, without the final
CRLF. -/
def canonField (alg : CanonAlg) (name : Str) (v : Bytes) : Bytes :=
  match alg with
  | .simple => utf8 name ++ [58] ++ v
  | .relaxed => utf8 (lower name) ++ [58] ++ rfcRelaxedValue v

/-- RFC 6376, section 3.7: the data that are hashed for the signature: the selected
header fields, and the signature field (with the value of `b=` deleted) without its
CRLF. -/
def headerHashInput (alg : CanonAlg) (headers : List Field) (names : List Str) (sigName sigValue : Str) :
    Bytes :=
  ((selectedFields headers names).flatMap fun f => canonField alg f.name f.body ++ b!"\r\n") ++
    canonField alg sigName (utf8 sigValue)

/-- Unfolding: deleting CRLF line breaks. -/
def unfold : Bytes → Bytes
  | [] => []
  | [b] => [b]
  | b :: c :: r => if b = 13 ∧ c = 10 then unfold r else b :: unfold (c :: r)

/-- RFC 6376, section 3.4.2, step by step: unfold, reduce every run of WSP to one
SP, delete WSP at the end and at the beginning of the value. -/
def relaxSteps (v : Bytes) : Bytes := (stripTrailingWsp (reduceWsp (unfold v))).dropWhile isWsp

/-- CR and LF occur only in line breaks CRLF that are followed by whitespace. -/
inductive FoldsOnly : Bytes → Prop
  | nil : FoldsOnly []
  | byte (b : UInt8) (r : Bytes) : b ≠ 13 → b ≠ 10 → FoldsOnly r → FoldsOnly (b :: r)
  | fold (w : UInt8) (r : Bytes) : isWsp w = true → FoldsOnly r → FoldsOnly (13 :: 10 :: w :: r)

/-- `v` consists of the words `ws`, with non-empty whitespace (including line
breaks) between them, and possibly some at either end. -/
inductive Spaced : List Bytes → Bytes → Prop
  | blank (g : Bytes) : (∀ b ∈ g, isFoldChar b = true) → Spaced [] g
  | last (g w g' : Bytes) : (∀ b ∈ g, isFoldChar b = true) → w ≠ [] →
      (∀ b ∈ w, isFoldChar b = false) → (∀ b ∈ g', isFoldChar b = true) → Spaced [w] (g ++ w ++ g')
  | more (g w : Bytes) (s : UInt8) (ws : List Bytes) (v : Bytes) : (∀ b ∈ g, isFoldChar b = true) →
      w ≠ [] → (∀ b ∈ w, isFoldChar b = false) → isFoldChar s = true → Spaced ws v →
      Spaced (w :: ws) (g ++ w ++ s :: v)

/-- A line of a field body: no control character except TAB. -/
def cleanLine (l : Bytes) : Prop := ∀ b ∈ l, b = 9 ∨ (32 ≤ b.toNat ∧ b.toNat ≠ 127)

/-- A continuation line: begins with SP or TAB, and has another character. -/
def continuation (l : Bytes) : Prop :=
  (∃ w r, l = w :: r ∧ isWsp w = true) ∧ ∃ b ∈ l, isWsp b = false

/-- A valid field body: a clean line, then any number of folds, each CRLF and a
clean, non-blank continuation line. -/
def ValidBody (v : Bytes) : Prop :=
  ∃ (first : Bytes) (conts : List Bytes),
    v = first ++ conts.flatMap (fun l => 13 :: 10 :: l) ∧ cleanLine first ∧
    ∀ l ∈ conts, cleanLine l ∧ continuation l

/-- A valid field name: non-empty, printable ASCII except colon. -/
def ValidName (n : Str) : Prop := n ≠ [] ∧ ∀ c ∈ n, 33 ≤ c.toNat ∧ c.toNat ≤ 126 ∧ c ≠ ':'

end Dkim.Spec

namespace Dkim.Spec

/-- A header block: name, colon, value, CRLF for every field. -/
def writeBlock (fs : List (Str × Str)) : Str :=
  fs.flatMap fun f => f.1 ++ [':'] ++ f.2 ++ ['\r', '\n']

/-- The same text with LF line breaks: every CR before LF is removed. -/
def toLf : Str → Str
  | [] => []
  | [c] => [c]
  | c :: d :: r => if c = '\r' ∧ d = '\n' then toLf (d :: r) else c :: toLf (d :: r)

end Dkim.Spec
