import Verif.Spec.Verifier
import Verif.Model.Work

/-!
# Specification for C111: the expensive steps of verification
-/

namespace Dkim.Spec

/-- The texts that were parsed, in order. -/
def parsedTexts (work : List Work) : List Str :=
  work.filterMap fun
    | .parse txt => some txt
    | .check _ _ => none

/-- The key records with which the signature at an index was checked, in order. -/
def checkedWith (i : Nat) (work : List Work) : List KeyRecord :=
  work.filterMap fun
    | .parse _ => none
    | .check j r => if j = i then some r else none

/-- The number of checks of signatures. -/
def checkCount (work : List Work) : Nat :=
  work.countP fun
    | .parse _ => false
    | .check _ _ => true

/-- The texts in an answer, as far as they are tried and are UTF-8. -/
def answerTexts : Except IoErr (List (Except IoErr Bytes)) → List Str
  | .error _ => []
  | .ok txts => (firstTwoAndLast txts).filterMap fun
    | .error _ => none
    | .ok bytes => fromUtf8 bytes

variable (E : Env)

/-- A key record can be used: all of its checks pass but for the last, which is the check of the
signature. -/
def Usable (cfg : Config) (headers : List Field) (f : Field) (original : Str) (sig : DkimSignature)
    (r : KeyRecord) : Prop :=
  AllPass (recordChecks E cfg headers f original sig r).dropLast

/-- The records with which a signature is checked, of those that are tried: the usable ones, up to
the first that verifies it. -/
inductive CheckedRecords (cfg : Config) (headers : List Field) (f : Field) (original : Str) (sig : DkimSignature) :
    List (Except IoErr Bytes) → List KeyRecord → Prop
  | none : CheckedRecords cfg headers f original sig [] []
  | unusable (txt : Except IoErr Bytes) (txts : List (Except IoErr Bytes)) (rs : List KeyRecord) :
      (∀ r, TxtRecord E txt r → ¬ Usable E cfg headers f original sig r) →
      CheckedRecords cfg headers f original sig txts rs → CheckedRecords cfg headers f original sig (txt :: txts) rs
  | wrong (txt : Except IoErr Bytes) (txts : List (Except IoErr Bytes)) (r : KeyRecord) (rs : List KeyRecord) :
      TxtRecord E txt r → Usable E cfg headers f original sig r →
      ¬ AllPass (recordChecks E cfg headers f original sig r) →
      CheckedRecords cfg headers f original sig txts rs →
      CheckedRecords cfg headers f original sig (txt :: txts) (r :: rs)
  | verified (txt : Except IoErr Bytes) (txts : List (Except IoErr Bytes)) (r : KeyRecord) :
      TxtRecord E txt r → AllPass (recordChecks E cfg headers f original sig r) →
      CheckedRecords cfg headers f original sig (txt :: txts) [r]

/-- The records with which the signature in field `f` is checked: none, unless the signature can be
read, passes the checks that need no key, and its lookup is answered. -/
inductive FieldChecks (resolver : Resolver) (cfg : Config) (now : Int) (headers : List Field) (f : Field) :
    List KeyRecord → Prop
  | skipped : (∀ value sig name txts, FieldSignature E f value sig →
        AllPass (signatureChecks E cfg (unixTime cfg now) headers sig) → QueryFor E sig name →
        (resolver name).result ≠ .ok txts) → FieldChecks resolver cfg now headers f []
  | checked (value original : Str) (sig : DkimSignature) (name : Str) (txts : List (Except IoErr Bytes))
      (rs : List KeyRecord) : FieldSignature E f value sig → WithoutB value original →
      AllPass (signatureChecks E cfg (unixTime cfg now) headers sig) → QueryFor E sig name →
      (resolver name).result = .ok txts → CheckedRecords E cfg headers f original sig (firstTwoAndLast txts) rs →
      FieldChecks resolver cfg now headers f rs

end Dkim.Spec
