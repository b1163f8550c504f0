import Verif.Model.Signature

/-!
# Key records

Model of `/repo/src/record.rs`. `String::from_utf8_lossy`, which is used only for
the notes, is the parameter `lossy`.
-/

namespace Dkim

/-- record.rs:32-38 `ServiceType`. -/
inductive ServiceType
  | any
  | email
deriving DecidableEq, Repr

/-- record.rs:63-68 `SelectorFlag`. -/
inductive SelectorFlag
  | testing
  | noSubdomains
deriving DecidableEq, Repr

/-- record.rs:40-53: the name of a service type. -/
def ServiceType.canonicalStr : ServiceType → Str
  | .any => c!"*"
  | .email => c!"email"

/-- record.rs:70-83: the name of a flag. -/
def SelectorFlag.canonicalStr : SelectorFlag → Str
  | .testing => c!"y"
  | .noSubdomains => c!"s"

/-- record.rs:94-110 `DkimKeyRecordError`. -/
inductive RecordError
  | recordFormat
  | tagListFormat
  | misplacedVersionTag
  | incompatibleVersion
  | invalidHashAlgorithm
  | noSupportedHashAlgorithms
  | unsupportedKeyType
  | invalidQuotedPrintable
  | invalidBase64
  | invalidServiceType
  | noSupportedServiceTypes
  | invalidFlag
  | missingKeyTag
deriving DecidableEq, Repr

/-- record.rs:138-153 `DkimKeyRecord`. -/
structure KeyRecord where
  hashAlgorithms : List HashAlg
  keyType : KeyType
  notes : Option Str
  keyData : Bytes
  serviceTypes : List ServiceType
  flags : List SelectorFlag
  extTags : List (Str × Str)
deriving DecidableEq, Repr

/-- The local variables record.rs:161-167. -/
structure RecAcc where
  hashAlgorithms : Option (List HashAlg) := none
  keyType : Option KeyType := none
  notes : Option Str := none
  keyData : Option Bytes := none
  serviceTypes : Option (List ServiceType) := none
  flags : Option (List SelectorFlag) := none
  extTags : List (Str × Str) := []

/-- record.rs:187-194: one item of `h=`. -/
def recHashAlg (pre : Bool) (s : Str) : Option HashAlg :=
  if eqIgnoreCase s c!"sha256" then some .sha256
  else if pre && eqIgnoreCase s c!"sha1" then some .sha1
  else none

/-- record.rs:237-241: one item of `s=`. -/
def recServiceType (s : Str) : Option ServiceType :=
  if s = c!"*" then some .any
  else if eqIgnoreCase s c!"email" then some .email
  else none

/-- record.rs:258-262: one item of `t=`. -/
def recFlag (s : Str) : Option SelectorFlag :=
  if eqIgnoreCase s c!"y" then some .testing
  else if eqIgnoreCase s c!"s" then some .noSubdomains
  else none

/-- The loops record.rs:182-195, 232-242, 253-263: an empty item is an error,
unrecognised items are skipped. -/
def recItems {α : Type} (item : Str → Option α) : List Str → Option (List α)
  | [] => some []
  | s :: rest =>
    if s.isEmpty then none
    else
      match recItems item rest with
      | none => none
      | some xs => some ((item s).toList ++ xs)

/-- record.rs:179-202. -/
def recTagH (pre : Bool) (value : Str) : Res RecordError (List HashAlg) :=
  match recItems (recHashAlg pre) (parseColonSeparated value) with
  | none => .err .invalidHashAlgorithm
  | some algs => if algs.isEmpty then .err .noSupportedHashAlgorithms else .ok algs

/-- record.rs:203-211. -/
def recTagK (value : Str) : Res RecordError KeyType :=
  if eqIgnoreCase value c!"rsa" then .ok .rsa
  else if eqIgnoreCase value c!"ed25519" then .ok .ed25519
  else .err .unsupportedKeyType

/-- record.rs:212-222. -/
def recTagN (lossy : Bytes → Str) (value : Str) : Res RecordError Str :=
  match qpSectionDecode value with
  | .panic => .panic
  | .err => .err .invalidQuotedPrintable
  | .ok bytes => .ok (lossy bytes)

/-- record.rs:223-228. -/
def recTagP (value : Str) : Res RecordError Bytes :=
  match parseBase64Value value with
  | none => .err .invalidBase64
  | some bytes => .ok bytes

/-- record.rs:229-249. -/
def recTagS (value : Str) : Res RecordError (List ServiceType) :=
  match recItems recServiceType (parseColonSeparated value) with
  | none => .err .invalidServiceType
  | some st => if st.isEmpty then .err .noSupportedServiceTypes else .ok st

/-- record.rs:250-266. -/
def recTagT (value : Str) : Res RecordError (List SelectorFlag) :=
  match recItems recFlag (parseColonSeparated value) with
  | none => .err .invalidFlag
  | some fs => .ok fs

/-- record.rs:170-270: one iteration of the loop over the tags, for the tag with
index `i`. -/
def recTag (lossy : Bytes → Str) (pre : Bool) (acc : RecAcc) (i : Nat) (t : TagSpec) :
    Res RecordError RecAcc :=
  if t.name = c!"v" then
    if i ≠ 0 then .err .misplacedVersionTag
    else if t.value ≠ c!"DKIM1" then .err .incompatibleVersion
    else .ok acc
  else if t.name = c!"h" then
    (recTagH pre t.value).set fun x => { acc with hashAlgorithms := some x }
  else if t.name = c!"k" then
    (recTagK t.value).set fun x => { acc with keyType := some x }
  else if t.name = c!"n" then
    (recTagN lossy t.value).set fun x => { acc with notes := some x }
  else if t.name = c!"p" then
    (recTagP t.value).set fun x => { acc with keyData := some x }
  else if t.name = c!"s" then
    (recTagS t.value).set fun x => { acc with serviceTypes := some x }
  else if t.name = c!"t" then
    (recTagT t.value).set fun x => { acc with flags := some x }
  else .ok { acc with extTags := acc.extTags ++ [(t.name, t.value)] }

/-- record.rs:169-271: the loop over the tags. -/
def recLoop (lossy : Bytes → Str) (pre : Bool) : RecAcc → Nat → List TagSpec → Res RecordError RecAcc
  | acc, _, [] => .ok acc
  | acc, i, t :: ts =>
    match recTag lossy pre acc i t with
    | .ok acc => recLoop lossy pre acc (i + 1) ts
    | .err e => .err e
    | .panic => .panic

/-- record.rs:160-290 `from_tag_list`. -/
def recordFromTagList (lossy : Bytes → Str) (pre : Bool) (tags : List TagSpec) :
    Res RecordError KeyRecord :=
  match recLoop lossy pre {} 0 tags with
  | .err e => .err e
  | .panic => .panic
  | .ok acc =>
    match acc.keyData with
    | none => .err .missingKeyTag
    | some keyData =>
      .ok {
        hashAlgorithms := acc.hashAlgorithms.getD (HashAlg.all pre)
        keyType := acc.keyType.getD .rsa
        notes := acc.notes
        keyData
        serviceTypes := acc.serviceTypes.getD [.any]
        flags := acc.flags.getD []
        extTags := acc.extTags }

/-- record.rs:293-295 `is_testing`. -/
def KeyRecord.isTesting (r : KeyRecord) : Bool := r.flags.contains .testing

/-- record.rs:299-308 `from_str`. -/
def recordFromStr (lossy : Bytes → Str) (pre : Bool) (s : Str) : Res RecordError KeyRecord :=
  match parseTagList s with
  | .error _ => .err .tagListFormat
  | .ok tags => recordFromTagList lossy pre tags

end Dkim
