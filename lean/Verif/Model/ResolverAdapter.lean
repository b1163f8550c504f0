import Verif.Model.Verifier

/-!
# The adapter for the DNS resolver

Model of `/repo/src/verifier/lookup/hickory_resolver.rs`. Crate
`hickory-resolver` is a parameter.
-/

namespace Dkim

/-- What is used of crate `hickory-resolver`. -/
structure Hickory where
  /-- `Name`. -/
  Name : Type
  /-- `Name::from_ascii`. -/
  fromAscii : Str → Option Name
  /-- The variants of `ResolveErrorKind` other than `NoRecordsFound`, with content. -/
  Failure : Type
  /-- The kind of the `io::Error` into which such an error is converted. -/
  failureKind : Failure → IoErr
  /-- `TokioAsyncResolver::txt_lookup`: the delay, and the TXT records, each a list of
  character-strings, or an error, where `none` is `NoRecordsFound`. -/
  txtLookup : Name → Nat × Except (Option Failure) (List (List Bytes))

/-- verifier/lookup/hickory_resolver.rs:29-45 `lookup_txt`. -/
def Hickory.lookupTxt (H : Hickory) : Resolver := fun domain =>
  match H.fromAscii domain with
  | none => ⟨0, .error .invalidInput⟩
  | some name =>
    match H.txtLookup name with
    | (delay, .error none) => ⟨delay, .error .notFound⟩
    | (delay, .error (some e)) => ⟨delay, .error (H.failureKind e)⟩
    | (delay, .ok lookup) => ⟨delay, .ok (lookup.map fun txt => .ok txt.flatten)⟩

end Dkim
