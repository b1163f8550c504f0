import Verif.Model.BodyHash

/-!
# Data hash

Model of `compute_data_hash` in `/repo/src/message_hash.rs`.
-/

namespace Dkim

/-- message_hash.rs:41-49: the bytes that are hashed. -/
def dataHashInput (alg : CanonAlg) (headers : List Field) (selected : List Str)
    (sigName sigValue : Str) : Bytes :=
  canonHeaders alg headers selected ++ canonHeader alg sigName (utf8 sigValue)

/-- message_hash.rs:32-53 `compute_data_hash`. -/
def computeDataHash (hash : HashFn) (hashAlg : HashAlg) (alg : CanonAlg) (headers : List Field)
    (selected : List Str) (sigName sigValue : Str) : Bytes :=
  hash hashAlg (dataHashInput alg headers selected sigName sigValue)

end Dkim
