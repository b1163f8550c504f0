import Verif.Model.Crypto

/-!
# Reading private keys

Model of `/repo/src/crypto/mod.rs:171-243`. The functions of the crates `pkcs8`
(with `der` and `pem-rfc7468`), `rsa` and `ed25519-dalek` are parameters.
-/

namespace Dkim

/-- What is used of crate `pkcs8` and of the conversions from `PrivateKeyInfo`. -/
structure Pkcs8 (C : Crypto) where
  /-- `pkcs8::PrivateKeyInfo`. -/
  Info : Type
  /-- `Document::from_pem`: the label and the bytes of the document. -/
  fromPem : Str → Option (Str × Bytes)
  /-- `PrivateKeyInfo::validate_pem_label` is `Ok`. -/
  labelValid : Str → Bool
  /-- `PrivateKeyInfo::try_from(&[u8])`. -/
  keyInfo : Bytes → Option Info
  /-- `RsaPrivateKey::try_from(PrivateKeyInfo)`. -/
  toRsa : Info → Option C.RsaSk
  /-- `ed25519_dalek::SigningKey::try_from(PrivateKeyInfo)`. -/
  toEd : Info → Option C.EdSk

/-- crypto/mod.rs:173-178 `DecodeSigningKeyError`. -/
inductive KeyFileError
  | invalidPemDocument
  | notAPrivateKeyInfoDocument
  | invalidKeyData
  | unsupportedKeyType
deriving DecidableEq, Repr

variable {C : Crypto}

/-- crypto/mod.rs:224-243 `SigningKey::from_pkcs8_pem`. -/
def signingKeyFromPem (P : Pkcs8 C) (s : Str) : Except KeyFileError (SigningKey C) :=
  match P.fromPem s with
  | none => .error .invalidPemDocument
  | some (label, doc) =>
    if P.labelValid label then
      match P.keyInfo doc with
      | none => .error .invalidKeyData
      | some pk =>
        match P.toRsa pk with
        | some k => .ok (.rsa k)
        | none =>
          match P.toEd pk with
          | some k => .ok (.ed25519 k)
          | none => .error .unsupportedKeyType
    else .error .notAPrivateKeyInfoDocument

end Dkim
