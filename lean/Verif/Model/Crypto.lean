import Verif.Model.Signature

/-!
# Keys and cryptographic primitives

Model of `/repo/src/crypto/mod.rs`, `rsa.rs` and `ed25519.rs`. The functions of
the crates `rsa` and `ed25519-dalek` are parameters.
-/

namespace Dkim

/-- What is used of the crates `rsa` and `ed25519-dalek`. -/
structure Crypto where
  /-- `rsa::RsaPrivateKey`. -/
  RsaSk : Type
  /-- `ed25519_dalek::SigningKey`. -/
  EdSk : Type
  /-- `rsa::RsaPublicKey`. -/
  RsaPk : Type
  /-- `ed25519_dalek::VerifyingKey`. -/
  EdPk : Type
  /-- Number of bits of the modulus of a private key. -/
  rsaSkBits : RsaSk → Nat
  /-- Number of bits of the modulus of a public key. -/
  rsaPkBits : RsaPk → Nat
  /-- `RsaPrivateKey::sign(Pkcs1v15Sign::new::<hash>(), msg)`. -/
  rsaSign : HashAlg → RsaSk → Bytes → Option Bytes
  /-- `RsaPublicKey::verify(Pkcs1v15Sign::new::<hash>(), msg, signature)` is `Ok`. -/
  rsaVerify : RsaPk → HashAlg → Bytes → Bytes → Bool
  /-- `RsaPublicKey::from_public_key_der`. -/
  rsaFromSpki : Bytes → Option RsaPk
  /-- `RsaPublicKey::from_pkcs1_der`. -/
  rsaFromPkcs1 : Bytes → Option RsaPk
  /-- `SigningKey::sign` and `to_bytes`. -/
  edSign : EdSk → Bytes → Bytes
  /-- `Signature::from_slice` and `VerifyingKey::verify` are both `Ok`. -/
  edVerify : EdPk → Bytes → Bytes → Bool
  /-- `VerifyingKey::try_from(&[u8])`. -/
  edFromBytes : Bytes → Option EdPk
  /-- `VerifyingKey::from_public_key_der`. -/
  edFromSpki : Bytes → Option EdPk

/-- `PublicKeyParts::size` of crate `rsa`: bytes of the modulus, rounded up. -/
def modulusSize (bits : Nat) : Nat := (bits + 7) / 8

/-- crypto/mod.rs:195-201 `SigningKey`. -/
inductive SigningKey (C : Crypto)
  | rsa (k : C.RsaSk)
  | ed25519 (k : C.EdSk)

variable {C : Crypto}

/-- crypto/mod.rs:204-209 `key_type`. -/
def SigningKey.keyType : SigningKey C → KeyType
  | .rsa _ => .rsa
  | .ed25519 _ => .ed25519

/-- crypto/mod.rs:212-220 `signature_length`. -/
def SigningKey.signatureLength : SigningKey C → Nat
  | .rsa k => modulusSize (C.rsaSkBits k)
  | .ed25519 _ => 64

/-- crypto/mod.rs:254-259 `VerifyingKey`. -/
inductive VerifyingKey (C : Crypto)
  | rsa (k : C.RsaPk)
  | ed25519 (k : C.EdPk)

/-- crypto/mod.rs:265-270 `key_size`, with crypto/rsa.rs:81-83. -/
def VerifyingKey.keySize : VerifyingKey C → Option Nat
  | .rsa k => some (modulusSize (C.rsaPkBits k) * 8)
  | .ed25519 _ => none

/-- crypto/mod.rs:320-324 `VerificationError`. -/
inductive CryptoError
  | invalidKey
  | insufficientKeySize
  | verificationFailure
deriving DecidableEq, Repr

/-- crypto/rsa.rs:79 `MIN_KEY_BITS`. -/
def minKeyBits (pre : Bool) : Nat := if pre then 512 else 1024

/-- crypto/mod.rs:273-281 `validate_min_key_size` is `Ok`; the only error is
`InsufficientKeySize`. -/
def VerifyingKey.minKeySizeOk (pre : Bool) (k : VerifyingKey C) : Bool :=
  match k, k.keySize with
  | .rsa _, some n => !(n < minKeyBits pre)
  | _, _ => true

/-- crypto/rsa.rs:62-77 `read_rsa_public_key`. -/
def readRsaPublicKey (C : Crypto) (keyData : Bytes) : Option C.RsaPk :=
  match C.rsaFromSpki keyData with
  | some k => some k
  | none => C.rsaFromPkcs1 keyData

/-- crypto/ed25519.rs:37-45 `read_ed25519_verifying_key`. -/
def readEd25519VerifyingKey (C : Crypto) (keyData : Bytes) : Option C.EdPk :=
  match C.edFromBytes keyData with
  | some k => some k
  | none => C.edFromSpki keyData

/-- crypto/mod.rs:285-299 `from_key_data`. -/
def VerifyingKey.fromKeyData (C : Crypto) (keyType : KeyType) (keyData : Bytes) :
    Option (VerifyingKey C) :=
  match keyType with
  | .rsa => (readRsaPublicKey C keyData).map .rsa
  | .ed25519 => (readEd25519VerifyingKey C keyData).map .ed25519

end Dkim
