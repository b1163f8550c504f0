import Verif.Proofs.TestEnv
import Verif.Model.Verifier

/-!
# Real cryptography, for tests

SHA-1, SHA-256 and RSA with PKCS #1 v1.5 padding, as executable definitions, so that
the integration tests of the library can be run on the model. No theorem depends on
this file.
-/

namespace Dkim.Tests

open Dkim

/-- Bytes as a number, the first byte the most significant. -/
def beNat (bs : Bytes) : Nat := bs.foldl (fun n b => n * 256 + b.toNat) 0

/-- A number as `len` bytes. -/
def natBE (len n : Nat) : Bytes := (List.range len).reverse.map fun i => UInt8.ofNat (n >>> (8 * i))

/-- Padding of SHA-1 and SHA-256. -/
def shaPad (m : Bytes) : Bytes :=
  m ++ 0x80 :: List.replicate ((119 - m.length % 64) % 64) 0 ++ natBE 8 (m.length * 8)

def chunksOf (n : Nat) : Nat → Bytes → List Bytes
  | 0, _ => []
  | k + 1, bs => if bs.isEmpty then [] else bs.take n :: chunksOf n k (bs.drop n)

def words (block : Bytes) : List UInt32 := (chunksOf 4 16 block).map fun b => UInt32.ofNat (beNat b)

def rotr (x : UInt32) (n : UInt32) : UInt32 := (x >>> n) ||| (x <<< (32 - n))
def rotl (x : UInt32) (n : UInt32) : UInt32 := (x <<< n) ||| (x >>> (32 - n))

def k256 : Array UInt32 := #[
  0x428a2f98, 0x71374491, 0xb5c0fbcf, 0xe9b5dba5, 0x3956c25b, 0x59f111f1, 0x923f82a4, 0xab1c5ed5,
  0xd807aa98, 0x12835b01, 0x243185be, 0x550c7dc3, 0x72be5d74, 0x80deb1fe, 0x9bdc06a7, 0xc19bf174,
  0xe49b69c1, 0xefbe4786, 0x0fc19dc6, 0x240ca1cc, 0x2de92c6f, 0x4a7484aa, 0x5cb0a9dc, 0x76f988da,
  0x983e5152, 0xa831c66d, 0xb00327c8, 0xbf597fc7, 0xc6e00bf3, 0xd5a79147, 0x06ca6351, 0x14292967,
  0x27b70a85, 0x2e1b2138, 0x4d2c6dfc, 0x53380d13, 0x650a7354, 0x766a0abb, 0x81c2c92e, 0x92722c85,
  0xa2bfe8a1, 0xa81a664b, 0xc24b8b70, 0xc76c51a3, 0xd192e819, 0xd6990624, 0xf40e3585, 0x106aa070,
  0x19a4c116, 0x1e376c08, 0x2748774c, 0x34b0bcb5, 0x391c0cb3, 0x4ed8aa4a, 0x5b9cca4f, 0x682e6ff3,
  0x748f82ee, 0x78a5636f, 0x84c87814, 0x8cc70208, 0x90befffa, 0xa4506ceb, 0xbef9a3f7, 0xc67178f2]

def compress256 (h : List UInt32) (block : Bytes) : List UInt32 := Id.run do
  let mut w := (words block).toArray
  for i in [16:64] do
    let a := w[i - 15]!
    let b := w[i - 2]!
    let s0 := rotr a 7 ^^^ rotr a 18 ^^^ (a >>> 3)
    let s1 := rotr b 17 ^^^ rotr b 19 ^^^ (b >>> 10)
    w := w.push (w[i - 16]! + s0 + w[i - 7]! + s1)
  let mut v := h.toArray
  for i in [0:64] do
    let e := v[4]!
    let a := v[0]!
    let s1 := rotr e 6 ^^^ rotr e 11 ^^^ rotr e 25
    let ch := (e &&& v[5]!) ^^^ ((~~~ e) &&& v[6]!)
    let t1 := v[7]! + s1 + ch + k256[i]! + w[i]!
    let s0 := rotr a 2 ^^^ rotr a 13 ^^^ rotr a 22
    let maj := (a &&& v[1]!) ^^^ (a &&& v[2]!) ^^^ (v[1]! &&& v[2]!)
    v := #[t1 + (s0 + maj), a, v[1]!, v[2]!, v[3]! + t1, e, v[5]!, v[6]!]
  return (h.zip v.toList).map fun p => p.1 + p.2

def sha256 (m : Bytes) : Bytes :=
  let p := shaPad m
  ((chunksOf 64 p.length p).foldl compress256
    [0x6a09e667, 0xbb67ae85, 0x3c6ef372, 0xa54ff53a, 0x510e527f, 0x9b05688c, 0x1f83d9ab, 0x5be0cd19]).flatMap
      fun w => natBE 4 w.toNat

def compress1 (h : List UInt32) (block : Bytes) : List UInt32 := Id.run do
  let mut w := (words block).toArray
  for i in [16:80] do
    w := w.push (rotl (w[i - 3]! ^^^ w[i - 8]! ^^^ w[i - 14]! ^^^ w[i - 16]!) 1)
  let mut v := h.toArray
  for i in [0:80] do
    let b := v[1]!
    let c := v[2]!
    let d := v[3]!
    let (f, k) : UInt32 × UInt32 :=
      if i < 20 then ((b &&& c) ||| ((~~~ b) &&& d), 0x5a827999)
      else if i < 40 then (b ^^^ c ^^^ d, 0x6ed9eba1)
      else if i < 60 then ((b &&& c) ||| (b &&& d) ||| (c &&& d), 0x8f1bbcdc)
      else (b ^^^ c ^^^ d, 0xca62c1d6)
    v := #[rotl v[0]! 5 + f + v[4]! + k + w[i]!, v[0]!, rotl b 30, c, d]
  return (h.zip v.toList).map fun p => p.1 + p.2

def sha1 (m : Bytes) : Bytes :=
  let p := shaPad m
  ((chunksOf 64 p.length p).foldl compress1
    [0x67452301, 0xefcdab89, 0x98badcfe, 0x10325476, 0xc3d2e1f0]).flatMap fun w => natBE 4 w.toNat

/-! FIPS 180-4 examples. -/
#guard sha256 b!"abc" = natBE 32 0xba7816bf8f01cfea414140de5dae2223b00361a396177a9cb410ff61f20015ad
#guard sha256 b!"" = natBE 32 0xe3b0c44298fc1c149afbf4c8996fb92427ae41e4649b934ca495991b7852b855
#guard sha256 b!"abcdbcdecdefdefgefghfghighijhijkijkljklmklmnlmnomnopnopq" =
  natBE 32 0x248d6a61d20638b8e5c026930c3e6039a33ce45964ff2167f6ecedd419db06c1
#guard sha1 b!"abc" = natBE 20 0xa9993e364706816aba3e25717850c26c9cd0d89d

/-- `b ^ e mod m`. -/
def modPow (m : Nat) : Nat → Nat → Nat → Nat → Nat
  | 0, _, _, acc => acc
  | fuel + 1, b, e, acc =>
    if e = 0 then acc else modPow m fuel (b * b % m) (e / 2) (if e % 2 = 1 then acc * b % m else acc)

structure RsaKey where
  n : Nat
  e : Nat

def RsaKey.bits (k : RsaKey) : Nat := k.n.log2 + 1

/-- EMSA-PKCS1-v1_5 (RFC 8017, section 9.2). -/
def pkcs1Pad (h : HashAlg) (len : Nat) (digest : Bytes) : Option Bytes :=
  let info : Bytes := match h with
    | .sha256 => [0x30, 0x31, 0x30, 0x0d, 0x06, 0x09, 0x60, 0x86, 0x48, 0x01, 0x65, 0x03, 0x04, 0x02, 0x01,
        0x05, 0x00, 0x04, 0x20]
    | .sha1 => [0x30, 0x21, 0x30, 0x09, 0x06, 0x05, 0x2b, 0x0e, 0x03, 0x02, 0x1a, 0x05, 0x00, 0x04, 0x14]
  let t := info ++ digest
  if len < t.length + 11 then none
  else some ([0, 1] ++ List.replicate (len - t.length - 3) 0xff ++ 0 :: t)

def rsaSign (h : HashAlg) (k : RsaKey × Nat) (digest : Bytes) : Option Bytes :=
  let len := modulusSize k.1.bits
  (pkcs1Pad h len digest).map fun em => natBE len (modPow k.1.n (8 * len + 1) (beNat em) k.2 1)

def rsaVerify (k : RsaKey) (h : HashAlg) (digest sig : Bytes) : Bool :=
  let len := modulusSize k.bits
  sig.length = len && pkcs1Pad h len digest = some (natBE len (modPow k.n (8 * len + 1) (beNat sig) k.e 1))

/-- A DER element with the given tag: its content, and the rest. -/
def der (tag : UInt8) (bs : Bytes) : Option (Bytes × Bytes) :=
  match bs with
  | t :: l :: rest =>
    if t ≠ tag then none
    else if l < 128 then
      if rest.length < l.toNat then none else some (rest.take l.toNat, rest.drop l.toNat)
    else
      let k := (l - 128).toNat
      let n := beNat (rest.take k)
      if rest.length < k + n then none else some ((rest.drop k).take n, rest.drop (k + n))
  | _ => none

/-- RSAPublicKey (RFC 8017, appendix A.1.1). -/
def rsaFromPkcs1 (bs : Bytes) : Option RsaKey := do
  let (seq, rest) ← der 0x30 bs
  let (n, more) ← der 0x02 seq
  let (e, more) ← der 0x02 more
  if rest.isEmpty && more.isEmpty then some ⟨beNat n, beNat e⟩ else none

/-- SubjectPublicKeyInfo with algorithm rsaEncryption. -/
def rsaFromSpki (bs : Bytes) : Option RsaKey := do
  let (seq, rest) ← der 0x30 bs
  let (alg, more) ← der 0x30 seq
  let (key, more) ← der 0x03 more
  if rest.isEmpty && more.isEmpty &&
      alg = [0x06, 0x09, 0x2a, 0x86, 0x48, 0x86, 0xf7, 0x0d, 0x01, 0x01, 0x01, 0x05, 0x00] &&
      key.head? = some 0 then rsaFromPkcs1 (key.drop 1)
  else none

/-- PrivateKeyInfo with an RSAPrivateKey: modulus, public and private exponent. -/
def rsaPrivate (bs : Bytes) : Option (RsaKey × Nat) := do
  let (seq, _) ← der 0x30 bs
  let (_, more) ← der 0x02 seq
  let (_, more) ← der 0x30 more
  let (key, _) ← der 0x04 more
  let (seq, _) ← der 0x30 key
  let (_, more) ← der 0x02 seq
  let (n, more) ← der 0x02 more
  let (e, more) ← der 0x02 more
  let (d, _) ← der 0x02 more
  some (⟨beNat n, beNat e⟩, beNat d)

def realCrypto : Crypto where
  RsaSk := RsaKey × Nat
  EdSk := Empty
  RsaPk := RsaKey
  EdPk := Empty
  rsaSkBits k := k.1.bits
  rsaPkBits := RsaKey.bits
  rsaSign
  rsaVerify
  rsaFromSpki
  rsaFromPkcs1
  edSign k := k.elim
  edVerify k := k.elim
  edFromBytes _ := none
  edFromSpki _ := none

def realEnv (pre : Bool) : Env where
  idna := asciiIdna
  crypto := realCrypto
  hash h m := match h with | .sha256 => sha256 m | .sha1 => sha1 m
  sortBy := insertionSort
  keySet l := l.eraseDups
  lookupOrder l := l
  lossy b := b.map fun b => Char.ofNat b.toNat
  usizeMax := 2 ^ 64 - 1
  pre

end Dkim.Tests
