import Verif.Tests.Crypto
import Verif.Model.Debug

/-!
# The unit tests of the hashers and keys, run on the model

Continues `Verif.Tests.Unit` with the unit tests that need a real hash function or
real keys (and those of the Debug output). Not proofs of anything general; each is a
unit test found in `/repo/src` (cited), with the inputs and the expected values there.
-/

namespace Dkim.Tests

open Dkim

/-! ## crypto/hash.rs:127-195 -/

/-- The statuses of successive updates, whether the hasher is done after each, and the
number of bytes hashed in the end. -/
def counted (length : Option Nat) (chunks : List Bytes) :
    Option (List (HashStatus × Bool) × Option Nat) :=
  let rec go (h : CountingHasher) : List Bytes → Option (List (HashStatus × Bool) × Option Nat)
    | [] => some ([], (h.finish fun _ b => b).map (·.2))
    | c :: r =>
      match h.update c with
      | none => none
      | some (h', status) => (go h' r).map fun p => ((status, h'.isDone) :: p.1, p.2)
  go (CountingHasher.new .sha256 length) chunks

/-- crypto/hash.rs:133-140 `counting_hasher_ok`. -/
example : counted none [b!"abc", b!""] =
    some ([(.allConsumed, false), (.allConsumed, false)], some 3) := by rfl

/-- crypto/hash.rs:142-153 `counting_hasher_ok`. -/
example : counted (some 3) [b!"ab", b!"", b!"c", b!"", b!"de"] =
    some ([(.allConsumed, false), (.allConsumed, false), (.allConsumed, true),
      (.allConsumed, true), (.truncated, true)], some 3) := by rfl

/-- crypto/hash.rs:155-157 `counting_hasher_ok`. -/
example : counted (some 3) [b!"ab"] = some ([(.allConsumed, false)], none) := by rfl

/-- crypto/hash.rs:190-194 `hash_with_counting_hasher`. -/
def hashWithCountingHasher (alg : HashAlg) (bytes : Bytes) : Option (Str × Nat) :=
  match (CountingHasher.new alg none).update bytes with
  | none => none
  | some (h, _) => (h.finish (realEnv true).hash).map fun r => (encodeBase64 r.1, r.2)

-- crypto/hash.rs:161-171 `counting_hasher_rfc_examples`
#guard hashWithCountingHasher .sha256 b!"\r\n" =
  some (c!"frcCV1k9oG9oKj3dpUqdJg1PxRT2RSN/XKdLCPjaYaY=", 2)
#guard hashWithCountingHasher .sha256 b!"" =
  some (c!"47DEQpj8HBSa+/TImW+5JCeuQeRkm5NMpJWZG3hSuFU=", 0)

-- crypto/hash.rs:175-185 `counting_hasher_rfc_examples_sha1`
#guard hashWithCountingHasher .sha1 b!"\r\n" = some (c!"uoq1oCgLlTqpdDX/iUbLy7J1Wic=", 2)
#guard hashWithCountingHasher .sha1 b!"" = some (c!"2jmj7l5rSw0yVb/vlWAYkK/YBwk=", 0)

/-! ## message_hash.rs:334-390 -/

/-- Stances and results of a body hasher, with real hash functions. -/
def reallyHashed (keys : List BodyHasherKey) (chunks : List Bytes) :
    Option (List Stance × BodyHashResults) :=
  match (BodyHasher.build false keys).hashChunks chunks with
  | none => none
  | some (bh, stances) => (bh.finish (realEnv true).hash).map fun r => (stances, r)

-- message_hash.rs:335-365 `body_hasher_known_hash_sample`
#guard (reallyHashed [(none, .sha256, .relaxed)]
    [b!"Hello Proff,\r\n\r\nLet" ++ [0xe2, 0x80, 0x99] ++
     b!"s try this again, with line\r\nbreaks and empty lines even.\r\n\r\n" ++
     b!"Ciao, und bis bald\r\n\r\n\r\n-- \r\nDavid\r\n"]).map
    (fun r => (r.1, (r.2.get (none, .sha256, .relaxed)).map
      (·.toOption.map fun h => encodeBase64 h.1))) =
  some ([.interested], some (some c!"RMSbeRTj/zCxWeWQXpEIbiqxH0Jqg5eYs4ORzOt3MT0="))

-- message_hash.rs:368-387 `body_hasher_reuse_canonicalized_chunk`
#guard (reallyHashed [(none, .sha256, .relaxed), (none, .sha1, .relaxed)] [b!"abc \r\n"]).map
    (fun r => (r.1, (r.2.get (none, .sha256, .relaxed)).map (·.toOption.map (·.2)),
      (r.2.get (none, .sha1, .relaxed)).map (·.toOption.map (·.2)))) =
  some ([.interested], some (some 5), some (some 5))

/-! ## util.rs:136-176 -/

/-- The tables, as far as the characters of the tests are concerned. -/
def testTables : UnicodeTables where
  printable c := decide (0x20 ≤ c.toNat ∧ c.toNat ≠ 0x7f)
  graphemeExtended _ := false

/-- util.rs:141-144 `base64_debug_ok`. -/
example : base64Debug [] = c!"Empty" ∧ base64Debug [1, 2, 3] = c!"Base64(AQID)" := by
  constructor <;> rfl

-- util.rs:147-166 `bytes_debug_string`
#guard bytesDebug testTables b!"" = some c!"\"\""
#guard bytesDebug testTables b!"hoi du" = some c!"\"hoi du\""
#guard bytesDebug testTables b!"x\ny" = some c!"\"x\\ny\""
#guard bytesDebug testTables b!"\t\r" = some c!"\"\\t\\r\""
#guard bytesDebug testTables (utf8 c!"你好") = some c!"\"你好\""
#guard bytesDebug testTables b!"\"'" = some c!"\"\\\"\\'\""

-- util.rs:169-174 `bytes_debug_bytes`
#guard bytesDebug testTables (b!"a" ++ [0x00, 0xfe, 0xc3, 0xbc]) = some c!"\"a\\0\\xfeü\""

/-! ## crypto/rsa.rs:108-193 -/

/-- crypto/rsa.rs:115-146 `PRIVKEY_PEM`, without the PEM armour. -/
def unitPrivateKey : Option RsaKey :=
  ((decodeBase64 (
    c!"MIIEvAIBADANBgkqhkiG9w0BAQEFAASCBKYwggSiAgEAAoIBAQC9cSfqPbjDHrxmzl2OgpAsVdwZRQ/O8AB+tz1E" ++
    c!"rMFAb52CV90KpnLZkVqLhKUuK++SQJT7TBeX4TFJJjnESJCTubdhBlt4gB5JZRMt7tqxOuLvdzudfkPv7UopZRqs" ++
    c!"wcot5Y3kX1F7y459auBl1gLbRt+im1sxAss9xt9yE/1nt6llHB2LrF5nJIU7YmfDIraQRrLtWkXtiK/BDMyiEXaG" ++
    c!"VD06yEMhrbDu650qnmMBw5XKY9OLeK7q0Qj/c02Rx7O6RVrA3psuRl/ogQTcZqnagPemJ1/nWIB9vsEFt4TfoeXd" ++
    c!"0/ECB+xKtz+/YdNExh54Fvt+MULnQia/GO2YVQjFAgMBAAECggEAYoVNr9lnlDoQ2xppt2qZViVU8ONkxEc2yq+7" ++
    c!"MlLxsfQaIyZUs2w7AIFCaJqUWP3KevIRSNuazYb03cj+c+EVJ26HOvNWcMWYeq0RG2tD2rX4PXdxzodTB50NW5fU" ++
    c!"FpI19kaS03jq5InJUdpaVzvEgotKVMOc2lFMp5UcsbRJrj0EZ5aluqzPe92B6uCBdL6wMehW+Bpd5Bb6Fh/ZKYGm" ++
    c!"Eqmfba4NM7JHdhKlfFOLQqtm1PEjJG9nomR27JK4cIMXpa1IHnaqWWnyTI5A/vDu/QlmqxwYBQXw5/BU8h55dibc" ++
    c!"DHhLCRXvpQ2SJZVFDQEKUSKAWkZaJOtMqBQW4KAIZQKBgQDFEUx8l5KlKE9QFwvO2PVmQIndEBQg0z6ygRmORoxI" ++
    c!"sn2eDxByjgHtBIixoacF0K5ChhefjQSQrjS16B24xddK7qGA1SB50Uuxnn05zzsgYI2oiShGWiAANCozAGx/Ni2+" ++
    c!"8FileonFIHOqMONfvrGlVvdEBV17ijDIwsG/SFCu7wKBgQD2GBM38FF/6nQXTCyAtGWI2bJy0eor/pL7BpiZB062" ++
    c!"O9qhyjSkZ/XcYk60HGp9SPLSuDs6OU5ni9/RFOdEFqAP6ywNFpZl7Hf10DYH1k1cI8XehqJQhE4rzcInxspM6jB0" ++
    c!"BsD6n+dsONV4Z6xv04S7NeS0vVhzhdtu65uXlRrDiwKBgDQk0KVDAgV7dgkOIAy6cax9tTzuLTVGUBexe06fMi1m" ++
    c!"NUDmYYa+Npo9keHWkThDsGhfzM5l5OhXgBEF+x9SEhZ8r/VD75TsIWg9NItgXxfBFJqcuDBtVnxXUTcvjIXYkyAr" ++
    c!"vnkCxIOJg7FrwC4sahsCuOihtsuilCf7CIMRom+3AoGAALPC4kb6RI4rtKFQAzIAlCpi2vcEXwnD65lyOAWQUO7M" ++
    c!"yedkzQ9K4U0agmMOXrsljjpeWOUu9xasFdGkc0pJPKJkJslotnO9R+NHNDCFWfz0JJVnwykNfAyDQE/N5fhJGRun" ++
    c!"008/fsyOt2A8WrlUyJ/3vhhIN1Qrcx6S/BS91c8CgYBdF8EGdKh+OtlISio3y7u5YpIFoCGGPqWdiHEie7j/J2kQ" ++
    c!"MZ4DLzQTl/VwzTokiMDJS2VFp8Ul8vdakWmFCpyIbjrBykE/N9Fi2FVYbKF2pevzTeMj4J6YirkG998T0IcuNfJd" ++
    c!"H7o57z+AJC7zIuzjCQ8od0/ltBQAeX9B2QXumw==")).bind rsaPrivate).map (·.1)

/-- crypto/rsa.rs:150-168 the key of `read_rsa_public_key_spki`. -/
def unitSpki : Str :=
    c!"MIIBIjANBgkqhkiG9w0BAQEFAAOCAQ8AMIIBCgKCAQEAvXEn6j24wx68Zs5djoKQLFXcGUUPzvAAfrc9RKzBQG+d" ++
    c!"glfdCqZy2ZFai4SlLivvkkCU+0wXl+ExSSY5xEiQk7m3YQZbeIAeSWUTLe7asTri73c7nX5D7+1KKWUarMHKLeWN" ++
    c!"5F9Re8uOfWrgZdYC20bfoptbMQLLPcbfchP9Z7epZRwdi6xeZySFO2JnwyK2kEay7VpF7YivwQzMohF2hlQ9OshD" ++
    c!"Ia2w7uudKp5jAcOVymPTi3iu6tEI/3NNkcezukVawN6bLkZf6IEE3Gap2oD3pidf51iAfb7BBbeE36Hl3dPxAgfs" ++
    c!"Src/v2HTRMYeeBb7fjFC50ImvxjtmFUIxQIDAQAB"

/-- crypto/rsa.rs:171-191 the key of `read_rsa_public_key_rsa`. -/
def unitPkcs1 : Str :=
    c!"MIIBCgKCAQEAvXEn6j24wx68Zs5djoKQLFXcGUUPzvAAfrc9RKzBQG+dglfdCqZy2ZFai4SlLivvkkCU+0wXl+Ex" ++
    c!"SSY5xEiQk7m3YQZbeIAeSWUTLe7asTri73c7nX5D7+1KKWUarMHKLeWN5F9Re8uOfWrgZdYC20bfoptbMQLLPcbf" ++
    c!"chP9Z7epZRwdi6xeZySFO2JnwyK2kEay7VpF7YivwQzMohF2hlQ9OshDIa2w7uudKp5jAcOVymPTi3iu6tEI/3NN" ++
    c!"kcezukVawN6bLkZf6IEE3Gap2oD3pidf51iAfb7BBbeE36Hl3dPxAgfsSrc/v2HTRMYeeBb7fjFC50ImvxjtmFUI" ++
    c!"xQIDAQAB"

-- crypto/rsa.rs:150-168 `read_rsa_public_key_spki`
#guard ((decodeBase64 unitSpki).bind (readRsaPublicKey realCrypto)).map
  (fun k : RsaKey => (k.bits, k.n, k.e)) = unitPrivateKey.map fun k => (2048, k.n, k.e)
#guard unitPrivateKey.isSome

-- crypto/rsa.rs:171-191 `read_rsa_public_key_rsa`
#guard ((decodeBase64 unitPkcs1).bind (readRsaPublicKey realCrypto)).map
  (fun k : RsaKey => (k.bits, k.n, k.e)) = unitPrivateKey.map fun k => (2048, k.n, k.e)

end Dkim.Tests
