import Verif.Spec.Signer

/-!
# Specification: the tag values that the signer writes
-/

namespace Dkim.Spec

/-- The upper case hexadecimal digit for a number below 16. -/
def hexChar (n : Nat) : Char := c!"0123456789ABCDEF".getD n '0'

/-- The DKIM-Quoted-Printable text for some bytes, where `lit` are the characters that are
written as they are: wherever the bytes go on with the UTF-8 encoding of such a character,
this is written, and otherwise the next byte in hexadecimal. -/
inductive QpWritten (lit : Char → Prop) : Bytes → Str → Prop
  | nil : QpWritten lit [] []
  | char (c : Char) (bytes : Bytes) (text : Str) : lit c → QpWritten lit bytes text →
      QpWritten lit (utf8 [c] ++ bytes) (c :: text)
  | hex (b : UInt8) (bytes : Bytes) (text : Str) : (∀ c rest, lit c → b :: bytes ≠ utf8 [c] ++ rest) →
      QpWritten lit bytes text →
      QpWritten lit (b :: bytes) ('=' :: hexChar (b.toNat / 16) :: hexChar (b.toNat % 16) :: text)

/-- A text without the characters of folding whitespace. -/
def withoutFws (s : Str) : Str :=
  s.filter fun c => decide (c ≠ ' ' ∧ c ≠ '\t' ∧ c ≠ '\r' ∧ c ≠ '\n')

/-- The name of a signature algorithm in RFC 6376 and RFC 8463. -/
def algorithmName : SigAlg → Str
  | .rsaSha256 => c!"rsa-sha256"
  | .ed25519Sha256 => c!"ed25519-sha256"
  | .rsaSha1 => c!"rsa-sha1"

/-- The shortest name of a pair of canonicalization algorithms. -/
def canonPairName (c : Canonicalization) : Str :=
  match c.header, c.body with
  | .simple, .simple => c!"simple"
  | .simple, .relaxed => c!"simple/relaxed"
  | .relaxed, .simple => c!"relaxed"
  | .relaxed, .relaxed => c!"relaxed/relaxed"

/-- The copied header fields, encoded and separated by bars. -/
inductive CopiedWritten (ascii : Bool) : List (Str × Bytes) → Str → Prop
  | last (n : Str) (v : Bytes) (t : Str) :
      QpWritten (fun c => dkimSafe c ∧ c ≠ '|' ∧ (ascii = true → c.toNat < 128)) v t →
      CopiedWritten ascii [(n, v)] (n ++ ':' :: t)
  | more (n : Str) (v : Bytes) (t : Str) (rest : List (Str × Bytes)) (r : Str) :
      QpWritten (fun c => dkimSafe c ∧ c ≠ '|' ∧ (ascii = true → c.toNat < 128)) v t →
      CopiedWritten ascii rest r → CopiedWritten ascii ((n, v) :: rest) (n ++ ':' :: t ++ '|' :: r)

/-- The value that is written in a tag. The values of `b`, `bh`, `h` and `z` may be folded. -/
inductive WrittenTag (ix : Idna) (ascii : Bool) (sig : DkimSignature) : Str → Str → Prop
  | v : WrittenTag ix ascii sig c!"v" c!"1"
  | a : WrittenTag ix ascii sig c!"a" (algorithmName sig.algorithm)
  | b (v : Str) : withoutFws v = base64 sig.signatureData → WrittenTag ix ascii sig c!"b" v
  | bh (v : Str) : withoutFws v = base64 sig.bodyHash → WrittenTag ix ascii sig c!"bh" v
  | c : WrittenTag ix ascii sig c!"c" (canonPairName sig.canonicalization)
  | d : WrittenTag ix ascii sig c!"d" (writtenName ix ascii sig.domain)
  | h (v : Str) : withoutFws v = List.intercalate [':'] sig.signedHeaders → WrittenTag ix ascii sig c!"h" v
  | i (id : Identity) (l : Str) : sig.identity = some id →
      QpWritten (fun c => dkimSafe c ∧ (ascii = true → c.toNat < 128)) (utf8 (id.localPart.getD [])) l →
      WrittenTag ix ascii sig c!"i" (l ++ '@' :: writtenName ix ascii id.domain)
  | l (n : Nat) : sig.bodyLength = some n → WrittenTag ix ascii sig c!"l" (toString n).toList
  | s : WrittenTag ix ascii sig c!"s" (writtenName ix ascii sig.selector)
  | t (n : Nat) : sig.timestamp = some n → WrittenTag ix ascii sig c!"t" (toString n).toList
  | x (n : Nat) : sig.expiration = some n → WrittenTag ix ascii sig c!"x" (toString n).toList
  | z (v : Str) : CopiedWritten ascii sig.copiedHeaders (withoutFws v) → WrittenTag ix ascii sig c!"z" v
  | ext (n v : Str) : n ∉ [c!"v", c!"a", c!"b", c!"bh", c!"c", c!"d", c!"h", c!"i", c!"l", c!"s", c!"t",
      c!"x", c!"z"] → (n, v) ∈ sig.extTags → WrittenTag ix ascii sig n v

end Dkim.Spec
