import Verif.Spec.TagList

/-!
# Specification: Base64 and Quoted-Printable
-/

namespace Dkim.Spec

/-- The bits of a byte, most significant first. -/
def byteBits (b : UInt8) : List Nat :=
  [b.toNat / 128 % 2, b.toNat / 64 % 2, b.toNat / 32 % 2, b.toNat / 16 % 2,
    b.toNat / 8 % 2, b.toNat / 4 % 2, b.toNat / 2 % 2, b.toNat % 2]

/-- The number with given bits, most significant first. -/
def bitsVal (bits : List Nat) : Nat := bits.foldl (fun n b => 2 * n + b) 0

/-- RFC 4648, table 1. -/
def base64Alphabet : Str :=
  c!"ABCDEFGHIJKLMNOPQRSTUVWXYZabcdefghijklmnopqrstuvwxyz0123456789+/"

/-- RFC 4648, section 4: the bits in groups of six, the last one filled up with
zero bits. -/
def sextets : List Nat → List Nat
  | b1 :: b2 :: b3 :: b4 :: b5 :: b6 :: r => bitsVal [b1, b2, b3, b4, b5, b6] :: sextets r
  | [] => []
  | short => [bitsVal ((short ++ [0, 0, 0, 0, 0]).take 6)]

/-- RFC 4648, section 4: the characters for the groups, followed by equals signs
up to a multiple of four characters. -/
def base64 (bytes : Bytes) : Str :=
  let chars := (sextets (bytes.flatMap byteBits)).map fun n => base64Alphabet.getD n '='
  chars ++ List.replicate ((4 - chars.length % 4) % 4) '='

/-- An upper case hexadecimal digit. -/
def upperHex (c : Char) : Prop :=
  (48 ≤ c.toNat ∧ c.toNat ≤ 57) ∨ (65 ≤ c.toNat ∧ c.toNat ≤ 70)

/-- RFC 6376, section 2.11, `dkim-safe-char`, with RFC 8616: visible ASCII other
than semicolon and equals sign, or a character outside ASCII. -/
def dkimSafe (c : Char) : Prop :=
  (33 ≤ c.toNat ∧ c.toNat ≤ 126 ∧ c ≠ ';' ∧ c ≠ '=') ∨ 128 ≤ c.toNat

/-- Text made of characters that satisfy `lit` and of equals signs each followed
by two upper case hex digits. -/
inductive QpTokens (lit : Char → Prop) : Str → Prop
  | nil : QpTokens lit []
  | char (c : Char) (s : Str) : lit c → QpTokens lit s → QpTokens lit (c :: s)
  | hex (a b : Char) (s : Str) : upperHex a → upperHex b → QpTokens lit s →
      QpTokens lit ('=' :: a :: b :: s)

end Dkim.Spec
