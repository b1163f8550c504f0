import Lean.Elab.Tactic

/-!
# Basic representation

Rust byte slices are `List UInt8`, Rust strings are `List Char` (a Rust `str` is
a sequence of Unicode scalar values, which is exactly a list of Lean `Char`).

This file also holds the small pieces of the Rust standard library that the
model needs: UTF-8 encoding and decoding, ASCII case folding, ASCII character
classes. They are not code of `/repo`.
-/

namespace Dkim

abbrev Bytes := List UInt8
abbrev Str := List Char

/-- `c!"abc"` is the explicit list `['a', 'b', 'c']`. -/
macro:max "c!" s:str : term => do
  let elems := s.getString.toList.map (fun c => Lean.Syntax.mkCharLit c)
  `(([$(elems.toArray),*] : List Char))

/-- `b!"abc"` is the explicit list of byte values of an ASCII literal. -/
macro:max "b!" s:str : term => do
  let elems := s.getString.toList.map (fun c => Lean.Syntax.mkNumLit (toString c.toNat))
  `(([$(elems.toArray),*] : List UInt8))

/-- UTF-8 encoding of a string (`str::as_bytes`, `String::into_bytes`). -/
def utf8 (s : Str) : Bytes := s.flatMap String.utf8EncodeChar

/-- `str::len`: the number of bytes of the UTF-8 encoding. -/
def byteLen (s : Str) : Nat := (s.map Char.utf8Size).sum

/-- Decodes one character from the front of a byte string, if the bytes start
with a well-formed UTF-8 sequence. Uses the decoder of Lean's core library. -/
def decodeChar (bs : Bytes) : Option (Char × Bytes) :=
  match (ByteArray.mk bs.toArray).utf8DecodeChar? 0 with
  | some c => some (c, bs.drop c.utf8Size)
  | none => none

/-- Longest well-formed UTF-8 prefix (decoded) and the remaining bytes; the
first argument is fuel. -/
def utf8PrefixAux : Nat → Bytes → Str × Bytes
  | 0, bs => ([], bs)
  | n + 1, bs =>
    match decodeChar bs with
    | none => ([], bs)
    | some (c, rest) =>
      let (s, rest') := utf8PrefixAux n rest
      (c :: s, rest')

/-- `str::from_utf8` with `Utf8Error::valid_up_to`: the longest well-formed
prefix and what remains. -/
def utf8Prefix (bs : Bytes) : Str × Bytes := utf8PrefixAux bs.length bs

/-- `str::from_utf8`. -/
def fromUtf8 (bs : Bytes) : Option Str :=
  match utf8Prefix bs with
  | (s, []) => some s
  | _ => none

/-- `char::is_ascii`. -/
def isAscii (c : Char) : Bool := c.toNat < 128

/-- `char::is_ascii_graphic`: `'!'..='~'`. -/
def isAsciiGraphic (c : Char) : Bool := 33 ≤ c.toNat && c.toNat ≤ 126

/-- `char::is_ascii_uppercase`. -/
def isAsciiUpper (c : Char) : Bool := 65 ≤ c.toNat && c.toNat ≤ 90

/-- `char::is_ascii_lowercase`. -/
def isAsciiLower (c : Char) : Bool := 97 ≤ c.toNat && c.toNat ≤ 122

/-- `char::is_ascii_alphabetic`. -/
def isAsciiAlpha (c : Char) : Bool := isAsciiUpper c || isAsciiLower c

/-- `char::is_ascii_digit`. -/
def isAsciiDigit (c : Char) : Bool := 48 ≤ c.toNat && c.toNat ≤ 57

/-- `char::is_ascii_alphanumeric`. -/
def isAsciiAlnum (c : Char) : Bool := isAsciiAlpha c || isAsciiDigit c

/-- `char::is_ascii_hexdigit`. -/
def isAsciiHexdigit (c : Char) : Bool :=
  isAsciiDigit c || (65 ≤ c.toNat && c.toNat ≤ 70) || (97 ≤ c.toNat && c.toNat ≤ 102)

/-- `char::to_ascii_lowercase`. -/
def asciiLower (c : Char) : Char :=
  if isAsciiUpper c then Char.ofNat (c.toNat + 32) else c

/-- `str::to_ascii_lowercase`. -/
def strLower (s : Str) : Str := s.map asciiLower

/-- `str::eq_ignore_ascii_case`. -/
def eqIgnoreCase (a b : Str) : Bool := strLower a == strLower b

/-- `slice::split` / `str::split` on a separator: always at least one piece. -/
def splitOn {α : Type} [DecidableEq α] (sep : α) : List α → List (List α)
  | [] => [[]]
  | c :: cs =>
    if c = sep then [] :: splitOn sep cs
    else
      match splitOn sep cs with
      | [] => [[c]]
      | p :: ps => (c :: p) :: ps

/-- `str::split_once`: splits at the first separator. -/
def splitOnce {α : Type} [DecidableEq α] (sep : α) : List α → Option (List α × List α)
  | [] => none
  | c :: cs =>
    if c = sep then some ([], cs)
    else
      match splitOnce sep cs with
      | none => none
      | some (a, b) => some (c :: a, b)

/-- `str::rsplit_once`: splits at the last separator. -/
def rsplitOnce {α : Type} [DecidableEq α] (sep : α) (s : List α) : Option (List α × List α) :=
  match splitOnce sep s.reverse with
  | none => none
  | some (a, b) => some (b.reverse, a.reverse)

/-- `u64::MAX`. -/
def u64Max : Nat := 2 ^ 64 - 1

/-- Value of a decimal digit string, most significant digit first. -/
def digitsVal (s : Str) : Nat := s.foldl (fun n c => n * 10 + (c.toNat - 48)) 0

/-- `str::parse::<u64>`: an optional leading `+`, then at least one digit, only
digits, and no overflow. -/
def parseU64 (s : Str) : Option Nat :=
  let ds := match s with
    | '+' :: r => r
    | r => r
  if ds.isEmpty || !ds.all isAsciiDigit then none
  else if digitsVal ds ≤ u64Max then some (digitsVal ds) else none

/-- `u64::to_string`. -/
def natToStr (n : Nat) : Str := Nat.toDigits 10 n

/-- `u64::saturating_add`. -/
def satAdd (a b : Nat) : Nat := min (a + b) u64Max

/-- `usize::saturating_sub`, `u64::saturating_sub`. -/
def satSub (a b : Nat) : Nat := a - b

end Dkim
