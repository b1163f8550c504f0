import Verif.Model.Basic

/-!
# Specification: reading a quoted byte string

The notation of Rust for byte strings in double quotes: a backslash introduces an
escape, everything else stands for itself (in UTF-8).
-/

namespace Dkim.Spec

/-- The value of a hexadecimal digit. -/
def hexDigit? (c : Char) : Option Nat :=
  if 48 ≤ c.toNat ∧ c.toNat ≤ 57 then some (c.toNat - 48)
  else if 97 ≤ c.toNat ∧ c.toNat ≤ 102 then some (c.toNat - 87)
  else none

/-- The character meant by an escape of one character. -/
def shortEscape? (c : Char) : Option Char :=
  if c = '0' then some (Char.ofNat 0)
  else if c = 't' then some (Char.ofNat 9)
  else if c = 'r' then some (Char.ofNat 13)
  else if c = 'n' then some (Char.ofNat 10)
  else if c = '\\' ∨ c = '"' ∨ c = '\'' then some c
  else none

/-- Where a reader is: in plain text, after a backslash, after `\x`, after `\xA`, after
`\u`, among the digits of `\u{…}`. -/
inductive Reading
  | plain
  | escape
  | hex1
  | hex2 (high : Nat)
  | brace
  | digits (n : Nat)

/-- Reads up to the closing quote; gives the bytes read and what follows the quote. -/
def readUpToQuote : Reading → Str → Option (Bytes × Str)
  | _, [] => none
  | .plain, c :: r =>
    if c = '"' then some ([], r)
    else if c = '\\' then readUpToQuote .escape r
    else (readUpToQuote .plain r).map fun p => (utf8 [c] ++ p.1, p.2)
  | .escape, c :: r =>
    if c = 'x' then readUpToQuote .hex1 r
    else if c = 'u' then readUpToQuote .brace r
    else
      match shortEscape? c with
      | some d => (readUpToQuote .plain r).map fun p => (utf8 [d] ++ p.1, p.2)
      | none => none
  | .hex1, c :: r =>
    match hexDigit? c with
    | some x => readUpToQuote (.hex2 x) r
    | none => none
  | .hex2 x, c :: r =>
    match hexDigit? c with
    | some y => (readUpToQuote .plain r).map fun p => (UInt8.ofNat (x * 16 + y) :: p.1, p.2)
    | none => none
  | .brace, c :: r => if c = '{' then readUpToQuote (.digits 0) r else none
  | .digits n, c :: r =>
    if c = '}' then (readUpToQuote .plain r).map fun p => (utf8 [Char.ofNat n] ++ p.1, p.2)
    else
      match hexDigit? c with
      | some x => readUpToQuote (.digits (n * 16 + x)) r
      | none => none

/-- Reads a byte string in double quotes at the start of a text. -/
def readQuoted : Str → Option (Bytes × Str)
  | '"' :: r => readUpToQuote .plain r
  | _ => none

end Dkim.Spec
