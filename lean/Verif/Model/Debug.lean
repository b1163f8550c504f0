import Verif.Model.Encode
import Verif.Model.Slices

/-!
# Debug output of byte strings

Model of `/repo/src/util.rs:53-116`. Only the plain format `{:?}` is modelled, not
`{:#?}`. The two Unicode tables of the standard library that `escape_debug` consults
are the parameter `UnicodeTables`.
-/

namespace Dkim

/-- The tables consulted by `char::escape_debug` of the standard library. -/
structure UnicodeTables where
  /-- `core::unicode::printable::is_printable` -/
  printable : Char → Bool
  /-- `char::is_grapheme_extended` -/
  graphemeExtended : Char → Bool

/-- `char::escape_unicode` of the standard library. -/
def escapeUnicode (c : Char) : Str := ['\\', 'u', '{'] ++ Nat.toDigits 16 c.toNat ++ ['}']

/-- `char::escape_debug_ext` of the standard library, with both quotes escaped. -/
def escapeDebugChar (U : UnicodeTables) (grapheme : Bool) (c : Char) : Str :=
  if c = '\x00' then ['\\', '0']
  else if c = '\t' then ['\\', 't']
  else if c = '\r' then ['\\', 'r']
  else if c = '\n' then ['\\', 'n']
  else if c = '\\' then ['\\', '\\']
  else if c = '"' then ['\\', '"']
  else if c = '\'' then ['\\', '\'']
  else if grapheme && U.graphemeExtended c then escapeUnicode c
  else if U.printable c then [c]
  else escapeUnicode c

/-- `str::escape_debug` of the standard library: only the first character is escaped
for being a grapheme extension. -/
def escapeDebug (U : UnicodeTables) : Str → Str
  | [] => []
  | c :: r => escapeDebugChar U true c ++ r.flatMap (escapeDebugChar U false)

/-- `{:02x}` for a byte. -/
def lowerHex2 (b : UInt8) : Str := [Nat.digitChar (b.toNat / 16), Nat.digitChar (b.toNat % 16)]

/-- util.rs:95-109: the loop of `BytesDebug::fmt`, with fuel; `none` is a panic. -/
def bytesDebugLoop (U : UnicodeTables) : Nat → Bytes → Option Str
  | 0, _ => some []
  | n + 1, bytes =>
    if bytes.isEmpty then some []
    else
      match nextUtf8Chunk bytes with
      | none => none
      | some (some chunk) =>
        match bytesFrom (byteLen chunk) bytes with
        | none => none
        | some rest => (bytesDebugLoop U n rest).map (escapeDebug U chunk ++ ·)
      | some none =>
        match bytes[0]?, bytesFrom 1 bytes with
        | some b, some rest => (bytesDebugLoop U n rest).map (['\\', 'x'] ++ lowerHex2 b ++ ·)
        | _, _ => none

/-- util.rs:89-116 `BytesDebug::fmt`; header.rs:185-189 `FieldBody::fmt`. -/
def bytesDebug (U : UnicodeTables) (bytes : Bytes) : Option Str :=
  (bytesDebugLoop U bytes.length bytes).map fun s => ['"'] ++ s ++ ['"']

/-- util.rs:56-84 `Base64Debug::fmt`. -/
def base64Debug (bytes : Bytes) : Str :=
  let s := encodeBase64 bytes
  if s.isEmpty then c!"Empty" else c!"Base64(" ++ s ++ [')']

end Dkim
