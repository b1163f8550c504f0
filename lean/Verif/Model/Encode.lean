import Verif.Model.TagList

/-!
# Base64 and Quoted-Printable

Model of `/repo/src/quoted_printable.rs`, the Base64 functions of
`/repo/src/util.rs`, and the decoding functions of `/repo/src/tag_list.rs`.
-/

namespace Dkim

/-! ## Base64

`util.rs` delegates to crate `base64ct` (`Base64`, standard alphabet, padded,
strict: only the canonical encoding is accepted). The two functions here are
written from RFC 4648; that `base64ct` computes them is part of the trusted
base. -/

/-- The character for a value below 64. -/
def b64Char (n : Nat) : Char :=
  if n < 26 then Char.ofNat (65 + n)
  else if n < 52 then Char.ofNat (97 + (n - 26))
  else if n < 62 then Char.ofNat (48 + (n - 52))
  else if n = 62 then '+' else '/'

/-- The value of a Base64 character. -/
def b64Val (c : Char) : Option Nat :=
  if isAsciiUpper c then some (c.toNat - 65)
  else if isAsciiLower c then some (c.toNat - 97 + 26)
  else if isAsciiDigit c then some (c.toNat - 48 + 52)
  else if c = '+' then some 62
  else if c = '/' then some 63
  else none

/-- util.rs:32-34 `encode_base64`. -/
def encodeBase64 : Bytes → Str
  | [] => []
  | [a] => [b64Char (a.toNat / 4), b64Char (a.toNat % 4 * 16), '=', '=']
  | [a, b] =>
    [b64Char (a.toNat / 4), b64Char (a.toNat % 4 * 16 + b.toNat / 16),
      b64Char (b.toNat % 16 * 4), '=']
  | a :: b :: c :: r =>
    b64Char (a.toNat / 4) :: b64Char (a.toNat % 4 * 16 + b.toNat / 16) ::
      b64Char (b.toNat % 16 * 4 + c.toNat / 64) :: b64Char (c.toNat % 64) :: encodeBase64 r

/-- util.rs:49-51 `decode_base64`. -/
def decodeBase64 : Str → Option Bytes
  | [] => some []
  | [w, x, '=', '='] =>
    match b64Val w, b64Val x with
    | some w, some x => if x % 16 = 0 then some [UInt8.ofNat (w * 4 + x / 16)] else none
    | _, _ => none
  | [w, x, y, '='] =>
    match b64Val w, b64Val x, b64Val y with
    | some w, some x, some y =>
      if y % 4 = 0 then
        some [UInt8.ofNat (w * 4 + x / 16), UInt8.ofNat (x % 16 * 16 + y / 4)]
      else none
    | _, _, _ => none
  | w :: x :: y :: z :: r =>
    match b64Val w, b64Val x, b64Val y, b64Val z with
    | some w, some x, some y, some z =>
      match decodeBase64 r with
      | some bs =>
        some (UInt8.ofNat (w * 4 + x / 16) :: UInt8.ofNat (x % 16 * 16 + y / 4) ::
          UInt8.ofNat (y % 4 * 64 + z) :: bs)
      | none => none
    | _, _, _, _ => none
  | _ => none

/-- signer/sign.rs:214-219 `estimate_b_tag_length`, given the signature length in
bytes. -/
def estimateBTagLength (n : Nat) : Nat := (n + 2) / 3 * 4

/-- tag_list.rs:165-175 `parse_base64_value`. -/
def parseBase64Value (s : Str) : Option Bytes := decodeBase64 (s.filter fun c => !isFwsChar c)

/-! ## Quoted-Printable -/

/-- quoted_printable.rs:243-245. -/
def isDkimSafeAscii (c : Char) : Bool :=
  ('!' ≤ c && c ≤ ':') || c == '<' || ('>' ≤ c && c ≤ '~')

/-- quoted_printable.rs:238-241. -/
def isDkimSafe (c : Char) : Bool := isDkimSafeAscii c || !isAscii c

/-- An upper case hexadecimal digit. -/
def hexDigit (n : Nat) : Char :=
  if n < 10 then Char.ofNat (48 + n) else Char.ofNat (65 + (n - 10))

/-- quoted_printable.rs:49-51 `encode_byte`: `={b:02X}`. -/
def qpByte (b : UInt8) : Str := ['=', hexDigit (b.toNat / 16), hexDigit (b.toNat % 16)]

/-- quoted_printable.rs:53-60 `is_dkim_safe`. -/
def qpSafe (special : Option Char) (asciiOnly : Bool) (c : Char) : Bool :=
  (if asciiOnly then isDkimSafeAscii c else isDkimSafe c) && special != some c

/-- quoted_printable.rs:66-75 for one character. -/
def qpChar (special : Option Char) (asciiOnly : Bool) (c : Char) : Str :=
  if qpSafe special asciiOnly c then [c] else (String.utf8EncodeChar c).flatMap qpByte

/-- The loop quoted_printable.rs:64-81; the first argument is fuel, every
iteration consumes at least one byte. `util::next_utf8_chunk` (util.rs:118-134)
is `utf8Prefix` with an empty prefix meaning `None`. -/
def qpEncodeLoop (special : Option Char) (asciiOnly : Bool) : Nat → Bytes → Str
  | 0, _ => []
  | _ + 1, [] => []
  | n + 1, b :: r =>
    match utf8Prefix (b :: r) with
    | ([], _) => qpByte b ++ qpEncodeLoop special asciiOnly n r
    | (chunk, rest) =>
      chunk.flatMap (qpChar special asciiOnly) ++ qpEncodeLoop special asciiOnly n rest

/-- quoted_printable.rs:48-84 `encode_internal`. -/
def qpEncode (bytes : Bytes) (special : Option Char) (asciiOnly : Bool) : Str :=
  qpEncodeLoop special asciiOnly bytes.length bytes

/-- quoted_printable.rs:207-227 `to_u8`; `none` is the panic `unreachable!()`. -/
def hexVal (c : Char) : Option Nat :=
  if isAsciiDigit c then some (c.toNat - 48)
  else if 65 ≤ c.toNat && c.toNat ≤ 70 then some (c.toNat - 65 + 10)
  else if 97 ≤ c.toNat && c.toNat ≤ 102 then some (c.toNat - 97 + 10)
  else none

/-- quoted_printable.rs:204-232 `u8_from_digits`; `none` is a panic. -/
def u8FromDigits (c1 c2 : Char) : Option UInt8 :=
  match hexVal c1, hexVal c2 with
  | some a, some b => some (UInt8.ofNat (a * 16 + b))
  | _, _ => none

/-- quoted_printable.rs:155-160 `strip_hexdig`: (rest, digit). -/
def stripHexdig (s : Str) : Option (Str × Char) :=
  match skipFws s with
  | c :: r => if isAsciiHexdigit c then some (r, c) else none
  | [] => none

/-- Outcome of the decoders: bytes, an error, or a panic. -/
inductive Decoded
  | ok (bytes : Bytes)
  | err
  | panic
deriving DecidableEq, Repr

/-- quoted_printable.rs:154-168 `strip_hex_octet`; the outer `none` is a panic in
`u8_from_digits`. -/
def stripHexOctet (s : Str) : Option (Option (Str × UInt8)) :=
  match stripHexdig s with
  | none => some none
  | some (s, d1) =>
    match stripHexdig s with
    | none => some none
    | some (s, d2) =>
      match u8FromDigits d1 d2 with
      | none => none
      | some b => some (some (s, b))

/-- quoted_printable.rs:100-104 `strip_dkim_safe_chars`. -/
def stripDkimSafe (s : Str) : Option Str :=
  match s with
  | c :: r => if isDkimSafe c then some (r.dropWhile isDkimSafe) else none
  | [] => none

/-- quoted_printable.rs:111-145: the loop; `inFws` is the state. The first
argument is fuel (the length of the text plus one suffices). The final check of
lines 147-151 is included. -/
def qpDecodeLoop : Nat → Bool → Str → Bytes → Decoded
  | 0, _, _, _ => .err
  | n + 1, inFws, s, result =>
    match s with
    | '=' :: snext =>
      match stripHexOctet snext with
      | none => .panic
      | some none => .err
      | some (some (snext, x)) => qpDecodeLoop n false snext (result ++ [x])
    | _ =>
      match stripDkimSafe s with
      | some snext => qpDecodeLoop n false snext (result ++ utf8 (stripSuffix s snext))
      | none =>
        match stripFws s with
        | some snext => if inFws then .err else qpDecodeLoop n true snext result
        | none => if s.isEmpty then .ok result else .err

/-- quoted_printable.rs:99-152 `decode`. -/
def qpDecode (s : Str) : Decoded := qpDecodeLoop (s.length + 1) false s []

/-- quoted_printable.rs:175-202 `decode_qp_section` (the `u8::try_from` unwraps of
lines 187-188 cannot fail for hex digits; `u8_from_digits` may panic). -/
def qpSectionLoop : Str → Bytes → Decoded
  | [], result => .ok result
  | '=' :: c1 :: c2 :: r, result =>
    if isAsciiHexdigit c1 && isAsciiHexdigit c2 then
      match u8FromDigits c1 c2 with
      | none => .panic
      | some b => qpSectionLoop r (result ++ [b])
    else .err
  | c :: r, result =>
    if c = '=' then .err
    else if isDkimSafe c || isWspChar c then qpSectionLoop r (result ++ String.utf8EncodeChar c)
    else .err

def qpSectionDecode (s : Str) : Decoded := qpSectionLoop s []

/-- tag_list.rs:189-212 `parse_quoted_printable_header_field`; outer `none` is a
panic, inner `none` an error. -/
def parseQpHeaderField (s : Str) : Option (Option (Str × Bytes)) :=
  match qpDecode s with
  | .panic => none
  | .err => some none
  | .ok val =>
    match splitOnce (58 : UInt8) val with
    | none => some none
    | some (name, value) =>
      match fromUtf8 name with
      | none => some none
      | some name => if fieldNameOk name then some (some (name, value)) else some none

end Dkim
