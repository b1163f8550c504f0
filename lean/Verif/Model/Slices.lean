import Verif.Model.Format

/-!
# Byte offsets

The other files of the model describe parsing by the remaining text. The code works with
byte offsets into strings at some places, and slicing a string at an offset that is not
on a character boundary, or out of range, panics. Here these functions are modelled once
more with their offsets; `none` is always a panic. That they compute the same without a
panic is property C76.
-/

namespace Dkim

/-! ## Standard library -/

/-- `a - b` for `usize`; a negative result panics (with overflow checks). -/
def usizeSub (a b : Nat) : Option Nat := if b ≤ a then some (a - b) else none

/-- `&s[..n]`. -/
def sliceTo (n : Nat) (s : Str) : Option Str := (splitAtByte n s).map (·.1)

/-- `&s[n..]`. -/
def sliceFrom (n : Nat) (s : Str) : Option Str := (splitAtByte n s).map (·.2)

/-- `&s[a..b]`. -/
def sliceRange (a b : Nat) (s : Str) : Option Str :=
  if a ≤ b then (sliceTo b s).bind (sliceFrom a) else none

/-- `s.drain(a..b)`: what is left. -/
def drainRange (a b : Nat) (s : Str) : Option Str :=
  if a ≤ b then
    match sliceTo a s, sliceFrom b s with
    | some x, some y => some (x ++ y)
    | _, _ => none
  else none

/-- `s.match_indices(c)`: the offsets of a character, of which the text starts at `pos`. -/
def matchIndices (c : Char) : Nat → Str → List Nat
  | _, [] => []
  | pos, d :: s => (if d = c then [pos] else []) ++ matchIndices c (pos + d.utf8Size) s

/-- `s.char_indices().nth(k)`: the offset of a character by its number; inner text starts
at `pos`. The result `None` means that there is no such character. -/
def charIndex : Nat → Nat → Str → Option Nat
  | _, _, [] => none
  | pos, 0, _ :: _ => some pos
  | pos, k + 1, d :: s => charIndex (pos + d.utf8Size) k s

/-- `&v[..n]` for bytes. -/
def bytesTo (n : Nat) (v : Bytes) : Option Bytes := if n ≤ v.length then some (v.take n) else none

/-- `&v[n..]` for bytes. -/
def bytesFrom (n : Nat) (v : Bytes) : Option Bytes := if n ≤ v.length then some (v.drop n) else none

/-! ## Parsing -/

/-- parse.rs:19-22 `strip_suffix`, with the assertion of line 20 (in a debug build). -/
def stripSuffixAt (s suffix : Str) : Option Str :=
  if suffix.isSuffixOf s then (usizeSub (byteLen s) (byteLen suffix)).bind fun n => sliceTo n s else none

/-- tag_list.rs:123-128 `strip_tag_name`. -/
def stripTagNameAt (value : Str) : Option (Option (Str × Str)) :=
  match value with
  | c :: r =>
    if isAsciiAlpha c then
      let s := r.dropWhile isTagAlnum
      (stripSuffixAt value s).map fun name => some (s, name)
    else some none
  | [] => some none

/-- tag_list.rs:131-144 `strip_tag_value`. -/
def stripTagValueAt (value : Str) : Option (Option (Str × Str)) :=
  match stripTval value with
  | none => some none
  | some s =>
    let s := tvalLoop s.length s
    (stripSuffixAt value s).map fun v => some (s, v)

/-- tag_list.rs:111-121 `strip_tag_name_and_equals`. -/
def stripTagNameAndEqualsAt (s : Str) : Option (Option (Str × Str)) :=
  match stripTagNameAt (skipFws s) with
  | none => none
  | some none => some none
  | some (some (s, name)) =>
    match skipFws s with
    | '=' :: r => some (some (r, name))
    | _ => some none

/-- tag_list.rs:94-108 `strip_tag_spec`. -/
def stripTagSpecAt (s : Str) : Option (Option (Str × TagSpec)) :=
  match stripTagNameAndEqualsAt s with
  | none => none
  | some none => some none
  | some (some (s, name)) =>
    let s := skipFws s
    match stripTagValueAt s with
    | none => none
    | some (some (s, value)) => some (some (skipFws s, ⟨name, value⟩))
    | some none => some (some (s, ⟨name, []⟩))

/-- The loop tag_list.rs:84-87, with fuel. -/
def tagListLoopAt : Nat → Str → List TagSpec → Option (Str × List TagSpec)
  | 0, s, tags => some (s, tags)
  | n + 1, s, tags =>
    match s with
    | ';' :: r =>
      match stripTagSpecAt r with
      | none => none
      | some (some (s', t)) => tagListLoopAt n s' (tags ++ [t])
      | some none => some (s, tags)
    | _ => some (s, tags)

/-- tag_list.rs:65-92 `TagList::from_str` and `strip_tag_list`. -/
def parseTagListAt (s : Str) : Option (Except TagListError (List TagSpec)) :=
  match stripTagSpecAt s with
  | none => none
  | some none => some (.error .syntax)
  | some (some (s, t)) =>
    match tagListLoopAt s.length s [t] with
    | none => none
    | some (s, tags) =>
      let s := match s with
        | ';' :: r => r
        | _ => s
      some (if s.isEmpty then if hasDuplicate [] tags then .error .duplicateTag else .ok tags
        else .error .syntax)

/-! ## Quoted-Printable -/

/-- quoted_printable.rs:207-227 `to_u8` on bytes; `none` is the panic `unreachable!()`. -/
def hexValByte (b : UInt8) : Option Nat :=
  if 48 ≤ b.toNat ∧ b.toNat ≤ 57 then some (b.toNat - 48)
  else if 65 ≤ b.toNat ∧ b.toNat ≤ 70 then some (b.toNat - 65 + 10)
  else if 97 ≤ b.toNat ∧ b.toNat ≤ 102 then some (b.toNat - 97 + 10)
  else none

/-- quoted_printable.rs:204-232 `u8_from_digits` on bytes; overflow of `u8` panics. -/
def u8FromDigitsByte (b1 b2 : UInt8) : Option UInt8 :=
  match hexValByte b1, hexValByte b2 with
  | some x, some y => if x * 16 + y < 256 then some (UInt8.ofNat (x * 16 + y)) else none
  | _, _ => none

/-- quoted_printable.rs:155-160 `strip_hexdig`, with the digit as the first byte of the
text; the outer `none` is a panic (no first byte). -/
def stripHexdigAt (s : Str) : Option (Option (Str × UInt8)) :=
  match skipFws s with
  | c :: snext =>
    if isAsciiHexdigit c then
      match (utf8 (c :: snext))[0]? with
      | some b => some (some (snext, b))
      | none => none
    else some none
  | [] => some none

/-- quoted_printable.rs:154-168 `strip_hex_octet`; the outer `none` is a panic. -/
def stripHexOctetAt (s : Str) : Option (Option (Str × UInt8)) :=
  match stripHexdigAt s with
  | none => none
  | some none => some none
  | some (some (s, d1)) =>
    match stripHexdigAt s with
    | none => none
    | some none => some none
    | some (some (s, d2)) =>
      match u8FromDigitsByte d1 d2 with
      | none => none
      | some b => some (some (s, b))

/-- quoted_printable.rs:99-152 `decode`, as `qpDecodeLoop`. -/
def qpDecodeLoopAt : Nat → Bool → Str → Bytes → Decoded
  | 0, _, _, _ => .err
  | n + 1, inFws, s, result =>
    match s with
    | '=' :: snext =>
      match stripHexOctetAt snext with
      | none => .panic
      | some none => .err
      | some (some (snext, x)) => qpDecodeLoopAt n false snext (result ++ [x])
    | _ =>
      match stripDkimSafe s with
      | some snext =>
        match stripSuffixAt s snext with
        | none => .panic
        | some chars => qpDecodeLoopAt n false snext (result ++ utf8 chars)
      | none =>
        match stripFws s with
        | some snext => if inFws then .err else qpDecodeLoopAt n true snext result
        | none => if s.isEmpty then .ok result else .err

/-- quoted_printable.rs:99-152 `decode`. -/
def qpDecodeAt (s : Str) : Decoded := qpDecodeLoopAt (s.length + 1) false s []

/-- `u8::try_from(c)` for a character. -/
def u8TryFrom (c : Char) : Option UInt8 := if c.toNat < 256 then some (UInt8.ofNat c.toNat) else none

/-- quoted_printable.rs:175-202 `decode_qp_section`, with the conversions to bytes. -/
def qpSectionLoopAt : Str → Bytes → Decoded
  | [], result => .ok result
  | '=' :: c1 :: c2 :: r, result =>
    if isAsciiHexdigit c1 && isAsciiHexdigit c2 then
      match u8TryFrom c1, u8TryFrom c2 with
      | some d1, some d2 =>
        match u8FromDigitsByte d1 d2 with
        | none => .panic
        | some b => qpSectionLoopAt r (result ++ [b])
      | _, _ => .panic
    else .err
  | c :: r, result =>
    if c = '=' then .err
    else if isDkimSafe c || isWspChar c then qpSectionLoopAt r (result ++ String.utf8EncodeChar c)
    else .err

/-- util.rs:118-134 `next_utf8_chunk`; the outer `none` is a panic. `valid_up_to` is the
number of bytes before the first ill-formed sequence. -/
def nextUtf8Chunk (input : Bytes) : Option (Option Str) :=
  match fromUtf8 input with
  | some s => some (if s.isEmpty then none else some s)
  | none =>
    let i := input.length - (utf8Prefix input).2.length
    if i > 0 then
      match bytesTo i input with
      | none => none
      | some p =>
        match fromUtf8 p with
        | none => none
        | some s => some (some s)
    else some none

/-- quoted_printable.rs:48-84 `encode_internal`, with fuel. -/
def qpEncodeLoopAt (special : Option Char) (asciiOnly : Bool) : Nat → Bytes → Option Str
  | 0, _ => some []
  | n + 1, bytes =>
    if bytes.isEmpty then some []
    else
      match nextUtf8Chunk bytes with
      | none => none
      | some (some chunk) =>
        match bytesFrom (byteLen chunk) bytes with
        | none => none
        | some rest =>
          (qpEncodeLoopAt special asciiOnly n rest).map (chunk.flatMap (qpChar special asciiOnly) ++ ·)
      | some none =>
        match bytes[0]?, bytesFrom 1 bytes with
        | some b, some rest => (qpEncodeLoopAt special asciiOnly n rest).map (qpByte b ++ ·)
        | _, _ => none

def qpEncodeAt (bytes : Bytes) (special : Option Char) (asciiOnly : Bool) : Option Str :=
  qpEncodeLoopAt special asciiOnly bytes.length bytes

/-! ## Header fields -/

/-- `value.windows(2).position(|b| b == b"\r\n")`. -/
def crlfPosition : Bytes → Option Nat
  | [] => none
  | [_] => none
  | a :: b :: r => if a = 13 ∧ b = 10 then some 0 else (crlfPosition (b :: r)).map (· + 1)

/-- header.rs:191-206 `split_crlf`, with fuel. -/
def splitCrlfAt : Nat → Bytes → Option (List Bytes)
  | 0, _ => none
  | n + 1, value =>
    match crlfPosition value with
    | none => some [value]
    | some i =>
      match bytesTo i value, bytesFrom i value with
      | some chunk, some rest =>
        match bytesFrom 2 rest with
        | none => none
        | some value => (splitCrlfAt n value).map (chunk :: ·)
      | _, _ => none

/-! ## Removal of the signature value -/

/-- verifier/verify.rs:54-57 `b_tag_prefix_len`; the outer `none` is a panic. -/
def bTagPrefixLen (s : Str) : Option (Option Nat) :=
  match stripTagNameAndEqualsAt s with
  | none => none
  | some (some (rest, name)) =>
    if name = c!"b" then (usizeSub (byteLen s) (byteLen rest)).map some else some none
  | some none => some none

/-- The loop verifier/verify.rs:64-84 over the offsets of the semicolons. -/
def originalLoopAt (value : Str) (lastI : Nat) : List Nat → Option Str
  | [] =>
    if lastI ≠ byteLen value then
      match (sliceFrom lastI value).bind bTagPrefixLen with
      | none => none
      | some (some n) => sliceTo (lastI + n) value
      | some none => some value
    else some value
  | i :: ms =>
    match (sliceRange lastI i value).bind bTagPrefixLen with
    | none => none
    | some (some n) => drainRange (lastI + n) i value
    | some none => originalLoopAt value (i + 1) ms

/-- verifier/verify.rs:53-87 `make_original_dkim_sig`. -/
def makeOriginalAt (value : Str) : Option Str := originalLoopAt value 0 (matchIndices ';' 0 value)

/-! ## Formatting -/

/-- The loop signer/format.rs:507-530, with fuel. -/
def chunksLoopAt (fmt : Fmt) (chunkWidth : Nat) : Nat → Nat → Str → Option (Str × Nat)
  | 0, i, s => if s.isEmpty then some ([], i) else none
  | n + 1, i, s =>
    if s.isEmpty then some ([], i)
    else
      match splitAtByte ((charIndex 0 chunkWidth s).getD (byteLen s)) s with
      | none => none
      | some (chunk, s) =>
        match chunksLoopAt fmt chunkWidth n (chunk.length + byteLen fmt.indent) s with
        | none => none
        | some (text, i) => some (lineBreak fmt ++ chunk ++ text, i)

/-- signer/format.rs:490-530 `format_chunks_into_string`. -/
def formatChunksAt (fmt : Fmt) (i : Nat) (s : Str) : Option (Str × Nat) :=
  let firstLen := min (fmt.width - i) s.length
  let step : Option (Str × Str × Nat) :=
    if firstLen > 0 then
      (splitAtByte ((charIndex 0 firstLen s).getD (byteLen s)) s).map fun p => (p.1, p.2, i + p.1.length)
    else some ([], s, i)
  match step with
  | none => none
  | some (first, s, i) =>
    (chunksLoopAt fmt (max (fmt.width - byteLen fmt.indent) 1) s.length i s).map fun p => (first ++ p.1, p.2)

end Dkim
