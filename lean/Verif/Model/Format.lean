import Verif.Model.Signature

/-!
# Formatting of signatures

Model of `/repo/src/signer/format.rs` and of `make_original_dkim_sig` in
`/repo/src/verifier/verify.rs`.

The formatting functions of the code append to a string `out` and advance a
cursor `i`; here they return the appended text and the new cursor. `usize`
arithmetic on lengths of strings in memory cannot overflow and is done in `Nat`.
-/

namespace Dkim

/-- signer/format.rs:31-45 `UnsignedDkimSignature`. -/
structure UnsignedSig where
  algorithm : SigAlg
  bodyHash : Bytes
  canonicalization : Canonicalization
  domain : Str
  signedHeaders : List Str
  identity : Option Identity
  bodyLength : Option Nat
  selector : Str
  timestamp : Option Nat
  expiration : Option Nat
  copiedHeaders : List (Str × Bytes)
  extTags : List (Str × Str)
deriving DecidableEq, Repr

/-- signer/format.rs:58-74 `into_signature`. -/
def UnsignedSig.intoSignature (u : UnsignedSig) (signatureData : Bytes) : DkimSignature :=
  { algorithm := u.algorithm
    signatureData
    bodyHash := u.bodyHash
    canonicalization := u.canonicalization
    domain := u.domain
    signedHeaders := u.signedHeaders
    identity := u.identity
    bodyLength := u.bodyLength
    selector := u.selector
    timestamp := u.timestamp
    expiration := u.expiration
    copiedHeaders := u.copiedHeaders
    extTags := u.extTags }

/-- The type of tag name comparators. -/
abbrev Comparator := Str → Str → Ordering

/-- signer/mod.rs:196-222 `OutputFormat`. -/
structure OutputFormat where
  headerName : Str
  lineWidth : Nat
  indentation : Str
  tagOrder : Option Comparator
  asciiOnly : Bool

/-- signer/format.rs:79-84 `is_output_tag`. -/
def isOutputTag (name : Str) : Bool :=
  [c!"v", c!"a", c!"b", c!"bh", c!"c", c!"d", c!"h", c!"i", c!"l", c!"s", c!"t", c!"x", c!"z"].contains name

/-- `if b { vec![x] } else { vec![] }`. -/
def whenB (b : Bool) (x : Str) : List Str := if b then [x] else []

/-- signer/format.rs:91-123: the names before sorting. -/
def tagNamesUnsorted (u : UnsignedSig) : List Str :=
  [c!"v", c!"d"] ++ whenB u.identity.isSome c!"i" ++ [c!"s", c!"a"] ++
    whenB (u.canonicalization ≠ ⟨.simple, .simple⟩) c!"c" ++
    whenB u.bodyLength.isSome c!"l" ++ whenB u.timestamp.isSome c!"t" ++
    whenB u.expiration.isSome c!"x" ++ [c!"h", c!"bh", c!"b"] ++
    whenB (!u.copiedHeaders.isEmpty) c!"z" ++ u.extTags.map (·.1)

/-- signer/format.rs:87-128 `compute_tag_names`. `sortBy` is `slice::sort_by`. -/
def computeTagNames (sortBy : Comparator → List Str → List Str) (u : UnsignedSig)
    (tagOrder : Option Comparator) : List Str :=
  match tagOrder with
  | some cmp => sortBy cmp (tagNamesUnsorted u)
  | none => tagNamesUnsorted u

/-- signer/format.rs:132-137 `Fmt`. -/
structure Fmt where
  width : Nat
  indent : Str
  last : Bool
  ascii : Bool

/-- `\r\n{indent}`. -/
def lineBreak (fmt : Fmt) : Str := '\r' :: '\n' :: fmt.indent

/-- `if !last { out.push(';') }`. -/
def endTag (fmt : Fmt) : Str := if fmt.last then [] else [';']

/-- signer/format.rs:466-475 `advance_i`. -/
def advanceI (fmt : Fmt) (i len : Nat) : Str × Nat :=
  if i + len ≤ fmt.width then ([], i + len) else (lineBreak fmt, byteLen fmt.indent + len)

/-- signer/format.rs:477-488 `advance_i_initial`. -/
def advanceInitial (fmt : Fmt) (i len : Nat) : Str × Nat :=
  if i + len + 1 ≤ fmt.width then ([' '], i + (len + 1)) else (lineBreak fmt, byteLen fmt.indent + len)

/-- The loop signer/format.rs:507-530; the first argument is fuel (every iteration
takes at least one character). -/
def chunksLoop (fmt : Fmt) (chunkWidth : Nat) : Nat → Nat → Str → Str × Nat
  | 0, i, _ => ([], i)
  | n + 1, i, s =>
    if s.isEmpty then ([], i)
    else
      let chunk := s.take chunkWidth
      let (text, i) := chunksLoop fmt chunkWidth n (chunk.length + byteLen fmt.indent) (s.drop chunkWidth)
      (lineBreak fmt ++ chunk ++ text, i)

/-- signer/format.rs:490-530 `format_chunks_into_string`. -/
def formatChunks (fmt : Fmt) (i : Nat) (s : Str) : Str × Nat :=
  let firstLen := min (fmt.width - i) s.length
  let first := s.take firstLen
  let rest := s.drop firstLen
  let (text, i) := chunksLoop fmt (max (fmt.width - byteLen fmt.indent) 1) rest.length (i + first.length) rest
  (first ++ text, i)

/-- signer/format.rs:302-316 `format_tag`. -/
def formatTag (fmt : Fmt) (i : Nat) (name value : Str) : Str × Nat :=
  let taglen := byteLen name + value.length + (if fmt.last then 1 else 2)
  let (sp, i) := advanceInitial fmt i taglen
  (sp ++ name ++ '=' :: value ++ endTag fmt, i)

/-- signer/format.rs:334-343: the loop over the remaining names. -/
def formatHRest (fmt : Fmt) : Nat → List Str → Str × Nat
  | i, [] => ([], i)
  | i, name :: rest =>
    let len := name.length + (if rest.isEmpty && fmt.last then 0 else 1)
    let (sp, i) := advanceI fmt i len
    let (text, i) := formatHRest fmt i rest
    (':' :: sp ++ name ++ text, i)

/-- signer/format.rs:318-348 `format_tag_h`; `none` is the panic of line 325. -/
def formatTagH (fmt : Fmt) (i : Nat) (names : List Str) : Option (Str × Nat) :=
  match names with
  | [] => none
  | first :: rest =>
    let taglen := first.length + (if rest.isEmpty && fmt.last then 2 else 3)
    let (sp, i) := advanceInitial fmt i taglen
    let (text, i) := formatHRest fmt i rest
    some (sp ++ c!"h=" ++ first ++ text ++ endTag fmt, i)

/-- signer/format.rs:350-370 `format_tag_bh`. The subtraction of line 359 does not underflow
(`C35_cursor`). -/
def formatTagBh (fmt : Fmt) (i : Nat) (value : Bytes) : Str × Nat :=
  let (sp, i) := advanceInitial fmt i 4
  let (text, i) := formatChunks fmt (i - 1) (encodeBase64 value)
  (sp ++ c!"bh=" ++ text ++ endTag fmt, if fmt.last then i else i + 1)

/-- signer/format.rs:388-400: the cursor after a `b=` value of the estimated
length. -/
def cursorAfterB (fmt : Fmt) (i bTagLen : Nat) : Nat :=
  let chunkLen := max (fmt.width - byteLen fmt.indent) 1
  let remainingLen := fmt.width - i
  if bTagLen ≤ remainingLen then i + bTagLen
  else
    let r := (bTagLen - remainingLen) % chunkLen
    (if r = 0 then chunkLen else r) + byteLen fmt.indent

/-- signer/format.rs:372-406 `format_tag_name_b`: the text up to the insertion
index, the text after it, and the cursor. The subtraction of line 384 does not underflow
(`C35_cursor`). -/
def formatTagNameB (fmt : Fmt) (i bTagLen : Nat) : Str × Str × Nat :=
  let (sp, i) := advanceInitial fmt i 3
  let i := cursorAfterB fmt (i - 1) bTagLen
  (sp ++ c!"b=", endTag fmt, if fmt.last then i else i + 1)

/-- signer/format.rs:413-420: the encoded value of a copied header. -/
def encodeCopied (ascii : Bool) (value : Bytes) : Str := qpEncode value (some '|') ascii

/-- signer/format.rs:437-456: the loop over the remaining copied headers. -/
def formatZRest (fmt : Fmt) : Nat → List (Str × Bytes) → Str × Nat
  | i, [] => ([], i)
  | i, (name, value) :: rest =>
    let (br, i) := if i ≥ fmt.width then (lineBreak fmt, byteLen fmt.indent) else ([], i)
    let i := i + 1
    let namelen := name.length + 1
    let (br2, i) :=
      if i + namelen ≤ fmt.width then ([], i + namelen)
      else (lineBreak fmt, byteLen fmt.indent + namelen)
    let (text, i) := formatChunks fmt i (encodeCopied fmt.ascii value)
    let (more, i) := formatZRest fmt i rest
    (br ++ '|' :: br2 ++ name ++ ':' :: text ++ more, i)

/-- signer/format.rs:408-462 `format_tag_z`; `none` is the panic of line 426. -/
def formatTagZ (fmt : Fmt) (i : Nat) (headers : List (Str × Bytes)) : Option (Str × Nat) :=
  match headers with
  | [] => none
  | (name, value) :: rest =>
    let (sp, i) := advanceInitial fmt i (name.length + 3)
    let (text, i) := formatChunks fmt i (encodeCopied fmt.ascii value)
    let (more, i) := formatZRest fmt i rest
    some (sp ++ c!"z=" ++ name ++ ':' :: text ++ more ++ endTag fmt, if fmt.last then i else i + 1)

/-- signer/format.rs:265-271 `select_str_form`. -/
def selectStrForm (orig xformed : Str) : Str := if eqIgnoreCase orig xformed then orig else xformed

/-- signature.rs:95-104, 176-185 and signer/format.rs:209-215: the form of a domain
name or selector that is written; `none` is the panic of `to_ascii`. -/
def domainForm (ix : Idna) (ascii : Bool) (d : Str) : Option Str :=
  if ascii then
    match ix.toAscii d with
    | some x => some (selectStrForm d x)
    | none => none
  else some (selectStrForm d (ix.toUnicode d).1)

/-- signer/format.rs:236-261: the value of `i=`. -/
def identityForm (ix : Idna) (ascii : Bool) (i : Identity) : Option Str :=
  match domainForm ix ascii i.domain with
  | none => none
  | some d =>
    some ((match i.localPart with
      | some l => qpEncode (utf8 l) none ascii
      | none => []) ++ '@' :: d)

/-- signer/format.rs:277-288 `format_tag_c`. -/
def formatTagC (fmt : Fmt) (i : Nat) (c : Canonicalization) : Str × Nat :=
  match c.header, c.body with
  | .simple, .simple => ([], i)
  | .simple, .relaxed => formatTag fmt i c!"c" c!"simple/relaxed"
  | .relaxed, .simple => formatTag fmt i c!"c" c!"relaxed"
  | .relaxed, .relaxed => formatTag fmt i c!"c" c!"relaxed/relaxed"

/-- The variables of the loop signer/format.rs:164-196. -/
structure FmtState where
  out : Str
  i : Nat
  insertion : Option Nat
deriving DecidableEq, Repr

/-- Appends formatted text. -/
def FmtState.push (st : FmtState) (t : Str × Nat) : FmtState := { st with out := st.out ++ t.1, i := t.2 }

/-- Appends formatted text unless producing it panicked. -/
def FmtState.push? (st : FmtState) (t : Option (Str × Nat)) : Option FmtState := t.map st.push

/-- signer/format.rs:169-195: one tag; `none` is a panic. -/
def formatNamed (ix : Idna) (u : UnsignedSig) (bTagLen : Nat) (fmt : Fmt) (st : FmtState) (name : Str) :
    Option FmtState :=
  if name = c!"a" then some (st.push (formatTag fmt st.i c!"a" u.algorithm.canonicalStr))
  else if name = c!"b" then
    let (text, after, i) := formatTagNameB fmt st.i bTagLen
    some { out := st.out ++ text ++ after, i, insertion := some (byteLen (st.out ++ text)) }
  else if name = c!"bh" then some (st.push (formatTagBh fmt st.i u.bodyHash))
  else if name = c!"c" then some (st.push (formatTagC fmt st.i u.canonicalization))
  else if name = c!"d" then
    st.push? ((domainForm ix fmt.ascii u.domain).map (formatTag fmt st.i c!"d"))
  else if name = c!"h" then st.push? (formatTagH fmt st.i u.signedHeaders)
  else if name = c!"i" then
    st.push? ((u.identity.bind (identityForm ix fmt.ascii)).map (formatTag fmt st.i c!"i"))
  else if name = c!"l" then
    st.push? (u.bodyLength.map fun n => formatTag fmt st.i c!"l" (natToStr n))
  else if name = c!"s" then
    st.push? ((domainForm ix fmt.ascii u.selector).map (formatTag fmt st.i c!"s"))
  else if name = c!"t" then
    st.push? (u.timestamp.map fun n => formatTag fmt st.i c!"t" (natToStr n))
  else if name = c!"v" then some (st.push (formatTag fmt st.i c!"v" c!"1"))
  else if name = c!"x" then
    st.push? (u.expiration.map fun n => formatTag fmt st.i c!"x" (natToStr n))
  else if name = c!"z" then st.push? (formatTagZ fmt st.i u.copiedHeaders)
  else
    st.push? ((u.extTags.find? fun t => t.1 == name).map fun t => formatTag fmt st.i t.1 t.2)

/-- signer/format.rs:164-196: the loop over the tag names. -/
def formatLoop (ix : Idna) (u : UnsignedSig) (bTagLen width : Nat) (indent : Str) (ascii : Bool) :
    FmtState → List Str → Option FmtState
  | st, [] => some st
  | st, name :: names =>
    match formatNamed ix u bTagLen ⟨width, indent, names.isEmpty, ascii⟩ st name with
    | none => none
    | some st => formatLoop ix u bTagLen width indent ascii st names

/-- signer/format.rs:139-199 `format_without_signature`: the value without `b=`
content, and the insertion index (in bytes); `none` is a panic. -/
def formatWithoutSignature (ix : Idna) (sortBy : Comparator → List Str → List Str) (u : UnsignedSig)
    (format : OutputFormat) (bTagLen : Nat) : Option (Str × Nat) :=
  let names := computeTagNames sortBy u format.tagOrder
  match formatLoop ix u bTagLen format.lineWidth format.indentation format.asciiOnly
      ⟨[], byteLen format.headerName + 1, none⟩ names with
  | none => none
  | some st =>
    match st.insertion with
    | none => none
    | some ins => some (st.out, ins)

/-- The text after the last CRLF (`rsplit("\r\n").next()`), and whether there is a
CRLF. -/
def lastLine : Str → Str × Bool
  | [] => ([], false)
  | c :: r =>
    match lastLine r with
    | (l, true) => (l, true)
    | (l, false) =>
      match c, l with
      | '\r', '\n' :: l' => (l', true)
      | _, _ => (c :: l, false)

/-- signer/format.rs:532-561 `insert_signature_data`; `none` is a panic (index not
on a character boundary). -/
def insertSignatureData (header : Str) (insertionIndex : Nat) (headerName : Str) (signatureData : Bytes)
    (width : Nat) (indent : Str) : Option Str :=
  match splitAtByte insertionIndex header with
  | none => none
  | some (before, after) =>
    let (line, broken) := lastLine before
    let len := if broken then line.length else byteLen headerName + line.length + 1
    let (text, _) := formatChunks ⟨width, indent, false, false⟩ len (encodeBase64 signatureData)
    some (before ++ text ++ after)

/-! ## Removal of the signature value -/

/-- verifier/verify.rs:54-57 `b_tag_prefix_len`, as the prefix itself. -/
def bTagPrefix (s : Str) : Option Str :=
  match stripTagNameAndEquals s with
  | some (rest, name) => if name = c!"b" then some (stripSuffix s rest) else none
  | none => none

/-- verifier/verify.rs:61-84: the loop over the semicolons. The first argument is
fuel (the number of semicolons, at most the length of the value), the second the
text before `last_i`, the third the text from `last_i`. -/
def originalLoop : Nat → Str → Str → Str
  | 0, before, rest => before ++ rest
  | n + 1, before, rest =>
    match splitOnce ';' rest with
    | some (segment, after) =>
      match bTagPrefix segment with
      | some p => before ++ p ++ ';' :: after
      | none => originalLoop n (before ++ segment ++ [';']) after
    | none =>
      if rest.isEmpty then before
      else
        match bTagPrefix rest with
        | some p => before ++ p
        | none => before ++ rest

/-- verifier/verify.rs:53-87 `make_original_dkim_sig`. -/
def makeOriginal (value : Str) : Str := originalLoop (value.length + 1) [] value

end Dkim
