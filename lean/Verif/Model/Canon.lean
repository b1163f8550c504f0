import Verif.Model.Basic

/-!
# Canonicalization

Model of `/repo/src/canonicalize.rs` and the type `CanonicalizationAlgorithm` of
`/repo/src/signature.rs`.
-/

namespace Dkim

/-- signature.rs:547-553 `CanonicalizationAlgorithm`. -/
inductive CanonAlg
  | simple
  | relaxed
deriving DecidableEq, Repr

def SP : UInt8 := 32
def TAB : UInt8 := 9
def CR : UInt8 := 13
def LF : UInt8 := 10

/-- canonicalize.rs:28. -/
def CRLF : Bytes := [CR, LF]

/-! ## Body canonicalization -/

/-- canonicalize.rs:125-133 `CanonState`. -/
inductive CanonState
  | init
  | crlf
  | cr
  | wsp
  | wspCr
  | byte
deriving DecidableEq, Repr

/-- canonicalize.rs:136-142 `BodyCanonicalizer`. -/
structure BodyCanon where
  kind : CanonAlg
  state : CanonState
  blankLine : Bool
  emptyLines : Nat
deriving DecidableEq, Repr

/-- canonicalize.rs:145-152 `BodyCanonicalizer::new`. -/
def BodyCanon.new (kind : CanonAlg) : BodyCanon :=
  { kind, state := .init, blankLine := true, emptyLines := 0 }

/-- canonicalize.rs:212-214 `is_wsp` (bytes). -/
def isWspByte (b : UInt8) : Bool := b == TAB || b == SP

/-- The CRLFs written by canonicalize.rs:350-356 `flush_empty_lines`. -/
def crlfs (n : Nat) : Bytes := (List.replicate n CRLF).flatten

/-- canonicalize.rs:350-356 `flush_empty_lines`: returns the new state and the
bytes appended to the result. -/
def BodyCanon.flush (c : BodyCanon) : BodyCanon × Bytes :=
  ({ c with emptyLines := 0, blankLine := false }, crlfs c.emptyLines)

/-- One step of the loop in canonicalize.rs:166-206 (`canon_chunk_simple`).
`none` is the panic `unreachable!()` of line 204. -/
def BodyCanon.stepSimple (c : BodyCanon) (b : UInt8) : Option (BodyCanon × Bytes) :=
  match c.state with
  | .init | .crlf =>
    if b = CR then some ({ c with state := .cr }, [])
    else
      let (c, out) := c.flush
      some ({ c with state := .byte }, out ++ [b])
  | .cr =>
    if b = LF then
      if c.blankLine then
        some ({ c with emptyLines := c.emptyLines + 1, state := .crlf }, [])
      else
        some ({ c with blankLine := true, state := .crlf }, CRLF)
    else
      let (c, out) := c.flush
      if b ≠ CR then some ({ c with state := .byte }, out ++ [CR] ++ [b])
      else some (c, out ++ [CR])
  | .byte =>
    if b = CR then some ({ c with state := .cr }, [])
    else some (c, [b])
  | .wsp | .wspCr => none

/-- One step of the loop in canonicalize.rs:218-298 (`canon_chunk_relaxed`). -/
def BodyCanon.stepRelaxed (c : BodyCanon) (b : UInt8) : BodyCanon × Bytes :=
  match c.state with
  | .init | .crlf =>
    if isWspByte b then ({ c with state := .wsp }, [])
    else if b = CR then ({ c with state := .cr }, [])
    else
      let (c, out) := c.flush
      ({ c with state := .byte }, out ++ [b])
  | .wsp =>
    if b = CR then ({ c with state := .wspCr }, [])
    else if !isWspByte b then
      let (c, out) := c.flush
      ({ c with state := .byte }, out ++ [SP] ++ [b])
    else (c, [])
  | .cr =>
    if b = LF then
      if c.blankLine then
        ({ c with emptyLines := c.emptyLines + 1, state := .crlf }, [])
      else
        ({ c with blankLine := true, state := .crlf }, CRLF)
    else
      let (c, out) := c.flush
      if isWspByte b then ({ c with state := .wsp }, out ++ [CR])
      else if b ≠ CR then ({ c with state := .byte }, out ++ [CR] ++ [b])
      else (c, out ++ [CR])
  | .wspCr =>
    if b = LF then
      if c.blankLine then
        ({ c with emptyLines := c.emptyLines + 1, state := .crlf }, [])
      else
        ({ c with blankLine := true, state := .crlf }, CRLF)
    else
      let (c, out) := c.flush
      if b = CR then ({ c with state := .cr }, out ++ [SP] ++ [CR])
      else if isWspByte b then ({ c with state := .wsp }, out ++ [SP] ++ [CR])
      else ({ c with state := .byte }, out ++ [SP] ++ [CR] ++ [b])
  | .byte =>
    if isWspByte b then ({ c with state := .wsp }, [])
    else if b = CR then ({ c with state := .cr }, [])
    else (c, [b])

/-- One loop step, for the kind fixed at construction; `none` is a panic. -/
def BodyCanon.step (c : BodyCanon) (b : UInt8) : Option (BodyCanon × Bytes) :=
  match c.kind with
  | .simple => c.stepSimple b
  | .relaxed => some (c.stepRelaxed b)

/-- canonicalize.rs:156-161 `canonicalize_chunk` (and the loops at 163-301):
new state and produced bytes; `none` is a panic. -/
def BodyCanon.chunk : BodyCanon → Bytes → Option (BodyCanon × Bytes)
  | c, [] => some (c, [])
  | c, b :: bs =>
    match c.step b with
    | none => none
    | some (c, out) =>
      match BodyCanon.chunk c bs with
      | none => none
      | some (c', out') => some (c', out ++ out')

/-- canonicalize.rs:303-346 `finish`; `none` is the panic of line 317. -/
def BodyCanon.finish (c : BodyCanon) : Option Bytes :=
  match c.kind with
  | .simple =>
    match c.state with
    | .init => some CRLF
    | .crlf => some []
    | .cr => some (c.flush.2 ++ [CR] ++ CRLF)
    | .byte => some CRLF
    | .wsp | .wspCr => none
  | .relaxed =>
    match c.state with
    | .init | .crlf => some []
    | .cr => some (c.flush.2 ++ [CR] ++ CRLF)
    | .wsp => some CRLF
    | .wspCr => some (c.flush.2 ++ [SP] ++ [CR] ++ CRLF)
    | .byte => some CRLF

/-- Feeding a sequence of chunks to a canonicalizer, collecting the output. -/
def BodyCanon.chunks : BodyCanon → List Bytes → Option (BodyCanon × Bytes)
  | c, [] => some (c, [])
  | c, ch :: chs =>
    match c.chunk ch with
    | none => none
    | some (c, out) =>
      match BodyCanon.chunks c chs with
      | none => none
      | some (c', out') => some (c', out ++ out')

/-- A full run: new canonicalizer, all chunks, finish; `none` is a panic. This is
how `BodyHasher` uses a canonicalizer (message_hash.rs:141-218). -/
def canonBody (kind : CanonAlg) (chunks : List Bytes) : Option Bytes :=
  match (BodyCanon.new kind).chunks chunks with
  | none => none
  | some (c, out) =>
    match c.finish with
    | none => none
    | some out' => some (out ++ out')

/-! ## Header canonicalization -/

/-- canonicalize.rs:90-92 `is_space`. -/
def isSpaceByte (b : UInt8) : Bool := b == SP || b == TAB || b == CR || b == LF

/-- canonicalize.rs:94-102 `trim_space`. -/
def trimSpace (v : Bytes) : Bytes :=
  ((v.dropWhile isSpaceByte).reverse.dropWhile isSpaceByte).reverse

/-- canonicalize.rs:108-121: the compression loop, with the flag `compressing`. -/
def compressLoop : Bool → Bytes → Bytes
  | _, [] => []
  | compressing, b :: bs =>
    if isSpaceByte b then
      if !compressing then SP :: compressLoop true bs
      else compressLoop compressing bs
    else b :: compressLoop false bs

/-- canonicalize.rs:89-122 `canonicalize_header_relaxed`. -/
def canonHeaderValueRelaxed (v : Bytes) : Bytes := compressLoop false (trimSpace v)

/-- canonicalize.rs:66-87 `canonicalize_header`: the bytes appended to the
result. -/
def canonHeader (alg : CanonAlg) (name : Str) (value : Bytes) : Bytes :=
  match alg with
  | .simple => utf8 name ++ [58] ++ value
  | .relaxed => utf8 (strLower name) ++ [58] ++ canonHeaderValueRelaxed value

/-- A header field as stored in `HeaderFields` (header.rs:42): name and body. The
well-formedness conditions are in `Verif/Model/Header.lean`. -/
structure Field where
  name : Str
  body : Bytes
deriving DecidableEq, Repr

/-- The inner loop of canonicalize.rs:41-56: scanning the header fields in
reverse order with their index, skipping processed indexes, for the first whose
name equals the selected one. -/
def findUnprocessed (name : Str) (processed : List Nat) : List (Nat × Field) → Option (Nat × Field)
  | [] => none
  | (i, f) :: rest =>
    if processed.contains i then findUnprocessed name processed rest
    else if eqIgnoreCase f.name name then some (i, f)
    else findUnprocessed name processed rest

/-- `iter().enumerate()`. -/
def enumFrom {α : Type} : Nat → List α → List (Nat × α)
  | _, [] => []
  | n, a :: as => (n, a) :: enumFrom (n + 1) as

/-- The outer loop of canonicalize.rs:39-57. -/
def canonHeadersLoop (alg : CanonAlg) (rev : List (Nat × Field)) :
    List Nat → List Str → Bytes
  | _, [] => []
  | processed, sel :: sels =>
    match findUnprocessed sel processed rev with
    | none => canonHeadersLoop alg rev processed sels
    | some (i, f) =>
      canonHeader alg f.name f.body ++ CRLF ++ canonHeadersLoop alg rev (i :: processed) sels

/-- canonicalize.rs:31-60 `canonicalize_headers`. -/
def canonHeaders (alg : CanonAlg) (headers : List Field) (selected : List Str) : Bytes :=
  canonHeadersLoop alg (enumFrom 0 headers.reverse) [] selected

end Dkim
