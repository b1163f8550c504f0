import Verif.Model.Canon

/-!
# Header fields

Model of `/repo/src/header.rs`.
-/

namespace Dkim

/-- header.rs:87-96 `FieldName::new` succeeds. -/
def fieldNameOk (s : Str) : Bool :=
  !(s.isEmpty || !s.all fun c => isAsciiGraphic c && c != ':')

/-- header.rs:191-206 `split_crlf`: the pieces between CRLFs. -/
def splitCrlf : Bytes → List Bytes
  | [] => [[]]
  | 13 :: 10 :: r => [] :: splitCrlf r
  | b :: r =>
    match splitCrlf r with
    | [] => [[b]]
    | p :: ps => (b :: p) :: ps

/-- `u8::is_ascii_control`. -/
def isControlByte (b : UInt8) : Bool := b < 32 || b == 127

/-- The checks of header.rs:155-173 on the line with index `i`. -/
def fieldBodyLineOk (i : Nat) (line : Bytes) : Bool :=
  if line.any fun b => isControlByte b && b != TAB then false
  else if i ≠ 0 then
    if !([SP].isPrefixOf line) && !([TAB].isPrefixOf line) then false
    else if line.all fun b => b == SP || b == TAB then false
    else true
  else true

/-- header.rs:152-176 `FieldBody::new` succeeds. -/
def fieldBodyOk (v : Bytes) : Bool :=
  (enumFrom 0 (splitCrlf v)).all fun p => fieldBodyLineOk p.1 p.2

/-- A header field whose parts were made by `FieldName::new`, `FieldBody::new`. -/
def Field.ok (f : Field) : Bool := fieldNameOk f.name && fieldBodyOk f.body

/-- header.rs:117-121 `PartialEq for FieldName`. -/
def fieldNameEq (a b : Str) : Bool := eqIgnoreCase a b

/-- header.rs:129-133 `Hash for FieldName`: what is fed to the hasher. -/
def fieldNameHashKey (a : Str) : Str := strLower a

/-- header.rs:213-219 `HeaderFields::new`. -/
def headerFieldsNew (fs : List Field) : Option (List Field) :=
  if fs.isEmpty then none else some fs

/-- header.rs:221-232 `HeaderFields::from_vec`. -/
def headerFieldsFromVec (v : List (Str × Bytes)) : Option (List Field) :=
  if v.all fun p => fieldNameOk p.1 && fieldBodyOk p.2 then
    headerFieldsNew (v.map fun p => ⟨p.1, p.2⟩)
  else none

/-- `strip_suffix('\r')` as in `str::lines`. -/
def stripCr (s : Str) : Str :=
  match s.reverse with
  | '\r' :: r => r.reverse
  | _ => s

/-- Standard library `str::lines`: lines end in LF or CRLF; a last line without
LF is returned as it is. The first argument is the current line so far. -/
def linesAux : Str → Str → List Str
  | cur, [] => if cur.isEmpty then [] else [cur]
  | cur, c :: r =>
    if c = '\n' then stripCr cur :: linesAux [] r
    else linesAux (cur ++ [c]) r

def strLines (s : Str) : List Str := linesAux [] s

/-- header.rs:310-312 `is_continuation_line`. -/
def isContinuationLine (s : Str) : Bool :=
  match s with
  | ' ' :: _ => true
  | '\t' :: _ => true
  | _ => false

/-- header.rs:314-321 `split_header_field`. -/
def splitHeaderField (s : Str) : Option (Str × Bytes) :=
  match splitOnce ':' s with
  | none => none
  | some (name, value) => if fieldNameOk name then some (name, utf8 value) else none

/-- header.rs:290-304: the loop over the remaining lines. -/
def headerLoop : Str → Bytes → List Field → List Str → Option (List Field)
  | name, value, acc, [] =>
    if fieldBodyOk value then some (acc ++ [⟨name, value⟩]) else none
  | name, value, acc, line :: lines =>
    if isContinuationLine line then headerLoop name (value ++ CRLF ++ utf8 line) acc lines
    else
      match splitHeaderField line with
      | none => none
      | some (nextName, nextValue) =>
        if fieldBodyOk value then headerLoop nextName nextValue (acc ++ [⟨name, value⟩]) lines
        else none

/-- header.rs:279-307 `HeaderFields::from_str`. -/
def headerFieldsFromStr (s : Str) : Option (List Field) :=
  match strLines s with
  | [] => none
  | first :: lines =>
    if isContinuationLine first then none
    else
      match splitHeaderField first with
      | none => none
      | some (name, value) =>
        match headerLoop name value [] lines with
        | none => none
        | some headers => headerFieldsNew headers

end Dkim
