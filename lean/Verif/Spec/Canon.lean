import Verif.Model.Basic

/-!
# Specification of canonicalization (RFC 6376, section 3.4)

Independent of the model of the code. A message body is split at CRLF into its
terminated lines and the remaining text without final CRLF.
-/

namespace Dkim.Spec

/-- Splits at CRLF: the lines that end in CRLF (without it), and the rest. -/
def splitLines : Bytes → List Bytes × Bytes
  | [] => ([], [])
  | 13 :: 10 :: r => ([] :: (splitLines r).1, (splitLines r).2)
  | b :: r =>
    match splitLines r with
    | ([], last) => ([], b :: last)
    | (l :: ls, last) => ((b :: l) :: ls, last)

/-- The lines of a body: the terminated ones, and the unterminated rest if there
is any. -/
def bodyLines (body : Bytes) : List Bytes :=
  (splitLines body).1 ++ (if (splitLines body).2 = [] then [] else [(splitLines body).2])

/-- Removes empty lines at the end. -/
def dropTrailingEmpty (ls : List Bytes) : List Bytes :=
  (ls.reverse.dropWhile List.isEmpty).reverse

/-- Writes lines, each followed by CRLF. -/
def joinLines : List Bytes → Bytes
  | [] => []
  | l :: ls => l ++ [13, 10] ++ joinLines ls

/-- RFC 6376, section 3.4.3: empty lines at the end are removed, a final CRLF is
added if missing, and a body of which nothing remains is a single CRLF. -/
def rfcSimpleBody (body : Bytes) : Bytes :=
  match dropTrailingEmpty (bodyLines body) with
  | [] => [13, 10]
  | ls => joinLines ls

/-- SP and HTAB. -/
def isWsp (b : UInt8) : Bool := b == 32 || b == 9

/-- Reduces every run of WSP to a single SP. -/
def reduceWsp : Bytes → Bytes
  | [] => []
  | [b] => if isWsp b then [32] else [b]
  | b :: c :: r =>
    if isWsp b then
      if isWsp c then reduceWsp (c :: r) else 32 :: reduceWsp (c :: r)
    else b :: reduceWsp (c :: r)

/-- Removes WSP at the end. -/
def stripTrailingWsp (l : Bytes) : Bytes := (l.reverse.dropWhile isWsp).reverse

/-- RFC 6376, section 3.4.4 a) for one line. -/
def relaxLine (l : Bytes) : Bytes := reduceWsp (stripTrailingWsp l)

/-- RFC 6376, section 3.4.4: whitespace treatment on every line, empty lines at
the end removed, final CRLF added if missing and something remains. -/
def rfcRelaxedBody (body : Bytes) : Bytes :=
  joinLines (dropTrailingEmpty ((bodyLines body).map relaxLine))

/-! ## Header fields -/

/-- The characters of folding whitespace: SP, HTAB, CR, LF. In a valid field body
CR and LF occur only as part of folds. -/
def isFoldChar (b : UInt8) : Bool := b == 32 || b == 9 || b == 13 || b == 10

/-- The words of a field body: maximal runs of other characters. -/
def wordsAux : Bytes → Bytes → List Bytes
  | cur, [] => if cur = [] then [] else [cur]
  | cur, b :: r =>
    if isFoldChar b then
      if cur = [] then wordsAux [] r else cur :: wordsAux [] r
    else wordsAux (cur ++ [b]) r

def words (v : Bytes) : List Bytes := wordsAux [] v

/-- Words joined by single spaces. -/
def joinWords : List Bytes → Bytes
  | [] => []
  | [w] => w
  | w :: v :: ws => w ++ [32] ++ joinWords (v :: ws)

/-- RFC 6376, section 3.4.2, for a field body: unfold, reduce whitespace runs to
one SP, none at the ends: that is, the words joined by single spaces. -/
def rfcRelaxedValue (v : Bytes) : Bytes := joinWords (words v)

end Dkim.Spec
