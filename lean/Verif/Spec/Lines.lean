import Verif.Spec.Signer

/-!
# Specification: lines of the produced header
-/

namespace Dkim.Spec

/-- The lines of a text, which are separated by CRLF. -/
def lines : Str → List Str
  | [] => [[]]
  | '\r' :: '\n' :: r => [] :: lines r
  | c :: r =>
    match lines r with
    | l :: ls => (c :: l) :: ls
    | [] => [[c]]

/-- A tag may be followed by a semicolon. -/
def TagEnd (e : Str) : Prop := e = [] ∨ e = [';']

/-- Pieces of a formatted signature within which the signer does not break lines. (An
extension tag may itself contain line breaks.) -/
inductive Item (sig : DkimSignature) : Str → Prop
  /-- A whole tag, other than `b`, `bh`, `h` and `z`. -/
  | tag (n v e : Str) : n ∈ [c!"v", c!"a", c!"c", c!"d", c!"i", c!"l", c!"s", c!"t", c!"x"] →
      ';' ∉ v → '\n' ∉ v → TagEnd e → Item sig (n ++ '=' :: v ++ e)
  /-- A whole extension tag. -/
  | ext (n v e : Str) : (n, v) ∈ sig.extTags → TagEnd e → Item sig (n ++ '=' :: v ++ e)
  /-- A name in `h=`. -/
  | name (p n e : Str) : p = [] ∨ p = c!"h=" → n ∈ sig.signedHeaders → TagEnd e ∨ e = [':'] →
      Item sig (p ++ n ++ e)
  /-- The name of a field in `z=`. -/
  | copied (p n e : Str) : p = [] ∨ p = c!"z=" → n ∈ sig.copiedHeaders.map (·.1) → TagEnd e →
      Item sig (p ++ n ++ ':' :: e)
  /-- The start of `b=` or `bh=`. -/
  | start (n e : Str) : n ∈ [c!"b", c!"bh"] → TagEnd e → Item sig (n ++ '=' :: e)
  /-- A single character. -/
  | char (c : Char) (e : Str) : TagEnd e → Item sig (c :: e)

/-- A line is at most one character longer than the line width; or it is only the name of
the header field; or it is (a line of) a single item with the indentation. -/
def FitsLine (width : Nat) (indent headerName : Str) (sig : DkimSignature) (line : Str) : Prop :=
  line.length ≤ width + 1 ∨ line = headerName ++ [':'] ∨
    ∃ item, Item sig item ∧ line ∈ lines (indent ++ item)

end Dkim.Spec
