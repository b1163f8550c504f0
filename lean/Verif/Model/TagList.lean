import Verif.Model.Header

/-!
# Folding whitespace and tag lists

Model of `/repo/src/parse.rs` and `/repo/src/tag_list.rs`.
-/

namespace Dkim

/-! ## parse.rs -/

/-- parse.rs:63-65. -/
def isWspChar (c : Char) : Bool := c == ' ' || c == '\t'

/-- parse.rs:51-55 `strip_wsp`. -/
def stripWsp (s : Str) : Option Str :=
  match s with
  | c :: r => if isWspChar c then some (r.dropWhile isWspChar) else none
  | [] => none

/-- `strip_prefix(CRLF)`. -/
def stripCrlf (s : Str) : Option Str :=
  match s with
  | '\r' :: '\n' :: r => some r
  | _ => none

/-- parse.rs:29-39 `strip_fws`. -/
def stripFws (s : Str) : Option Str :=
  match stripWsp s with
  | some s' => ((stripCrlf s').bind stripWsp).or (some s')
  | none => (stripCrlf s).bind stripWsp

/-- parse.rs:57-61 `rstrip_wsp`. -/
def rstripWsp (s : Str) : Option Str := (stripWsp s.reverse).map List.reverse

/-- `strip_suffix(CRLF)`. -/
def rstripCrlf (s : Str) : Option Str :=
  match s.reverse with
  | '\n' :: '\r' :: r => some r.reverse
  | _ => none

/-- parse.rs:41-47 `rstrip_fws`. -/
def rstripFws (s : Str) : Option Str :=
  match rstripWsp s with
  | none => none
  | some s =>
    match rstripCrlf s with
    | some s' => (rstripWsp s').or (some s')
    | none => some s

/-- `strip_fws(s).unwrap_or(s)`. -/
def skipFws (s : Str) : Str := (stripFws s).getD s

/-- parse.rs:19-22 `strip_suffix`: `suffix` is always a suffix of `s`. -/
def stripSuffix (s suffix : Str) : Str := s.take (s.length - suffix.length)

/-! ## tag_list.rs -/

/-- tag_list.rs:31-35 `ParseTagListError`. -/
inductive TagListError
  | duplicateTag
  | syntax
deriving DecidableEq, Repr

/-- tag_list.rs:48-52 `TagSpec`. -/
structure TagSpec where
  name : Str
  value : Str
deriving DecidableEq, Repr

/-- tag_list.rs:150-152 `is_alphanum`. -/
def isTagAlnum (c : Char) : Bool := isAsciiAlnum c || c == '_'

/-- tag_list.rs:154-157 `is_tval_char`. -/
def isTvalChar (c : Char) : Bool :=
  ('!' ≤ c && c ≤ ':') || ('<' ≤ c && c ≤ '~') || !isAscii c

/-- tag_list.rs:123-128 `strip_tag_name`: (rest, name). -/
def stripTagName (s : Str) : Option (Str × Str) :=
  match s with
  | c :: r =>
    if isAsciiAlpha c then
      let rest := r.dropWhile isTagAlnum
      some (rest, stripSuffix s rest)
    else none
  | [] => none

/-- tag_list.rs:132-135 `strip_tval`. -/
def stripTval (s : Str) : Option Str :=
  match s with
  | c :: r => if isTvalChar c then some (r.dropWhile isTvalChar) else none
  | [] => none

/-- The loop tag_list.rs:139-141; the first argument is fuel (the length of the
text suffices, see `tvalLoop_fuel`). -/
def tvalLoop : Nat → Str → Str
  | 0, s => s
  | n + 1, s =>
    match (stripFws s).bind stripTval with
    | some s' => tvalLoop n s'
    | none => s

/-- tag_list.rs:131-144 `strip_tag_value`: (rest, value). -/
def stripTagValue (s : Str) : Option (Str × Str) :=
  match stripTval s with
  | none => none
  | some s' =>
    let rest := tvalLoop s'.length s'
    some (rest, stripSuffix s rest)

/-- tag_list.rs:111-121 `strip_tag_name_and_equals`: (rest, name). -/
def stripTagNameAndEquals (s : Str) : Option (Str × Str) :=
  match stripTagName (skipFws s) with
  | none => none
  | some (s, name) =>
    match skipFws s with
    | '=' :: r => some (r, name)
    | _ => none

/-- tag_list.rs:94-108 `strip_tag_spec`. -/
def stripTagSpec (s : Str) : Option (Str × TagSpec) :=
  match stripTagNameAndEquals s with
  | none => none
  | some (s, name) =>
    let s := skipFws s
    match stripTagValue s with
    | some (s, value) => some (skipFws s, ⟨name, value⟩)
    | none => some (s, ⟨name, []⟩)

/-- The loop tag_list.rs:84-87, with fuel. -/
def tagListLoop : Nat → Str → List TagSpec → Str × List TagSpec
  | 0, s, tags => (s, tags)
  | n + 1, s, tags =>
    match s with
    | ';' :: r =>
      match stripTagSpec r with
      | some (s', t) => tagListLoop n s' (tags ++ [t])
      | none => (s, tags)
    | _ => (s, tags)

/-- tag_list.rs:79-92 `strip_tag_list`. -/
def stripTagList (s : Str) : Option (Str × List TagSpec) :=
  match stripTagSpec s with
  | none => none
  | some (s, t) =>
    let (s, tags) := tagListLoop s.length s [t]
    match s with
    | ';' :: r => some (r, tags)
    | _ => some (s, tags)

/-- tag_list.rs:68-71: some name was seen before. -/
def hasDuplicate : List Str → List TagSpec → Bool
  | _, [] => false
  | seen, t :: ts => if seen.contains t.name then true else hasDuplicate (t.name :: seen) ts

/-- tag_list.rs:65-76 `TagList::from_str`. -/
def parseTagList (s : Str) : Except TagListError (List TagSpec) :=
  match stripTagList s with
  | some ([], tags) => if hasDuplicate [] tags then .error .duplicateTag else .ok tags
  | _ => .error .syntax

/-- tag_list.rs:222-225 `trim_surrounding_fws`. -/
def trimFws (s : Str) : Str :=
  let s := skipFws s
  (rstripFws s).getD s

/-- tag_list.rs:159-163 `parse_colon_separated_value`. -/
def parseColonSeparated (s : Str) : List Str := (splitOn ':' s).map trimFws

/-- tag_list.rs:171: the characters removed before Base64 decoding. -/
def isFwsChar (c : Char) : Bool := c == ' ' || c == '\t' || c == '\r' || c == '\n'

/-- tag_list.rs:214-216 `is_tag_name`. -/
def isTagName (s : Str) : Bool :=
  match stripTagName s with
  | some ([], _) => true
  | _ => false

/-- tag_list.rs:218-220 `is_tag_value`. -/
def isTagValue (s : Str) : Bool :=
  s.isEmpty ||
    match stripTagValue s with
    | some ([], _) => true
    | _ => false

end Dkim
