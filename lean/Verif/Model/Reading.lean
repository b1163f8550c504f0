import Verif.Model.Format

/-!
# The work of reading text

The functions that read tag lists and Quoted-Printable text, and the one that removes the value of the tag
`b`, once more, with the number of characters that they test (in a release build, in which there are no
assertions). The slices that they return are views of the text, and cost nothing. (The suffix `R` stands
for "read".)
-/

namespace Dkim

/-- `str::trim_start_matches` of the standard library: tests one character after the other, until one does
not match. -/
def dropWhileR (p : Char → Bool) : Str → Str × Nat
  | [] => ([], 0)
  | c :: r =>
    if p c then
      match dropWhileR p r with
      | (s, n) => (s, n + 1)
    else (c :: r, 1)

/-- `str::strip_prefix` of the standard library for a test of a character, then `trim_start_matches`. -/
def stripManyR (first rest : Char → Bool) : Str → Option Str × Nat
  | [] => (none, 0)
  | c :: r =>
    if first c then
      match dropWhileR rest r with
      | (s, n) => (some s, n + 1)
    else (none, 1)

/-- parse.rs:51-55 `strip_wsp`. -/
def stripWspR (s : Str) : Option Str × Nat := stripManyR isWspChar isWspChar s

/-- `strip_prefix(CRLF)`: two characters are compared. -/
def stripCrlfR (s : Str) : Option Str × Nat := (stripCrlf s, 2)

/-- parse.rs:29-39 `strip_fws`. -/
def stripFwsR (s : Str) : Option Str × Nat :=
  match stripWspR s with
  | (some s', n) =>
    match stripCrlfR s' with
    | (none, m) => (some s', n + m)
    | (some s'', m) =>
      match stripWspR s'' with
      | (none, k) => (some s', n + m + k)
      | (some t, k) => (some t, n + m + k)
  | (none, n) =>
    match stripCrlfR s with
    | (none, m) => (none, n + m)
    | (some s'', m) =>
      match stripWspR s'' with
      | (none, k) => (none, n + m + k)
      | (some t, k) => (some t, n + m + k)

/-- `strip_fws(s).unwrap_or(s)`. -/
def skipFwsR (s : Str) : Str × Nat :=
  match stripFwsR s with
  | (none, n) => (s, n)
  | (some t, n) => (t, n)

/-- tag_list.rs:123-128 `strip_tag_name`. -/
def stripTagNameR (s : Str) : Option (Str × Str) × Nat :=
  match stripManyR isAsciiAlpha isTagAlnum s with
  | (none, n) => (none, n)
  | (some rest, n) => (some (rest, stripSuffix s rest), n)

/-- tag_list.rs:132-135 `strip_tval`. -/
def stripTvalR (s : Str) : Option Str × Nat := stripManyR isTvalChar isTvalChar s

/-- The loop tag_list.rs:139-141, with fuel. -/
def tvalLoopR : Nat → Str → Str × Nat
  | 0, s => (s, 0)
  | fuel + 1, s =>
    match stripFwsR s with
    | (none, n) => (s, n)
    | (some t, n) =>
      match stripTvalR t with
      | (none, m) => (s, n + m)
      | (some s', m) =>
        match tvalLoopR fuel s' with
        | (r, k) => (r, n + m + k)

/-- tag_list.rs:131-144 `strip_tag_value`. The loop has enough fuel for a last, unsuccessful attempt. -/
def stripTagValueR (s : Str) : Option (Str × Str) × Nat :=
  match stripTvalR s with
  | (none, n) => (none, n)
  | (some s', n) =>
    match tvalLoopR (s'.length + 1) s' with
    | (rest, m) => (some (rest, stripSuffix s rest), n + m)

/-- tag_list.rs:111-121 `strip_tag_name_and_equals`. -/
def stripTagNameAndEqualsR (s : Str) : Option (Str × Str) × Nat :=
  match skipFwsR s with
  | (s, n) =>
    match stripTagNameR s with
    | (none, m) => (none, n + m)
    | (some (s, name), m) =>
      match skipFwsR s with
      | (s, k) =>
        match s with
        | '=' :: r => (some (r, name), n + m + k + 1)
        | _ => (none, n + m + k + 1)

/-- tag_list.rs:94-108 `strip_tag_spec`. -/
def stripTagSpecR (s : Str) : Option (Str × TagSpec) × Nat :=
  match stripTagNameAndEqualsR s with
  | (none, n) => (none, n)
  | (some (s, name), n) =>
    match skipFwsR s with
    | (s, m) =>
      match stripTagValueR s with
      | (none, k) => (some (s, ⟨name, []⟩), n + m + k)
      | (some (s, value), k) =>
        match skipFwsR s with
        | (s, l) => (some (s, ⟨name, value⟩), n + m + k + l)

/-- The loop tag_list.rs:84-87, with fuel. -/
def tagListLoopR : Nat → Str → List TagSpec → (Str × List TagSpec) × Nat
  | 0, s, tags => ((s, tags), 0)
  | fuel + 1, s, tags =>
    match s with
    | ';' :: r =>
      match stripTagSpecR r with
      | (none, n) => ((s, tags), n + 1)
      | (some (s', t), n) =>
        match tagListLoopR fuel s' (tags ++ [t]) with
        | (p, m) => (p, n + 1 + m)
    | _ => ((s, tags), 1)

/-- tag_list.rs:79-92 `strip_tag_list`. The loop has enough fuel for a last, unsuccessful attempt. -/
def stripTagListR (s : Str) : Option (Str × List TagSpec) × Nat :=
  match stripTagSpecR s with
  | (none, n) => (none, n)
  | (some (s, t), n) =>
    match tagListLoopR (s.length + 1) s [t] with
    | ((s, tags), m) =>
      match s with
      | ';' :: r => (some (r, tags), n + m + 1)
      | _ => (some (s, tags), n + m + 1)

/-- tag_list.rs:65-76 `TagList::from_str`. The search for duplicate names hashes each name once, which is
not counted. -/
def parseTagListR (s : Str) : Except TagListError (List TagSpec) × Nat :=
  match stripTagListR s with
  | (some ([], tags), n) => (if hasDuplicate [] tags then .error .duplicateTag else .ok tags, n)
  | (_, n) => (.error .syntax, n)

/-- quoted_printable.rs:155-160 `strip_hexdig`. -/
def stripHexdigR (s : Str) : Option (Str × Char) × Nat :=
  match skipFwsR s with
  | (s, n) =>
    match s with
    | c :: r => if isAsciiHexdigit c then (some (r, c), n + 1) else (none, n + 1)
    | [] => (none, n)

/-- quoted_printable.rs:154-168 `strip_hex_octet`. -/
def stripHexOctetR (s : Str) : Option (Option (Str × UInt8)) × Nat :=
  match stripHexdigR s with
  | (none, n) => (some none, n)
  | (some (s, d1), n) =>
    match stripHexdigR s with
    | (none, m) => (some none, n + m)
    | (some (s, d2), m) =>
      match u8FromDigits d1 d2 with
      | none => (none, n + m)
      | some b => (some (some (s, b)), n + m)

/-- quoted_printable.rs:100-104 `strip_dkim_safe_chars`. -/
def stripDkimSafeR (s : Str) : Option Str × Nat := stripManyR isDkimSafe isDkimSafe s

/-- quoted_printable.rs:111-151: the loop, with fuel, and the final check. -/
def qpDecodeLoopR : Nat → Bool → Str → Bytes → Decoded × Nat
  | 0, _, _, _ => (.err, 0)
  | fuel + 1, inFws, s, result =>
    match s with
    | '=' :: snext =>
      match stripHexOctetR snext with
      | (none, n) => (.panic, n + 1)
      | (some none, n) => (.err, n + 1)
      | (some (some (snext, x)), n) =>
        match qpDecodeLoopR fuel false snext (result ++ [x]) with
        | (r, m) => (r, n + 1 + m)
    | _ =>
      match stripDkimSafeR s with
      | (some snext, n) =>
        match qpDecodeLoopR fuel false snext (result ++ utf8 (stripSuffix s snext)) with
        | (r, m) => (r, n + 1 + m)
      | (none, n) =>
        match stripFwsR s with
        | (some snext, m) =>
          if inFws then (.err, n + 1 + m)
          else
            match qpDecodeLoopR fuel true snext result with
            | (r, k) => (r, n + 1 + m + k)
        | (none, m) => (if s.isEmpty then .ok result else .err, n + 1 + m)

/-- quoted_printable.rs:99-152 `decode`. -/
def qpDecodeR (s : Str) : Decoded × Nat := qpDecodeLoopR (s.length + 1) false s []

/-- verifier/verify.rs:54-57 `b_tag_prefix_len`, as the prefix itself; the comparison of the name looks at
one character. -/
def bTagPrefixR (s : Str) : Option Str × Nat :=
  match stripTagNameAndEqualsR s with
  | (none, n) => (none, n)
  | (some (rest, name), n) => (if name = c!"b" then some (stripSuffix s rest) else none, n + 1)

/-- The next item of `match_indices(';')` (verifier/verify.rs:64). -/
def splitOnceR (sep : Char) : Str → Option (Str × Str) × Nat
  | [] => (none, 0)
  | c :: cs =>
    if c = sep then (some ([], cs), 1)
    else
      match splitOnceR sep cs with
      | (none, n) => (none, n + 1)
      | (some (a, b), n) => (some (c :: a, b), n + 1)

/-- verifier/verify.rs:61-84: the loop over the semicolons, with fuel. -/
def originalLoopR : Nat → Str → Str → Str × Nat
  | 0, before, rest => (before ++ rest, 0)
  | fuel + 1, before, rest =>
    match splitOnceR ';' rest with
    | (some (segment, after), n) =>
      match bTagPrefixR segment with
      | (some p, m) => (before ++ p ++ ';' :: after, n + m)
      | (none, m) =>
        match originalLoopR fuel (before ++ segment ++ [';']) after with
        | (r, k) => (r, n + m + k)
    | (none, n) =>
      if rest.isEmpty then (before, n)
      else
        match bTagPrefixR rest with
        | (some p, m) => (before ++ p, n + m)
        | (none, m) => (before ++ rest, n + m)

/-- verifier/verify.rs:53-87 `make_original_dkim_sig`; besides, the text is copied once. -/
def makeOriginalR (value : Str) : Str × Nat := originalLoopR (value.length + 1) [] value

end Dkim
