import Verif.Model.Encode

/-!
# Domain names, selectors, identities

Model of the first part of `/repo/src/signature.rs`.

The types `DomainName` and `Selector` wrap a string that was validated when the
value was created (their field is private); here they are plain strings, and
validity (`isValidDomainName`, `isValidSelector`) is stated where it is needed.
-/

namespace Dkim

/-- Outcome of a fallible Rust function: a value, an error, or a panic. -/
inductive Res (ε α : Type)
  | ok (a : α)
  | err (e : ε)
  | panic
deriving DecidableEq, Repr

/-- The two functions used of crate `idna`. -/
structure Idna where
  /-- `idna::domain_to_ascii(s).ok()`. -/
  toAscii : Str → Option Str
  /-- `idna::domain_to_unicode(s)`: the string, and whether the second component is
  `Ok`. -/
  toUnicode : Str → Str × Bool

/-- `str::split_at` at a byte index; `none` is the panic (index not on a character
boundary or out of bounds). -/
def splitAtByte : Nat → Str → Option (Str × Str)
  | 0, s => some ([], s)
  | _ + 1, [] => none
  | n + 1, c :: r =>
    if c.utf8Size ≤ n + 1 then
      match splitAtByte (n + 1 - c.utf8Size) r with
      | some (a, b) => some (c :: a, b)
      | none => none
    else none

/-- signature.rs:281-283 `has_valid_label_len`. -/
def hasValidLabelLen (s : Str) : Bool := 1 ≤ byteLen s && byteLen s ≤ 63

/-- signature.rs:277-279 `has_valid_domain_len`. -/
def hasValidDomainLen (s : Str) : Bool := 1 ≤ byteLen s && byteLen s ≤ 253

/-- signature.rs:265-272 `is_label`. -/
def isLabel (s : Str) : Bool :=
  hasValidLabelLen s && s.head? != some '-' && s.getLast? != some '-' &&
    s.all fun c => isAsciiAlnum c || c == '-' || c == '_'

/-- signature.rs:245-261 `is_valid_dns_name`. `split` never gives an empty list, so
the `expect` of line 252 cannot fail; the model answers `false` there. -/
def isValidDnsName (s : Str) (checkTld : Bool) : Bool :=
  if !hasValidDomainLen s then false
  else
    match (splitOn '.' s).reverse with
    | [] => false
    | finalLabel :: labels =>
      if !isLabel finalLabel || (checkTld && finalLabel.all isAsciiDigit) then false
      else labels.all isLabel

/-- signature.rs:234-243 `is_valid_domain_string`. -/
def isValidDomainString (ix : Idna) (s : Str) (checkTld : Bool) : Bool :=
  match ix.toAscii s with
  | some asciiS => isValidDnsName asciiS checkTld && (ix.toUnicode s).2
  | none => false

/-- signature.rs:149-151 `is_valid_domain_name`; lines 67-74 and 140-146:
`DomainName::new` and `from_str` succeed. -/
def isValidDomainName (ix : Idna) (s : Str) : Bool := isValidDomainString ix s true

/-- signature.rs:230-232 `is_valid_selector`; lines 166-173 and 221-227:
`Selector::new` and `from_str` succeed. -/
def isValidSelector (ix : Idna) (s : Str) : Bool := isValidDomainString ix s false

/-- signature.rs:125-129 and 206-210: `PartialEq` of domain names and selectors. -/
def domainEq (a b : Str) : Bool := eqIgnoreCase a b

/-- signature.rs:131-135 and 212-216: what `Hash` feeds to the hasher. -/
def domainHashKey (a : Str) : Str := strLower a

/-- signature.rs:78-92 `eq_or_subdomain_of`; `none` is a panic (`unwrap` of lines 97,
or `split_at`). -/
def eqOrSubdomainOf (ix : Idna) (self other : Str) : Option Bool :=
  if domainEq self other then some true
  else
    match ix.toAscii self, ix.toAscii other with
    | some name, some other =>
      if byteLen name ≥ byteLen other then
        match splitAtByte (byteLen name - byteLen other) name with
        | none => none
        | some (left, right) =>
          some (eqIgnoreCase right other && (left.isEmpty || left.getLast? == some '.'))
      else some false
    | _, _ => none

/-! ## Identities -/

/-- signature.rs:301-310 `Identity`. -/
structure Identity where
  localPart : Option Str
  domain : Str
deriving DecidableEq, Repr

/-- signature.rs:386-388 `is_qtext_smtp`. -/
def isQtextSmtp (c : Char) : Bool :=
  c == ' ' || (isAsciiGraphic c && !(c == '"' || c == '\\')) || !isAscii c

/-- The loop signature.rs:391-405; the first argument is `quoted`. -/
def quotedStringLoop : Bool → Str → Bool
  | quoted, [] => !quoted
  | true, c :: r => if c == ' ' || isAsciiGraphic c then quotedStringLoop false r else false
  | false, c :: r =>
    if c == '\\' then quotedStringLoop true r
    else if !isQtextSmtp c then false
    else quotedStringLoop false r

/-- signature.rs:385-409 `is_quoted_string`. -/
def isQuotedString (s : Str) : Bool :=
  match s with
  | '"' :: r =>
    match r.reverse with
    | '"' :: m => quotedStringLoop false m.reverse
    | _ => false
  | _ => false

/-- signature.rs:413-421 `is_atext`. -/
def isAtext (c : Char) : Bool :=
  isAsciiAlnum c || c!"!#$%&'*+-/=?^_`{|}~".contains c || !isAscii c

/-- The loop signature.rs:423-437; the first argument is `dot`. -/
def dotStringLoop : Bool → Str → Bool
  | dot, [] => !dot
  | true, c :: r => if isAtext c then dotStringLoop false r else false
  | false, c :: r =>
    if c == '.' then dotStringLoop true r
    else if !isAtext c then false
    else dotStringLoop false r

/-- signature.rs:411-438 `is_dot_string`. -/
def isDotString (s : Str) : Bool := dotStringLoop true s

/-- signature.rs:372-383 `is_local_part`. -/
def isLocalPart (s : Str) : Bool :=
  if byteLen s > 64 then false
  else if s.head? == some '"' then isQuotedString s
  else isDotString s

/-- signature.rs:314-332 `Identity::new`. -/
def Identity.new (ix : Idna) (s : Str) : Option Identity :=
  match rsplitOnce '@' s with
  | none => none
  | some (localPart, domain) =>
    if localPart.isEmpty then
      if isValidDomainName ix domain then some ⟨none, domain⟩ else none
    else if !isLocalPart localPart then none
    else if isValidDomainName ix domain then some ⟨some localPart, domain⟩
    else none

/-- signature.rs:336-341 `Identity::from_domain`. -/
def Identity.fromDomain (domain : Str) : Identity := ⟨none, domain⟩

/-- signature.rs:347-354 `Display for Identity`. -/
def Identity.display (i : Identity) : Str :=
  (match i.localPart with
    | some l => l
    | none => []) ++ '@' :: i.domain

end Dkim
