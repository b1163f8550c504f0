import Verif.Model.Verifier
import Verif.Model.Slices
import Verif.Model.Signer

/-!
# Debug assertions

In a debug build, a failing `debug_assert!` panics; in a release build it is not there, and
so the other files of the model leave it out. Here the functions with assertions, and the
functions that call them, are modelled once more for a debug build (suffix `D`). A failing
assertion is a panic: `none`, `Res.panic` or `Decoded.panic`. That these functions compute
the same, so that no assertion ever fails, is property C108.

The assertion of parse.rs:20 is in `stripSuffixAt` (Model/Slices.lean), with the assertion
of quoted_printable.rs:229.
-/

namespace Dkim

/-! ## Tag values (tag_list.rs) -/

/-- tag_list.rs:159-163 `parse_colon_separated_value`, with the assertion of line 160. -/
def parseColonSeparatedD (value : Str) : Option (List Str) :=
  if isTagValue value then some (parseColonSeparated value) else none

/-- tag_list.rs:165-175 `parse_base64_value`, with the assertion of line 166; the outer
`none` is a panic. -/
def parseBase64ValueD (value : Str) : Option (Option Bytes) :=
  if isTagValue value then some (parseBase64Value value) else none

/-- tag_list.rs:177-181 `parse_qp_section_value`, with the assertion of line 178. -/
def parseQpSectionD (value : Str) : Decoded :=
  if isTagValue value then qpSectionLoopAt value [] else .panic

/-- tag_list.rs:183-187 `parse_quoted_printable_value`, with the assertion of line 184. -/
def parseQpD (value : Str) : Decoded := if isTagValue value then qpDecodeAt value else .panic

/-- tag_list.rs:189-212 `parse_quoted_printable_header_field`, with the assertion of line
193; the outer `none` is a panic. -/
def parseQpHeaderFieldD (value : Str) : Option (Option (Str × Bytes)) :=
  if isTagValue (trimFws value) then
    match qpDecodeAt value with
    | .panic => none
    | .err => some none
    | .ok val =>
      match splitOnce (58 : UInt8) val with
      | none => some none
      | some (name, value) =>
        match fromUtf8 name with
        | none => some none
        | some name => if fieldNameOk name then some (some (name, value)) else some none
  else none

/-! ## Domain names (signature.rs) -/

/-- signature.rs:265-272 `is_label`, with the assertion of line 266; `none` is a panic. -/
def isLabelD (s : Str) : Option Bool := if s.contains '.' then none else some (isLabel s)

/-- `labels.all(is_label)`: stops at the first that is not. -/
def allLabelsD : List Str → Option Bool
  | [] => some true
  | l :: ls =>
    match isLabelD l with
    | none => none
    | some true => allLabelsD ls
    | some false => some false

/-- signature.rs:245-261 `is_valid_dns_name`; `none` is a panic. -/
def isValidDnsNameD (s : Str) (checkTld : Bool) : Option Bool :=
  if !hasValidDomainLen s then some false
  else
    match (splitOn '.' s).reverse with
    | [] => none
    | finalLabel :: labels =>
      match isLabelD finalLabel with
      | none => none
      | some ok =>
        if !ok || (checkTld && finalLabel.all isAsciiDigit) then some false else allLabelsD labels

/-- signature.rs:234-243 `is_valid_domain_string`; `none` is a panic. -/
def isValidDomainStringD (ix : Idna) (s : Str) (checkTld : Bool) : Option Bool :=
  match ix.toAscii s with
  | some asciiS => (isValidDnsNameD asciiS checkTld).map (· && (ix.toUnicode s).2)
  | none => some false

/-- signature.rs:314-332 `Identity::new`; the outer `none` is a panic. -/
def Identity.newD (ix : Idna) (s : Str) : Option (Option Identity) :=
  match rsplitOnce '@' s with
  | none => some none
  | some (localPart, domain) =>
    if localPart.isEmpty then
      (isValidDomainStringD ix domain true).map fun b => if b then some ⟨none, domain⟩ else none
    else if !isLocalPart localPart then some none
    else (isValidDomainStringD ix domain true).map fun b => if b then some ⟨some localPart, domain⟩ else none

/-! ## Signatures (signature.rs) -/

/-- signature.rs:896-901 and 906-911: the value of `b=` or `bh=`. -/
def parseTagBD (onEmpty : SigErrorKind) (value : Str) : Res SigErrorKind Bytes :=
  match parseBase64ValueD value with
  | none => .panic
  | some none => .err .invalidBase64
  | some (some v) => if v.isEmpty then .err onEmpty else .ok v

/-- signature.rs:922-923 and 988-989: the value of `d=` or `s=`. -/
def parseTagNameD (ix : Idna) (checkTld : Bool) (e : SigErrorKind) (value : Str) : Res SigErrorKind Str :=
  match isValidDomainStringD ix value checkTld with
  | none => .panic
  | some true => .ok value
  | some false => .err e

/-- signature.rs:928-944: the value of `h=`. -/
def parseTagHD (value : Str) : Res SigErrorKind (List Str) :=
  if value.isEmpty then .err .emptySignedHeadersTag
  else
    match parseColonSeparatedD value with
    | none => .panic
    | some sh =>
      if !sh.all fieldNameOk then .err .invalidSignedHeaderName
      else if !sh.any fun h => fieldNameEq h c!"From" then .err .fromHeaderNotSigned
      else .ok sh

/-- signature.rs:947-955: the value of `i=`. -/
def parseTagID (ix : Idna) (value : Str) : Res SigErrorKind Identity :=
  match parseQpD value with
  | .panic => .panic
  | .err => .err .invalidIdentity
  | .ok bytes =>
    match fromUtf8 bytes with
    | none => .err .invalidIdentity
    | some s =>
      match Identity.newD ix s with
      | none => .panic
      | some none => .err .invalidIdentity
      | some (some i) => .ok i

/-- signature.rs:965-986: the value of `q=`. -/
def parseTagQD (value : Str) : Res SigErrorKind Unit :=
  match parseColonSeparatedD value with
  | none => .panic
  | some items => parseTagQLoop false items

/-- The loop signature.rs:1008-1012. -/
def parseTagZLoopD : List Str → Res SigErrorKind (List (Str × Bytes))
  | [] => .ok []
  | piece :: rest =>
    match parseQpHeaderFieldD piece with
    | none => .panic
    | some none => .err .invalidCopiedHeaderField
    | some (some h) =>
      match parseTagZLoopD rest with
      | .ok hs => .ok (h :: hs)
      | .err e => .err e
      | .panic => .panic

/-- signature.rs:874-1019: one iteration of the loop over the tags. -/
def sigTagD (ix : Idna) (pre : Bool) (acc : SigAcc) (t : TagSpec) : Res SigErrorKind SigAcc :=
  if t.name = c!"v" then
    if t.value ≠ c!"1" then .err .incompatibleVersion else .ok { acc with versionSeen := true }
  else if t.name = c!"a" then
    (parseTagA pre t.value).set fun x => { acc with algorithm := some x }
  else if t.name = c!"b" then
    (parseTagBD .emptySignatureTag t.value).set fun x => { acc with signatureData := some x }
  else if t.name = c!"bh" then
    (parseTagBD .emptyBodyHashTag t.value).set fun x => { acc with bodyHash := some x }
  else if t.name = c!"c" then
    (parseTagC t.value).set fun x => { acc with canonicalization := some x }
  else if t.name = c!"d" then
    (parseTagNameD ix true .invalidDomain t.value).set fun x => { acc with domain := some x }
  else if t.name = c!"h" then
    (parseTagHD t.value).set fun x => { acc with signedHeaders := some x }
  else if t.name = c!"i" then
    (parseTagID ix t.value).set fun x => { acc with identity := some x }
  else if t.name = c!"l" then
    (parseTagNum .invalidBodyLength t.value).set fun x => { acc with bodyLength := some x }
  else if t.name = c!"q" then
    (parseTagQD t.value).set fun _ => acc
  else if t.name = c!"s" then
    (parseTagNameD ix false .invalidSelector t.value).set fun x => { acc with selector := some x }
  else if t.name = c!"t" then
    (parseTagNum .invalidTimestamp t.value).set fun x => { acc with timestamp := some x }
  else if t.name = c!"x" then
    (parseTagNum .invalidExpiration t.value).set fun x => { acc with expiration := some x }
  else if t.name = c!"z" then
    (parseTagZLoopD (splitOn '|' t.value)).set fun x => { acc with copiedHeaders := some x }
  else .ok { acc with extTags := acc.extTags ++ [(t.name, t.value)] }

/-- signature.rs:873-1020: the loop over the tags. -/
def sigLoopD (ix : Idna) (pre : Bool) : SigAcc → List TagSpec → Res SigErrorKind SigAcc
  | acc, [] => .ok acc
  | acc, t :: ts =>
    match sigTagD ix pre acc t with
    | .ok acc => sigLoopD ix pre acc ts
    | .err e => .err e
    | .panic => .panic

/-- signature.rs:825-1064 `from_tag_list`, `from_tag_list_internal`. -/
def sigFromTagListD (ix : Idna) (pre : Bool) (tags : List TagSpec) : Res SigError DkimSignature :=
  match sigLoopD ix pre {} tags with
  | .err kind => .err (salvage (SigError.new kind) tags)
  | .panic => .panic
  | .ok acc =>
    match sigFinish ix acc with
    | .ok s => .ok s
    | .err kind => .err (salvage (SigError.new kind) tags)
    | .panic => .panic

/-- signature.rs:1067-1076 `from_str`. -/
def sigFromStrD (ix : Idna) (pre : Bool) (s : Str) : Res SigError DkimSignature :=
  match parseTagListAt s with
  | none => .panic
  | some (.error _) => .err (SigError.new .tagListFormat)
  | some (.ok tags) => sigFromTagListD ix pre tags

/-! ## Key records (record.rs) -/

/-- record.rs:179-202, 229-249, 250-266: the values of `h=`, `s=`, `t=`, after
`parse_colon_separated_value`. -/
def recListD {α : Type} (f : List Str → Res RecordError α) (value : Str) : Res RecordError α :=
  match parseColonSeparatedD value with
  | none => .panic
  | some items => f items

/-- record.rs:182-201. -/
def recHashes (pre : Bool) (items : List Str) : Res RecordError (List HashAlg) :=
  match recItems (recHashAlg pre) items with
  | none => .err .invalidHashAlgorithm
  | some algs => if algs.isEmpty then .err .noSupportedHashAlgorithms else .ok algs

/-- record.rs:232-248. -/
def recServices (items : List Str) : Res RecordError (List ServiceType) :=
  match recItems recServiceType items with
  | none => .err .invalidServiceType
  | some st => if st.isEmpty then .err .noSupportedServiceTypes else .ok st

/-- record.rs:253-265. -/
def recFlags (items : List Str) : Res RecordError (List SelectorFlag) :=
  match recItems recFlag items with
  | none => .err .invalidFlag
  | some fs => .ok fs

/-- record.rs:212-222. -/
def recTagND (lossy : Bytes → Str) (value : Str) : Res RecordError Str :=
  match parseQpSectionD value with
  | .panic => .panic
  | .err => .err .invalidQuotedPrintable
  | .ok bytes => .ok (lossy bytes)

/-- record.rs:223-228. -/
def recTagPD (value : Str) : Res RecordError Bytes :=
  match parseBase64ValueD value with
  | none => .panic
  | some none => .err .invalidBase64
  | some (some bytes) => .ok bytes

/-- record.rs:170-270: one iteration of the loop over the tags. -/
def recTagD (lossy : Bytes → Str) (pre : Bool) (acc : RecAcc) (i : Nat) (t : TagSpec) :
    Res RecordError RecAcc :=
  if t.name = c!"v" then
    if i ≠ 0 then .err .misplacedVersionTag
    else if t.value ≠ c!"DKIM1" then .err .incompatibleVersion
    else .ok acc
  else if t.name = c!"h" then
    (recListD (recHashes pre) t.value).set fun x => { acc with hashAlgorithms := some x }
  else if t.name = c!"k" then
    (recTagK t.value).set fun x => { acc with keyType := some x }
  else if t.name = c!"n" then
    (recTagND lossy t.value).set fun x => { acc with notes := some x }
  else if t.name = c!"p" then
    (recTagPD t.value).set fun x => { acc with keyData := some x }
  else if t.name = c!"s" then
    (recListD recServices t.value).set fun x => { acc with serviceTypes := some x }
  else if t.name = c!"t" then
    (recListD recFlags t.value).set fun x => { acc with flags := some x }
  else .ok { acc with extTags := acc.extTags ++ [(t.name, t.value)] }

/-- record.rs:169-271: the loop over the tags. -/
def recLoopD (lossy : Bytes → Str) (pre : Bool) : RecAcc → Nat → List TagSpec → Res RecordError RecAcc
  | acc, _, [] => .ok acc
  | acc, i, t :: ts =>
    match recTagD lossy pre acc i t with
    | .ok acc => recLoopD lossy pre acc (i + 1) ts
    | .err e => .err e
    | .panic => .panic

/-- record.rs:160-290 `from_tag_list`. -/
def recordFromTagListD (lossy : Bytes → Str) (pre : Bool) (tags : List TagSpec) :
    Res RecordError KeyRecord :=
  match recLoopD lossy pre {} 0 tags with
  | .err e => .err e
  | .panic => .panic
  | .ok acc =>
    match acc.keyData with
    | none => .err .missingKeyTag
    | some keyData =>
      .ok {
        hashAlgorithms := acc.hashAlgorithms.getD (HashAlg.all pre)
        keyType := acc.keyType.getD .rsa
        notes := acc.notes
        keyData
        serviceTypes := acc.serviceTypes.getD [.any]
        flags := acc.flags.getD []
        extTags := acc.extTags }

/-- record.rs:299-308 `from_str`. -/
def recordFromStrD (lossy : Bytes → Str) (pre : Bool) (s : Str) : Res RecordError KeyRecord :=
  match parseTagListAt s with
  | none => .panic
  | some (.error _) => .err .tagListFormat
  | some (.ok tags) => recordFromTagListD lossy pre tags

/-! ## Canonicalization (canonicalize.rs) -/

/-- canonicalize.rs:66-122 `canonicalize_header`, `canonicalize_header_relaxed`, with the
assertion of line 104; `none` is a panic. -/
def canonHeaderD (alg : CanonAlg) (name : Str) (value : Bytes) : Option Bytes :=
  match alg with
  | .simple => some (utf8 name ++ [58] ++ value)
  | .relaxed =>
    if fieldBodyOk value then some (utf8 (strLower name) ++ [58] ++ canonHeaderValueRelaxed value) else none

/-- The outer loop of canonicalize.rs:39-57; `none` is a panic. -/
def canonHeadersLoopD (alg : CanonAlg) (rev : List (Nat × Field)) : List Nat → List Str → Option Bytes
  | _, [] => some []
  | processed, sel :: sels =>
    match findUnprocessed sel processed rev with
    | none => canonHeadersLoopD alg rev processed sels
    | some (i, f) =>
      match canonHeaderD alg f.name f.body, canonHeadersLoopD alg rev (i :: processed) sels with
      | some bytes, some more => some (bytes ++ CRLF ++ more)
      | _, _ => none

/-- message_hash.rs:32-53 `compute_data_hash`; `none` is a panic. -/
def computeDataHashD (hash : HashFn) (hashAlg : HashAlg) (alg : CanonAlg) (headers : List Field)
    (selected : List Str) (sigName sigValue : Str) : Option Bytes :=
  match canonHeadersLoopD alg (enumFrom 0 headers.reverse) [] selected,
      canonHeaderD alg sigName (utf8 sigValue) with
  | some fields, some last => some (hash hashAlg (fields ++ last))
  | _, _ => none

/-- verifier/verify.rs:28-51 `perform_verification` is `Ok`; `none` is a panic. -/
def performVerificationD (E : Env) (headers : List Field) (key : VerifyingKey E.crypto)
    (sig : DkimSignature) (name value : Str) : Option Bool :=
  match makeOriginalAt value with
  | none => none
  | some original =>
    (computeDataHashD E.hash sig.algorithm.hashAlg sig.canonicalization.header headers sig.signedHeaders
      name original).map fun dataHash => verifySignature E key sig.algorithm.hashAlg dataHash sig.signatureData

/-! ## Formatting (signer/format.rs) -/

/-- signer/format.rs:302-316 `format_tag`, with the assertion of line 303. -/
def formatTagD (fmt : Fmt) (i : Nat) (name value : Str) : Option (Str × Nat) :=
  if name.all isAscii then some (formatTag fmt i name value) else none

/-- signer/format.rs:318-348 `format_tag_h`, with the assertion of line 319. -/
def formatTagHD (fmt : Fmt) (i : Nat) (names : List Str) : Option (Str × Nat) :=
  if names.isEmpty then none else formatTagH fmt i names

/-- signer/format.rs:408-462 `format_tag_z`, with the assertion of line 409. -/
def formatTagZD (fmt : Fmt) (i : Nat) (headers : List (Str × Bytes)) : Option (Str × Nat) :=
  if headers.isEmpty then none else formatTagZ fmt i headers

/-- signer/format.rs:277-288 `format_tag_c`. -/
def formatTagCD (fmt : Fmt) (i : Nat) (c : Canonicalization) : Option (Str × Nat) :=
  match c.header, c.body with
  | .simple, .simple => some ([], i)
  | .simple, .relaxed => formatTagD fmt i c!"c" c!"simple/relaxed"
  | .relaxed, .simple => formatTagD fmt i c!"c" c!"relaxed"
  | .relaxed, .relaxed => formatTagD fmt i c!"c" c!"relaxed/relaxed"

/-- signer/format.rs:169-195: one tag; `none` is a panic. -/
def formatNamedD (ix : Idna) (u : UnsignedSig) (bTagLen : Nat) (fmt : Fmt) (st : FmtState) (name : Str) :
    Option FmtState :=
  if name = c!"a" then st.push? (formatTagD fmt st.i c!"a" u.algorithm.canonicalStr)
  else if name = c!"b" then
    let (text, after, i) := formatTagNameB fmt st.i bTagLen
    some { out := st.out ++ text ++ after, i, insertion := some (byteLen (st.out ++ text)) }
  else if name = c!"bh" then some (st.push (formatTagBh fmt st.i u.bodyHash))
  else if name = c!"c" then st.push? (formatTagCD fmt st.i u.canonicalization)
  else if name = c!"d" then
    st.push? ((domainForm ix fmt.ascii u.domain).bind (formatTagD fmt st.i c!"d"))
  else if name = c!"h" then st.push? (formatTagHD fmt st.i u.signedHeaders)
  else if name = c!"i" then
    st.push? ((u.identity.bind (identityForm ix fmt.ascii)).bind (formatTagD fmt st.i c!"i"))
  else if name = c!"l" then
    st.push? (u.bodyLength.bind fun n => formatTagD fmt st.i c!"l" (natToStr n))
  else if name = c!"s" then
    st.push? ((domainForm ix fmt.ascii u.selector).bind (formatTagD fmt st.i c!"s"))
  else if name = c!"t" then
    st.push? (u.timestamp.bind fun n => formatTagD fmt st.i c!"t" (natToStr n))
  else if name = c!"v" then st.push? (formatTagD fmt st.i c!"v" c!"1")
  else if name = c!"x" then
    st.push? (u.expiration.bind fun n => formatTagD fmt st.i c!"x" (natToStr n))
  else if name = c!"z" then st.push? (formatTagZD fmt st.i u.copiedHeaders)
  else
    st.push? ((u.extTags.find? fun t => t.1 == name).bind fun t => formatTagD fmt st.i t.1 t.2)

/-- signer/format.rs:164-196: the loop over the tag names. -/
def formatLoopD (ix : Idna) (u : UnsignedSig) (bTagLen width : Nat) (indent : Str) (ascii : Bool) :
    FmtState → List Str → Option FmtState
  | st, [] => some st
  | st, name :: names =>
    match formatNamedD ix u bTagLen ⟨width, indent, names.isEmpty, ascii⟩ st name with
    | none => none
    | some st => formatLoopD ix u bTagLen width indent ascii st names

/-- signer/format.rs:139-199 `format_without_signature`; `none` is a panic. -/
def formatWithoutSignatureD (ix : Idna) (sortBy : Comparator → List Str → List Str) (u : UnsignedSig)
    (format : OutputFormat) (bTagLen : Nat) : Option (Str × Nat) :=
  let names := computeTagNames sortBy u format.tagOrder
  match formatLoopD ix u bTagLen format.lineWidth format.indentation format.asciiOnly
      ⟨[], byteLen format.headerName + 1, none⟩ names with
  | none => none
  | some st =>
    match st.insertion with
    | none => none
    | some ins => some (st.out, ins)

/-- signer/format.rs:532-561 `insert_signature_data`, with the assertion of line 540. -/
def insertSignatureDataD (header : Str) (insertionIndex : Nat) (headerName : Str) (signatureData : Bytes)
    (width : Nat) (indent : Str) : Option Str :=
  if insertionIndex ≤ byteLen header then
    insertSignatureData header insertionIndex headerName signatureData width indent
  else none

variable {E : Env}

/-- signer/sign.rs:145-193 `produce_signature`. -/
def produceSignatureD (u : UnsignedSig) (key : SigningKey E.crypto) (format : OutputFormat)
    (headers : List Field) : Res SigningError SigningOutput :=
  match formatWithoutSignatureD E.idna E.sortBy u format (estimateBTagLength key.signatureLength) with
  | none => .panic
  | some (value, insertionIndex) =>
    match computeDataHashD E.hash u.algorithm.hashAlg u.canonicalization.header headers u.signedHeaders
        format.headerName value with
    | none => .panic
    | some dataHash =>
      if key.keyType ≠ u.algorithm.keyType then .panic
      else
        match signHash key u.algorithm.hashAlg dataHash with
        | none => .err .signingFailure
        | some signatureData =>
          match insertSignatureDataD value insertionIndex format.headerName signatureData format.lineWidth
              format.indentation with
          | none => .panic
          | some headerValue =>
            .ok { headerName := format.headerName, headerValue
                  signature := u.intoSignature signatureData }

/-- signer/sign.rs:31-138 `perform_signing`. -/
def performSigningD (r : SignRequest E) (headers : List Field) (results : BodyHashResults) (now : Nat) :
    Res SigningError SigningOutput :=
  match requestKey r with
  | none => .panic
  | some key =>
    match BodyHashResults.get results key with
    | none => .panic
    | some (.error .insufficientInput) => .err .insufficientContent
    | some (.error .inputTruncated) => .panic
    | some (.ok (bodyHash, finalLen)) =>
      match signedBodyLength r.bodyLength finalLen with
      | none => .err .overflow
      | some bodyLength =>
        match unsignedSig r headers now bodyHash bodyLength with
        | none => .panic
        | some u => produceSignatureD u r.signingKey r.format headers

/-- signer/mod.rs:618-629: the loop over the tasks. -/
def signLoopD (headers : List Field) (results : BodyHashResults) (clock : Nat → Nat) :
    Nat → List (SignRequest E) → Option (List (Except SigningError SigningOutput))
  | _, [] => some []
  | i, r :: rest =>
    match performSigningD r headers results (clock i) with
    | .panic => none
    | .ok o => (signLoopD headers results clock (i + 1) rest).map (.ok o :: ·)
    | .err e => (signLoopD headers results clock (i + 1) rest).map (.error e :: ·)

/-- signer/mod.rs:615-630 `sign`; `none` is a panic. -/
def Signer.signD (s : Signer E) (clock : Nat → Nat) : Option (List (Except SigningError SigningOutput)) :=
  match s.bodyHasher.finish E.hash with
  | none => none
  | some results => signLoopD s.headers results clock 0 s.tasks

/-! ## The verifier (verifier/header.rs, verifier/mod.rs) -/

variable (E)

/-- verifier/header.rs:100-133: the body of the loop of `find_signatures`. -/
def startTaskD (headers : List Field) (cfg : Config) (clock : Nat → Int) (index : Nat) (f : Field) :
    Option VerifyTask :=
  match fromUtf8 f.body with
  | none => some (.failed index (.dkimSignatureFormat (.new .utf8Encoding)))
  | some value =>
    match sigFromStrD E.idna E.pre value with
    | .panic => none
    | .err e => some (.failed index (.dkimSignatureFormat e))
    | .ok sig =>
      match validateSignature E sig headers cfg (clock index) with
      | some e => some { VerifyTask.failed index e with signature := some sig }
      | none => some (.started index sig f.name value)

/-- verifier/header.rs:99-134: the loop. -/
def startTasksD (headers : List Field) (cfg : Config) (clock : Nat → Int) :
    List (Nat × Field) → Option (List VerifyTask)
  | [] => some []
  | (index, f) :: rest =>
    match startTaskD E headers cfg clock index f with
    | none => none
    | some t =>
      match startTasksD headers cfg clock rest with
      | none => none
      | some ts => some (t :: ts)

/-- verifier/header.rs:89-141 `find_signatures`. -/
def findSignaturesD (headers : List Field) (cfg : Config) (clock : Nat → Int) :
    Option (List VerifyTask) :=
  startTasksD E headers cfg clock
    (((enumFrom 0 headers).filter fun p => fieldNameEq p.2.name dkimSignatureName).take
      cfg.maxSignatures)

/-- verifier/header.rs:268-289 `parse_and_cache`. -/
def CachedRecord.parseAndCacheD : CachedRecord → Option (CachedRecord × Except RecordError KeyRecord)
  | .parsed r => some (.parsed r, r)
  | .unparsed (.error _) => some (.parsed (.error .recordFormat), .error .recordFormat)
  | .unparsed (.ok s) =>
    match recordFromStrD E.lossy E.pre s with
    | .panic => none
    | .err e => some (.parsed (.error e), .error e)
    | .ok r => some (.parsed (.ok r), .ok r)

/-- verifier/header.rs:362-417: the body of the loop over the key records. -/
def tryRecordD (headers : List Field) (cfg : Config) (sig : DkimSignature) (task : VerifyTask)
    (record : Except RecordError KeyRecord) : Option (VerifyTask × Bool) :=
  match record with
  | .error e => some ({ task with status := .failed (.keyRecordFormat e), keyRecord := none }, false)
  | .ok record =>
    match validateKeyRecord E sig.algorithm.keyType sig.algorithm.hashAlg record sig.domain
        sig.identity with
    | .panic => none
    | .err e => some ({ task with status := .failed e, keyRecord := some record }, false)
    | .ok () =>
      match readVerifyingKey E sig.algorithm.keyType record.keyData with
      | .error e =>
        some ({ task with status := .failed (.verificationFailure e), keyRecord := some record }, false)
      | .ok key =>
        if !keySizeAccepted E key cfg then
          some ({ task with status := .failed (.policy .keyTooSmall), keyRecord := some record }, false)
        else
          match task.headerName, task.headerValue with
          | some name, some value =>
            match performVerificationD E headers key sig name value with
            | none => none
            | some true => some ({ task with status := .successful, keyRecord := some record }, true)
            | some false =>
              some ({ task with status := .failed (.verificationFailure .verificationFailure),
                                keyRecord := some record }, false)
          | _, _ => none

/-- verifier/header.rs:355-417: the loop over the key records. -/
def tryRecordsD (headers : List Field) (cfg : Config) (sig : DkimSignature) :
    VerifyTask → List CachedRecord → Option (VerifyTask × List CachedRecord)
  | task, [] => some (task, [])
  | task, r :: rest =>
    match r.parseAndCacheD E with
    | none => none
    | some (r, record) =>
      match tryRecordD E headers cfg sig task record with
      | none => none
      | some (task, true) => some (task, r :: rest)
      | some (task, false) =>
        match tryRecordsD headers cfg sig task rest with
        | none => none
        | some (task, rest) => some (task, r :: rest)

/-- verifier/header.rs:329-418 `verify_task`. -/
def verifyTaskD (headers : List Field) (cfg : Config) (task : VerifyTask)
    (lookup : Except VerificationError (List CachedRecord)) :
    Option (VerifyTask × Except VerificationError (List CachedRecord)) :=
  match task.signature with
  | none => none
  | some sig =>
    match lookup with
    | .error e => some ({ task with status := .failed e }, .error e)
    | .ok records =>
      if records.isEmpty then none
      else
        match tryRecordsD E headers cfg sig task records with
        | none => none
        | some (task, records) => some (task, .ok records)

/-- verifier/header.rs:161-169: the tasks selected by `indexes`. -/
def verifySelectedD (headers : List Field) (cfg : Config) (indexes : List Nat) :
    Except VerificationError (List CachedRecord) → List VerifyTask → Option (List VerifyTask)
  | _, [] => some []
  | lookup, t :: ts =>
    if indexes.contains t.index then
      match verifyTaskD E headers cfg t lookup with
      | none => none
      | some (t, lookup) =>
        match verifySelectedD headers cfg indexes lookup ts with
        | none => none
        | some ts => some (t :: ts)
    else
      match verifySelectedD headers cfg indexes lookup ts with
      | none => none
      | some ts => some (t :: ts)

/-- verifier/header.rs:154-170: the loop over the query results. -/
def verifyResultsD (headers : List Field) (cfg : Config) :
    List VerifyTask → List (Str × List Nat × QueryResult) → Option (List VerifyTask)
  | tasks, [] => some tasks
  | tasks, (_, indexes, result) :: rest =>
    match verifySelectedD E headers cfg indexes (mapLookupResult result) tasks with
    | none => none
    | some tasks => verifyResultsD headers cfg tasks rest

/-- verifier/header.rs:143-173 `verify_all`. -/
def verifyAllD (resolver : Resolver) (headers : List Field) (cfg : Config) (tasks : List VerifyTask) :
    Option (List VerifyTask × List Str) :=
  match spawn E resolver tasks with
  | none => none
  | some queries =>
    match verifyResultsD E headers cfg tasks queries with
    | none => none
    | some tasks => some (tasks, queries.map (·.1))

/-- verifier/mod.rs:602-645 `verify_header`. -/
def verifyHeaderD (resolver : Resolver) (headers : List Field) (cfg : Config) (clock : Nat → Int) :
    Option (Option Verifier × List Str) :=
  match findSignaturesD E headers cfg clock with
  | none => none
  | some tasks =>
    if tasks.isEmpty then some (none, [])
    else
      match verifyAllD E resolver headers cfg tasks with
      | none => none
      | some (tasks, asked) =>
        match collectTasks E tasks with
        | none => none
        | some (tasks, keys) =>
          some (some ⟨tasks, BodyHasher.build cfg.forbidUnsignedContent (E.keySet keys)⟩, asked)

end Dkim
