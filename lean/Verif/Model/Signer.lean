import Verif.Model.Env
import Verif.Model.DataHash
import Verif.Model.Header

/-!
# Signing

Model of `/repo/src/signer/mod.rs` and `/repo/src/signer/sign.rs`. The type
parameter of requests (anything that gives access to a signing key) is the signing
key itself. The clock is a parameter: `now_unix_secs` is called at most once for a
request. `async` functions are ordinary functions.
-/

namespace Dkim

variable {E : Env}

/-- signer/mod.rs:45-55 `BodyLength`. -/
inductive BodyLength
  | noLimit
  | messageContent
  | exact (n : Nat)
deriving DecidableEq, Repr

/-- signer/mod.rs:58-63 `to_usize`; `none` is the error. -/
def BodyLength.toUsize (E : Env) : BodyLength → Option (Option Nat)
  | .noLimit => some none
  | .messageContent => some none
  | .exact n => (E.toUsize n).map some

/-- signer/mod.rs:68-73 `Timestamp`. -/
inductive Timestamp
  | none
  | now
  | exact (n : Nat)
deriving DecidableEq, Repr

/-- signer/mod.rs:77-83 `HeaderSelection`. -/
inductive HeaderSelection
  | auto
  | manual (names : List Str)
deriving DecidableEq, Repr

/-- signer/mod.rs:86-95 `select_headers`. -/
def selectHeaders (headers : List Field) (pred : Str → Bool) : List Str :=
  (headers.reverse.map (·.name)).filter pred

/-- signer/mod.rs:102-132 `default_signed_headers`. -/
def defaultSignedHeaders : List Str :=
  [c!"From", c!"Reply-To", c!"Subject", c!"Date", c!"To", c!"Cc", c!"Resent-Date", c!"Resent-From",
    c!"Resent-To", c!"Resent-Cc", c!"In-Reply-To", c!"References", c!"List-Id", c!"List-Help",
    c!"List-Unsubscribe", c!"List-Subscribe", c!"List-Post", c!"List-Owner", c!"List-Archive"]

/-- signer/mod.rs:139-152 `default_unsigned_headers`. -/
def defaultUnsignedHeaders : List Str := [c!"Return-Path", c!"Received", c!"Comments", c!"Keywords"]

/-- signer/mod.rs:156-171 `RequestError`. -/
inductive RequestError
  | overflow
  | missingFromHeader
  | tooManyRequests
  | emptyRequests
  | incompatibleKeyType
  | fromHeaderNotSigned
  | invalidSignedFieldName
  | domainMismatch
  | zeroExpirationDuration
  | invalidExtTags
  | invalidDkimSignatureHeaderName
  | invalidIndentationWhitespace
deriving DecidableEq, Repr

/-- signer/mod.rs:254-286 `SignRequest`. Of the duration only the whole seconds are
ever used. -/
structure SignRequest (E : Env) where
  signingKey : SigningKey E.crypto
  algorithm : SigAlg
  canonicalization : Canonicalization
  domain : Str
  headerSelection : HeaderSelection
  identity : Option Identity
  bodyLength : BodyLength
  selector : Str
  timestamp : Timestamp
  validDuration : Option Nat
  copyHeaders : Bool
  extTags : List (Str × Str)
  format : OutputFormat

/-- signer/mod.rs:220-230 `OutputFormat::default`. -/
def OutputFormat.default : OutputFormat :=
  { headerName := dkimSignatureName, lineWidth := 78, indentation := c!"\t", tagOrder := none,
    asciiOnly := false }

/-- signer/mod.rs:289-325 `SignRequest::new`. -/
def SignRequest.new (domain selector : Str) (algorithm : SigAlg) (signingKey : SigningKey E.crypto) :
    SignRequest E :=
  { signingKey, algorithm
    canonicalization := ⟨.relaxed, .simple⟩
    domain
    headerSelection := .auto
    identity := none
    bodyLength := .noLimit
    selector
    timestamp := .now
    validDuration := some (60 * 60 * 24 * 5)
    copyHeaders := false
    extTags := []
    format := .default }

/-- signer/mod.rs:354-362: the check of the extension tags; the first argument holds
the names seen so far. -/
def badExtTags : List Str → List (Str × Str) → Bool
  | _, [] => false
  | seen, (name, value) :: rest =>
    seen.contains name || !isTagName name || !isTagValue value || isOutputTag name ||
      badExtTags (name :: seen) rest

/-- signer/mod.rs:333-340: the check of the header selection. -/
def checkSelection : HeaderSelection → Option RequestError
  | .auto => none
  | .manual names =>
    if !names.any fun n => fieldNameEq n c!"From" then some .fromHeaderNotSigned
    else if names.any fun n => n.contains ';' then some .invalidSignedFieldName
    else none

/-- signer/mod.rs:348-352: the duration is zero. -/
def zeroDuration : Option Nat → Bool
  | some n => n == 0
  | none => false

/-- signer/mod.rs:328-374 `validate_request`. -/
def validateRequest (r : SignRequest E) : Res RequestError Unit :=
  if r.signingKey.keyType ≠ r.algorithm.keyType then .err .incompatibleKeyType
  else
    match checkSelection r.headerSelection with
    | some e => .err e
    | none =>
      match domainMismatch E.idna r.identity r.domain with
      | none => .panic
      | some true => .err .domainMismatch
      | some false =>
        if zeroDuration r.validDuration then .err .zeroExpirationDuration
        else if badExtTags [] r.extTags then .err .invalidExtTags
        else if !eqIgnoreCase r.format.headerName dkimSignatureName then
          .err .invalidDkimSignatureHeaderName
        else if r.format.indentation.isEmpty || r.format.indentation.any fun c => !isWspChar c then
          .err .invalidIndentationWhitespace
        else .ok ()

/-- signer/mod.rs:378-384 `SigningError`. -/
inductive SigningError
  | overflow
  | insufficientContent
  | signingFailure
deriving DecidableEq, Repr

/-- signer/mod.rs:414-422 `SigningOutput`. -/
structure SigningOutput where
  headerName : Str
  headerValue : Str
  signature : DkimSignature
deriving DecidableEq, Repr

/-- signer/mod.rs:398-407, 427-432 `format_header`. -/
def SigningOutput.formatHeader (o : SigningOutput) : Str := o.headerName ++ ':' :: o.headerValue

/-- signer/mod.rs:442-447 `to_header_field`; `none` is a panic. -/
def SigningOutput.toHeaderField (o : SigningOutput) : Option Field :=
  if fieldNameOk o.headerName && fieldBodyOk (utf8 o.headerValue) then
    some ⟨o.headerName, utf8 o.headerValue⟩
  else none

/-- signer/mod.rs:523-527 `Signer`. -/
structure Signer (E : Env) where
  tasks : List (SignRequest E)
  headers : List Field
  bodyHasher : BodyHasher

/-- signer/mod.rs:560-563 and signer/sign.rs:48-50: the key that is registered for a request; `none` is the
conversion error. -/
def requestKey (r : SignRequest E) : Option BodyHasherKey :=
  (r.bodyLength.toUsize E).map fun n => (n, r.algorithm.hashAlg, r.canonicalization.body)

/-- signer/mod.rs:550-566: the loop over the requests, of which the first has index
`i`; the result is the list of requests and the list of registered keys. -/
def prepareLoop (E : Env) : Nat → List (SignRequest E) →
    Res RequestError (List (SignRequest E) × List BodyHasherKey)
  | _, [] => .ok ([], [])
  | i, r :: rest =>
    if i ≥ 10 then .err .tooManyRequests
    else
      match validateRequest r with
      | .err e => .err e
      | .panic => .panic
      | .ok () =>
        match requestKey r with
        | none => .err .overflow
        | some key =>
          match prepareLoop E (i + 1) rest with
          | .ok (tasks, keys) => .ok (r :: tasks, key :: keys)
          | .err e => .err e
          | .panic => .panic

/-- signer/mod.rs:539-579 `prepare_signing`. -/
def prepareSigning (E : Env) (headers : List Field) (requests : List (SignRequest E)) :
    Res RequestError (Signer E) :=
  if !headers.any fun f => fieldNameEq f.name c!"From" then .err .missingFromHeader
  else
    match prepareLoop E 0 requests with
    | .err e => .err e
    | .panic => .panic
    | .ok (tasks, keys) =>
      if tasks.isEmpty then .err .emptyRequests
      else .ok { tasks, headers, bodyHasher := BodyHasher.build false (E.keySet keys) }

/-- signer/mod.rs:604-606 `process_body_chunk`, for a sequence of chunks, with the
reported stances; `none` is a panic. -/
def Signer.processBody (s : Signer E) (chunks : List Bytes) : Option (Signer E × List Stance) :=
  match s.bodyHasher.hashChunks chunks with
  | some (bh, stances) => some ({ s with bodyHasher := bh }, stances)
  | none => none

/-! ## Producing a signature -/

/-- signer/sign.rs:140-143 `select_signed_headers`. -/
def selectSignedHeaders (headers : List Field) : List Str :=
  selectHeaders headers fun n => defaultSignedHeaders.any fun d => fieldNameEq d n

/-- signer/sign.rs:201-212 `prepare_copied_headers`. -/
def prepareCopiedHeaders (headers : List Field) (selected : List Str) : List (Str × Bytes) :=
  (headers.filter fun f => selected.any fun n => fieldNameEq n f.name).map fun f => (f.name, f.body)

/-- signer/sign.rs:221-244 `sign_hash`. -/
def signHash (key : SigningKey E.crypto) (hashAlg : HashAlg) (dataHash : Bytes) : Option Bytes :=
  match key with
  | .rsa k => E.crypto.rsaSign hashAlg k dataHash
  | .ed25519 k => some (E.crypto.edSign k dataHash)

/-- signer/sign.rs:145-193 `produce_signature`. -/
def produceSignature (u : UnsignedSig) (key : SigningKey E.crypto) (format : OutputFormat)
    (headers : List Field) : Res SigningError SigningOutput :=
  match formatWithoutSignature E.idna E.sortBy u format (estimateBTagLength key.signatureLength) with
  | none => .panic
  | some (value, insertionIndex) =>
    if key.keyType ≠ u.algorithm.keyType then .panic
    else
      match signHash key u.algorithm.hashAlg
          (computeDataHash E.hash u.algorithm.hashAlg u.canonicalization.header headers u.signedHeaders
            format.headerName value) with
      | none => .err .signingFailure
      | some signatureData =>
        match insertSignatureData value insertionIndex format.headerName signatureData format.lineWidth
            format.indentation with
        | none => .panic
        | some headerValue =>
          .ok { headerName := format.headerName, headerValue
                signature := u.intoSignature signatureData }

/-- signer/sign.rs:66-75: the value of `l=`; `none` is the overflow error. -/
def signedBodyLength (b : BodyLength) (finalLen : Nat) : Option (Option Nat) :=
  match b with
  | .noLimit => some none
  | .messageContent => (toU64 finalLen).map some
  | .exact _ => (toU64 finalLen).map some

/-- signer/sign.rs:91-95: the value of `t=`. -/
def signedTimestamp (t : Timestamp) (now : Nat) : Option Nat :=
  match t with
  | .none => none
  | .now => some now
  | .exact n => some n

/-- signer/sign.rs:97-100: the value of `x=`. -/
def signedExpiration (timestamp validDuration : Option Nat) (now : Nat) : Option Nat :=
  validDuration.map fun d => satAdd (timestamp.getD now) d

/-- signer/sign.rs:79-82: the names to sign. -/
def signedHeadersOf (s : HeaderSelection) (headers : List Field) : List Str :=
  match s with
  | .auto => selectSignedHeaders headers
  | .manual h => h

/-- signer/sign.rs:77-130: the data of the signature; `none` is a failing assertion
(lines 85 and 87). -/
def unsignedSig (r : SignRequest E) (headers : List Field) (now : Nat) (bodyHash : Bytes)
    (bodyLength : Option Nat) : Option UnsignedSig :=
  let signedHeaders := signedHeadersOf r.headerSelection headers
  if !signedHeaders.any fun n => fieldNameEq n c!"From" then none
  else if signedHeaders.any fun n => n.contains ';' then none
  else
    let timestamp := signedTimestamp r.timestamp now
    some {
      algorithm := r.algorithm
      bodyHash
      canonicalization := r.canonicalization
      domain := r.domain
      signedHeaders
      identity := r.identity
      bodyLength
      selector := r.selector
      timestamp
      expiration := signedExpiration timestamp r.validDuration now
      copiedHeaders := if r.copyHeaders then prepareCopiedHeaders headers signedHeaders else []
      extTags := r.extTags }

/-- signer/sign.rs:31-138 `perform_signing`; `now` is the time read from the clock, if
it is read. -/
def performSigning (r : SignRequest E) (headers : List Field) (results : BodyHashResults) (now : Nat) :
    Res SigningError SigningOutput :=
  match requestKey r with
  | none => .panic
  | some key =>
    match BodyHashResults.get results key with
    | none => .panic
    | some (.error .insufficientInput) => .err .insufficientContent
    | some (.error .inputTruncated) => .panic
    | some (.ok (bodyHash, finalLen)) =>
      match signedBodyLength r.bodyLength finalLen with
      | none => .err .overflow
      | some bodyLength =>
        match unsignedSig r headers now bodyHash bodyLength with
        | none => .panic
        | some u => produceSignature u r.signingKey r.format headers

/-- signer/mod.rs:618-629: the loop over the tasks, of which the first has index `i`;
`none` is a panic. `clock i` is the time read while handling task `i`. -/
def signLoop (headers : List Field) (results : BodyHashResults) (clock : Nat → Nat) :
    Nat → List (SignRequest E) → Option (List (Except SigningError SigningOutput))
  | _, [] => some []
  | i, r :: rest =>
    match performSigning r headers results (clock i) with
    | .panic => none
    | .ok o => (signLoop headers results clock (i + 1) rest).map (.ok o :: ·)
    | .err e => (signLoop headers results clock (i + 1) rest).map (.error e :: ·)

/-- signer/mod.rs:615-630 `sign`; `none` is a panic. -/
def Signer.sign (s : Signer E) (clock : Nat → Nat) :
    Option (List (Except SigningError SigningOutput)) :=
  match s.bodyHasher.finish E.hash with
  | none => none
  | some results => signLoop s.headers results clock 0 s.tasks

end Dkim
