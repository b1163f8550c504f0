import Verif.Model.Env
import Verif.Model.DataHash
import Verif.Model.Header
import Verif.Model.Record

/-!
# Verifying

Model of `/repo/src/verifier/mod.rs`, `header.rs`, `query.rs` and `verify.rs`.

The DNS is a parameter (trait `LookupTxt`): a function from query names to
replies. `async` functions are ordinary functions; the names that are asked are
returned as a trace. The clock is a parameter: `SystemTime::now` is read at most
once for a signature. `Arc` and `tracing` are not modelled.
-/

namespace Dkim

/-- The variants of `std::io::ErrorKind` that are told apart; `other` stands for all
others. -/
inductive IoErr
  | notFound
  | invalidInput
  | timedOut
  | invalidData
  | other
deriving DecidableEq, Repr

/-- What a lookup results in, and after how many milliseconds (verifier/lookup/mod.rs:36-54). -/
structure Reply where
  delay : Nat
  result : Except IoErr (List (Except IoErr Bytes))

/-- verifier/lookup/mod.rs:36-54 `LookupTxt`. -/
abbrev Resolver := Str → Reply

/-- verifier/mod.rs:51-138 `Config`. Durations are in milliseconds (`lookupTimeout`) or,
as only whole seconds are used, in seconds (`timeTolerance`). System times are
seconds since the Unix epoch, rounded down. -/
structure Config where
  lookupTimeout : Nat
  maxSignatures : Nat
  headersRequired : List Str
  headersForbiddenUnsigned : List Str
  minKeyBits : Nat
  allowSha1 : Bool
  forbidUnsignedContent : Bool
  allowExpired : Bool
  allowTimestampInFuture : Bool
  timeTolerance : Nat
  fixedSystemTime : Option Int
deriving DecidableEq, Repr

/-- verifier/mod.rs:150-168 `Config::default`. -/
def Config.default : Config where
  lookupTimeout := 10000
  maxSignatures := 10
  headersRequired := []
  headersForbiddenUnsigned := [c!"From"]
  minKeyBits := 1024
  allowSha1 := false
  forbidUnsignedContent := false
  allowExpired := false
  allowTimestampInFuture := false
  timeTolerance := 5 * 60
  fixedSystemTime := none

/-- verifier/mod.rs:141-147 `current_timestamp`; `now` is `SystemTime::now()`. A time
before the epoch counts as zero. -/
def Config.currentTimestamp (cfg : Config) (now : Int) : Nat := (cfg.fixedSystemTime.getD now).toNat

/-- verifier/mod.rs:281-317 `PolicyError`. -/
inductive PolicyError
  | requiredHeaderNotSigned
  | unsignedHeaderOccurrence
  | unsignedContent
  | signatureExpired
  | timestampInFuture
  | sha1HashAlgorithm
  | keyTooSmall
deriving DecidableEq, Repr

/-- verifier/mod.rs:337-353 `VerificationError`. -/
inductive VerificationError
  | dkimSignatureFormat (e : SigError)
  | overflow
  | noKeyFound
  | invalidKeyDomain
  | timeout
  | keyLookup
  | keyRecordFormat (e : RecordError)
  | wrongKeyType
  | keyRevoked
  | disallowedHashAlgorithm
  | domainMismatch
  | verificationFailure (e : CryptoError)
  | insufficientContent
  | bodyHashMismatch
  | policy (e : PolicyError)
deriving DecidableEq, Repr

/-- verifier/mod.rs:194-199 `VerificationStatus`. -/
inductive VerificationStatus
  | success
  | failure (e : VerificationError)
deriving DecidableEq, Repr

/-- verifier/mod.rs:414-462 `DkimResult`. -/
inductive DkimResult
  | none
  | pass
  | fail
  | policy
  | neutral
  | temperror
  | permerror
deriving DecidableEq, Repr

/-- verifier/mod.rs:209-240: the result for a signature format error. -/
def SigErrorKind.toDkimResult : SigErrorKind → DkimResult
  | .utf8Encoding | .tagListFormat | .incompatibleVersion | .unsupportedAlgorithm | .invalidBase64
  | .unsupportedCanonicalization | .invalidDomain | .invalidSignedHeaderName | .invalidIdentity
  | .invalidBodyLength | .invalidQueryMethod | .noSupportedQueryMethods | .invalidSelector
  | .invalidTimestamp | .invalidExpiration | .invalidCopiedHeaderField => .neutral
  | .historicAlgorithm | .emptySignatureTag | .emptyBodyHashTag | .emptySignedHeadersTag
  | .fromHeaderNotSigned | .missingVersionTag | .missingAlgorithmTag | .missingSignatureTag
  | .missingBodyHashTag | .missingDomainTag | .missingSignedHeadersTag | .missingSelectorTag
  | .domainMismatch | .expirationNotAfterTimestamp => .permerror

/-- verifier/mod.rs:250-264: the result for a key record format error. -/
def RecordError.toDkimResult : RecordError → DkimResult
  | .recordFormat | .tagListFormat | .incompatibleVersion | .invalidHashAlgorithm
  | .noSupportedHashAlgorithms | .unsupportedKeyType | .invalidQuotedPrintable | .invalidBase64
  | .invalidServiceType | .noSupportedServiceTypes | .invalidFlag => .neutral
  | .misplacedVersionTag | .missingKeyTag => .permerror

/-- verifier/mod.rs:265-269: the result for a cryptographic error. -/
def CryptoError.toDkimResult : CryptoError → DkimResult
  | .invalidKey | .insufficientKeySize => .permerror
  | .verificationFailure => .fail

/-- verifier/mod.rs:203-274 `to_dkim_result`. -/
def VerificationStatus.toDkimResult : VerificationStatus → DkimResult
  | .success => .pass
  | .failure e =>
    match e with
    | .dkimSignatureFormat e => e.kind.toDkimResult
    | .overflow => .neutral
    | .noKeyFound | .invalidKeyDomain | .wrongKeyType | .keyRevoked | .disallowedHashAlgorithm
    | .domainMismatch | .insufficientContent => .permerror
    | .timeout | .keyLookup => .temperror
    | .keyRecordFormat e => e.toDkimResult
    | .verificationFailure e => e.toDkimResult
    | .bodyHashMismatch => .fail
    | .policy _ => .policy

/-- verifier/header.rs:40-44 `VerifyStatus`. -/
inductive VerifyStatus
  | inProgress
  | failed (e : VerificationError)
  | successful
deriving DecidableEq, Repr

/-- verifier/header.rs:47-55 `VerifyTask`. -/
structure VerifyTask where
  headerName : Option Str
  headerValue : Option Str
  status : VerifyStatus
  index : Nat
  signature : Option DkimSignature
  keyRecord : Option KeyRecord
deriving DecidableEq, Repr

/-- verifier/header.rs:58-67 `failed`. -/
def VerifyTask.failed (index : Nat) (e : VerificationError) : VerifyTask :=
  { headerName := none, headerValue := none, status := .failed e, index, signature := none,
    keyRecord := none }

/-- verifier/header.rs:69-78 `started`. -/
def VerifyTask.started (index : Nat) (sig : DkimSignature) (name value : Str) : VerifyTask :=
  { headerName := some name, headerValue := some value, status := .inProgress, index,
    signature := some sig, keyRecord := none }

variable (E : Env)

/-! ## Checks of the signature -/

/-- verifier/header.rs:237-242: the first loop; `true` if all names are signed. -/
def requiredSigned (required signedHeaders : List Str) : Bool :=
  required.all fun h => signedHeaders.any fun n => fieldNameEq n h

/-- verifier/header.rs:244-256: the second loop; `true` if there is no unsigned
occurrence. -/
def noneUnsigned (headers : List Field) (forbidden signedHeaders : List Str) : Bool :=
  forbidden.all fun req =>
    let actual := (headers.filter fun f => fieldNameEq f.name req).length
    let signed := ((signedHeaders.filter fun n => fieldNameEq n req).take actual).length
    !(signed < actual)

/-- verifier/header.rs:230-259 `validate_signed_headers`. -/
def validateSignedHeaders (headers : List Field) (required forbidden signedHeaders : List Str) :
    Option VerificationError :=
  if !requiredSigned required signedHeaders then some (.policy .requiredHeaderNotSigned)
  else if !noneUnsigned headers forbidden signedHeaders then some (.policy .unsignedHeaderOccurrence)
  else none

/-- verifier/header.rs:199-207. -/
def isExpired (cfg : Config) (t : Nat) (expiration : Option Nat) : Bool :=
  !cfg.allowExpired &&
    match expiration with
    | some x => decide (t ≥ satAdd x cfg.timeTolerance)
    | none => false

/-- verifier/header.rs:209-217. -/
def isFuture (cfg : Config) (t : Nat) (timestamp : Option Nat) : Bool :=
  !cfg.allowTimestampInFuture &&
    match timestamp with
    | some s => decide (satSub s cfg.timeTolerance > t)
    | none => false

/-- verifier/header.rs:190-195: the declared body length does not fit `usize`. -/
def lengthOverflow (bodyLength : Option Nat) : Bool :=
  match bodyLength with
  | some n => (E.toUsize n).isNone
  | none => false

/-- verifier/header.rs:176-228 `validate_signature`; `none` is `Ok`. -/
def validateSignature (sig : DkimSignature) (headers : List Field) (cfg : Config) (now : Int) :
    Option VerificationError :=
  match validateSignedHeaders headers cfg.headersRequired cfg.headersForbiddenUnsigned
      sig.signedHeaders with
  | some e => some e
  | none =>
    if lengthOverflow E sig.bodyLength then some .overflow
    else if isExpired cfg (cfg.currentTimestamp now) sig.expiration then
      some (.policy .signatureExpired)
    else if isFuture cfg (cfg.currentTimestamp now) sig.timestamp then
      some (.policy .timestampInFuture)
    else if E.pre && (!cfg.allowSha1 && sig.algorithm.hashAlg == .sha1) then
      some (.policy .sha1HashAlgorithm)
    else none

/-- verifier/header.rs:100-133: the body of the loop of `find_signatures`; `none` is a
panic. -/
def startTask (headers : List Field) (cfg : Config) (clock : Nat → Int) (index : Nat) (f : Field) :
    Option VerifyTask :=
  match fromUtf8 f.body with
  | none => some (.failed index (.dkimSignatureFormat (.new .utf8Encoding)))
  | some value =>
    match sigFromStr E.idna E.pre value with
    | .panic => none
    | .err e => some (.failed index (.dkimSignatureFormat e))
    | .ok sig =>
      match validateSignature E sig headers cfg (clock index) with
      | some e => some { VerifyTask.failed index e with signature := some sig }
      | none => some (.started index sig f.name value)

/-- verifier/header.rs:99-134: the loop. -/
def startTasks (headers : List Field) (cfg : Config) (clock : Nat → Int) :
    List (Nat × Field) → Option (List VerifyTask)
  | [] => some []
  | (index, f) :: rest =>
    match startTask E headers cfg clock index f with
    | none => none
    | some t =>
      match startTasks headers cfg clock rest with
      | none => none
      | some ts => some (t :: ts)

/-- verifier/header.rs:89-141 `find_signatures`: the tasks; `none` is a panic. An empty
list stands for the result `None`. -/
def findSignatures (headers : List Field) (cfg : Config) (clock : Nat → Int) :
    Option (List VerifyTask) :=
  startTasks E headers cfg clock
    (((enumFrom 0 headers).filter fun p => fieldNameEq p.2.name dkimSignatureName).take
      cfg.maxSignatures)

/-! ## Lookups -/

/-- verifier/query.rs:50: `insert` into the `HashSet` of indexes. -/
def insertIndex (is : List Nat) (i : Nat) : List Nat := if is.contains i then is else is ++ [i]

/-- verifier/query.rs:48-51: `entry(key).or_default().insert(index)`. -/
def insertLookup (m : List Lookup) (key : Str × Str) (index : Nat) : List Lookup :=
  match m with
  | [] => [(key, [index])]
  | (k, is) :: rest =>
    if k = key then (k, insertIndex is index) :: rest else (k, is) :: insertLookup rest key index

/-- verifier/query.rs:43-51 `add_lookup`; `none` is a panic of `to_ascii`
(signature.rs:94-99). -/
def addLookup (m : List Lookup) (domain selector : Str) (index : Nat) : Option (List Lookup) :=
  match E.idna.toAscii domain, E.idna.toAscii selector with
  | some d, some s => some (insertLookup m (d, s) index)
  | _, _ => none

/-- verifier/query.rs:148-155: the loop over the tasks; `none` is a panic. -/
def addLookups (m : List Lookup) : List VerifyTask → Option (List Lookup)
  | [] => some m
  | t :: ts =>
    if t.status = .inProgress then
      match t.signature with
      | none => none
      | some sig =>
        match addLookup E m sig.domain sig.selector t.index with
        | none => none
        | some m => addLookups m ts
    else addLookups m ts

/-- verifier/query.rs:105: the name that is queried. -/
def queryName (domain selector : Str) : Str := selector ++ c!"._domainkey." ++ domain ++ c!"."

/-- verifier/query.rs:93 `QueryResult`. -/
abbrev QueryResult := Except IoErr (List (Except IoErr Str))

/-- verifier/query.rs:100-102 `parse_utf8`. -/
def parseTxt (txt : Except IoErr Bytes) : Except IoErr Str :=
  match txt with
  | .error e => .error e
  | .ok bytes =>
    match fromUtf8 bytes with
    | some s => .ok s
    | none => .error .invalidData

/-- verifier/query.rs:117-130: the loop over the records, of which the first has index
`i`; `last` is the variable of this name. -/
def selectTxts : Nat → Option (Except IoErr Bytes) → List (Except IoErr Bytes) → List (Except IoErr Str)
  | _, last, [] =>
    match last with
    | some txt => [parseTxt txt]
    | none => []
  | i, last, txt :: rest =>
    if i < 2 then parseTxt txt :: selectTxts (i + 1) last rest
    else selectTxts (i + 1) (some txt) rest

/-- verifier/query.rs:95-132 `look_up_records`. The delay of the reply is not looked at. -/
def lookUpRecords (resolver : Resolver) (domain selector : Str) : QueryResult :=
  match (resolver (queryName domain selector)).result with
  | .error e => .error e
  | .ok txts => .ok (selectTxts 0 none txts)

/-- verifier/query.rs:53-90 `spawn_all`: the results, each with the name that was asked.
The timeout of the configuration is not used (the code that applied it is commented
out). -/
def spawnAll (resolver : Resolver) (lookups : List Lookup) : List (Str × List Nat × QueryResult) :=
  (E.lookupOrder lookups).map fun l =>
    (queryName l.1.1 l.1.2, l.2, lookUpRecords resolver l.1.1 l.1.2)

/-- verifier/query.rs:140-158 `Queries::spawn`; `none` is a panic. -/
def spawn (resolver : Resolver) (tasks : List VerifyTask) :
    Option (List (Str × List Nat × QueryResult)) :=
  (addLookups E [] tasks).map (spawnAll E resolver)

/-! ## Key records -/

/-- verifier/header.rs:263-266 `CachedDkimKeyRecord`. -/
inductive CachedRecord
  | unparsed (r : Except IoErr Str)
  | parsed (r : Except RecordError KeyRecord)

/-- verifier/header.rs:268-289 `parse_and_cache`: the new state, and the result; `none`
is a panic. -/
def CachedRecord.parseAndCache : CachedRecord → Option (CachedRecord × Except RecordError KeyRecord)
  | .parsed r => some (.parsed r, r)
  | .unparsed (.error _) => some (.parsed (.error .recordFormat), .error .recordFormat)
  | .unparsed (.ok s) =>
    match recordFromStr E.lossy E.pre s with
    | .panic => none
    | .err e => some (.parsed (.error e), .error e)
    | .ok r => some (.parsed (.ok r), .ok r)

/-- verifier/header.rs:291-327 `map_lookup_result_to_key_records`. -/
def mapLookupResult : QueryResult → Except VerificationError (List CachedRecord)
  | .ok txts => if txts.isEmpty then .error .noKeyFound else .ok (txts.map .unparsed)
  | .error .notFound => .error .noKeyFound
  | .error .invalidInput => .error .invalidKeyDomain
  | .error .timedOut => .error .timeout
  | .error .invalidData => .error .keyLookup
  | .error .other => .error .keyLookup

/-- verifier/header.rs:442-452: the check of flag `s`; outer `none` is a panic of
`to_ascii`. -/
def subdomainForbidden (record : KeyRecord) (domain : Str) (identity : Option Identity) : Option Bool :=
  if record.flags.contains .noSubdomains then
    match identity with
    | none => some false
    | some i =>
      match E.idna.toAscii domain, E.idna.toAscii i.domain with
      | some a, some b => some (a != b)
      | _, _ => none
  else some false

/-- verifier/header.rs:420-455 `validate_key_record`. -/
def validateKeyRecord (keyType : KeyType) (hashAlg : HashAlg) (record : KeyRecord) (domain : Str)
    (identity : Option Identity) : Res VerificationError Unit :=
  if record.keyType ≠ keyType then .err .wrongKeyType
  else if record.keyData.isEmpty then .err .keyRevoked
  else if !record.hashAlgorithms.contains hashAlg then .err .disallowedHashAlgorithm
  else
    match subdomainForbidden E record domain identity with
    | none => .panic
    | some true => .err .domainMismatch
    | some false => .ok ()

/-- verifier/header.rs:457-475 `read_verifying_key`. -/
def readVerifyingKey (keyType : KeyType) (keyData : Bytes) :
    Except CryptoError (VerifyingKey E.crypto) :=
  match VerifyingKey.fromKeyData E.crypto keyType keyData with
  | none => .error .invalidKey
  | some key => if key.minKeySizeOk E.pre then .ok key else .error .insufficientKeySize

/-- verifier/header.rs:477-488 `validate_verifying_key`: the size is acceptable. -/
def keySizeAccepted (key : VerifyingKey E.crypto) (cfg : Config) : Bool :=
  match key.keySize with
  | some n => !(n < cfg.minKeyBits)
  | none => true

/-- verifier/verify.rs:89-125 `verify_signature` is `Ok`; the only error is
`VerificationFailure`. -/
def verifySignature (key : VerifyingKey E.crypto) (hashAlg : HashAlg) (dataHash signature : Bytes) : Bool :=
  match key with
  | .rsa k => E.crypto.rsaVerify k hashAlg dataHash signature
  | .ed25519 k => E.crypto.edVerify k dataHash signature

/-- verifier/verify.rs:28-51 `perform_verification` is `Ok`. -/
def performVerification (headers : List Field) (key : VerifyingKey E.crypto) (sig : DkimSignature)
    (name value : Str) : Bool :=
  verifySignature E key sig.algorithm.hashAlg
    (computeDataHash E.hash sig.algorithm.hashAlg sig.canonicalization.header headers sig.signedHeaders
      name (makeOriginal value))
    sig.signatureData

/-! ## Verification of the header -/

/-- verifier/header.rs:362-417: the body of the loop over the key records: the new task,
and whether the loop is left; `none` is a panic. -/
def tryRecord (headers : List Field) (cfg : Config) (sig : DkimSignature) (task : VerifyTask)
    (record : Except RecordError KeyRecord) : Option (VerifyTask × Bool) :=
  match record with
  | .error e => some ({ task with status := .failed (.keyRecordFormat e), keyRecord := none }, false)
  | .ok record =>
    match validateKeyRecord E sig.algorithm.keyType sig.algorithm.hashAlg record sig.domain
        sig.identity with
    | .panic => none
    | .err e => some ({ task with status := .failed e, keyRecord := some record }, false)
    | .ok () =>
      match readVerifyingKey E sig.algorithm.keyType record.keyData with
      | .error e =>
        some ({ task with status := .failed (.verificationFailure e), keyRecord := some record }, false)
      | .ok key =>
        if !keySizeAccepted E key cfg then
          some ({ task with status := .failed (.policy .keyTooSmall), keyRecord := some record }, false)
        else
          match task.headerName, task.headerValue with
          | some name, some value =>
            if performVerification E headers key sig name value then
              some ({ task with status := .successful, keyRecord := some record }, true)
            else
              some ({ task with status := .failed (.verificationFailure .verificationFailure),
                                keyRecord := some record }, false)
          | _, _ => none

/-- verifier/header.rs:355-417: the loop over the key records, which are parsed when
first needed; `none` is a panic. -/
def tryRecords (headers : List Field) (cfg : Config) (sig : DkimSignature) :
    VerifyTask → List CachedRecord → Option (VerifyTask × List CachedRecord)
  | task, [] => some (task, [])
  | task, r :: rest =>
    match r.parseAndCache E with
    | none => none
    | some (r, record) =>
      match tryRecord E headers cfg sig task record with
      | none => none
      | some (task, true) => some (task, r :: rest)
      | some (task, false) =>
        match tryRecords headers cfg sig task rest with
        | none => none
        | some (task, rest) => some (task, r :: rest)

/-- verifier/header.rs:329-418 `verify_task`: the new task and the new state of the
records; `none` is a panic. -/
def verifyTask (headers : List Field) (cfg : Config) (task : VerifyTask)
    (lookup : Except VerificationError (List CachedRecord)) :
    Option (VerifyTask × Except VerificationError (List CachedRecord)) :=
  match task.signature with
  | none => none
  | some sig =>
    match lookup with
    | .error e => some ({ task with status := .failed e }, .error e)
    | .ok records =>
      if records.isEmpty then none
      else
        match tryRecords E headers cfg sig task records with
        | none => none
        | some (task, records) => some (task, .ok records)

/-- verifier/header.rs:161-169: the tasks selected by `indexes`; `none` is a panic. -/
def verifySelected (headers : List Field) (cfg : Config) (indexes : List Nat) :
    Except VerificationError (List CachedRecord) → List VerifyTask → Option (List VerifyTask)
  | _, [] => some []
  | lookup, t :: ts =>
    if indexes.contains t.index then
      match verifyTask E headers cfg t lookup with
      | none => none
      | some (t, lookup) =>
        match verifySelected headers cfg indexes lookup ts with
        | none => none
        | some ts => some (t :: ts)
    else
      match verifySelected headers cfg indexes lookup ts with
      | none => none
      | some ts => some (t :: ts)

/-- verifier/header.rs:154-170: the loop over the query results; `none` is a panic. -/
def verifyResults (headers : List Field) (cfg : Config) :
    List VerifyTask → List (Str × List Nat × QueryResult) → Option (List VerifyTask)
  | tasks, [] => some tasks
  | tasks, (_, indexes, result) :: rest =>
    match verifySelected E headers cfg indexes (mapLookupResult result) tasks with
    | none => none
    | some tasks => verifyResults headers cfg tasks rest

/-- verifier/header.rs:143-173 `verify_all`: the tasks and the names that were asked;
`none` is a panic. -/
def verifyAll (resolver : Resolver) (headers : List Field) (cfg : Config) (tasks : List VerifyTask) :
    Option (List VerifyTask × List Str) :=
  match spawn E resolver tasks with
  | none => none
  | some queries =>
    match verifyResults E headers cfg tasks queries with
    | none => none
    | some tasks => some (tasks, queries.map (·.1))

/-! ## The verifier -/

/-- verifier/mod.rs:490-495 `VerifierTask`, and 170-186 `VerificationResult`, which has
the same fields. -/
structure VerificationResult where
  status : VerificationStatus
  index : Nat
  signature : Option DkimSignature
  keyRecord : Option KeyRecord
deriving DecidableEq, Repr

/-- verifier/mod.rs:588-591 `Verifier`. -/
structure Verifier where
  tasks : List VerificationResult
  bodyHasher : BodyHasher

/-- message_hash.rs:79-85 `body_hasher_key`; `none` is a panic. -/
def bodyHasherKey (sig : DkimSignature) : Option BodyHasherKey :=
  match sig.bodyLength with
  | none => some (none, sig.algorithm.hashAlg, sig.canonicalization.body)
  | some n => (E.toUsize n).map fun n => (some n, sig.algorithm.hashAlg, sig.canonicalization.body)

/-- verifier/mod.rs:617-640: the loop over the verified tasks: the tasks of the verifier
and the registered keys; `none` is a panic. -/
def collectTasks : List VerifyTask → Option (List VerificationResult × List BodyHasherKey)
  | [] => some ([], [])
  | t :: ts =>
    match t.status with
    | .inProgress => none
    | .failed e =>
      match collectTasks ts with
      | none => none
      | some (tasks, keys) => some (⟨.failure e, t.index, t.signature, t.keyRecord⟩ :: tasks, keys)
    | .successful =>
      match t.signature with
      | none => none
      | some sig =>
        match bodyHasherKey E sig with
        | none => none
        | some key =>
          match collectTasks ts with
          | none => none
          | some (tasks, keys) =>
            some (⟨.success, t.index, t.signature, t.keyRecord⟩ :: tasks, key :: keys)

/-- verifier/mod.rs:602-645 `verify_header`: the verifier, if there is one, and the
names that were asked; outer `none` is a panic. -/
def verifyHeader (resolver : Resolver) (headers : List Field) (cfg : Config) (clock : Nat → Int) :
    Option (Option Verifier × List Str) :=
  match findSignatures E headers cfg clock with
  | none => none
  | some tasks =>
    if tasks.isEmpty then some (none, [])
    else
      match verifyAll E resolver headers cfg tasks with
      | none => none
      | some (tasks, asked) =>
        match collectTasks E tasks with
        | none => none
        | some (tasks, keys) =>
          some (some ⟨tasks, BodyHasher.build cfg.forbidUnsignedContent (E.keySet keys)⟩, asked)

/-- verifier/mod.rs:670-672 `process_body_chunk`, for a sequence of chunks, with the
reported stances; `none` is a panic. -/
def Verifier.processBody (v : Verifier) (chunks : List Bytes) : Option (Verifier × List Stance) :=
  match v.bodyHasher.hashChunks chunks with
  | some (bh, stances) => some ({ v with bodyHasher := bh }, stances)
  | none => none

/-- verifier/mod.rs:706-736 `verify_body_hash`; `none` is a panic. -/
def verifyBodyHash (sig : DkimSignature) (results : BodyHashResults) : Option VerificationStatus :=
  match bodyHasherKey E sig with
  | none => none
  | some key =>
    match BodyHashResults.get results key with
    | none => none
    | some (.ok (h, _)) => some (if h = sig.bodyHash then .success else .failure .bodyHashMismatch)
    | some (.error .insufficientInput) => some (.failure .insufficientContent)
    | some (.error .inputTruncated) => some (.failure (.policy .unsignedContent))

/-- verifier/mod.rs:682-700: the loop over the tasks; `none` is a panic. -/
def finishTasks (results : BodyHashResults) : List VerificationResult → Option (List VerificationResult)
  | [] => some []
  | t :: ts =>
    let status : Option VerificationStatus :=
      match t.status with
      | .failure e => some (.failure e)
      | .success =>
        match t.signature with
        | none => none
        | some sig => verifyBodyHash E sig results
    match status with
    | none => none
    | some status =>
      match finishTasks results ts with
      | none => none
      | some ts => some ({ t with status } :: ts)

/-- verifier/mod.rs:677-703 `finish`; `none` is a panic. -/
def Verifier.finish (v : Verifier) : Option (List VerificationResult) :=
  match v.bodyHasher.finish E.hash with
  | none => none
  | some results => finishTasks E results v.tasks

end Dkim
