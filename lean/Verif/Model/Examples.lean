import Verif.Model.KeyFile
import Verif.Model.Signer
import Verif.Model.Verifier

/-!
# The example programs

Model of `/repo/examples/dkimsign.rs` and `/repo/examples/dkimverify.rs`. A result
`none` is a panic. The command line, reading files and standard input, and logging are
not modelled: the programs are functions of the text of the key file, the arguments and
the text on standard input. Of dkimverify the results are given instead of the debug
output made of them.
-/

namespace Dkim

variable {E : Env}

/-- Standard library `str::replace('\n', "\r\n")`. -/
def replaceLf (s : Str) : Str := s.flatMap fun c => if c = '\n' then ['\r', '\n'] else [c]

/-- Standard library `str::replace("\r\n", "\n")`. -/
def replaceCrlf : Str → Str
  | [] => []
  | [c] => [c]
  | c :: d :: r => if c = '\r' ∧ d = '\n' then '\n' :: replaceCrlf r else c :: replaceCrlf (d :: r)

/-- Standard library `str::split_once` for a string `sep`: the parts before and after
its first occurrence. -/
def splitOnceStr (sep : Str) : Str → Option (Str × Str)
  | [] => if sep.isEmpty then some ([], []) else none
  | c :: r =>
    if sep.isPrefixOf (c :: r) then some ([], (c :: r).drop sep.length)
    else
      match splitOnceStr sep r with
      | none => none
      | some (a, b) => some (c :: a, b)

/-- dkimsign.rs:59-65 and dkimverify.rs:22-28: the header and the body of the text on
standard input. -/
def exampleInput (input : Str) : Option (List Field × Str) :=
  if input.isEmpty then none
  else
    match splitOnceStr c!"\r\n\r\n" (replaceLf input) with
    | none => none
    | some (header, body) =>
      match headerFieldsFromStr header with
      | none => none
      | some headers => some (headers, body)

/-- dkimsign.rs:38-43: the request. -/
def exampleRequest (key : SigningKey E.crypto) (domain selector : Str) : Option (SignRequest E) :=
  match SigAlg.fromParts E.pre key.keyType .sha256 with
  | none => none
  | some algorithm => some { SignRequest.new domain selector algorithm key with validDuration := none }

/-- dkimsign.rs:73-83: what is printed on standard output, and the errors. -/
def printOutputs : List (Except SigningError SigningOutput) → Str × List SigningError
  | [] => ([], [])
  | .ok o :: r =>
    let (out, errs) := printOutputs r
    (o.headerName ++ c!":" ++ replaceCrlf o.headerValue ++ c!"\n" ++ out, errs)
  | .error e :: r =>
    let (out, errs) := printOutputs r
    (out, e :: errs)

/-- dkimsign.rs:34-84 `main`: standard output, and the errors printed. The `unwrap`s of
lines 35, 36, 38, 40, 63, 65, 67 and the `assert!` of line 59 are panics. -/
def dkimsign (P : Pkcs8 E.crypto) (keyFile domain selector : Str) (clock : Nat → Nat) (input : Str) :
    Option (Str × List SigningError) :=
  if isValidDomainName E.idna domain && isValidSelector E.idna selector then
    match signingKeyFromPem P keyFile with
    | .error _ => none
    | .ok key =>
      match exampleRequest key domain selector with
      | none => none
      | some request =>
        match exampleInput input with
        | none => none
        | some (headers, body) =>
          match prepareSigning E headers [request] with
          | .err _ => none
          | .panic => none
          | .ok signer =>
            match signer.processBody [utf8 body] with
            | none => none
            | some (signer, _) =>
              match signer.sign clock with
              | none => none
              | some sigs => some (printOutputs sigs)
  else none

/-- dkimverify.rs:32-42: the configuration. -/
def exampleConfig : Config :=
  { Config.default with allowExpired := true, allowTimestampInFuture := true }

/-- dkimverify.rs:20-57 `main`: the results. The `unwrap`s of lines 26, 28 and 44-46 and
the `assert!` of line 22 are panics. -/
def dkimverify (E : Env) (resolver : Resolver) (clock : Nat → Int) (input : Str) :
    Option (List VerificationResult) :=
  match exampleInput input with
  | none => none
  | some (headers, body) =>
    match verifyHeader E resolver headers exampleConfig clock with
    | none => none
    | some (none, _) => none
    | some (some verifier, _) =>
      match verifier.processBody [utf8 body] with
      | none => none
      | some (verifier, _) => verifier.finish E

end Dkim
