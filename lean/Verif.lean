import Verif.Model.Asserts
import Verif.Model.Basic
import Verif.Model.BodyHash
import Verif.Model.Canon
import Verif.Model.Changing
import Verif.Model.Crypto
import Verif.Model.DataHash
import Verif.Model.Debug
import Verif.Model.Domain
import Verif.Model.Encode
import Verif.Model.Env
import Verif.Model.Examples
import Verif.Model.Format
import Verif.Model.Header
import Verif.Model.KeyFile
import Verif.Model.Machine
import Verif.Model.Messages
import Verif.Model.Reading
import Verif.Model.Record
import Verif.Model.ResolverAdapter
import Verif.Model.Selecting
import Verif.Model.Sharing
import Verif.Model.Signature
import Verif.Model.Signer
import Verif.Model.Slices
import Verif.Model.TagList
import Verif.Model.Verifier
import Verif.Model.Waiting
import Verif.Model.Work
import Verif.Spec.BodyHash
import Verif.Spec.Canon
import Verif.Spec.Debug
import Verif.Spec.Domain
import Verif.Spec.Encode
import Verif.Spec.Errors
import Verif.Spec.Flow
import Verif.Spec.Header
import Verif.Spec.KeyFile
import Verif.Spec.Laws
import Verif.Spec.Lines
import Verif.Spec.Memory
import Verif.Spec.Policy
import Verif.Spec.Reasons
import Verif.Spec.Record
import Verif.Spec.Refold
import Verif.Spec.Relay
import Verif.Spec.Rfc
import Verif.Spec.Rfc5322
import Verif.Spec.Rfc8616
import Verif.Spec.Rfc8616Valid
import Verif.Spec.RfcFolding
import Verif.Spec.RfcValid
import Verif.Spec.Selecting
import Verif.Spec.Sharing
import Verif.Spec.Signature
import Verif.Spec.Signer
import Verif.Spec.Size
import Verif.Spec.Strip
import Verif.Spec.TagList
import Verif.Spec.Verifier
import Verif.Spec.Work
import Verif.Spec.Written
import Verif.Proofs.Appended
import Verif.Proofs.Asserts
import Verif.Proofs.AssertsRun
import Verif.Proofs.Base64
import Verif.Proofs.BodyCanon
import Verif.Proofs.BodyHash
import Verif.Proofs.Copied
import Verif.Proofs.Domain
import Verif.Proofs.Errors
import Verif.Proofs.Examples
import Verif.Proofs.FieldText
import Verif.Proofs.Flow
import Verif.Proofs.Format
import Verif.Proofs.FormatOut
import Verif.Proofs.FormatText
import Verif.Proofs.Fws
import Verif.Proofs.HeaderBlock
import Verif.Proofs.HeaderCanon
import Verif.Proofs.HeaderText
import Verif.Proofs.Instances
import Verif.Proofs.Layout
import Verif.Proofs.LineBound
import Verif.Proofs.LineWidth
import Verif.Proofs.Machine
import Verif.Proofs.Memory
import Verif.Proofs.Qp
import Verif.Proofs.QpExact
import Verif.Proofs.Reading
import Verif.Proofs.Record
import Verif.Proofs.RecordFold
import Verif.Proofs.Refold
import Verif.Proofs.Relay
import Verif.Proofs.RelayHeaders
import Verif.Proofs.Relayed
import Verif.Proofs.Reread
import Verif.Proofs.Rfc
import Verif.Proofs.Rfc5322
import Verif.Proofs.Rfc8616
import Verif.Proofs.RfcFolding
import Verif.Proofs.RfcProduced
import Verif.Proofs.RfcRecord
import Verif.Proofs.RfcRecordWritten
import Verif.Proofs.RfcWritten
import Verif.Proofs.RoundTrip
import Verif.Proofs.Selecting
import Verif.Proofs.SelectingSigner
import Verif.Proofs.SelectingText
import Verif.Proofs.Sharing
import Verif.Proofs.Sign
import Verif.Proofs.SignRequest
import Verif.Proofs.Signature
import Verif.Proofs.Size
import Verif.Proofs.Slices
import Verif.Proofs.Strip
import Verif.Proofs.TagList
import Verif.Proofs.Tamper
import Verif.Proofs.TestEnv
import Verif.Proofs.Utf8
import Verif.Proofs.Values
import Verif.Proofs.Verifier
import Verif.Proofs.VerifierRun
import Verif.Proofs.Work
import Verif.Proofs.Written
import Verif.Props.Appended
import Verif.Props.Asserts
import Verif.Props.Authentic
import Verif.Props.AutoSigned
import Verif.Props.Body
import Verif.Props.Changing
import Verif.Props.Counters
import Verif.Props.Debug
import Verif.Props.Defaults
import Verif.Props.Domain
import Verif.Props.Encode
import Verif.Props.EndToEnd
import Verif.Props.EndToEndExact
import Verif.Props.EndToEndIff
import Verif.Props.Errors
import Verif.Props.Examples
import Verif.Props.Flow
import Verif.Props.Header
import Verif.Props.HeaderCanon
import Verif.Props.Hops
import Verif.Props.KeyFile
import Verif.Props.LineWidth
import Verif.Props.MapOrder
import Verif.Props.Memory
import Verif.Props.Messages
import Verif.Props.Monotone
import Verif.Props.MonotoneCases
import Verif.Props.NameCases
import Verif.Props.OutputField
import Verif.Props.OutputText
import Verif.Props.OwnContent
import Verif.Props.Policy
import Verif.Props.QpGrammar
import Verif.Props.QueryNames
import Verif.Props.Reading
import Verif.Props.Reasons
import Verif.Props.Record
import Verif.Props.RecordFold
import Verif.Props.RecordText
import Verif.Props.Refold
import Verif.Props.Relay
import Verif.Props.Reported
import Verif.Props.Reread
import Verif.Props.RereadCases
import Verif.Props.ResolverAdapter
import Verif.Props.Results
import Verif.Props.Rfc
import Verif.Props.Rfc5322
import Verif.Props.Rfc8616
import Verif.Props.Rfc8616Valid
import Verif.Props.RfcBody
import Verif.Props.RfcFolding
import Verif.Props.RfcRecord
import Verif.Props.RfcSigned
import Verif.Props.RfcValid
import Verif.Props.RfcWritten
import Verif.Props.Selecting
import Verif.Props.SelectingSigner
import Verif.Props.SelectingText
import Verif.Props.Sharing
import Verif.Props.SignCanonical
import Verif.Props.Signature
import Verif.Props.Signer
import Verif.Props.SignerRuns
import Verif.Props.SignerTogether
import Verif.Props.Size
import Verif.Props.Slices
import Verif.Props.Strip
import Verif.Props.Success
import Verif.Props.TagList
import Verif.Props.TagListExact
import Verif.Props.Tamper
import Verif.Props.TogetherExact
import Verif.Props.Verifier
import Verif.Props.VerifierCases
import Verif.Props.VerifierIndependence
import Verif.Props.VerifierPolicy
import Verif.Props.Waiting
import Verif.Props.Work
import Verif.Props.WorkDone
import Verif.Props.Written
import Verif.Tests.Crypto
import Verif.Tests.Integration
import Verif.Tests.Keys
import Verif.Tests.Unit
