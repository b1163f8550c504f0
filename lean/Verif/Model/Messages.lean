import Verif.Model.Verifier
import Verif.Model.Signer
import Verif.Model.KeyFile

/-!
# Messages and names

The texts that the `Display` implementations of the error types and of `DkimResult` print.
-/

namespace Dkim

/-- signature.rs:741-775: the message of a `DkimSignatureErrorKind`. -/
def SigErrorKind.message : SigErrorKind → Str
  | .utf8Encoding => c!"signature not UTF-8 encoded"
  | .tagListFormat => c!"ill-formed tag list"
  | .incompatibleVersion => c!"incompatible version"
  | .historicAlgorithm => c!"historic signature algorithm"
  | .unsupportedAlgorithm => c!"unsupported signature algorithm"
  | .invalidBase64 => c!"invalid Base64 string"
  | .emptySignatureTag => c!"b= tag empty"
  | .emptyBodyHashTag => c!"bh= tag empty"
  | .unsupportedCanonicalization => c!"unsupported canonicalization"
  | .invalidDomain => c!"invalid signing domain"
  | .invalidSignedHeaderName => c!"invalid signed header name"
  | .emptySignedHeadersTag => c!"h= tag empty"
  | .fromHeaderNotSigned => c!"From header not signed"
  | .invalidIdentity => c!"invalid signing identity"
  | .invalidBodyLength => c!"invalid body length"
  | .invalidQueryMethod => c!"invalid query method"
  | .noSupportedQueryMethods => c!"no supported query methods"
  | .invalidSelector => c!"invalid selector"
  | .invalidTimestamp => c!"invalid timestamp"
  | .invalidExpiration => c!"invalid expiration"
  | .invalidCopiedHeaderField => c!"invalid header field in z= tag"
  | .missingVersionTag => c!"v= tag missing"
  | .missingAlgorithmTag => c!"a= tag missing"
  | .missingSignatureTag => c!"b= tag missing"
  | .missingBodyHashTag => c!"bh= tag missing"
  | .missingDomainTag => c!"d= tag missing"
  | .missingSignedHeadersTag => c!"h= tag missing"
  | .missingSelectorTag => c!"s= tag missing"
  | .domainMismatch => c!"domain mismatch"
  | .expirationNotAfterTimestamp => c!"expiration not after timestamp"

/-- record.rs:112-129: the message of a `DkimKeyRecordError`. -/
def RecordError.message : RecordError → Str
  | .recordFormat => c!"ill-formed key record"
  | .tagListFormat => c!"ill-formed tag list"
  | .misplacedVersionTag => c!"v= tag not initial"
  | .incompatibleVersion => c!"incompatible version"
  | .invalidHashAlgorithm => c!"invalid hash algorithm"
  | .noSupportedHashAlgorithms => c!"no supported hash algorithms"
  | .unsupportedKeyType => c!"unsupported key type"
  | .invalidQuotedPrintable => c!"invalid Quoted-Printable string"
  | .invalidBase64 => c!"invalid Base64 string"
  | .invalidServiceType => c!"invalid service type"
  | .noSupportedServiceTypes => c!"no supported service types"
  | .invalidFlag => c!"invalid flag"
  | .missingKeyTag => c!"p= tag missing"

/-- crypto/mod.rs:326-333: the message of a `VerificationError`. -/
def CryptoError.message : CryptoError → Str
  | .invalidKey => c!"invalid key data"
  | .insufficientKeySize => c!"key too small"
  | .verificationFailure => c!"signature did not verify"

/-- verifier/mod.rs:319-330: the message of a `PolicyError`. -/
def PolicyError.message : PolicyError → Str
  | .requiredHeaderNotSigned => c!"required header not signed"
  | .unsignedHeaderOccurrence => c!"unsigned occurrence of signed header"
  | .unsignedContent => c!"unsigned content in message body"
  | .signatureExpired => c!"signature expired"
  | .timestampInFuture => c!"timestamp in future"
  | .sha1HashAlgorithm => c!"SHA-1 hash algorithm not acceptable"
  | .keyTooSmall => c!"public key too small"

/-- verifier/mod.rs:355-374: the message of a `VerificationError`. -/
def VerificationError.message : VerificationError → Str
  | .dkimSignatureFormat _ => c!"unusable DKIM signature header"
  | .overflow => c!"integer too large"
  | .noKeyFound => c!"no key record found"
  | .invalidKeyDomain => c!"invalid key record domain name"
  | .timeout => c!"key record lookup timed out"
  | .keyLookup => c!"key record lookup failed"
  | .keyRecordFormat _ => c!"unusable public key record"
  | .wrongKeyType => c!"wrong key type in key record"
  | .keyRevoked => c!"key revoked"
  | .disallowedHashAlgorithm => c!"hash algorithm disallowed in key record"
  | .domainMismatch => c!"domain mismatch"
  | .verificationFailure _ => c!"signature verification failed"
  | .insufficientContent => c!"not enough message body content"
  | .bodyHashMismatch => c!"body hash did not verify"
  | .policy _ => c!"local policy violation"

/-- signature.rs:698-702: the message of a `DkimSignatureError`. -/
def SigError.message (e : SigError) : Str := e.kind.message

/-- verifier/mod.rs:377-396 `source`, as the message of the source. -/
def VerificationError.sourceMessage : VerificationError → Option Str
  | .overflow | .noKeyFound | .invalidKeyDomain | .timeout | .keyLookup | .wrongKeyType | .keyRevoked
  | .disallowedHashAlgorithm | .domainMismatch | .insufficientContent | .bodyHashMismatch => none
  | .dkimSignatureFormat e => some e.message
  | .keyRecordFormat e => some e.message
  | .verificationFailure e => some e.message
  | .policy e => some e.message

/-- signer/mod.rs:173-189: the message of a `RequestError`. -/
def RequestError.message : RequestError → Str
  | .overflow => c!"integer too large"
  | .missingFromHeader => c!"no From header"
  | .tooManyRequests => c!"too many sign requests"
  | .emptyRequests => c!"no sign requests"
  | .incompatibleKeyType => c!"incompatible key type"
  | .fromHeaderNotSigned => c!"From header not signed"
  | .invalidSignedFieldName => c!"invalid signed header name"
  | .domainMismatch => c!"domain mismatch"
  | .zeroExpirationDuration => c!"zero expiration duration"
  | .invalidExtTags => c!"invalid extension tags"
  | .invalidDkimSignatureHeaderName => c!"invalid DKIM-Signature header name"
  | .invalidIndentationWhitespace => c!"invalid indentation whitespace"

/-- signer/mod.rs:386-393: the message of a `SigningError`. -/
def SigningError.message : SigningError → Str
  | .overflow => c!"integer too large"
  | .insufficientContent => c!"not enough message body content"
  | .signingFailure => c!"signing failed"

/-- crypto/mod.rs:180-188: the message of a `DecodeSigningKeyError`. -/
def KeyFileError.message : KeyFileError → Str
  | .invalidPemDocument => c!"invalid PEM document"
  | .notAPrivateKeyInfoDocument => c!"not a PKCS#8 PrivateKeyInfo document"
  | .invalidKeyData => c!"invalid private key data"
  | .unsupportedKeyType => c!"unsupported key type"

/-- verifier/mod.rs:464-482: the name of a `DkimResult`. -/
def DkimResult.canonicalStr : DkimResult → Str
  | .none => c!"none"
  | .pass => c!"pass"
  | .fail => c!"fail"
  | .policy => c!"policy"
  | .neutral => c!"neutral"
  | .temperror => c!"temperror"
  | .permerror => c!"permerror"

end Dkim
