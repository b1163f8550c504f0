import Verif.Spec.Rfc8616
import Verif.Spec.RfcValid

/-!
# Specification: which signatures are valid according to RFC 6376 and RFC 8616

As `Verif.Spec.RfcValid`, where domain names with U-labels are looked up and compared with A-labels
in their place (RFC 8616, section 3).
-/

namespace Dkim.Spec.Rfc8616

/-- RFC 6376, section 6.1.2: the key record can be used for a signature on mail. -/
structure KeyFits (ix : Idna) (s : DkimSignature) (r : KeyRecord) : Prop where
  keyType : r.keyType = keyTypeOf s.algorithm
  hashAlgorithm : hashOf s.algorithm ∈ r.hashAlgorithms
  notRevoked : r.keyData ≠ []
  serviceType : .any ∈ r.serviceTypes ∨ .email ∈ r.serviceTypes
  noSubdomains : .noSubdomains ∈ r.flags → ∀ i, s.identity = some i → ix.toAscii i.domain = ix.toAscii s.domain

/-- Header field `f` with text `value` has signature `s`, which is valid for the message, with the
public key `key` in the key record `r`, whose text `txt` is among the answers `txts` from the DNS for
domain `d` and selector `sel`. -/
structure Valid (E : Env) (resolver : Resolver) (headers : List Field) (body : Bytes) (f : Field) (value : Str)
    (s : DkimSignature) (d sel : Str) (txts : List (Except IoErr Bytes)) (txt : Str) (r : KeyRecord)
    (key : VerifyingKey E.crypto) : Prop where
  text : f.body = utf8 value
  signature : ∃ tags, RfcListText tags value ∧ (tags.map (·.1)).Nodup ∧ Signature E.idna E.pre tags s
  /-- The names that are looked up have A-labels. -/
  domainForm : E.idna.toAscii s.domain = some d
  selectorForm : E.idna.toAscii s.selector = some sel
  answer : (resolver (sel ++ c!"._domainkey." ++ d ++ c!".")).result = .ok txts
  found : .ok (utf8 txt) ∈ txts
  record : ∃ tags, RfcListText tags txt ∧ (tags.map (·.1)).Nodup ∧ Rfc.Record E.lossy E.pre tags r
  fits : KeyFits E.idna s r
  keyRead : publicKey E.crypto r.keyType r.keyData = some key
  /-- The header is hashed with the names as they are written. -/
  verified : ∃ original, WithoutB value original ∧ verifyWith key (hashOf s.algorithm)
    (E.hash (hashOf s.algorithm)
      (headerHashInput s.canonicalization.header headers s.signedHeaders f.name original)) s.signatureData = true
  bodyLength : ∀ n, s.bodyLength = some n → n ≤ (rfcBody s.canonicalization.body body).length
  bodyHash : E.hash (hashOf s.algorithm) (Rfc.hashedBody s body) = s.bodyHash

end Dkim.Spec.Rfc8616
