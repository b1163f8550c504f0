import Verif.Spec.Rfc
import Verif.Spec.Verifier

/-!
# Specification: which signatures are valid according to RFC 6376

Sections 3.7 and 6.1 of RFC 6376. Nothing that a verifier may decide by its own policy is part of
this.
-/

namespace Dkim.Spec.Rfc

/-- Section 6.1.2: the key record can be used for a signature on mail. -/
structure KeyFits (s : DkimSignature) (r : KeyRecord) : Prop where
  keyType : r.keyType = keyTypeOf s.algorithm
  hashAlgorithm : hashOf s.algorithm ∈ r.hashAlgorithms
  notRevoked : r.keyData ≠ []
  serviceType : .any ∈ r.serviceTypes ∨ .email ∈ r.serviceTypes
  noSubdomains : .noSubdomains ∈ r.flags → ∀ i, s.identity = some i → lower i.domain = lower s.domain

/-- Section 3.7: the part of the canonical body that is hashed. -/
def hashedBody (s : DkimSignature) (body : Bytes) : Bytes :=
  match s.bodyLength with
  | none => rfcBody s.canonicalization.body body
  | some n => (rfcBody s.canonicalization.body body).take n

/-- Header field `f` with text `value` has signature `s`, which is valid for the message, with the
public key `key` in the key record `r`, whose text `txt` is among the answers `txts` from the DNS. -/
structure Valid (E : Env) (resolver : Resolver) (headers : List Field) (body : Bytes) (f : Field) (value : Str)
    (s : DkimSignature) (txts : List (Except IoErr Bytes)) (txt : Str) (r : KeyRecord) (key : VerifyingKey E.crypto) :
    Prop where
  /-- Section 3.5: the text is a signature. -/
  text : f.body = utf8 value
  signature : ∃ tags, RfcListText tags value ∧ (tags.map (·.1)).Nodup ∧ Signature E.pre tags s
  /-- Section 3.6.2: the key record is found under this name; DNS names have no letter case. -/
  answer : (resolver (lower s.selector ++ c!"._domainkey." ++ lower s.domain ++ c!".")).result = .ok txts
  found : .ok (utf8 txt) ∈ txts
  /-- Section 3.6.1: the text is a key record. -/
  record : ∃ tags, RfcListText tags txt ∧ (tags.map (·.1)).Nodup ∧ Record E.lossy E.pre tags r
  fits : KeyFits s r
  keyRead : publicKey E.crypto r.keyType r.keyData = some key
  /-- Section 3.7: the signature is one of the header, -/
  verified : ∃ original, WithoutB value original ∧ verifyWith key (hashOf s.algorithm)
    (E.hash (hashOf s.algorithm)
      (headerHashInput s.canonicalization.header headers s.signedHeaders f.name original)) s.signatureData = true
  /-- and the body hash is that of the body. -/
  bodyLength : ∀ n, s.bodyLength = some n → n ≤ (rfcBody s.canonicalization.body body).length
  bodyHash : E.hash (hashOf s.algorithm) (hashedBody s body) = s.bodyHash

end Dkim.Spec.Rfc
