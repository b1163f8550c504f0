import Verif.Model.Messages

/-!
# Property C84: messages and result names identify what they stand for
-/

namespace Dkim

/-- From distinct images of a list of all values to injectivity. -/
theorem injective_of_nodup {α β : Type} (f : α → β) (all : List α) (hall : ∀ a, a ∈ all) (h : (all.map f).Nodup)
    {a b : α} (e : f a = f b) : a = b := by
  have key : ∀ l : List α, (l.map f).Nodup → a ∈ l → b ∈ l → a = b := by
    intro l
    induction l with
    | nil => intro _ ha; simp at ha
    | cons x l ih =>
      intro hn ha hb
      rw [List.map_cons, List.nodup_cons] at hn
      rcases List.mem_cons.1 ha with ea | ha' <;> rcases List.mem_cons.1 hb with eb | hb'
      · rw [ea, eb]
      · exact absurd (ea ▸ e ▸ List.mem_map_of_mem hb') hn.1
      · exact absurd (eb ▸ e ▸ List.mem_map_of_mem ha') hn.1
      · exact ih hn.2 ha' hb'
  exact key all h (hall a) (hall b)

def SigErrorKind.list : List SigErrorKind :=
  [.utf8Encoding, .tagListFormat, .incompatibleVersion, .historicAlgorithm, .unsupportedAlgorithm, .invalidBase64,
   .emptySignatureTag, .emptyBodyHashTag, .unsupportedCanonicalization, .invalidDomain, .invalidSignedHeaderName,
   .emptySignedHeadersTag, .fromHeaderNotSigned, .invalidIdentity, .invalidBodyLength, .invalidQueryMethod,
   .noSupportedQueryMethods, .invalidSelector, .invalidTimestamp, .invalidExpiration, .invalidCopiedHeaderField,
   .missingVersionTag, .missingAlgorithmTag, .missingSignatureTag, .missingBodyHashTag, .missingDomainTag,
   .missingSignedHeadersTag, .missingSelectorTag, .domainMismatch, .expirationNotAfterTimestamp]

theorem SigErrorKind.message_inj {a b : SigErrorKind} (h : a.message = b.message) : a = b :=
  injective_of_nodup _ SigErrorKind.list (by intro a; cases a <;> decide) (by decide) h

theorem RecordError.message_inj {a b : RecordError} (h : a.message = b.message) : a = b :=
  injective_of_nodup _ [.recordFormat, .tagListFormat, .misplacedVersionTag, .incompatibleVersion,
    .invalidHashAlgorithm, .noSupportedHashAlgorithms, .unsupportedKeyType, .invalidQuotedPrintable,
    .invalidBase64, .invalidServiceType, .noSupportedServiceTypes, .invalidFlag, .missingKeyTag]
    (by intro a; cases a <;> decide) (by decide) h

theorem CryptoError.message_inj {a b : CryptoError} (h : a.message = b.message) : a = b :=
  injective_of_nodup _ [.invalidKey, .insufficientKeySize, .verificationFailure]
    (by intro a; cases a <;> decide) (by decide) h

theorem PolicyError.message_inj {a b : PolicyError} (h : a.message = b.message) : a = b :=
  injective_of_nodup _ [.requiredHeaderNotSigned, .unsignedHeaderOccurrence, .unsignedContent, .signatureExpired,
    .timestampInFuture, .sha1HashAlgorithm, .keyTooSmall]
    (by intro a; cases a <;> decide) (by decide) h

/-- The error without what was salvaged from an unusable signature. -/
def Spec.cause : VerificationError → VerificationError
  | .dkimSignatureFormat e => .dkimSignatureFormat ⟨e.kind, none, none, none, none, none⟩
  | e => e

/-- C84: the message of an error and the message of its source say exactly what the
cause is: they are the same for two errors exactly if these are the same apart from the
raw tags that were salvaged. -/
theorem C84_verification (a b : VerificationError) :
    (a.message = b.message ∧ a.sourceMessage = b.sourceMessage) ↔ Spec.cause a = Spec.cause b := by
  constructor
  · rintro ⟨h1, h2⟩
    cases a <;> cases b <;>
      first
      | rfl
      | exact absurd h1 (by simp only [VerificationError.message]; decide)
      | (simp only [VerificationError.sourceMessage, SigError.message, Option.some.injEq] at h2
         first
         | rw [RecordError.message_inj h2]
         | rw [CryptoError.message_inj h2]
         | rw [PolicyError.message_inj h2]
         | (simp only [Spec.cause]; rw [SigErrorKind.message_inj h2]))
  · intro h
    have key : ∀ e : VerificationError, (Spec.cause e).message = e.message ∧
        (Spec.cause e).sourceMessage = e.sourceMessage := by
      intro e; cases e <;> exact ⟨rfl, rfl⟩
    rw [← (key a).1, ← (key a).2, h, (key b).1, (key b).2]
    exact ⟨rfl, rfl⟩

/-- C84: the message alone does not: all policy errors have the same message. -/
theorem C84_source_needed : (VerificationError.policy .signatureExpired).message =
    (VerificationError.policy .keyTooSmall).message := rfl

/-- C84: errors of a signing request, of signing and of reading a key file are
identified by their message. -/
theorem C84_signing :
    (∀ a b : RequestError, a.message = b.message → a = b) ∧
    (∀ a b : SigningError, a.message = b.message → a = b) ∧
    (∀ a b : KeyFileError, a.message = b.message → a = b) := by
  refine ⟨fun a b h => ?_, fun a b h => ?_, fun a b h => ?_⟩
  · exact injective_of_nodup _ [.overflow, .missingFromHeader, .tooManyRequests, .emptyRequests,
      .incompatibleKeyType, .fromHeaderNotSigned, .invalidSignedFieldName, .domainMismatch,
      .zeroExpirationDuration, .invalidExtTags, .invalidDkimSignatureHeaderName, .invalidIndentationWhitespace]
      (by intro a; cases a <;> decide) (by decide) h
  · exact injective_of_nodup _ [.overflow, .insufficientContent, .signingFailure]
      (by intro a; cases a <;> decide) (by decide) h
  · exact injective_of_nodup _ [.invalidPemDocument, .notAPrivateKeyInfoDocument, .invalidKeyData,
      .unsupportedKeyType] (by intro a; cases a <;> decide) (by decide) h

/-- RFC 8601, section 2.7.1: the results of DKIM and their names. -/
def Spec.rfc8601Names : List (DkimResult × Str) :=
  [(.none, c!"none"), (.pass, c!"pass"), (.fail, c!"fail"), (.policy, c!"policy"), (.neutral, c!"neutral"),
   (.temperror, c!"temperror"), (.permerror, c!"permerror")]

/-- C84: the names of results are those of RFC 8601, and different. -/
theorem C84_results :
    (∀ r n, r.canonicalStr = n ↔ (r, n) ∈ Spec.rfc8601Names) ∧
    (∀ a b : DkimResult, a.canonicalStr = b.canonicalStr → a = b) := by
  refine ⟨fun r n => ⟨fun h => ?_, fun h => ?_⟩, fun a b h => ?_⟩
  · subst h; cases r <;> decide
  · simp only [Spec.rfc8601Names, List.mem_cons, List.not_mem_nil, or_false, Prod.mk.injEq] at h
    rcases h with ⟨rfl, rfl⟩ | ⟨rfl, rfl⟩ | ⟨rfl, rfl⟩ | ⟨rfl, rfl⟩ | ⟨rfl, rfl⟩ | ⟨rfl, rfl⟩ | ⟨rfl, rfl⟩ <;> rfl
  · exact injective_of_nodup _ [.none, .pass, .fail, .policy, .neutral, .temperror, .permerror]
      (by intro a; cases a <;> decide) (by decide) h

end Dkim
