import Verif.Spec.Verifier

/-!
# Specification for C109: the settings of the verification policy
-/

namespace Dkim.Spec

/-- The setting that leads to a policy error is turned off (verifier/mod.rs:277-317 names the
setting for each error). -/
def TurnedOff (cfg : Config) : PolicyError → Prop
  | .requiredHeaderNotSigned => cfg.headersRequired = []
  | .unsignedHeaderOccurrence => cfg.headersForbiddenUnsigned = []
  | .unsignedContent => cfg.forbidUnsignedContent = false
  | .signatureExpired => cfg.allowExpired = true
  | .timestampInFuture => cfg.allowTimestampInFuture = true
  | .sha1HashAlgorithm => cfg.allowSha1 = true
  | .keyTooSmall => cfg.minKeyBits = 0

end Dkim.Spec
