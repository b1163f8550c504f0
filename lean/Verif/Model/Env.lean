import Verif.Model.Crypto
import Verif.Model.Format

/-!
# The environment of the library

Everything the signer and the verifier use from other crates, from the standard
library or from the platform, as one parameter. Nothing is assumed of it here;
laws are stated as hypotheses (`Verif/Spec/Laws.lean`) where they are needed.
-/

namespace Dkim

/-- A lookup of the key records for an (ASCII) domain and selector, with the indexes
of the signatures that need them (verifier/query.rs:33). -/
abbrev Lookup := (Str × Str) × List Nat

structure Env where
  /-- Crate `idna`. -/
  idna : Idna
  /-- Crates `rsa` and `ed25519-dalek`. -/
  crypto : Crypto
  /-- Crates `sha2` and `sha1`. -/
  hash : HashFn
  /-- `slice::sort_by`. -/
  sortBy : Comparator → List Str → List Str
  /-- The members of the `HashSet` of body hasher keys that results from insertion of
  a list of keys, in iteration order. -/
  keySet : List BodyHasherKey → List BodyHasherKey
  /-- The entries of the `HashMap` of lookups in iteration order. -/
  lookupOrder : List Lookup → List Lookup
  /-- `String::from_utf8_lossy`. -/
  lossy : Bytes → Str
  /-- `usize::MAX`. -/
  usizeMax : Nat
  /-- Cargo feature `pre-rfc8301`. -/
  pre : Bool

/-- `usize::try_from(u64)`. -/
def Env.toUsize (E : Env) (n : Nat) : Option Nat := if n ≤ E.usizeMax then some n else none

/-- `u64::try_from(usize)`. -/
def toU64 (n : Nat) : Option Nat := if n ≤ u64Max then some n else none

end Dkim
