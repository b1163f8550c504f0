import Verif.Model.Canon

/-!
# Body hashing

Model of `/repo/src/crypto/hash.rs` (`CountingHasher`) and the body hasher of
`/repo/src/message_hash.rs`.

The hash function itself (crates `sha2`, `sha1`) is the parameter `hash`; an
incremental digest object is represented by the bytes it has absorbed.
-/

namespace Dkim

/-- crypto/mod.rs:131-137 `HashAlgorithm`. `sha1` exists only with feature
`pre-rfc8301`; the places that may construct it are guarded by the feature flag
of the model. -/
inductive HashAlg
  | sha256
  | sha1
deriving DecidableEq, Repr

/-- Abbreviation for the family of hash functions. -/
abbrev HashFn := HashAlg → Bytes → Bytes

/-- crypto/hash.rs:57-62 `HashStatus`. -/
inductive HashStatus
  | allConsumed
  | truncated
deriving DecidableEq, Repr

/-- crypto/hash.rs:65-69 `CountingHasher`; `absorbed` stands for the state of the
boxed digest. -/
structure CountingHasher where
  alg : HashAlg
  absorbed : Bytes
  length : Option Nat
  bytesWritten : Nat
deriving DecidableEq, Repr

/-- crypto/hash.rs:72-84. -/
def CountingHasher.new (alg : HashAlg) (length : Option Nat) : CountingHasher :=
  { alg, absorbed := [], length, bytesWritten := 0 }

/-- crypto/hash.rs:86-110 `update`; `none` is the failing `assert!` of line 89. -/
def CountingHasher.update (h : CountingHasher) (bytes : Bytes) :
    Option (CountingHasher × HashStatus) :=
  match h.length with
  | some len =>
    if len ≥ h.bytesWritten then
      let left := len - h.bytesWritten
      if left ≥ bytes.length then
        some ({ h with absorbed := h.absorbed ++ bytes,
                       bytesWritten := h.bytesWritten + bytes.length }, .allConsumed)
      else
        let part := bytes.take left
        some ({ h with absorbed := h.absorbed ++ part,
                       bytesWritten := h.bytesWritten + part.length }, .truncated)
    else none
  | none =>
    some ({ h with absorbed := h.absorbed ++ bytes,
                   bytesWritten := h.bytesWritten + bytes.length }, .allConsumed)

/-- crypto/hash.rs:122-124 `is_done`. -/
def CountingHasher.isDone (h : CountingHasher) : Bool :=
  match h.length with
  | some len => len == h.bytesWritten
  | none => false

/-- crypto/hash.rs:112-120 `finish`; `none` is `Err(InsufficientInput)`. -/
def CountingHasher.finish (hash : HashFn) (h : CountingHasher) : Option (Bytes × Nat) :=
  if h.length.isSome && !h.isDone then none
  else some (hash h.alg h.absorbed, h.bytesWritten)

/-- message_hash.rs:76 `BodyHasherKey`. -/
abbrev BodyHasherKey := Option Nat × HashAlg × CanonAlg

/-- message_hash.rs:58-73 `BodyHasherStance`. -/
inductive Stance
  | interested
  | done
deriving DecidableEq, Repr

/-- message_hash.rs:221-226 `BodyHashError`. -/
inductive BodyHashError
  | insufficientInput
  | inputTruncated
deriving DecidableEq, Repr

/-- message_hash.rs:240 `BodyHashResult`. -/
abbrev BodyHashResult := Except BodyHashError (Bytes × Nat)

/-- message_hash.rs:131-138 `BodyHasher`. The hash map is a list of entries with
distinct keys, in the (arbitrary) iteration order of the map. -/
structure BodyHasher where
  failOnTruncate : Bool
  hashers : List (BodyHasherKey × CountingHasher × Bool)
  canonSimple : BodyCanon
  canonRelaxed : BodyCanon
deriving DecidableEq, Repr

/-- message_hash.rs:111-124 `BodyHasherBuilder::build`; the argument is the set
of registered keys (message_hash.rs:102-109), in iteration order. -/
def BodyHasher.build (failOnTruncate : Bool) (keys : List BodyHasherKey) : BodyHasher :=
  { failOnTruncate
    hashers := keys.map fun key => (key, CountingHasher.new key.2.1 key.1, false)
    canonSimple := BodyCanon.new .simple
    canonRelaxed := BodyCanon.new .relaxed }

/-- message_hash.rs:147-149 (and 187): the hasher still takes part. -/
def hasherActive (failOnTruncate : Bool) (h : CountingHasher) (truncated : Bool) : Bool :=
  !h.isDone || (failOnTruncate && !truncated)

/-- The variables of `hash_chunk` that change during its loop: the two
canonicalizers, the two lazily computed canonicalized chunks, and `all_done`. -/
structure ChunkLoop where
  canonSimple : BodyCanon
  canonRelaxed : BodyCanon
  chunkSimple : Option Bytes
  chunkRelaxed : Option Bytes
  allDone : Bool
deriving DecidableEq, Repr

/-- message_hash.rs:152-157: `get_or_insert_with(canonicalize_chunk)`; `none` is a
panic. -/
def ChunkLoop.get (st : ChunkLoop) (canon : CanonAlg) (chunk : Bytes) :
    Option (ChunkLoop × Bytes) :=
  match canon with
  | .simple =>
    match st.chunkSimple with
    | some out => some (st, out)
    | none =>
      match st.canonSimple.chunk chunk with
      | none => none
      | some (c, out) => some ({ st with canonSimple := c, chunkSimple := some out }, out)
  | .relaxed =>
    match st.chunkRelaxed with
    | some out => some (st, out)
    | none =>
      match st.canonRelaxed.chunk chunk with
      | none => none
      | some (c, out) => some ({ st with canonRelaxed := c, chunkRelaxed := some out }, out)

/-- message_hash.rs:151-169: the loop over the active hashers. -/
def hashChunkLoop (failOnTruncate : Bool) (chunk : Bytes) :
    ChunkLoop → List (BodyHasherKey × CountingHasher × Bool) →
    Option (ChunkLoop × List (BodyHasherKey × CountingHasher × Bool))
  | st, [] => some (st, [])
  | st, (key, h, truncated) :: rest =>
    if hasherActive failOnTruncate h truncated then
      match st.get key.2.2 chunk with
      | none => none
      | some (st, out) =>
        match h.update out with
        | none => none
        | some (h, .allConsumed) =>
          let st := if failOnTruncate || !h.isDone then { st with allDone := false } else st
          match hashChunkLoop failOnTruncate chunk st rest with
          | none => none
          | some (st, rest) => some (st, (key, h, truncated) :: rest)
        | some (h, .truncated) =>
          match hashChunkLoop failOnTruncate chunk st rest with
          | none => none
          | some (st, rest) => some (st, (key, h, true) :: rest)
    else
      match hashChunkLoop failOnTruncate chunk st rest with
      | none => none
      | some (st, rest) => some (st, (key, h, truncated) :: rest)

/-- message_hash.rs:141-176 `hash_chunk`; `none` is a panic. -/
def BodyHasher.hashChunk (bh : BodyHasher) (chunk : Bytes) : Option (BodyHasher × Stance) :=
  match hashChunkLoop bh.failOnTruncate chunk
      { canonSimple := bh.canonSimple, canonRelaxed := bh.canonRelaxed,
        chunkSimple := none, chunkRelaxed := none, allDone := true } bh.hashers with
  | none => none
  | some (st, hashers) =>
    some ({ bh with hashers, canonSimple := st.canonSimple, canonRelaxed := st.canonRelaxed },
      if st.allDone then .done else .interested)

/-- message_hash.rs:188-201: the final bytes of the canonicalizer of a kind. -/
def BodyHasher.finishCanon (bh : BodyHasher) (canon : CanonAlg) : Option Bytes :=
  match canon with
  | .simple => bh.canonSimple.finish
  | .relaxed => bh.canonRelaxed.finish

/-- The body of the loop message_hash.rs:186-215 for one entry; `none` is a panic.
`finish` of a canonicalizer is a pure function of its state, so calling it once
and sharing the bytes (lines 188-201) is modelled by recomputing it (see `C114_same`). -/
def BodyHasher.finishOne (hash : HashFn) (bh : BodyHasher)
    (e : BodyHasherKey × CountingHasher × Bool) : Option BodyHashResult :=
  let (key, h, truncated) := e
  let step : Option (CountingHasher × Bool) :=
    if hasherActive bh.failOnTruncate h truncated then
      match bh.finishCanon key.2.2 with
      | none => none
      | some out =>
        match h.update out with
        | none => none
        | some (h, .truncated) => some (h, true)
        | some (h, .allConsumed) => some (h, truncated)
    else some (h, truncated)
  match step with
  | none => none
  | some (h, truncated) =>
    if bh.failOnTruncate && truncated then some (.error .inputTruncated)
    else
      match h.finish hash with
      | none => some (.error .insufficientInput)
      | some r => some (.ok r)

/-- message_hash.rs:242-246 `BodyHashResults`. -/
abbrev BodyHashResults := List (BodyHasherKey × BodyHashResult)

/-- message_hash.rs:178-218 `finish`; `none` is a panic. -/
def BodyHasher.finishLoop (hash : HashFn) (bh : BodyHasher) :
    List (BodyHasherKey × CountingHasher × Bool) → Option BodyHashResults
  | [] => some []
  | e :: es =>
    match bh.finishOne hash e with
    | none => none
    | some r =>
      match BodyHasher.finishLoop hash bh es with
      | none => none
      | some rs => some ((e.1, r) :: rs)

def BodyHasher.finish (hash : HashFn) (bh : BodyHasher) : Option BodyHashResults :=
  bh.finishLoop hash bh.hashers

/-- message_hash.rs:248-252 `BodyHashResults::get`. -/
def BodyHashResults.get (rs : BodyHashResults) (key : BodyHasherKey) : Option BodyHashResult :=
  match rs with
  | [] => none
  | (k, r) :: rest => if k = key then some r else BodyHashResults.get rest key

/-- Feeding chunks one after another, collecting the reported stances. -/
def BodyHasher.hashChunks : BodyHasher → List Bytes → Option (BodyHasher × List Stance)
  | bh, [] => some (bh, [])
  | bh, ch :: chs =>
    match bh.hashChunk ch with
    | none => none
    | some (bh, s) =>
      match BodyHasher.hashChunks bh chs with
      | none => none
      | some (bh, ss) => some (bh, s :: ss)

end Dkim
