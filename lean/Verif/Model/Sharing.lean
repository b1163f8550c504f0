import Verif.Model.Verifier

/-!
# Which pieces of the body are canonicalized

The functions of `Model/BodyHash` once more, with the calls of `canonicalize_chunk` and
`finish` of the two canonicalizers; and with the final pieces of the canonicalizers shared as in the
code, while `BodyHasher.finishOne` computes them anew for each entry. (The suffix `C` stands for "calls".)
-/

namespace Dkim

/-- message_hash.rs:152-157: `get_or_insert_with(canonicalize_chunk)`; `none` is a panic. -/
def ChunkLoop.getC (st : ChunkLoop) (canon : CanonAlg) (chunk : Bytes) :
    Option (ChunkLoop × Bytes × List CanonAlg) :=
  match canon with
  | .simple =>
    match st.chunkSimple with
    | some out => some (st, out, [])
    | none =>
      match st.canonSimple.chunk chunk with
      | none => none
      | some (c, out) => some ({ st with canonSimple := c, chunkSimple := some out }, out, [.simple])
  | .relaxed =>
    match st.chunkRelaxed with
    | some out => some (st, out, [])
    | none =>
      match st.canonRelaxed.chunk chunk with
      | none => none
      | some (c, out) => some ({ st with canonRelaxed := c, chunkRelaxed := some out }, out, [.relaxed])

/-- message_hash.rs:151-169: the loop over the active hashers. -/
def hashChunkLoopC (failOnTruncate : Bool) (chunk : Bytes) :
    ChunkLoop → List (BodyHasherKey × CountingHasher × Bool) →
    Option (ChunkLoop × List (BodyHasherKey × CountingHasher × Bool) × List CanonAlg)
  | st, [] => some (st, [], [])
  | st, (key, h, truncated) :: rest =>
    if hasherActive failOnTruncate h truncated then
      match st.getC key.2.2 chunk with
      | none => none
      | some (st, out, calls) =>
        match h.update out with
        | none => none
        | some (h, .allConsumed) =>
          let st := if failOnTruncate || !h.isDone then { st with allDone := false } else st
          match hashChunkLoopC failOnTruncate chunk st rest with
          | none => none
          | some (st, rest, calls') => some (st, (key, h, truncated) :: rest, calls ++ calls')
        | some (h, .truncated) =>
          match hashChunkLoopC failOnTruncate chunk st rest with
          | none => none
          | some (st, rest, calls') => some (st, (key, h, true) :: rest, calls ++ calls')
    else
      match hashChunkLoopC failOnTruncate chunk st rest with
      | none => none
      | some (st, rest, calls) => some (st, (key, h, truncated) :: rest, calls)

/-- message_hash.rs:141-176 `hash_chunk`; `none` is a panic. -/
def BodyHasher.hashChunkC (bh : BodyHasher) (chunk : Bytes) : Option (BodyHasher × Stance × List CanonAlg) :=
  match hashChunkLoopC bh.failOnTruncate chunk
      { canonSimple := bh.canonSimple, canonRelaxed := bh.canonRelaxed,
        chunkSimple := none, chunkRelaxed := none, allDone := true } bh.hashers with
  | none => none
  | some (st, hashers, calls) =>
    some ({ bh with hashers, canonSimple := st.canonSimple, canonRelaxed := st.canonRelaxed },
      if st.allDone then .done else .interested, calls)

/-- Feeding chunks one after another; with the calls for each chunk. -/
def BodyHasher.hashChunksC : BodyHasher → List Bytes → Option (BodyHasher × List Stance × List (List CanonAlg))
  | bh, [] => some (bh, [], [])
  | bh, ch :: chs =>
    match bh.hashChunkC ch with
    | none => none
    | some (bh, s, calls) =>
      match BodyHasher.hashChunksC bh chs with
      | none => none
      | some (bh, ss, calls') => some (bh, s :: ss, calls :: calls')

/-- message_hash.rs:179-182: the variables of `finish`: whether the closures that finish the canonicalizers
are still there, and the final pieces. -/
structure FinishLoop where
  finishSimple : Bool
  finishRelaxed : Bool
  chunkSimple : Option Bytes
  chunkRelaxed : Option Bytes

/-- message_hash.rs:188-201: the final piece of a kind; `none` is a panic, also that of `unwrap`. -/
def BodyHasher.getFinalC (bh : BodyHasher) (st : FinishLoop) (canon : CanonAlg) :
    Option (FinishLoop × Bytes × List CanonAlg) :=
  match canon with
  | .simple =>
    if st.finishSimple then
      match bh.canonSimple.finish with
      | none => none
      | some out => some ({ st with finishSimple := false, chunkSimple := some out }, out, [.simple])
    else
      match st.chunkSimple with
      | none => none
      | some out => some (st, out, [])
  | .relaxed =>
    if st.finishRelaxed then
      match bh.canonRelaxed.finish with
      | none => none
      | some out => some ({ st with finishRelaxed := false, chunkRelaxed := some out }, out, [.relaxed])
    else
      match st.chunkRelaxed with
      | none => none
      | some out => some (st, out, [])

/-- message_hash.rs:208-213: the result for one entry. -/
def resultOf (hash : HashFn) (failOnTruncate : Bool) (h : CountingHasher) (truncated : Bool) : BodyHashResult :=
  if failOnTruncate && truncated then .error .inputTruncated
  else
    match h.finish hash with
    | none => .error .insufficientInput
    | some r => .ok r

/-- message_hash.rs:186-215: the loop of `finish`; `none` is a panic. -/
def BodyHasher.finishLoopC (hash : HashFn) (bh : BodyHasher) :
    FinishLoop → List (BodyHasherKey × CountingHasher × Bool) → Option (BodyHashResults × List CanonAlg)
  | _, [] => some ([], [])
  | st, (key, h, truncated) :: es =>
    if hasherActive bh.failOnTruncate h truncated then
      match bh.getFinalC st key.2.2 with
      | none => none
      | some (st, out, calls) =>
        match h.update out with
        | none => none
        | some (h, status) =>
          let truncated := match status with
            | .truncated => true
            | .allConsumed => truncated
          match BodyHasher.finishLoopC hash bh st es with
          | none => none
          | some (rs, calls') => some ((key, resultOf hash bh.failOnTruncate h truncated) :: rs, calls ++ calls')
    else
      match BodyHasher.finishLoopC hash bh st es with
      | none => none
      | some (rs, calls) => some ((key, resultOf hash bh.failOnTruncate h truncated) :: rs, calls)

/-- message_hash.rs:178-218 `finish`; `none` is a panic. -/
def BodyHasher.finishC (hash : HashFn) (bh : BodyHasher) : Option (BodyHashResults × List CanonAlg) :=
  bh.finishLoopC hash ⟨true, true, none, none⟩ bh.hashers

end Dkim
