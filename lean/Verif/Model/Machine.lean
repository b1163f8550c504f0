import Verif.Model.Signer
import Verif.Model.Verifier

/-!
# Counters of the size of the machine

The counters of a body – the bytes that were hashed, and the empty lines – have type `usize`. They
count what has passed, not what is in memory, so they may exceed the maximum. Here are the functions
with these counters once more, with the addition of the machine. (The suffix `M` stands for
"machine".) The other arithmetic on `usize` in these functions cannot overflow, it is on lengths in
memory and is guarded.
-/

namespace Dkim

/-- How the code is built: with overflow checks, as by default in a debug build, or without, as by
default in a release build; and the maximum of `usize`. -/
structure Machine where
  checked : Bool
  max : Nat

/-- The operator `+=` on `usize`: if the sum is too large, a panic (`none`) or the sum modulo
`usize::MAX + 1`. -/
def Machine.add (M : Machine) (a b : Nat) : Option Nat :=
  if a + b ≤ M.max then some (a + b)
  else if M.checked then none
  else some ((a + b) % (M.max + 1))

variable (M : Machine)

/-- canonicalize.rs:180, 244, 266 `self.empty_lines += 1`. -/
def BodyCanon.countLine (c : BodyCanon) : Option (BodyCanon × Bytes) :=
  (M.add c.emptyLines 1).map fun n => ({ c with emptyLines := n, state := .crlf }, [])

/-- One step of the loop in canonicalize.rs:166-206 (`canon_chunk_simple`). -/
def BodyCanon.stepSimpleM (c : BodyCanon) (b : UInt8) : Option (BodyCanon × Bytes) :=
  match c.state with
  | .init | .crlf =>
    if b = CR then some ({ c with state := .cr }, [])
    else
      let (c, out) := c.flush
      some ({ c with state := .byte }, out ++ [b])
  | .cr =>
    if b = LF then
      if c.blankLine then c.countLine M
      else
        some ({ c with blankLine := true, state := .crlf }, CRLF)
    else
      let (c, out) := c.flush
      if b ≠ CR then some ({ c with state := .byte }, out ++ [CR] ++ [b])
      else some (c, out ++ [CR])
  | .byte =>
    if b = CR then some ({ c with state := .cr }, [])
    else some (c, [b])
  | .wsp | .wspCr => none

/-- One step of the loop in canonicalize.rs:218-298 (`canon_chunk_relaxed`). -/
def BodyCanon.stepRelaxedM (c : BodyCanon) (b : UInt8) : Option (BodyCanon × Bytes) :=
  match c.state with
  | .init | .crlf =>
    if isWspByte b then some ({ c with state := .wsp }, [])
    else if b = CR then some ({ c with state := .cr }, [])
    else
      let (c, out) := c.flush
      some ({ c with state := .byte }, out ++ [b])
  | .wsp =>
    if b = CR then some ({ c with state := .wspCr }, [])
    else if !isWspByte b then
      let (c, out) := c.flush
      some ({ c with state := .byte }, out ++ [SP] ++ [b])
    else some (c, [])
  | .cr =>
    if b = LF then
      if c.blankLine then c.countLine M
      else
        some ({ c with blankLine := true, state := .crlf }, CRLF)
    else
      let (c, out) := c.flush
      if isWspByte b then some ({ c with state := .wsp }, out ++ [CR])
      else if b ≠ CR then some ({ c with state := .byte }, out ++ [CR] ++ [b])
      else some (c, out ++ [CR])
  | .wspCr =>
    if b = LF then
      if c.blankLine then c.countLine M
      else
        some ({ c with blankLine := true, state := .crlf }, CRLF)
    else
      let (c, out) := c.flush
      if b = CR then some ({ c with state := .cr }, out ++ [SP] ++ [CR])
      else if isWspByte b then some ({ c with state := .wsp }, out ++ [SP] ++ [CR])
      else some ({ c with state := .byte }, out ++ [SP] ++ [CR] ++ [b])
  | .byte =>
    if isWspByte b then some ({ c with state := .wsp }, [])
    else if b = CR then some ({ c with state := .cr }, [])
    else some (c, [b])

/-- One loop step, for the kind fixed at construction. -/
def BodyCanon.stepM (c : BodyCanon) (b : UInt8) : Option (BodyCanon × Bytes) :=
  match c.kind with
  | .simple => c.stepSimpleM M b
  | .relaxed => c.stepRelaxedM M b

/-- canonicalize.rs:156-161 `canonicalize_chunk` (and the loops at 163-301). -/
def BodyCanon.chunkM : BodyCanon → Bytes → Option (BodyCanon × Bytes)
  | c, [] => some (c, [])
  | c, b :: bs =>
    match c.stepM M b with
    | none => none
    | some (c, out) =>
      match BodyCanon.chunkM c bs with
      | none => none
      | some (c', out') => some (c', out ++ out')

/-- crypto/hash.rs:86-110 `update`. -/
def CountingHasher.updateM (h : CountingHasher) (bytes : Bytes) : Option (CountingHasher × HashStatus) :=
  match h.length with
  | some len =>
    if len ≥ h.bytesWritten then
      let left := len - h.bytesWritten
      if left ≥ bytes.length then
        (M.add h.bytesWritten bytes.length).map fun n =>
          ({ h with absorbed := h.absorbed ++ bytes, bytesWritten := n }, .allConsumed)
      else
        let part := bytes.take left
        (M.add h.bytesWritten part.length).map fun n =>
          ({ h with absorbed := h.absorbed ++ part, bytesWritten := n }, .truncated)
    else none
  | none =>
    (M.add h.bytesWritten bytes.length).map fun n =>
      ({ h with absorbed := h.absorbed ++ bytes, bytesWritten := n }, .allConsumed)

/-- message_hash.rs:152-157: `get_or_insert_with(canonicalize_chunk)`. -/
def ChunkLoop.getM (st : ChunkLoop) (canon : CanonAlg) (chunk : Bytes) : Option (ChunkLoop × Bytes) :=
  match canon with
  | .simple =>
    match st.chunkSimple with
    | some out => some (st, out)
    | none =>
      match st.canonSimple.chunkM M chunk with
      | none => none
      | some (c, out) => some ({ st with canonSimple := c, chunkSimple := some out }, out)
  | .relaxed =>
    match st.chunkRelaxed with
    | some out => some (st, out)
    | none =>
      match st.canonRelaxed.chunkM M chunk with
      | none => none
      | some (c, out) => some ({ st with canonRelaxed := c, chunkRelaxed := some out }, out)

/-- message_hash.rs:151-169: the loop over the active hashers. -/
def hashChunkLoopM (failOnTruncate : Bool) (chunk : Bytes) :
    ChunkLoop → List (BodyHasherKey × CountingHasher × Bool) →
    Option (ChunkLoop × List (BodyHasherKey × CountingHasher × Bool))
  | st, [] => some (st, [])
  | st, (key, h, truncated) :: rest =>
    if hasherActive failOnTruncate h truncated then
      match st.getM M key.2.2 chunk with
      | none => none
      | some (st, out) =>
        match h.updateM M out with
        | none => none
        | some (h, .allConsumed) =>
          let st := if failOnTruncate || !h.isDone then { st with allDone := false } else st
          match hashChunkLoopM failOnTruncate chunk st rest with
          | none => none
          | some (st, rest) => some (st, (key, h, truncated) :: rest)
        | some (h, .truncated) =>
          match hashChunkLoopM failOnTruncate chunk st rest with
          | none => none
          | some (st, rest) => some (st, (key, h, true) :: rest)
    else
      match hashChunkLoopM failOnTruncate chunk st rest with
      | none => none
      | some (st, rest) => some (st, (key, h, truncated) :: rest)

/-- message_hash.rs:141-176 `hash_chunk`. -/
def BodyHasher.hashChunkM (bh : BodyHasher) (chunk : Bytes) : Option (BodyHasher × Stance) :=
  match hashChunkLoopM M bh.failOnTruncate chunk
      { canonSimple := bh.canonSimple, canonRelaxed := bh.canonRelaxed,
        chunkSimple := none, chunkRelaxed := none, allDone := true } bh.hashers with
  | none => none
  | some (st, hashers) =>
    some ({ bh with hashers, canonSimple := st.canonSimple, canonRelaxed := st.canonRelaxed },
      if st.allDone then .done else .interested)

/-- The body of the loop message_hash.rs:186-215 for one entry. -/
def BodyHasher.finishOneM (hash : HashFn) (bh : BodyHasher)
    (e : BodyHasherKey × CountingHasher × Bool) : Option BodyHashResult :=
  let (key, h, truncated) := e
  let step : Option (CountingHasher × Bool) :=
    if hasherActive bh.failOnTruncate h truncated then
      match bh.finishCanon key.2.2 with
      | none => none
      | some out =>
        match h.updateM M out with
        | none => none
        | some (h, .truncated) => some (h, true)
        | some (h, .allConsumed) => some (h, truncated)
    else some (h, truncated)
  match step with
  | none => none
  | some (h, truncated) =>
    if bh.failOnTruncate && truncated then some (.error .inputTruncated)
    else
      match h.finish hash with
      | none => some (.error .insufficientInput)
      | some r => some (.ok r)

/-- message_hash.rs:178-218 `finish`: the loop. -/
def BodyHasher.finishLoopM (hash : HashFn) (bh : BodyHasher) :
    List (BodyHasherKey × CountingHasher × Bool) → Option BodyHashResults
  | [] => some []
  | e :: es =>
    match bh.finishOneM M hash e with
    | none => none
    | some r =>
      match BodyHasher.finishLoopM hash bh es with
      | none => none
      | some rs => some ((e.1, r) :: rs)

/-- message_hash.rs:178-218 `finish`. -/
def BodyHasher.finishM (hash : HashFn) (bh : BodyHasher) : Option BodyHashResults :=
  bh.finishLoopM M hash bh.hashers

/-- Feeding chunks one after another, collecting the reported stances. -/
def BodyHasher.hashChunksM : BodyHasher → List Bytes → Option (BodyHasher × List Stance)
  | bh, [] => some (bh, [])
  | bh, ch :: chs =>
    match bh.hashChunkM M ch with
    | none => none
    | some (bh, s) =>
      match BodyHasher.hashChunksM bh chs with
      | none => none
      | some (bh, ss) => some (bh, s :: ss)

/-- signer/mod.rs:604-606 `process_body_chunk`, for a sequence of chunks. -/
def Signer.processBodyM {E : Env} (s : Signer E) (chunks : List Bytes) : Option (Signer E × List Stance) :=
  match s.bodyHasher.hashChunksM M chunks with
  | some (bh, stances) => some ({ s with bodyHasher := bh }, stances)
  | none => none

/-- signer/mod.rs:615-630 `sign`. -/
def Signer.signM {E : Env} (s : Signer E) (clock : Nat → Nat) : Option (List (Except SigningError SigningOutput)) :=
  match s.bodyHasher.finishM M E.hash with
  | none => none
  | some results => signLoop s.headers results clock 0 s.tasks

/-- verifier/mod.rs:670-672 `process_body_chunk`, for a sequence of chunks. -/
def Verifier.processBodyM (v : Verifier) (chunks : List Bytes) : Option (Verifier × List Stance) :=
  match v.bodyHasher.hashChunksM M chunks with
  | some (bh, stances) => some ({ v with bodyHasher := bh }, stances)
  | none => none

/-- verifier/mod.rs:677-703 `finish`. -/
def Verifier.finishM (E : Env) (v : Verifier) : Option (List VerificationResult) :=
  match v.bodyHasher.finishM M E.hash with
  | none => none
  | some results => finishTasks E results v.tasks

end Dkim
