import Verif.Proofs.Memory

/-!
# Property C110: the body passes through memory in pieces

The full claim: whatever was read before, the buffer that canonicalizing a chunk produces
is bounded in terms of the size of the chunk, so that a body can be processed without
residing in memory as a whole. It fails for runs of empty lines (`C110_violation`,
`C110_whole_body`), and for nothing else (`C110_chunk_partial`, `C110_finish_partial`).
-/

namespace Dkim

open Spec

/-- C110 as far as it holds: the bytes produced for a chunk are at most those of the chunk,
two for each empty line at the end of what was read before, and two. -/
theorem C110_chunk_partial (kind : CanonAlg) (before : List Bytes) (chunk : Bytes) (c c' : BodyCanon)
    (out out' : Bytes) (h : (BodyCanon.new kind).chunks before = some (c, out))
    (h' : c.chunk chunk = some (c', out')) :
    out'.length ≤ chunk.length + 2 * blankAtEnd before.flatten + 2 := by
  have h1 := chunk_size h'
  have h2 := pending_of_run h
  omega

/-- C110 as far as it holds: the same for the bytes produced at the end. -/
theorem C110_finish_partial (kind : CanonAlg) (before : List Bytes) (c : BodyCanon) (out out' : Bytes)
    (h : (BodyCanon.new kind).chunks before = some (c, out)) (h' : c.finish = some out') :
    out'.length ≤ 2 * blankAtEnd before.flatten + 4 := by
  have h1 := finish_size h'
  have h2 := pending_of_run h
  omega

/-- C110 is violated: `n` empty lines and then a letter, read in pieces of at most two
bytes, are in memory all at once when the letter is read, however large `n` is. -/
theorem C110_whole_body (kind : CanonAlg) (n : Nat) :
    ∃ c c', (BodyCanon.new kind).chunks (List.replicate n [13, 10]) = some (c, []) ∧
      c.chunk [97] = some (c', (List.replicate n [13, 10]).flatten ++ [97]) := by
  obtain ⟨s', h1, h2⟩ := chunks_crlf kind .init (Or.inl rfl) n 0
  refine ⟨_, ⟨kind, .byte, false, 0⟩, h2, ?_⟩
  rw [Nat.zero_add]
  rcases h1 with rfl | rfl <;> cases kind <;>
    simp [BodyCanon.chunk, BodyCanon.step, BodyCanon.stepSimple, BodyCanon.stepRelaxed, BodyCanon.flush,
      isWspByte, CR, SP, TAB, crlfs, CRLF, LF]

/-- C110 is violated: no function of the size of a chunk bounds the buffer produced for
it. -/
theorem C110_violation (kind : CanonAlg) :
    ¬ ∃ bound : Nat → Nat, ∀ before chunk c c' out out',
      (BodyCanon.new kind).chunks before = some (c, out) → c.chunk chunk = some (c', out') →
        out'.length ≤ bound chunk.length := by
  rintro ⟨bound, h⟩
  obtain ⟨c, c', h1, h2⟩ := C110_whole_body kind (bound 1)
  have := h _ _ _ _ _ _ h1 h2
  have e : (List.replicate (bound 1) ([13, 10] : Bytes)).flatten.length = bound 1 * 2 := by simp
  rw [List.length_append, e] at this
  simp at this
  omega

/-- Non-vacuity: a run with empty lines, a space and a carriage return pending, where eight
bytes are produced for two. The bound is ten, as the first line feed does not end an empty
line. -/
example : ((BodyCanon.new .relaxed).chunks [b!"a\r\n", b!"\r\n \r\n \r"]).bind (fun p => (p.1.chunk b!"xy").map (·.2)) =
      some b!"\r\n\r\n \rxy" ∧
    blankAtEnd b!"a\r\n\r\n \r\n \r" = 3 := by decide

end Dkim
