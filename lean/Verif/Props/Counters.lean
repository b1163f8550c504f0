import Verif.Proofs.Machine
import Verif.Props.Body
import Verif.Props.Memory
import Verif.Props.SignerRuns
import Verif.Props.VerifierCases

/-!
# Property C112: the counters of the body do not overflow

The full claim: on every machine, in every build and for every body fed in chunks, the
results are those that counters without limits give. It holds for all bodies that are at least two
bytes smaller than the address space (`C112_results_partial`, `C112_signer_partial`,
`C112_verifier_partial`), so in practice on every machine of 64 bits. It fails for larger
bodies: with overflow checks, there is a panic, but never a wrong result (`C112_checked`,
`C112_panic_violation`); without, the reported length of the body is wrong
(`C112_length_violation`), and empty lines are lost, so that another body has the same hash
(`C112_lines_violation`, `C112_verified_violation`).
-/

namespace Dkim

open Spec

variable {E : Env}

/-- C112 as far as it holds: the results for a body that is at least two bytes smaller than the
address space are the specified ones (see C05). -/
theorem C112_results_partial (M : Machine) (hash : HashFn) (fail : Bool) (keys : List BodyHasherKey)
    (chunks : List Bytes) (hm : chunks.flatten.length + 2 ≤ M.max) :
    ∃ bh stances results,
      (BodyHasher.build fail keys).hashChunksM M chunks = some (bh, stances) ∧
      bh.finishM M hash = some results ∧
      ∀ key, results.get key =
        if key ∈ keys then some (bodyHashResult hash fail key (codeBody key.2.2 chunks.flatten)) else none := by
  obtain ⟨bh, ss, rs, h1, h2, h3⟩ := C05_body_hash_results hash fail keys chunks
  obtain ⟨g1, g2⟩ := hashChunksM_eq (M := M) (chunks := chunks) (build_within fail keys) (by omega)
  refine ⟨bh, ss, rs, by rw [g1]; exact h1, ?_, h3⟩
  rw [finishM_eq (g2 _ _ h1) (by omega)]
  exact h2

/-- C112 as far as it holds: what a signer does with such a body is what the signer with unlimited
counters does. -/
theorem C112_signer_partial (M : Machine) {headers : List Field} {requests : List (SignRequest E)} {s : Signer E}
    (h : prepareSigning E headers requests = .ok s) (chunks : List Bytes)
    (hm : chunks.flatten.length + 2 ≤ M.max) :
    s.processBodyM M chunks = s.processBody chunks ∧
    ∀ s' ss clock, s.processBody chunks = some (s', ss) → s'.signM M clock = s'.sign clock := by
  obtain ⟨_, _, keys, e, _⟩ := prepareSigning_ok h
  obtain ⟨g1, g2⟩ := hashChunksM_eq (M := M) (chunks := chunks) (build_within false (E.keySet keys)) (by omega)
  unfold Signer.processBodyM Signer.processBody
  rw [e, g1]
  refine ⟨rfl, ?_⟩
  intro s' ss clock hs
  cases hb : (BodyHasher.build false (E.keySet keys)).hashChunks chunks with
  | none => rw [hb] at hs; cases hs
  | some p =>
    obtain ⟨bh, st⟩ := p
    rw [hb] at hs
    cases hs
    unfold Signer.signM Signer.sign
    simp only
    rw [finishM_eq (g2 _ _ hb) (by omega)]
    cases bh.finish E.hash <;> rfl

theorem verifyHeader_build {resolver : Resolver} {cfg : Config} {clock : Nat → Int} {headers : List Field}
    {v : Verifier} {asked : List Str} (h : verifyHeader E resolver headers cfg clock = some (some v, asked)) :
    ∃ fail keys, v.bodyHasher = BodyHasher.build fail keys := by
  unfold verifyHeader at h
  repeat' split at h
  all_goals first
    | cases h; done
    | (simp only [Option.some.injEq, Prod.mk.injEq] at h; obtain ⟨rfl, _⟩ := h; exact ⟨_, _, rfl⟩)

/-- C112 as far as it holds: the same for a verifier. -/
theorem C112_verifier_partial (M : Machine) {resolver : Resolver} {cfg : Config} {clock : Nat → Int}
    {headers : List Field} {v : Verifier} {asked : List Str}
    (h : verifyHeader E resolver headers cfg clock = some (some v, asked)) (chunks : List Bytes)
    (hm : chunks.flatten.length + 2 ≤ M.max) :
    v.processBodyM M chunks = v.processBody chunks ∧
    ∀ v' ss, v.processBody chunks = some (v', ss) → v'.finishM M E = v'.finish E := by
  obtain ⟨fail, keys, e⟩ := verifyHeader_build h
  obtain ⟨g1, g2⟩ := hashChunksM_eq (M := M) (chunks := chunks) (build_within fail keys) (by omega)
  unfold Verifier.processBodyM Verifier.processBody
  rw [e, g1]
  refine ⟨rfl, ?_⟩
  intro v' ss hv
  cases hb : (BodyHasher.build fail keys).hashChunks chunks with
  | none => rw [hb] at hv; cases hv
  | some p =>
    obtain ⟨bh, st⟩ := p
    rw [hb] at hv
    cases hv
    unfold Verifier.finishM Verifier.finish
    simp only
    rw [finishM_eq (g2 _ _ hb) (by omega)]
    cases bh.finish E.hash <;> rfl

/-- C112, with overflow checks: for every body, whatever its size, either there is a panic or the
results are the specified ones. -/
theorem C112_checked (M : Machine) (hc : M.checked = true) (hash : HashFn) (fail : Bool) (keys : List BodyHasherKey)
    (chunks : List Bytes) {bh : BodyHasher} {stances : List Stance} {results : BodyHashResults}
    (h1 : (BodyHasher.build fail keys).hashChunksM M chunks = some (bh, stances))
    (h2 : bh.finishM M hash = some results) (key : BodyHasherKey) :
    results.get key =
      if key ∈ keys then some (bodyHashResult hash fail key (codeBody key.2.2 chunks.flatten)) else none := by
  obtain ⟨bh', ss, rs, g1, g2, g3⟩ := C05_body_hash_results hash fail keys chunks
  rw [hashChunksM_checked hc h1] at g1
  cases g1
  rw [finishM_checked hc h2] at g2
  cases g2
  exact g3 key

/-- C112 is violated: with overflow checks, a body that is larger than the address space may cause
a panic, although no chunk of it is longer than two bytes; it consists of single letters or of empty
lines. -/
theorem C112_panic_violation (M : Machine) (hc : M.checked = true) (fail : Bool) (alg : HashAlg) (kind : CanonAlg)
    (n : Nat) (hn : M.max < n) :
    (BodyHasher.build fail [(none, alg, kind)]).hashChunksM M (List.replicate n [97]) = none ∧
    (BodyHasher.build fail [(none, alg, kind)]).hashChunksM M (List.replicate n [13, 10]) = none := by
  cases n with
  | zero => omega
  | succ n =>
    rw [build_single, List.replicate_succ, List.replicate_succ, BodyHasher.hashChunksM, BodyHasher.hashChunksM]
    by_cases h0 : 0 + 1 ≤ M.max
    · have hl : (BodyCanon.new kind).chunkM M [13, 10] = some (afterLines kind 1, []) := by
        rw [new_line, add_fits h0]; rfl
      rw [single_chunk (new_chunk kind) (add_fits h0), single_chunk hl (add_zero' (Nat.zero_le _))]
      simp only [List.length_singleton, List.append_nil, List.nil_append, Nat.zero_add]
      rw [bytes_panic hc fail alg kind n [97] 1 (by omega) (by omega),
        lines_panic hc fail alg kind n 1 (by omega) (by omega)]
      exact ⟨rfl, rfl⟩
    · have hnone : M.add 0 1 = none := by unfold Machine.add; rw [if_neg h0, if_pos hc]
      rw [single_overflow (new_chunk kind) hnone, single_canon_overflow (by rw [new_line, hnone]; rfl)]
      exact ⟨rfl, rfl⟩

/-- C112 is violated: without overflow checks, the length that is reported for a body of
`usize::MAX + 1` letters, fed one at a time, and to which CR LF is added, is 2. -/
theorem C112_length_violation (M : Machine) (hc : M.checked = false) (h2 : 2 ≤ M.max) (hash : HashFn) (fail : Bool)
    (alg : HashAlg) (kind : CanonAlg) :
    ∃ bh, (BodyHasher.build fail [(none, alg, kind)]).hashChunksM M (List.replicate (M.max + 1) [97]) =
        some (bh, List.replicate (M.max + 1) .interested) ∧
      bh.finishM M hash =
        some [((none, alg, kind), .ok (hash alg (List.replicate (M.max + 1) 97 ++ [13, 10]), 2))] := by
  refine ⟨single fail alg kind (afterByte kind) (List.replicate (M.max + 1) 97) 0, ?_, ?_⟩
  · rw [build_single, List.replicate_succ, BodyHasher.hashChunksM,
      single_chunk (new_chunk kind) (add_fits (by simp; omega))]
    simp only [List.length_singleton, List.nil_append, Nat.zero_add]
    have h := bytes_wrap hc fail alg kind M.max [97] 1
    rw [Nat.mod_eq_of_lt (by omega : 1 < M.max + 1)] at h
    rw [h, Nat.add_comm 1 M.max, Nat.mod_self]
    rfl
  · exact single_finish (afterByte_finish kind) (add_fits h2)

/-- C112 is violated: without overflow checks, `usize::MAX + 1` empty lines before a letter, fed one
at a time, leave no trace. The body has the same hash as the letter alone, for every hash function. -/
theorem C112_lines_violation (M : Machine) (hc : M.checked = false) (h1 : 1 ≤ M.max) (fail : Bool)
    (alg : HashAlg) (kind : CanonAlg) :
    ∃ bh,
      (BodyHasher.build fail [(none, alg, kind)]).hashChunksM M (List.replicate (M.max + 1) [13, 10] ++ [[97]]) =
        some (bh, List.replicate (M.max + 2) .interested) ∧
      (BodyHasher.build fail [(none, alg, kind)]).hashChunksM M [[97]] = some (bh, [.interested]) := by
  refine ⟨single fail alg kind (afterByte kind) [97] 1, ?_, ?_⟩
  · rw [build_single, hashChunksM_append, List.replicate_succ, BodyHasher.hashChunksM]
    have hl : (BodyCanon.new kind).chunkM M [13, 10] = some (afterLines kind 1, []) := by
      rw [new_line, add_fits (by omega)]; rfl
    rw [single_chunk hl (add_zero' (Nat.zero_le _))]
    simp only [List.append_nil]
    have h := lines_wrap hc fail alg kind M.max 1
    rw [Nat.mod_eq_of_lt (by omega : 1 < M.max + 1)] at h
    rw [h, Nat.add_comm 1 M.max, Nat.mod_self]
    simp only [Option.bind_some]
    rw [BodyHasher.hashChunksM, single_chunk (afterLines_chunk kind) (add_fits (by simp; omega))]
    simp only [BodyHasher.hashChunksM, Option.map_some, List.nil_append, List.length_singleton, Nat.zero_add]
    rw [List.replicate_succ' (n := M.max + 1), List.replicate_succ]
  · rw [build_single, BodyHasher.hashChunksM, single_chunk (new_chunk kind) (add_fits (by simp; omega))]
    rfl

/-- The two bodies of `C112_lines_violation` differ also when canonicalized: no empty line is
to be dropped. -/
theorem C112_lines_different (kind : CanonAlg) (n : Nat) :
    codeBody kind (List.replicate n ([13, 10] : Bytes) ++ [[97]]).flatten =
      (List.replicate n [13, 10]).flatten ++ [97, 13, 10] := by
  obtain ⟨s', h0, h1⟩ := chunks_crlf kind .init (Or.inl rfl) n 0
  have h2 : (⟨kind, s', true, 0 + n⟩ : BodyCanon).chunk [97] =
      some (afterByte kind, (List.replicate n [13, 10]).flatten ++ [97]) := by
    rw [Nat.zero_add]
    rcases h0 with rfl | rfl <;> cases kind <;>
      simp [BodyCanon.chunk, BodyCanon.step, BodyCanon.stepSimple, BodyCanon.stepRelaxed, BodyCanon.flush,
        isWspByte, CR, SP, TAB, crlfs, CRLF, LF, afterByte]
  have h := canonBody_codeBody kind (List.replicate n [13, 10] ++ [[97]])
  have h1 : (BodyCanon.new kind).chunks (List.replicate n [13, 10]) = _ := h1
  rw [BodyCanon.chunks_eq] at h1
  unfold canonBody at h
  rw [BodyCanon.chunks_eq, List.flatten_append, BodyCanon.chunk_append, h1] at h
  simp only [Option.bind_some, List.flatten_cons, List.flatten_nil, List.append_nil, h2, Option.map_some,
    afterByte_finish, List.nil_append, Option.some.injEq] at h
  rw [List.flatten_append, List.flatten_cons, List.flatten_nil, List.append_nil, ← h, List.append_assoc]
  rfl

/-- C112 is violated: without overflow checks, a verifier that has only one signature to check, of
the whole body, gives the same results for a letter and for a letter after `usize::MAX + 1` empty
lines: if the first body is the signed one, then the second one is verified. -/
theorem C112_verified_violation (M : Machine) (hc : M.checked = false) (h1 : 1 ≤ M.max) {v : Verifier} {fail : Bool}
    {alg : HashAlg} {kind : CanonAlg} (hv : v.bodyHasher = BodyHasher.build fail [(none, alg, kind)]) :
    ∃ v' ss, v.processBodyM M [[97]] = some (v', [.interested]) ∧
      v.processBodyM M (List.replicate (M.max + 1) [13, 10] ++ [[97]]) = some (v', ss) := by
  obtain ⟨bh, g1, g2⟩ := C112_lines_violation M hc h1 fail alg kind
  refine ⟨{ v with bodyHasher := bh }, List.replicate (M.max + 2) .interested, ?_, ?_⟩
  · unfold Verifier.processBodyM; rw [hv, g2]
  · unfold Verifier.processBodyM; rw [hv, g1]

/-! ## Examples: a machine of 32 bits -/

/-- Non-vacuity of `C112_results_partial` and `C112_checked`: a body that fits. -/
example : testBody.flatten.length + 2 ≤ (Machine.mk true (2 ^ 32 - 1)).max ∧
    ∃ bh ss rs, (BodyHasher.build true [(some 2, .sha256, .simple), (none, .sha1, .relaxed)]).hashChunksM
        ⟨true, 2 ^ 32 - 1⟩ testBody = some (bh, ss) ∧
      bh.finishM ⟨true, 2 ^ 32 - 1⟩ testEnv.hash = some rs :=
  ⟨by decide, _, _, _, rfl, rfl⟩

set_option maxRecDepth 100000 in
/-- Non-vacuity of `C112_signer_partial`. -/
example : ∃ s s' ss out, prepareSigning testEnv testHeaders [testRequest] = .ok s ∧
    s.processBodyM ⟨false, 2 ^ 32 - 1⟩ testBody = some (s', ss) ∧
    s'.signM ⟨false, 2 ^ 32 - 1⟩ (fun _ => 5) = some [.ok out] :=
  ⟨_, _, _, _, rfl, rfl, rfl⟩

/-- A message with one signature, of the body that is the letter "a". -/
def oneMessage : List Field :=
  [⟨c!"DKIM-Signature", utf8 (c!" v=1; a=rsa-sha256; d=example.com; s=r; c=relaxed/simple;\r\n\th=From:Subject; bh=" ++
    encodeBase64 [87, 3] ++ c!";\r\n\tb=" ++ encodeBase64 (List.replicate 128 247))⟩,
   ⟨c!"From", b!" me"⟩, ⟨c!"Subject", b!" a"⟩]

set_option maxRecDepth 100000 in
/-- Non-vacuity of `C112_verifier_partial` and `C112_verified_violation`: the message is verified on
a machine of 32 bits when the body is the letter. So it is also verified, in a release build, when there
are 4294967296 empty lines before it. -/
example : ∃ v asked v' ss, verifyHeader testEnv testResolver oneMessage .default (fun _ => 1500) = some (some v, asked) ∧
    v.processBodyM ⟨false, 2 ^ 32 - 1⟩ (List.replicate 4294967296 [13, 10] ++ [[97]]) = some (v', ss) ∧
    (v'.finishM ⟨false, 2 ^ 32 - 1⟩ testEnv).map (·.map fun r => (r.index, r.status)) = some [(0, .success)] := by
  obtain ⟨v, asked, v1, ss1, h1, h2, h3, h4⟩ : ∃ v asked v' ss,
      verifyHeader testEnv testResolver oneMessage .default (fun _ => 1500) = some (some v, asked) ∧
      v.bodyHasher = BodyHasher.build false [(none, .sha256, .simple)] ∧
      v.processBodyM ⟨false, 2 ^ 32 - 1⟩ [[97]] = some (v', ss) ∧
      (v'.finishM ⟨false, 2 ^ 32 - 1⟩ testEnv).map (·.map fun r => (r.index, r.status)) = some [(0, .success)] :=
    ⟨_, _, _, _, rfl, rfl, rfl, rfl⟩
  obtain ⟨v', ss, g1, g2⟩ := C112_verified_violation ⟨false, 2 ^ 32 - 1⟩ rfl (by decide) h2
  rw [g1] at h3
  cases h3
  exact ⟨v, asked, _, ss, h1, g2, h4⟩

/-- Non-vacuity of `C112_panic_violation` and `C112_length_violation`: the machines meet the hypotheses. -/
example : (Machine.mk true (2 ^ 32 - 1)).max < 2 ^ 32 ∧ 2 ≤ (Machine.mk false (2 ^ 32 - 1)).max := by decide

end Dkim
