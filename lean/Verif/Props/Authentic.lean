import Verif.Props.OwnContent
import Verif.Props.Reread
import Verif.Props.OutputField
import Verif.Props.Hops

/-!
# Property C98: what verifies has been signed
-/

namespace Dkim

open Spec

variable {E : Env}

/-- A signature that was made. -/
structure Signing (E : Env) where
  /-- The message, and the requests. -/
  headers : List Field
  chunks : List Bytes
  requests : List (SignRequest E)
  clock : Nat → Nat
  /-- All results, the position of the one meant here, and this result. -/
  out : List (Except SigningError SigningOutput)
  index : Nat
  request : SignRequest E
  output : SigningOutput
  /-- What the produced header field says, and its value without that of `b=`. -/
  read : DkimSignature
  original : Str

/-- The produced header field. -/
def Signing.field (g : Signing E) : Field := ⟨g.output.headerName, utf8 g.output.headerValue⟩

/-- The signature was made with this library, for a well-formed message, and can be read (C37 says
when). -/
structure Signing.Made (g : Signing E) : Prop where
  headers : TypedHeaders g.headers
  requests : ∀ r ∈ g.requests, TypedRequest r
  run : Signed g.headers g.requests g.chunks g.clock g.out
  length : ∀ k, (codeBody k g.chunks.flatten).length < 2 ^ 64
  time : g.clock g.index < 2 ^ 64
  request : g.requests[g.index]? = some g.request
  output : g.out[g.index]? = some (.ok g.output)
  read : FieldSignature E g.field g.output.headerValue g.read
  original : WithoutB g.output.headerValue g.original

/-- The data of which the hash is signed. -/
def Signing.input (g : Signing E) : Bytes := signedInput g.headers g.field g.original g.read

/-- The hash algorithm and the hash that is signed. -/
def Signing.hash (g : Signing E) : HashAlg × Bytes :=
  (hashOf g.read.algorithm, E.hash (hashOf g.read.algorithm) g.input)

theorem Signing.Made.same {g : Signing E} (h : g.Made) (law : IdnaLaw E.idna) (hs : SortLaw E.sortBy)
    (hset : SetLaw E.keySet) (hsign : SignLaw E.crypto) (hhash : ∀ a b, E.hash a b ≠ []) :
    g.read.algorithm = g.request.algorithm ∧ g.read.canonicalization = g.request.canonicalization ∧
    g.read.signedHeaders = namesToSign g.request g.headers ∧
    g.read.bodyLength = g.output.signature.bodyLength ∧ g.read.bodyHash = g.output.signature.bodyHash := by
  obtain ⟨_, _, _, _, _, h1, _⟩ := C15_read_exactly law hs hset hsign hhash _ _ h.headers h.requests _ _ _ h.run h.length _ h.time
    _ h.request _ h.output g.read ((sigFromStr_iff law.toCaseLaw _ _ _).2 h.read.2)
  obtain ⟨_, part, sig, _, h2⟩ := C36_reflects law hs hset _ _ h.headers h.requests _ _ _ h.run h.length _ _ h.request _
    h.output
  refine ⟨?_, ?_, ?_, h1.bodyLength, h1.bodyHash⟩
  · rw [h1.algorithm]; simp only [h2]; rfl
  · rw [h1.canonicalization]; simp only [h2]; rfl
  · rw [h1.signedHeaders]; simp only [h2]; rfl

/-- C98: every signature that a run produces for a request that satisfies the conditions of C37 is a
`Signing` that was made. -/
theorem C98_every_signature (law : IdnaLaw E.idna) (hs : SortLaw E.sortBy) (hset : SetLaw E.keySet)
    (hsign : SignLaw E.crypto) (hhash : ∀ a b, E.hash a b ≠ [])
    (headers : List Field) (requests : List (SignRequest E)) (hh : TypedHeaders headers)
    (ht : ∀ r ∈ requests, TypedRequest r) (chunks : List Bytes) (clock : Nat → Nat)
    (out : List (Except SigningError SigningOutput))
    (h : Signed headers requests chunks clock out)
    (hlen : ∀ k, (codeBody k chunks.flatten).length < 2 ^ 64) (i : Nat) (hclock : clock i < 2 ^ 64)
    (r : SignRequest E) (hr : requests[i]? = some r) (o : SigningOutput) (ho : out[i]? = some (.ok o))
    (hread : Readable r headers (clock i)) :
    ∃ read original, Signing.Made ⟨headers, chunks, requests, clock, out, i, r, o, read, original⟩ := by
  obtain ⟨k1, k2, _⟩ := output_tags law hs hset hh ht h hlen hr ho
  obtain ⟨s, h1⟩ := (C37_parses_exactly law hs hset hsign hhash headers requests hh ht chunks clock out h hlen i hclock
    r hr o ho).2 ⟨hread.1.readable k1 k2, hread.2⟩
  have h2 : FieldSignature E ⟨o.headerName, utf8 o.headerValue⟩ o.headerValue s :=
    ⟨rfl, (sigFromStr_iff law.toCaseLaw _ _ _).1 h1⟩
  exact ⟨s, _, hh, ht, h, hlen, hclock, hr, ho, h2, withoutB_of h2⟩

/-- C98: what was signed with the secret key is `Signing.hash`. -/
theorem C98_what_is_signed (law : IdnaLaw E.idna) (hs : SortLaw E.sortBy)
    (hset : SetLaw E.keySet) (hsign : SignLaw E.crypto) (hhash : ∀ a b, E.hash a b ≠ []) (g : Signing E) (h : g.Made) :
    signWith g.request.signingKey g.hash.1 g.hash.2 = some g.output.signature.signatureData := by
  obtain ⟨e1, e2, e3, _⟩ := h.same law hs hset hsign hhash
  have h1 := (C14_reconstructed law hs hset _ _ h.headers h.requests _ _ _ h.run h.length _ _ h.request _ h.output).2
  have e4 := withoutB_unique h.read (withoutB_of h.read) h.original
  simp only [Signing.hash, Signing.input, signedInput, Signing.field, e1, e2, e3, ← e4]
  exact h1

theorem Signing.Made.field {g : Signing E} (h : g.Made) (law : IdnaLaw E.idna) (hs : SortLaw E.sortBy)
    (hset : SetLaw E.keySet) : ValidName g.field.name ∧ ValidBody g.field.body := by
  obtain ⟨h1, _, h2⟩ := C17_well_formed law hs hset _ _ h.headers h.requests _ _ _ h.run h.length _
    (List.mem_of_getElem? h.output)
  refine ⟨h1, ?_⟩
  unfold SigningOutput.toHeaderField at h2
  rw [← fieldBodyOk_iff]
  cases hb : fieldBodyOk (utf8 g.output.headerValue) with
  | true => exact hb
  | false => simp [hb] at h2

theorem Signing.Made.body_hash {g : Signing E} (h : g.Made) (law : IdnaLaw E.idna) (hs : SortLaw E.sortBy)
    (hset : SetLaw E.keySet) (hsign : SignLaw E.crypto) (hhash : ∀ a b, E.hash a b ≠ []) :
    E.hash (hashOf g.read.algorithm) (signedBody g.read g.chunks.flatten) = g.read.bodyHash := by
  obtain ⟨e1, e2, _, e4, e5⟩ := h.same law hs hset hsign hhash
  obtain ⟨_, k1, k2, k3, _⟩ := C36_fields law hs hset _ _ h.headers h.requests _ _ _ h.run h.length _ _ h.request _ h.output
  unfold signedBody
  rw [e1, e2, e4, e5]
  cases hb : g.request.bodyLength with
  | noLimit => obtain ⟨a, b⟩ := k1 hb; rw [a, b]
  | messageContent => obtain ⟨a, b⟩ := k2 hb; rw [a, b]; simp
  | exact n => obtain ⟨a, _, b⟩ := k3 n hb; rw [a, b]

/-- C98: let `made` be all signatures that the owner of a key has ever made with it, and let a
signature be verified successfully with the public key. Then the owner has made a signature of the
same meaning for the same signed content; or the inputs of the header hash of the message and of one
of these signatures are different and have the same hash; or the signed parts of the bodies are
different and have the same hash; or the key has accepted a signature of a hash that the owner never
signed. -/
theorem C98_authentic (law : IdnaLaw E.idna) (hs : SortLaw E.sortBy) (hset : SetLaw E.keySet)
    (hord : OrderLaw E.lookupOrder) (hsign : SignLaw E.crypto) (hhash : ∀ a b, E.hash a b ≠ [])
    (blank : BlankLaw E.idna) (made : Signing E → Prop) (hmade : ∀ g, made g → g.Made)
    {resolver : Resolver} {cfg : Config} {clock : Nat → Int} (T : TypedTimes cfg clock) {headers : List Field}
    (H : TypedHeaders headers) {chunks : List Bytes} {results : List VerificationResult} {asked : List Str}
    (run : Run E resolver cfg clock headers chunks results asked) (r : VerificationResult) (hr : r ∈ results)
    (hsuccess : r.status = .success) :
    ∃ f sig record key value original, headers[r.index]? = some f ∧ r.signature = some sig ∧
      r.keyRecord = some record ∧ publicKey E.crypto (keyTypeOf sig.algorithm) record.keyData = some key ∧
      FieldSignature E f value sig ∧ WithoutB value original ∧
      let alg := hashOf sig.algorithm
      let input := signedInput headers f original sig
      let part := signedBody sig chunks.flatten
      (∃ g, made g ∧ Unchanged g.headers headers g.chunks.flatten chunks.flatten g.field f g.read sig ∧
        SameMeaning { g.read with signatureData := sig.signatureData } sig) ∨
      (∃ g, made g ∧ hashOf g.read.algorithm = alg ∧ g.input ≠ input ∧ E.hash alg g.input = E.hash alg input) ∨
      (∃ g, made g ∧ hashOf g.read.algorithm = alg ∧ signedBody g.read g.chunks.flatten ≠ part ∧
        E.hash alg (signedBody g.read g.chunks.flatten) = E.hash alg part) ∨
      (verifyWith key alg (E.hash alg input) sig.signatureData = true ∧
        ∀ g, made g → g.hash ≠ (alg, E.hash alg input)) := by
  obtain ⟨f, sig, record, key, value, original, hf, e1, e2, S⟩ :=
    C40_success_sound ⟨law.toCaseLaw, hord, hset⟩ T run r hr hsuccess
  refine ⟨f, sig, record, key, value, original, hf, e1, e2, S.keyRead, S.signature, S.stripped, ?_⟩
  by_cases hg : ∃ g, made g ∧ g.hash = (hashOf sig.algorithm,
      E.hash (hashOf sig.algorithm) (signedInput headers f original sig))
  · obtain ⟨g, hg, hh⟩ := hg
    have G := hmade g hg
    simp only [Signing.hash, Prod.mk.injEq] at hh
    by_cases hi : g.input = signedInput headers f original sig
    · by_cases hp : g.read.bodyHash = sig.bodyHash ∧
          signedBody g.read g.chunks.flatten ≠ signedBody sig chunks.flatten
      · refine .inr (.inr (.inl ⟨g, hg, hh.1, hp.2, ?_⟩))
        have h1 := G.body_hash law hs hset hsign hhash
        rw [hh.1] at h1
        rw [h1, hp.1, S.body_hash]
      · have hu := unchanged_of_input (body := g.chunks.flatten) (body' := chunks.flatten) G.headers H
          (G.field law hs hset) (H f (List.mem_of_getElem? hf)) G.read S.signature G.original S.stripped hi
          fun _ _ h1 => Decidable.byContradiction fun h2 => hp ⟨h1, h2⟩
        exact .inl ⟨g, hg, hu, sameMeaning_of_unchanged blank G.read S.signature hu⟩
    · exact .inr (.inl ⟨g, hg, hh.1, hi, by rw [← hh.2, hh.1]⟩)
  · exact .inr (.inr (.inr ⟨S.verified, fun g hg' e => hg ⟨g, hg', e⟩⟩))

theorem testEnv_hash (a : HashAlg) (b : Bytes) : testEnv.hash a b ≠ [] := by simp [testEnv]

set_option maxRecDepth 100000 in
/-- Non-vacuity: a signature that was made for a message, and that is verified after other header
fields were added. -/
theorem test_authentic : BlankLaw testEnv.idna ∧ TypedTimes .default (fun _ => 1050) ∧ TypedHeaders secondHeader ∧
    ∃ (g : Signing testEnv) (results : List VerificationResult) (asked : List Str) (r : VerificationResult),
      g.Made ∧ g.headers = testHeaders ∧
      Run testEnv testResolver .default (fun _ => 1050) secondHeader testBody results asked ∧
      r ∈ results ∧ r.status = .success ∧ secondHeader[r.index]? = some g.field := by
  have T : TypedTimes .default (fun _ => 1050) := typed_default (by decide) _ rfl
  obtain ⟨H, _, h⟩ := test_hops
  have hlen : ∀ k, (codeBody k testBody.flatten).length < 2 ^ 64 := by intro k; cases k <;> decide
  obtain ⟨⟨results, asked, hrun⟩, hres⟩ := C95_hops_partial testEnv_idna testEnv_sort testEnv_set testEnv_order testEnv_sign
    testEnv_hash secondHeader H testBody hlen testResolver .default (fun _ => 1050) T 2 _ h (by decide)
  obtain ⟨r, hr, hi, hs⟩ := hres _ _ hrun
  obtain ⟨chunks, clock, out, i, q, o, h1, h2, h3, h4, h5, h6, h7, h8, h9, h10, h11⟩ := h
  have hdrop : TypedHeaders (secondHeader.drop 3) := fun f hf => H f (List.mem_of_mem_drop hf)
  obtain ⟨read, original, hm⟩ := C98_every_signature testEnv_idna testEnv_sort testEnv_set testEnv_sign testEnv_hash _ _
    hdrop h7 chunks clock out h1 (by rw [h2]; exact hlen) i h3 q h4 o h5 h8
  exact ⟨asciiIdna_blank, T, H, _, results, asked, r, hm, rfl, hrun, hr, hs, by rw [hi]; exact h6⟩

end Dkim
