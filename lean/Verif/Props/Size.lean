import Verif.Proofs.Size

/-!
# Property C66: canonicalization does not amplify
-/

namespace Dkim

open Spec

/-- C66: at every point of a run, no more bytes of the canonical body have been written
than bytes of the body were read. -/
theorem C66_body_streaming (kind : CanonAlg) (chunks : List Bytes) (c : BodyCanon) (out : Bytes)
    (h : (BodyCanon.new kind).chunks chunks = some (c, out)) : out.length ≤ chunks.flatten.length := by
  have := chunks_size h
  have e : (BodyCanon.new kind).pending = 0 := rfl
  omega

/-- C66: the canonical body is at most two bytes longer than the body. -/
theorem C66_body (kind : CanonAlg) (chunks : List Bytes) (out : Bytes) (h : canonBody kind chunks = some out) :
    out.length ≤ chunks.flatten.length + 2 := by
  unfold canonBody at h
  cases h1 : (BodyCanon.new kind).chunks chunks with
  | none => rw [h1] at h; cases h
  | some p =>
    obtain ⟨c, o⟩ := p
    rw [h1] at h
    simp only at h
    cases h2 : c.finish with
    | none => rw [h2] at h; cases h
    | some o2 =>
      rw [h2] at h
      simp only [Option.some.injEq] at h
      subst h
      have g1 := chunks_size h1
      have g2 := finish_size h2
      have e : (BodyCanon.new kind).pending = 0 := rfl
      rw [List.length_append]
      omega

/-- C66: the canonical form of a header field is never longer than name, colon and
value. -/
theorem C66_field (alg : CanonAlg) (name : Str) (value : Bytes) :
    (canonHeader alg name value).length ≤ (utf8 name).length + 1 + value.length :=
  canonHeader_size alg name value

/-- C66: whatever is selected, and however often, the canonicalized header data is never
longer than the header. -/
theorem C66_headers (alg : CanonAlg) (headers : List Field) (selected : List Str) :
    (canonHeaders alg headers selected).length ≤ (headers.map fieldSize).sum := by
  have h := canonHeadersLoop_size alg (enumFrom 0 headers.reverse) [] selected
  have e : ((enumFrom 0 headers.reverse).filter fun q => !([] : List Nat).contains q.1) =
      enumFrom 0 headers.reverse := List.filter_eq_self.2 (by simp)
  rw [e] at h
  have e2 : ((enumFrom 0 headers.reverse).map fun q => fieldSize q.2) = (headers.map fieldSize).reverse := by
    rw [← List.map_reverse, ← enumFrom_map_snd 0 headers.reverse, List.map_map, enumFrom_map_snd]
    rfl
  rw [e2, List.sum_reverse] at h
  exact h

/-- Non-vacuity: the bounds are reached. -/
example : canonBody .simple [b!"a\r\nb"] = some b!"a\r\nb\r\n" ∧
    (canonHeaders .relaxed [⟨c!"A", b!"x"⟩, ⟨c!"b", b!"y"⟩] [c!"a", c!"A", c!"B", c!"a"]).length =
      ([⟨c!"A", b!"x"⟩, ⟨c!"b", b!"y"⟩].map fieldSize).sum := by decide

end Dkim
