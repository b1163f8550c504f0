import Verif.Spec.Memory
import Verif.Proofs.Size

/-!
# How much of a body is in memory (helpers for C110)
-/

namespace Dkim

open Spec

/-- The empty lines counted are at the end of what was read. -/
def BodyCanon.Held (c : BodyCanon) (read : Bytes) : Prop :=
  c.emptyLines ≤ blankAtEnd read ∧ (c.state = .byte → c.emptyLines = 0)

theorem blankAtEnd_snoc (read : Bytes) (b : UInt8) :
    blankAtEnd (read ++ [b]) = if white b then blankAtEnd read + (if b = 10 then 1 else 0) else 0 := by
  unfold blankAtEnd
  rw [List.reverse_append, List.reverse_singleton, List.singleton_append, List.takeWhile_cons]
  split
  · rw [List.count_cons]
    simp
  · rfl

theorem stepSimple_held {c c' : BodyCanon} {b : UInt8} {out read : Bytes}
    (h : c.stepSimple b = some (c', out)) (hh : c.Held read) : c'.Held (read ++ [b]) := by
  obtain ⟨k, s, bl, e⟩ := c
  obtain ⟨h1, h2⟩ := hh
  unfold BodyCanon.Held
  rw [blankAtEnd_snoc]
  unfold BodyCanon.stepSimple at h
  simp only at h1 h2
  cases s <;> simp only [BodyCanon.flush] at h
  case wsp => cases h
  case wspCr => cases h
  all_goals
    repeat' (split at h)
    all_goals
      simp only [Option.some.injEq, Prod.mk.injEq] at h
      obtain ⟨rfl, rfl⟩ := h
      simp_all [white, CR, LF]
  all_goals omega

theorem stepRelaxed_held {c c' : BodyCanon} {b : UInt8} {out read : Bytes}
    (h : c.stepRelaxed b = (c', out)) (hh : c.Held read) : c'.Held (read ++ [b]) := by
  obtain ⟨k, s, bl, e⟩ := c
  obtain ⟨h1, h2⟩ := hh
  unfold BodyCanon.Held
  rw [blankAtEnd_snoc]
  unfold BodyCanon.stepRelaxed at h
  simp only at h1 h2
  cases s <;> simp only [BodyCanon.flush] at h
  all_goals
    repeat' (split at h)
    all_goals
      simp only [Prod.mk.injEq] at h
      obtain ⟨rfl, rfl⟩ := h
      simp_all [white, isWspByte, CR, LF, SP, TAB]
  all_goals
    first
    | omega
    | (split <;> first | omega | (exfalso; simp_all))

theorem step_held {c c' : BodyCanon} {b : UInt8} {out read : Bytes}
    (h : c.step b = some (c', out)) (hh : c.Held read) : c'.Held (read ++ [b]) := by
  unfold BodyCanon.step at h
  split at h
  · exact stepSimple_held h hh
  · exact stepRelaxed_held (Option.some.inj h) hh

theorem chunk_held {c c' : BodyCanon} {bs out read : Bytes} (h : c.chunk bs = some (c', out))
    (hh : c.Held read) : c'.Held (read ++ bs) := by
  induction bs generalizing c out read with
  | nil =>
    simp only [BodyCanon.chunk, Option.some.injEq, Prod.mk.injEq] at h
    obtain ⟨rfl, rfl⟩ := h
    simpa using hh
  | cons b bs ih =>
    rw [BodyCanon.chunk] at h
    cases h1 : c.step b with
    | none => rw [h1] at h; cases h
    | some p =>
      obtain ⟨c1, o1⟩ := p
      rw [h1] at h
      simp only at h
      cases h2 : c1.chunk bs with
      | none => rw [h2] at h; cases h
      | some q =>
        obtain ⟨c2, o2⟩ := q
        rw [h2] at h
        simp only [Option.some.injEq, Prod.mk.injEq] at h
        obtain ⟨rfl, rfl⟩ := h
        have := ih h2 (step_held h1 hh)
        rwa [List.append_assoc, List.singleton_append] at this

theorem chunks_held {c c' : BodyCanon} {chs : List Bytes} {out read : Bytes}
    (h : c.chunks chs = some (c', out)) (hh : c.Held read) : c'.Held (read ++ chs.flatten) := by
  induction chs generalizing c out read with
  | nil =>
    simp only [BodyCanon.chunks, Option.some.injEq, Prod.mk.injEq] at h
    obtain ⟨rfl, rfl⟩ := h
    simpa using hh
  | cons ch chs ih =>
    rw [BodyCanon.chunks] at h
    cases h1 : c.chunk ch with
    | none => rw [h1] at h; cases h
    | some p =>
      obtain ⟨c1, o1⟩ := p
      rw [h1] at h
      simp only at h
      cases h2 : c1.chunks chs with
      | none => rw [h2] at h; cases h
      | some q =>
        obtain ⟨c2, o2⟩ := q
        rw [h2] at h
        simp only [Option.some.injEq, Prod.mk.injEq] at h
        obtain ⟨rfl, rfl⟩ := h
        have := ih h2 (chunk_held h1 hh)
        rwa [List.append_assoc, ← List.flatten_cons] at this

theorem new_held (kind : CanonAlg) : (BodyCanon.new kind).Held [] :=
  ⟨Nat.zero_le _, fun _ => rfl⟩

theorem pending_le (c : BodyCanon) : c.pending ≤ 2 * c.emptyLines + 2 := by
  unfold BodyCanon.pending
  split <;> omega

/-- What is pending after a run. -/
theorem pending_of_run {kind : CanonAlg} {before : List Bytes} {c : BodyCanon} {out : Bytes}
    (h : (BodyCanon.new kind).chunks before = some (c, out)) :
    c.pending ≤ 2 * blankAtEnd before.flatten + 2 := by
  have h1 := (chunks_held h (new_held kind)).1
  rw [List.nil_append] at h1
  have h2 := pending_le c
  omega

/-- Empty lines are only counted. -/
theorem chunks_crlf (k : CanonAlg) (s : CanonState) (hs : s = .init ∨ s = .crlf) (n m : Nat) :
    ∃ s', (s' = .init ∨ s' = .crlf) ∧
      BodyCanon.chunks ⟨k, s, true, m⟩ (List.replicate n [13, 10]) = some (⟨k, s', true, m + n⟩, []) := by
  induction n generalizing s m with
  | zero => exact ⟨s, hs, rfl⟩
  | succ n ih =>
    obtain ⟨s', h1, h2⟩ := ih .crlf (Or.inr rfl) (m + 1)
    refine ⟨s', h1, ?_⟩
    have e : BodyCanon.chunk ⟨k, s, true, m⟩ [13, 10] = some (⟨k, .crlf, true, m + 1⟩, []) := by
      rcases hs with rfl | rfl <;> cases k <;> rfl
    rw [List.replicate_succ, BodyCanon.chunks, e]
    simp only [h2]
    rw [Nat.add_right_comm, Nat.add_assoc]
    rfl

end Dkim
