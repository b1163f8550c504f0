import Verif.Proofs.Values
import Verif.Proofs.Record

/-!
# What the Quoted-Printable decoder accepts: helper lemmas for C68
-/

namespace Dkim

open Spec

theorem inserted_opt {f s t : Str} {c : Char} (hf : OptFws f) (h : Inserted s t) : Inserted (c :: s) (f ++ c :: t) := by
  rcases hf with rfl | hf
  · exact .keep c s t h
  · exact .insert f c s t hf h

theorem inserted_run_append {run s t : Str} (h : Inserted s t) : Inserted (run ++ s) (run ++ t) := by
  induction run with
  | nil => exact h
  | cons c run ih => exact .keep c _ _ ih

theorem qpBytes_run {run s : Str} {bs : Bytes} (hr : ∀ c ∈ run, isDkimSafe c = true) (h : QpBytes s bs) :
    QpBytes (run ++ s) (utf8 run ++ bs) := by
  induction run with
  | nil => simpa [utf8] using h
  | cons c run ih =>
    have := QpBytes.char c _ _ ((dkimSafe_iff c).1 (hr c (by simp))) (ih (fun d hd => hr d (by simp [hd])))
    rw [utf8_single] at this
    rw [utf8_cons]
    simpa using this

theorem stripHexdig_some {t r : Str} {c : Char} (h : stripHexdig t = some (r, c)) :
    isAsciiHexdigit c = true ∧ ∃ f, OptFws f ∧ t = f ++ c :: r := by
  obtain ⟨f, hf, e⟩ := skipFws_some t
  unfold stripHexdig at h
  cases hs : skipFws t with
  | nil => rw [hs] at h; cases h
  | cons d r' =>
    rw [hs] at h
    simp only at h
    rcases ite_eq_cases h with ⟨hd, h⟩ | ⟨_, h⟩
    · simp only [Option.some.injEq, Prod.mk.injEq] at h
      obtain ⟨rfl, rfl⟩ := h
      exact ⟨hd, f, hf, by rw [e, hs]⟩
    · cases h

theorem stripHexOctet_ne (t : Str) : stripHexOctet t ≠ none := by
  unfold stripHexOctet
  cases h1 : stripHexdig t with
  | none => simp
  | some p =>
    obtain ⟨r, c⟩ := p
    simp only
    cases h2 : stripHexdig r with
    | none => simp
    | some q =>
      obtain ⟨r2, d⟩ := q
      obtain ⟨x, hx⟩ := (hexVal_iff c).2 (stripHexdig_some h1).1
      obtain ⟨y, hy⟩ := (hexVal_iff d).2 (stripHexdig_some h2).1
      simp [u8FromDigits, hx, hy]

theorem stripHexOctet_some {t r : Str} {b : UInt8} (h : stripHexOctet t = some (some (r, b))) :
    ∃ f g c d x y, OptFws f ∧ OptFws g ∧ t = f ++ c :: (g ++ d :: r) ∧ HexVal c x ∧ HexVal d y ∧
      b = UInt8.ofNat (x * 16 + y) := by
  unfold stripHexOctet at h
  cases h1 : stripHexdig t with
  | none => rw [h1] at h; cases h
  | some p =>
    obtain ⟨r1, c⟩ := p
    rw [h1] at h
    simp only at h
    cases h2 : stripHexdig r1 with
    | none => rw [h2] at h; cases h
    | some q =>
      obtain ⟨r2, d⟩ := q
      rw [h2] at h
      obtain ⟨hc, f, hf, e1⟩ := stripHexdig_some h1
      obtain ⟨hd, g, hg, e2⟩ := stripHexdig_some h2
      obtain ⟨x, hx⟩ := (hexVal_iff c).2 hc
      obtain ⟨y, hy⟩ := (hexVal_iff d).2 hd
      simp only [u8FromDigits, hx, hy, Option.some.injEq, Prod.mk.injEq] at h
      obtain ⟨rfl, rfl⟩ := h
      exact ⟨f, g, c, d, x, y, hf, hg, by rw [e1, e2], (hexVal_spec c x).1 hx, (hexVal_spec d y).1 hy, rfl⟩

/-- Text that is empty or starts with the first character of `s`. -/
def Starts (s t : Str) : Prop := (s = [] ∧ t = []) ∨ ∃ c s' t', s = c :: s' ∧ t = c :: t' ∧ Inserted s' t'

theorem qpDecodeLoop_ok (n : Nat) (st : Bool) (t : Str) (res out : Bytes)
    (h : qpDecodeLoop n st t res = .ok out) :
    ∃ s bs, Inserted s t ∧ QpBytes s bs ∧ out = res ++ bs ∧ (st = true → Starts s t) := by
  induction n generalizing st t res with
  | zero => cases h
  | succ n ih =>
    by_cases he : ∃ r, t = '=' :: r
    · obtain ⟨r, rfl⟩ := he
      rw [qpDecodeLoop.eq_def] at h
      simp only at h
      cases h1 : stripHexOctet r with
      | none => rw [h1] at h; cases h
      | some o =>
        cases o with
        | none => rw [h1] at h; cases h
        | some p =>
          obtain ⟨r2, b⟩ := p
          rw [h1] at h
          obtain ⟨s, bs, g1, g2, g3, _⟩ := ih _ _ _ h
          obtain ⟨f, g, c, d, x, y, hf, hg, e, hc, hd, rfl⟩ := stripHexOctet_some h1
          have hi : Inserted (c :: d :: s) r := by
            rw [e]
            exact inserted_opt hf (inserted_opt hg g1)
          exact ⟨'=' :: c :: d :: s, _, .keep _ _ _ hi, .hex c d x y s bs hc hd g2, by rw [g3]; simp,
            fun _ => .inr ⟨_, _, _, rfl, rfl, hi⟩⟩
    · rw [qpDecodeLoop_other _ _ _ _ (fun r e => he ⟨r, e⟩)] at h
      cases h1 : stripDkimSafe t with
      | some r =>
        rw [h1] at h
        simp only at h
        obtain ⟨s, bs, g1, g2, g3, _⟩ := ih _ _ _ h
        unfold stripDkimSafe at h1
        cases t with
        | nil => cases h1
        | cons c t =>
          simp only at h1
          rcases ite_eq_cases h1 with ⟨hc, h1⟩ | ⟨_, h1⟩
          · injection h1 with h1
            have hrun : ∀ d ∈ c :: t.takeWhile isDkimSafe, isDkimSafe d = true := by
              intro d hd
              rcases List.mem_cons.1 hd with rfl | hd
              · exact hc
              · exact takeWhile_forall _ _ d hd
            have et : c :: t = (c :: t.takeWhile isDkimSafe) ++ r := by
              rw [← h1, List.cons_append, List.takeWhile_append_dropWhile]
            have es : stripSuffix (c :: t) r = c :: t.takeWhile isDkimSafe := by
              rw [et, stripSuffix_append]
            rw [es] at g3
            refine ⟨(c :: t.takeWhile isDkimSafe) ++ s, _, ?_, qpBytes_run hrun g2, by rw [g3]; simp, ?_⟩
            · rw [et]
              exact inserted_run_append g1
            · intro _
              refine .inr ⟨c, t.takeWhile isDkimSafe ++ s, t, rfl, rfl, ?_⟩
              have : t = t.takeWhile isDkimSafe ++ r := by
                rw [← h1, List.takeWhile_append_dropWhile]
              rw [this]
              have := inserted_run_append (run := t.takeWhile isDkimSafe) g1
              rw [← h1, List.takeWhile_append_dropWhile]
              rw [← h1, List.takeWhile_append_dropWhile] at this
              exact this
          · cases h1
      | none =>
        rw [h1] at h
        simp only at h
        cases h2 : stripFws t with
        | some r =>
          rw [h2] at h
          simp only at h
          cases st with
          | true => cases h
          | false =>
            simp only [Bool.false_eq_true, if_false] at h
            obtain ⟨s, bs, g1, g2, g3, g4⟩ := ih _ _ _ h
            obtain ⟨f, hf, rfl⟩ := stripFws_some h2
            refine ⟨s, bs, ?_, g2, g3, nofun⟩
            rcases g4 rfl with ⟨rfl, rfl⟩ | ⟨c, s', t', rfl, rfl, hi⟩
            · rw [List.append_nil]
              exact .final f hf
            · exact .insert f c _ _ hf hi
        | none =>
          rw [h2] at h
          simp only at h
          cases t with
          | nil =>
            simp at h
            subst h
            exact ⟨[], [], .nil, .nil, by simp, fun _ => .inl ⟨rfl, rfl⟩⟩
          | cons c t => simp at h

theorem qpDecodeLoop_noPanic (n : Nat) (st : Bool) (t : Str) (res : Bytes) :
    qpDecodeLoop n st t res ≠ .panic := by
  induction n generalizing st t res with
  | zero => simp [qpDecodeLoop]
  | succ n ih =>
    by_cases he : ∃ r, t = '=' :: r
    · obtain ⟨r, rfl⟩ := he
      rw [qpDecodeLoop.eq_def]
      simp only
      cases h1 : stripHexOctet r with
      | none => exact absurd h1 (stripHexOctet_ne r)
      | some o =>
        cases o with
        | none => simp
        | some p => exact ih _ _ _
    · rw [qpDecodeLoop_other _ _ _ _ (fun r e => he ⟨r, e⟩)]
      cases h1 : stripDkimSafe t with
      | some r => exact ih _ _ _
      | none =>
        simp only
        cases h2 : stripFws t with
        | some r =>
          cases st with
          | true => simp
          | false => simpa using ih true r res
        | none =>
          cases t <;> simp

theorem qpBytes_clean {s : Str} {bs : Bytes} (h : QpBytes s bs) : Clean s := by
  induction h with
  | nil => simp [Clean]
  | char c s bs hc _ ih =>
    intro d hd
    rcases List.mem_cons.1 hd with rfl | hd
    · exact isDkimSafe_noFws ((dkimSafe_iff d).2 hc)
    · exact ih d hd
  | hex a b x y s bs ha hb _ ih =>
    intro d hd
    simp only [List.mem_cons] at hd
    rcases hd with rfl | rfl | rfl | hd
    · exact eq_noFws
    · exact hexdigit_noFws ((hexVal_iff _).1 ⟨x, (hexVal_spec _ _).2 ha⟩)
    · exact hexdigit_noFws ((hexVal_iff _).1 ⟨y, (hexVal_spec _ _).2 hb⟩)
    · exact ih d hd

end Dkim
