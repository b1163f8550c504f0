import Verif.Proofs.FieldText

/-!
# A signature with many names (helpers for C113)
-/

namespace Dkim

open Spec

/-- A signature value that names the required field and `n` others, of fields that may not be added to the
message. -/
def manyNamesSig (n : Nat) : Str :=
  c!"v=1;a=rsa-sha256;d=a.b;s=s;bh=AQID;b=AQID;h=From" ++ (List.replicate n c!":b").flatten

/-- The tags. -/
def manyNamesTags (n : Nat) : List (Str × Str) :=
  [(c!"v", c!"1"), (c!"a", c!"rsa-sha256"), (c!"d", c!"a.b"), (c!"s", c!"s"), (c!"bh", c!"AQID"),
   (c!"b", c!"AQID"), (c!"h", c!"From" ++ (List.replicate n c!":b").flatten)]

theorem colonList_many (m : Str) (n : Nat) :
    ColonList (m :: List.replicate n c!"b") (m ++ (List.replicate n c!":b").flatten) := by
  induction n generalizing m with
  | zero => simpa using ColonList.one [] m [] (.inl rfl) (.inl rfl)
  | succ n ih =>
    have := ColonList.more [] m [] _ _ (.inl rfl) (.inl rfl) (ih c!"b")
    simpa [List.replicate_succ] using this

theorem mem_manyNamesSig {n : Nat} {c : Char} (h : c ∈ (List.replicate n c!":b").flatten) :
    c = ':' ∨ c = 'b' := by
  obtain ⟨l, hl, hc⟩ := List.mem_flatten.1 h
  rw [List.eq_of_mem_replicate hl] at hc
  simpa using hc

theorem tval_names (n : Nat) : Tval (c!"From" ++ (List.replicate n c!":b").flatten) := by
  refine ⟨by simp, ?_⟩
  intro c hc
  rcases List.mem_append.1 hc with hc | hc
  · simp at hc
    rcases hc with rfl | rfl | rfl | rfl <;> exact .inl (by decide)
  · rcases mem_manyNamesSig hc with rfl | rfl <;> exact .inl (by decide)

theorem specText_bare {n v : Str} (hn : TagName n) (hv : Tval v) : SpecText n v (n ++ '=' :: v) := by
  simpa using SpecText.value [] n [] [] v [] (.inl rfl) hn (.inl rfl) (.inl rfl) (.one v hv) (.inl rfl)

theorem listText_many (n : Nat) : ListText (manyNamesTags n) (manyNamesSig n) := by
  have t : ∀ c : Char, (97 ≤ c.toNat ∧ c.toNat ≤ 122) → TagName [c] := fun c hc =>
    ⟨c, [], rfl, .inr hc, by simp⟩
  have := ListText.last c!"h" _ _ (specText_bare (t 'h' (by decide)) (tval_names n))
  have v : ∀ s : Str, s ≠ [] → (∀ c ∈ s, 33 ≤ c.toNat ∧ c.toNat ≤ 126 ∧ c ≠ ';') → Tval s := fun s h1 h2 =>
    ⟨h1, fun c hc => .inl (h2 c hc)⟩
  have := ListText.more _ _ _ _ _
    (specText_bare (t 'b' (by decide)) (v c!"AQID" (by decide) (by decide))) this
  have := ListText.more _ _ _ _ _
    (specText_bare (n := c!"bh") ⟨'b', c!"h", rfl, by decide, by decide⟩ (v c!"AQID" (by decide) (by decide))) this
  have := ListText.more _ _ _ _ _
    (specText_bare (t 's' (by decide)) (v c!"s" (by decide) (by decide))) this
  have := ListText.more _ _ _ _ _
    (specText_bare (t 'd' (by decide)) (v c!"a.b" (by decide) (by decide))) this
  have := ListText.more _ _ _ _ _
    (specText_bare (t 'a' (by decide)) (v c!"rsa-sha256" (by decide) (by decide))) this
  exact ListText.more _ _ _ _ _
    (specText_bare (t 'v' (by decide)) (v c!"1" (by decide) (by decide))) this

theorem length_manyNamesSig (n : Nat) : (utf8 (manyNamesSig n)).length = 48 + 2 * n := by
  have h : (utf8 (List.replicate n c!":b").flatten).length = 2 * n := by
    induction n with
    | zero => rfl
    | succ n ih =>
      rw [List.replicate_succ, List.flatten_cons, utf8_append, List.length_append, ih,
        show (utf8 c!":b").length = 2 from rfl]
      omega
  rw [manyNamesSig, utf8_append, List.length_append, h]
  rfl

end Dkim
