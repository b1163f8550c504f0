import Verif.Proofs.RoundTrip

/-!
# What is read from `z=`: helper lemmas for C15 and C37
-/

namespace Dkim

open Spec

theorem qpBytes_unique {s : Str} {a b : Bytes} (ha : QpBytes s a) (hb : QpBytes s b) : a = b := by
  have h1 := (qpRef_iff s a).2 ha
  rw [(qpRef_iff s b).2 hb] at h1
  injection h1 with h1
  exact h1.symm

theorem Spec.CopiedText.ne_nil {s : Str} {hs : List (Str × Bytes)} (h : CopiedText s hs) : hs ≠ [] := by
  cases h <;> simp

theorem Spec.CopiedText.join {s t : Str} {hs ks : List (Str × Bytes)} (h : CopiedText s hs) (h' : CopiedText t ks) :
    CopiedText (s ++ '|' :: t) (hs ++ ks) := by
  induction h with
  | one p n b h1 h2 h3 => exact .more p n b t ks h1 h2 h3 h'
  | more p n b s hs h1 h2 h3 _ ih =>
    have := CopiedText.more p n b _ _ h1 h2 h3 ih
    simpa using this

theorem first_bar {p s a b : Str} (hp : '|' ∉ p) (h : p ++ '|' :: s = a ++ '|' :: b) :
    (a = p ∧ b = s) ∨ ∃ a', a = p ++ '|' :: a' ∧ s = a' ++ '|' :: b := by
  rw [List.append_eq_append_iff] at h
  rcases h with ⟨c, h1, h2⟩ | ⟨c, h1, h2⟩
  · cases c with
    | nil => left; simp at h1 h2; exact ⟨h1, h2.symm⟩
    | cons x c =>
      injection h2 with h2 h3
      subst h2
      exact .inr ⟨c, h1, h3⟩
  · cases c with
    | nil => left; simp at h1 h2; exact ⟨h1.symm, h2⟩
    | cons x c =>
      injection h2 with h2 h3
      subst h2
      exact absurd (by rw [h1]; simp) hp

theorem Spec.CopiedText.halves {s : Str} {hs : List (Str × Bytes)} (h : CopiedText s hs) :
    ∀ a b, s = a ++ '|' :: b → ∃ h1 h2, hs = h1 ++ h2 ∧ CopiedText a h1 ∧ CopiedText b h2 := by
  induction h with
  | one p n b h1 h2 h3 =>
    rintro a c rfl
    exact absurd (by simp) h1
  | more p n b s hs h1 h2 h3 hh ih =>
    intro a c e
    rcases first_bar h1 e with ⟨rfl, rfl⟩ | ⟨a', rfl, e'⟩
    · exact ⟨[(n, b)], hs, rfl, .one _ _ _ h1 h2 h3, hh⟩
    · obtain ⟨k1, k2, rfl, g1, g2⟩ := ih a' c e'
      exact ⟨(n, b) :: k1, k2, rfl, .more _ _ _ _ _ h1 h2 h3 g1, g2⟩

theorem copied_bar_iff {a b : Str} {hs : List (Str × Bytes)} :
    CopiedText (a ++ '|' :: b) hs ↔ ∃ h1 h2, hs = h1 ++ h2 ∧ CopiedText a h1 ∧ CopiedText b h2 :=
  ⟨fun h => h.halves a b rfl, fun ⟨_, _, e, h1, h2⟩ => e ▸ h1.join h2⟩

theorem copied_noBar_iff {p : Str} {hs : List (Str × Bytes)} (hp : '|' ∉ p) :
    CopiedText p hs ↔ ∃ n b, hs = [(n, b)] ∧ ValidName n ∧ QpBytes (unfws p) (utf8 n ++ 58 :: b) := by
  constructor
  · intro h
    cases h with
    | one p n b h1 h2 h3 => exact ⟨n, b, rfl, h2, h3⟩
    | more p n b s hs h1 h2 h3 _ => exact absurd (by simp) hp
  · rintro ⟨n, b, rfl, h1, h2⟩
    exact .one _ _ _ hp h1 h2

theorem unfws_bar (a b : Str) : unfws (a ++ '|' :: b) = unfws a ++ '|' :: unfws b := by
  rw [unfws_append]
  rfl

theorem bar_unfws {s : Str} : '|' ∈ unfws s ↔ '|' ∈ s := by
  unfold unfws
  rw [List.mem_filter]
  exact ⟨fun h => h.1, fun h => ⟨h, by decide⟩⟩

theorem unfws_unfws (s : Str) : unfws (unfws s) = unfws s := by
  unfold unfws
  rw [List.filter_filter]
  simp

theorem split_bar {s : Str} (h : '|' ∈ s) : ∃ a b, s = a ++ '|' :: b ∧ '|' ∉ a := by
  induction s with
  | nil => cases h
  | cons c s ih =>
    by_cases e : c = '|'
    · subst e; exact ⟨[], s, rfl, by simp⟩
    · obtain ⟨a, b, rfl, h2⟩ := ih (by simpa [Ne.symm e] using h)
      exact ⟨c :: a, b, rfl, by simp [Ne.symm e, h2]⟩

/-- Whitespace has no meaning. -/
theorem copied_unfws {s : Str} {hs : List (Str × Bytes)} : CopiedText (unfws s) hs ↔ CopiedText s hs := by
  generalize hn : s.length = k
  induction k using Nat.strongRecOn generalizing s hs with
  | ind k ih =>
    by_cases hb : '|' ∈ s
    · obtain ⟨a, b, rfl, ha⟩ := split_bar hb
      rw [unfws_bar, copied_bar_iff, copied_bar_iff]
      simp only [List.length_append, List.length_cons] at hn
      simp only [ih a.length (by omega) rfl, ih b.length (by omega) rfl]
    · rw [copied_noBar_iff hb, copied_noBar_iff (fun h => hb (bar_unfws.1 h)), unfws_unfws]

theorem copied_congr {s t : Str} {hs : List (Str × Bytes)} (h : unfws s = unfws t) :
    CopiedText s hs ↔ CopiedText t hs := by
  rw [← copied_unfws, h, copied_unfws]

theorem colon_notHex {n : Nat} : ¬ HexVal ':' n := by
  unfold HexVal
  have : (':').toNat = 58 := rfl
  rintro (h | h | h) <;> omega

/-- A colon separates Quoted-Printable text. -/
theorem qpBytes_colon {s : Str} {x : Bytes} (h : QpBytes s x) : ∀ n t, s = n ++ ':' :: t →
    ∃ y v, x = y ++ 58 :: v ∧ QpBytes n y ∧ QpBytes t v := by
  induction h with
  | nil => intro n t e; simp at e
  | char c s bs hc hq ih =>
    intro n t e
    cases n with
    | nil =>
      injection e with e1 e2
      subst e1
      subst e2
      exact ⟨[], bs, by rfl, .nil, hq⟩
    | cons d n =>
      injection e with e1 e2
      subst e1
      obtain ⟨y, v, rfl, h1, h2⟩ := ih n t e2
      exact ⟨utf8 [c] ++ y, v, by simp, .char _ _ _ hc h1, h2⟩
  | hex a b xa xb s bs ha hb hq ih =>
    intro n t e
    match n, e with
    | [], e => injection e with e1 _; exact absurd e1 (by decide)
    | [d], e =>
      injection e with _ e2
      injection e2 with e2 _
      subst e2
      exact absurd ha colon_notHex
    | [d, d2], e =>
      injection e with _ e2
      injection e2 with _ e2
      injection e2 with e2 _
      subst e2
      exact absurd hb colon_notHex
    | d :: d2 :: d3 :: n, e =>
      injection e with e1 e2
      injection e2 with e2 e3
      injection e3 with e3 e4
      subst e1 e2 e3
      obtain ⟨y, v, rfl, h1, h2⟩ := ih n t e4
      exact ⟨_ :: y, v, rfl, .hex _ _ _ _ _ _ ha hb h1, h2⟩

theorem qpBytes_colon_single : QpBytes [':'] [58] := by
  have : utf8 [':'] ++ [] = [58] := by decide
  rw [← this]
  exact .char _ _ _ (by unfold dkimSafe; decide) .nil

theorem name_noColon {n : Str} (h : ValidName n) : (58 : UInt8) ∉ utf8 n := by
  rw [utf8_ascii n (fun c hc => by have := h.2 c hc; omega)]
  intro hm
  obtain ⟨c, hc, e⟩ := List.mem_map.1 hm
  have hv := h.2 c hc
  have : c.toNat = 58 := by
    have := congrArg UInt8.toNat e
    rw [UInt8.toNat_ofNat_of_lt' (show c.toNat < 256 by omega)] at this
    exact this
  refine hv.2.2 (Char.toNat_inj.1 ?_)
  rw [this]
  rfl

/-- A copied field with a name that is not encoded. -/
theorem copied_piece_iff {n t : Str} {v : Bytes} (hn : Clean n) (ht : Clean t) (hb : '|' ∉ t) (hq : QpBytes t v)
    {hs : List (Str × Bytes)} : CopiedText (n ++ ':' :: t) hs ↔
      ∃ first m b, CopiedText (n ++ [':']) (first ++ [(m, b)]) ∧ hs = first ++ [(m, b ++ v)] := by
  generalize hk : n.length = k
  induction k using Nat.strongRecOn generalizing n hs with
  | ind k ih =>
    by_cases hbar : '|' ∈ n
    · obtain ⟨p, n', rfl, hp⟩ := split_bar hbar
      simp only [List.length_append, List.length_cons] at hk
      rw [List.append_assoc, List.append_assoc, List.cons_append, List.cons_append, copied_bar_iff]
      have hn' : Clean n' := fun c hc => hn c (by simp [hc])
      simp only [ih n'.length (by omega) hn' rfl]
      constructor
      · rintro ⟨h1, h2, rfl, g1, first, m, b, g2, rfl⟩
        refine ⟨h1 ++ first, m, b, ?_, by simp⟩
        rw [List.append_assoc]
        exact g1.join g2
      · rintro ⟨first, m, b, g, rfl⟩
        obtain ⟨h1, h2, e, g1, g2⟩ := copied_bar_iff.1 g
        have hne := g2.ne_nil
        obtain ⟨f2, x, rfl⟩ : ∃ f2 x, h2 = f2 ++ [x] :=
          ⟨h2.dropLast, h2.getLast hne, (List.dropLast_concat_getLast hne).symm⟩
        rw [← List.append_assoc] at e
        obtain ⟨e1, e2⟩ := List.append_inj' e rfl
        injection e2 with e2
        subst e1
        subst e2
        exact ⟨h1, f2 ++ [(m, b ++ v)], by simp, g1, f2, m, b, g2, rfl⟩
    · have hcl : Clean [':'] := by
        intro c hc
        rw [List.mem_singleton.1 hc]
        rintro (h | h | h | h) <;> exact absurd h (by decide)
      have u1 : unfws (n ++ ':' :: t) = n ++ ':' :: t := by
        refine unfws_of_clean ?_
        intro c hc
        rcases List.mem_append.1 hc with hc | hc
        · exact hn c hc
        · rcases List.mem_cons.1 hc with hc | hc
          · exact hcl c (by simp [hc])
          · exact ht c hc
      have u2 : unfws (n ++ [':']) = n ++ [':'] := by
        refine unfws_of_clean ?_
        intro c hc
        rcases List.mem_append.1 hc with hc | hc
        · exact hn c hc
        · exact hcl c hc
      rw [copied_noBar_iff (by simp [hbar, hb])]
      simp only [copied_noBar_iff (p := n ++ [':']) (by simp [hbar]), u1, u2]
      constructor
      · rintro ⟨m, b, rfl, h1, h2⟩
        obtain ⟨y, v', e, g1, g2⟩ := qpBytes_colon h2 n t rfl
        have := qpBytes_unique hq g2
        subst this
        have hm := name_noColon h1
        have hy : QpBytes (n ++ [':']) (y ++ [58]) := qpBytes_append g1 qpBytes_colon_single
        rw [List.append_eq_append_iff] at e
        rcases e with ⟨c, e1, e2⟩ | ⟨c, e1, e2⟩
        · cases c with
          | nil =>
            simp at e1 e2
            subst e1
            exact ⟨[], m, [], ⟨m, [], rfl, h1, hy⟩, by simp [e2]⟩
          | cons x c =>
            injection e2 with e2 e3
            subst e2
            refine ⟨[], m, c ++ [58], ⟨m, c ++ [58], rfl, h1, ?_⟩, by simp [e3]⟩
            rw [e1] at hy
            simpa using hy
        · cases c with
          | nil =>
            simp at e1 e2
            subst e1
            exact ⟨[], m, [], ⟨m, [], rfl, h1, hy⟩, by simp [e2]⟩
          | cons x c =>
            injection e2 with e2 e3
            subst e2
            exact absurd (by rw [e1]; simp) hm
      · rintro ⟨first, m, b, ⟨m', b', e, g1, g2⟩, rfl⟩
        cases first with
        | cons x l => simp at e
        | nil =>
          simp at e
          obtain ⟨rfl, rfl⟩ := e
          refine ⟨m, b ++ v, rfl, g1, ?_⟩
          have := qpBytes_append g2 hq
          simpa using this

theorem zPiece_iff {brk p : Str} {ascii : Bool} {h : Str × Bytes} (hbrk : Fws brk)
    (hp : ZPiece brk ascii h p) (hn : ValidName h.1 ∧ ';' ∉ h.1) {hs : List (Str × Bytes)} :
    CopiedText p hs ↔ ∃ first m b, CopiedText (h.1 ++ [':']) (first ++ [(m, b)]) ∧
      hs = first ++ [(m, b ++ h.2)] := by
  cases hp with
  | mk n v t ht =>
    have hq := qpEncode_text v (some '|') ascii
    have hc : Clean n := valChar_clean (validName_valChars hn.1 hn.2)
    have ht2 : Clean (qpEncode v (some '|') ascii) := valChar_clean (qpEncode_valChars _ _ _)
    have e : unfws (n ++ ':' :: t) = unfws (n ++ ':' :: qpEncode v (some '|') ascii) := by
      have e1 := unfws_append (n ++ [':']) t
      have e2 := unfws_append (n ++ [':']) (qpEncode v (some '|') ascii)
      rw [unfws_folded hbrk ht ht2] at e1
      rw [unfws_of_clean ht2] at e2
      simpa using e1.trans e2.symm
    rw [copied_congr e]
    exact copied_piece_iff hc ht2 (qpText_noSpecial hq (by decide) (by decide))
      (qpText_qpBytes (fun _ h => (qpSafe_safe h).1) hq)

theorem zRest_iff {brk t : Str} {ascii : Bool} {hs : List (Str × Bytes)} (hbrk : Fws brk)
    (h : ZRest brk ascii hs t) (hn : ∀ h ∈ hs, ValidName h.1 ∧ ';' ∉ h.1) {q : Str} {rs : List (Str × Bytes)} :
    CopiedText (q ++ t) rs ↔ ∃ r1 r2, rs = r1 ++ r2 ∧ CopiedText q r1 ∧ ReadCopies hs r2 := by
  have opt : ∀ br, br = [] ∨ br = brk → unfws br = [] := by
    rintro br (rfl | rfl)
    · rfl
    · exact unfws_fws hbrk
  induction h generalizing q rs with
  | nil =>
    rw [List.append_nil]
    constructor
    · intro h
      exact ⟨rs, [], by simp, h, .nil⟩
    · rintro ⟨r1, r2, rfl, h, h2⟩
      cases h2
      simpa using h
  | cons br br2 h hs p t hb1 hb2 hp _ ih =>
    have ih := fun q rs => @ih (fun m hm => hn m (List.mem_cons_of_mem _ hm)) q rs
    have e : q ++ (br ++ '|' :: br2 ++ p ++ t) = (q ++ br) ++ '|' :: ((br2 ++ p) ++ t) := by simp
    have c1 : ∀ rs, CopiedText (q ++ br) rs ↔ CopiedText q rs := fun rs =>
      copied_congr (by rw [unfws_append, opt br hb1, List.append_nil])
    have c2 : ∀ rs, CopiedText (br2 ++ p) rs ↔ CopiedText p rs := fun rs =>
      copied_congr (by rw [unfws_append, opt br2 hb2, List.nil_append])
    rw [e, copied_bar_iff]
    simp only [ih, c1, c2, zPiece_iff hbrk hp (hn h (by simp))]
    constructor
    · rintro ⟨r1, _, rfl, g1, _, r2, rfl, ⟨first, m, b, g2, rfl⟩, g3⟩
      refine ⟨r1, first ++ (m, b ++ h.2) :: r2, by simp, g1, ?_⟩
      exact .cons h.1 m h.2 b first hs r2 g2 g3
    · rintro ⟨r1, r2, rfl, g1, g2⟩
      cases g2 with
      | cons n m v b first hs r2 g2 g3 =>
        exact ⟨r1, first ++ (m, b ++ v) :: r2, rfl, g1, first ++ [(m, b ++ v)], r2, by simp,
          ⟨first, m, b, g2, rfl⟩, g3⟩

/-- What the text of `z=` stands for. -/
theorem zText_iff {brk t : Str} {ascii : Bool} {hs : List (Str × Bytes)} (hbrk : Fws brk)
    (h : ZText brk ascii hs t) (hn : ∀ h ∈ hs, ValidName h.1 ∧ ';' ∉ h.1) {rs : List (Str × Bytes)} :
    CopiedText t rs ↔ ReadCopies hs rs := by
  cases h with
  | mk h hs p t hp ht =>
    rw [zRest_iff hbrk ht (fun m hm => hn m (List.mem_cons_of_mem _ hm))]
    simp only [zPiece_iff hbrk hp (hn h (by simp))]
    constructor
    · rintro ⟨_, r2, rfl, ⟨first, m, b, g2, rfl⟩, g3⟩
      have := ReadCopies.cons h.1 m h.2 b first hs r2 g2 g3
      simpa using this
    · intro g
      cases g with
      | cons n m v b first hs r2 g2 g3 =>
        exact ⟨first ++ [(m, b ++ v)], r2, by simp, ⟨first, m, b, g2, rfl⟩, g3⟩

theorem readCopies_exists {hs : List (Str × Bytes)} :
    (∃ rs, ReadCopies hs rs) ↔ ∀ h ∈ hs, ReadableName h.1 := by
  induction hs with
  | nil => exact ⟨fun _ h hh => (by cases hh), fun _ => ⟨[], .nil⟩⟩
  | cons h hs ih =>
    rw [List.forall_mem_cons, ← ih]
    constructor
    · rintro ⟨rs, g⟩
      cases g with
      | cons n m v b first hs r2 g2 g3 => exact ⟨⟨_, g2⟩, _, g3⟩
    · rintro ⟨⟨ks, g1⟩, rs, g2⟩
      have hne := g1.ne_nil
      rw [← List.dropLast_concat_getLast hne] at g1
      exact ⟨_, .cons h.1 (ks.getLast hne).1 h.2 (ks.getLast hne).2 _ hs rs g1 g2⟩

theorem Spec.CopiedText.unique {s : Str} {hs ks : List (Str × Bytes)} (h : CopiedText s hs) (h' : CopiedText s ks) :
    hs = ks := by
  have one : ∀ {p n m : Str} {b c : Bytes}, ValidName n → ValidName m → QpBytes p (utf8 n ++ 58 :: b) →
      QpBytes p (utf8 m ++ 58 :: c) → (n, b) = (m, c) := by
    intro p n m b c h1 h2 h3 h4
    have e := qpBytes_unique h3 h4
    have k : utf8 n = utf8 m ∧ b = c := by
      rw [List.append_eq_append_iff] at e
      rcases e with ⟨l, e1, e2⟩ | ⟨l, e1, e2⟩
      · cases l with
        | nil => simp at e1 e2; exact ⟨e1.symm, e2⟩
        | cons x l =>
          injection e2 with e2 _
          subst e2
          exact absurd (by rw [e1]; simp) (name_noColon h2)
      · cases l with
        | nil => simp at e1 e2; exact ⟨e1, e2.symm⟩
        | cons x l =>
          injection e2 with e2 _
          subst e2
          exact absurd (by rw [e1]; simp) (name_noColon h1)
    rw [utf8_injective k.1, k.2]
  induction h generalizing ks with
  | one p n b h1 h2 h3 =>
    obtain ⟨m, c, rfl, g1, g2⟩ := (copied_noBar_iff h1).1 h'
    rw [one h2 g1 h3 g2]
  | more p n b s hs h1 h2 h3 hh ih =>
    obtain ⟨k1, k2, rfl, g1, g2⟩ := copied_bar_iff.1 h'
    obtain ⟨m, c, rfl, g3, g4⟩ := (copied_noBar_iff h1).1 g1
    rw [one h2 g3 h3 g4, ih g2]
    rfl

theorem Spec.ReadCopies.unique {hs rs ks : List (Str × Bytes)} (h : ReadCopies hs rs) (h' : ReadCopies hs ks) :
    rs = ks := by
  induction h generalizing ks with
  | nil => cases h'; rfl
  | cons n m v b first hs rs g1 g2 ih =>
    cases h' with
    | cons _ m' _ b' first' _ rs' k1 k2 =>
      have e := g1.unique k1
      obtain ⟨e1, e2⟩ := List.append_inj' e rfl
      simp only [List.cons.injEq, Prod.mk.injEq, and_true] at e2
      rw [e1, e2.1, e2.2, ih k2]

theorem Spec.ReadCopies.length {hs rs : List (Str × Bytes)} (h : ReadCopies hs rs) : hs.length ≤ rs.length := by
  induction h with
  | nil => exact Nat.le_refl _
  | cons n m v b first hs rs _ _ ih => simp only [List.length_cons, List.length_append]; omega

theorem Spec.CopiedText.bars {s : Str} {hs : List (Str × Bytes)} (h : CopiedText s hs) (hl : hs.length = 1) :
    '|' ∉ s := by
  intro hb
  obtain ⟨a, b, rfl, _⟩ := split_bar hb
  obtain ⟨h1, h2, rfl, g1, g2⟩ := copied_bar_iff.1 h
  have e1 := List.length_pos_iff.2 g1.ne_nil
  have e2 := List.length_pos_iff.2 g2.ne_nil
  rw [List.length_append] at hl
  omega

theorem utf8_single_length {c : Char} (h : c.toNat < 128) : (utf8 [c]).length = 1 := by
  rw [utf8_ascii [c] (fun d hd => by rw [List.mem_singleton.1 hd]; exact h)]
  rfl

theorem qpBytes_shorter {s : Str} {x : Bytes} (h : QpBytes s x) (ha : ∀ c ∈ s, c.toNat < 128) :
    x.length ≤ s.length ∧ ('=' ∈ s → x.length < s.length) := by
  induction h with
  | nil => simp
  | char c s bs hc _ ih =>
    have hl := utf8_single_length (ha c (by simp))
    have ih := ih (fun d hd => ha d (List.mem_cons_of_mem _ hd))
    refine ⟨?_, ?_⟩
    · simp only [List.length_append, List.length_cons]; omega
    · intro hm
      have hne : c ≠ '=' := by
        rintro rfl
        revert hc
        unfold dkimSafe
        decide
      have := ih.2 (by simpa [Ne.symm hne] using hm)
      simp only [List.length_append, List.length_cons]; omega
  | hex a b xa xb s bs _ _ _ ih =>
    have ih := ih (fun d hd => ha d (by simp [hd]))
    have h1 := ih.1
    refine ⟨?_, fun _ => ?_⟩ <;> simp only [List.length_cons] <;> omega

/-- Fields are read as they were exactly if no name has an equals sign or a bar. -/
theorem readCopies_same {hs : List (Str × Bytes)} (hn : ∀ h ∈ hs, ValidName h.1 ∧ ';' ∉ h.1) :
    ReadCopies hs hs ↔ ∀ h ∈ hs, '=' ∉ h.1 ∧ '|' ∉ h.1 := by
  constructor
  · intro h
    have key : ∀ hs rs : List (Str × Bytes), ReadCopies hs rs → hs = rs →
        (∀ h ∈ hs, ValidName h.1 ∧ ';' ∉ h.1) → ∀ h ∈ hs, '=' ∉ h.1 ∧ '|' ∉ h.1 := by
      intro hs rs h
      induction h with
      | nil => intro _ _ h hh; cases hh
      | cons n m v b first hs rs g1 g2 ih =>
        intro e hn
        have l1 := congrArg List.length e
        have l2 := g2.length
        simp only [List.length_cons, List.length_append] at l1
        have hf : first = [] := List.eq_nil_of_length_eq_zero (by omega)
        subst hf
        simp only [List.nil_append, List.cons.injEq, Prod.mk.injEq] at e g1
        obtain ⟨⟨rfl, e2⟩, e3⟩ := e
        have hb : b = [] := by
          have := congrArg List.length e2
          rw [List.length_append] at this
          exact List.eq_nil_of_length_eq_zero (by omega)
        subst hb
        have hbar := g1.bars rfl
        obtain ⟨m, b', e4, k1, k2⟩ := (copied_noBar_iff hbar).1 g1
        simp only [List.cons.injEq, Prod.mk.injEq, and_true] at e4
        obtain ⟨rfl, rfl⟩ := e4
        have hv := hn (n, v) (by simp)
        have hc : Clean (n ++ [':']) := by
          refine valChar_clean ?_
          intro c hc
          rcases List.mem_append.1 hc with hc | hc
          · exact validName_valChars hv.1 hv.2 c hc
          · simp at hc; subst hc; exact colon_valChar
        rw [unfws_of_clean hc] at k2
        have ha : ∀ c ∈ n, c.toNat < 128 := fun c hc => by have := k1.2 c hc; omega
        have hsh := (qpBytes_shorter k2 (by
          intro c hc
          rcases List.mem_append.1 hc with hc | hc
          · exact ha c hc
          · rw [List.mem_singleton.1 hc]; decide)).2
        have hl : (utf8 n).length = n.length := by rw [utf8_ascii n ha, List.length_map]
        intro h hh
        rcases List.mem_cons.1 hh with rfl | hh
        · refine ⟨fun hm => ?_, fun hm => hbar (by simp [hm])⟩
          have := hsh (by simp [hm])
          simp only [List.length_append, List.length_cons, List.length_nil] at this
          omega
        · exact ih e3 (fun m hm => hn m (List.mem_cons_of_mem _ hm)) h hh
    exact key hs hs h rfl hn
  · intro h
    induction hs with
    | nil => exact .nil
    | cons x hs ih =>
      obtain ⟨n, v⟩ := x
      have hv := hn (n, v) (by simp)
      have he := h (n, v) (by simp)
      have hc : Clean (n ++ [':']) := by
        refine valChar_clean ?_
        intro c hc
        rcases List.mem_append.1 hc with hc | hc
        · exact validName_valChars hv.1 hv.2 c hc
        · simp at hc; subst hc; exact colon_valChar
      have h1 : QpBytes (n ++ [':']) (utf8 n ++ 58 :: []) := by
        have := qpBytes_plain (s := n ++ [':']) (by
          intro c hc
          rcases List.mem_append.1 hc with hc | hc
          · have := hv.1.2 c hc
            exact .inl ⟨this.1, this.2.1, fun e => hv.2 (e ▸ hc), fun e => he.1 (e ▸ hc)⟩
          · simp at hc; subst hc; unfold dkimSafe; decide)
        rw [utf8_append] at this
        exact this
      have := ReadCopies.cons n n v [] [] hs hs
        (.one _ n [] (by simp [he.2]) hv.1 (by rw [unfws_of_clean hc]; exact h1))
        (ih (fun m hm => hn m (List.mem_cons_of_mem _ hm)) (fun m hm => h m (List.mem_cons_of_mem _ hm)))
      simpa using this

theorem readableName_plain {n : Str} (h1 : ValidName n) (h2 : ';' ∉ n ∧ '=' ∉ n ∧ '|' ∉ n) : ReadableName n :=
  readCopies_exists.1 ⟨[(n, [])], (readCopies_same (fun h hm => by
    rw [List.mem_singleton] at hm; subst hm; exact ⟨h1, h2.1⟩)).2 (fun h hm => by
    rw [List.mem_singleton] at hm; subst hm; exact h2.2)⟩ (n, []) (List.mem_singleton.2 rfl)

end Dkim
