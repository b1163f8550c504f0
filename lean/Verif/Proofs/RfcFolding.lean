import Verif.Spec.RfcFolding
import Verif.Proofs.RfcProduced
import Verif.Proofs.Rfc8616

/-! Folding in `z=`, and the grammar of the RFCs. -/

namespace Dkim

open Spec

/-- Behind every equals sign there are two characters that are not CR. -/
def Hexed (v : Str) : Prop :=
  ∀ a r, v = a ++ '=' :: r → ∃ x y r', r = x :: y :: r' ∧ x ≠ '\r' ∧ y ≠ '\r'

theorem Hexed.whole {v : Str} (h : Hexed v) : Rfc.OctetsWhole v := by
  intro a b
  refine ⟨?_, ?_⟩
  · intro e
    obtain ⟨x, y, r', e', h1, _⟩ := h a _ e
    injection e' with e' _
    exact h1 e'.symm
  · intro c e
    obtain ⟨x, y, r', e', _, h1⟩ := h a _ e
    injection e' with _ e'
    injection e' with e' _
    exact h1 e'.symm

theorem hexed_none {s : Str} (h : '=' ∉ s) : Hexed s := by
  intro a r e
  exact absurd (by rw [e]; simp) h

theorem hexed_append {s t : Str} (hs : Hexed s) (ht : Hexed t) : Hexed (s ++ t) := by
  intro a r e
  rcases List.append_eq_append_iff.1 e with ⟨l, e1, e2⟩ | ⟨l, e1, e2⟩
  · exact ht l r e2
  · cases l with
    | nil =>
      simp only [List.nil_append] at e2
      exact ht [] r (by rw [← e2]; rfl)
    | cons c l =>
      simp only [List.cons_append, List.cons.injEq] at e2
      obtain ⟨rfl, rfl⟩ := e2
      obtain ⟨x, y, r', rfl, h1, h2⟩ := hs a l e1
      exact ⟨x, y, r' ++ t, rfl, h1, h2⟩

theorem hexed_octet {a b : Char} {x y : Nat} {s : Str} (ha : HexVal a x) (hb : HexVal b y) (hs : Hexed s) :
    Hexed ('=' :: a :: b :: s) := by
  have no : ∀ {c : Char} {n : Nat}, HexVal c n → c ≠ '=' ∧ c ≠ '\r' := by
    intro c n h
    constructor <;> (rintro rfl; simp [HexVal] at h)
  intro p r e
  cases p with
  | nil =>
    injection e with _ e
    exact ⟨a, b, s, e.symm, (no ha).2, (no hb).2⟩
  | cons c p =>
    injection e with _ e
    cases p with
    | nil =>
      injection e with e _
      exact absurd e (no ha).1
    | cons d p =>
      injection e with _ e
      cases p with
      | nil =>
        injection e with e _
        exact absurd e (no hb).1
      | cons f p =>
        injection e with _ e
        exact hs p r e

theorem fws_noEquals {f : Str} (h : Fws f) : '=' ∉ f := by
  intro hm
  have := optFws_fws (.inr h) _ hm
  simp [fwsChar] at this

theorem optFws_noEquals {f : Str} (h : OptFws f) : '=' ∉ f := by
  intro hm
  have := optFws_fws h _ hm
  simp [fwsChar] at this

theorem intlQp_hexed {s : Str} {bytes : Bytes} (h : Rfc8616.QuotedPrintable s bytes) : Hexed s := by
  induction h with
  | nil => exact hexed_none (by simp)
  | fws f s bytes hf _ ih => exact hexed_append (hexed_none (fws_noEquals hf)) ih
  | octet a b x y s bytes ha hb _ ih => exact hexed_octet ha hb ih
  | safe c s bytes _ _ _ hc _ ih =>
    exact hexed_append (s := [c]) (hexed_none (by simpa using Ne.symm hc)) ih
  | other c s bytes hc _ ih =>
    refine hexed_append (s := [c]) (hexed_none ?_) ih
    intro hm
    rw [← List.mem_singleton.1 hm] at hc
    exact absurd hc (by decide)

theorem intlCopies_whole {v : Str} {hs : List (Str × Bytes)} (h : Rfc8616.CopiedFields v hs)
    (hn : ∀ f ∈ hs, '=' ∉ f.1) : Rfc.OctetsWhole v := by
  have field : ∀ {n s : Str} {bytes : Bytes}, Rfc8616.CopiedField n bytes s → '=' ∉ n → Hexed s := by
    intro n s bytes h hn
    cases h with
    | mk f v _ hf hv _ =>
      rename_i h1 h2 h3
      exact hexed_append (hexed_append (hexed_none hn) (hexed_none (optFws_noEquals (by assumption))))
        (hexed_append (s := [':']) (hexed_none (by simp)) (intlQp_hexed (by assumption)))
  apply Hexed.whole
  induction h with
  | one n bytes s h => exact field h (hn (n, bytes) (by simp))
  | more n bytes s f r rest h hf _ ih =>
    refine hexed_append (field h (hn (n, bytes) (by simp))) (hexed_append (s := ['|']) (hexed_none (by simp)) ?_)
    exact hexed_append (hexed_none (optFws_noEquals hf)) (ih fun f hf => hn f (by simp [hf]))

theorem Spec.Rfc.OctetsWhole.drop {s t : Str} (h : Rfc.OctetsWhole (s ++ t)) : Rfc.OctetsWhole t := by
  intro a b
  refine ⟨fun e => (h (s ++ a) b).1 (by rw [e]; simp), fun c e => (h (s ++ a) b).2 c (by rw [e]; simp)⟩

theorem Spec.Rfc.OctetsWhole.take {s t : Str} (h : Rfc.OctetsWhole (s ++ t)) : Rfc.OctetsWhole s := by
  intro a b
  refine ⟨fun e => (h a (b ++ t)).1 (by rw [e]; simp), fun c e => (h a (b ++ t)).2 c (by rw [e]; simp)⟩

/-- What a kind of dkim-quoted-printable has to admit. -/
structure QpKind (lit : Char → Prop) (Q : Str → Bytes → Prop) : Prop where
  nil : Q [] []
  fws : ∀ f s bytes, Fws f → Q s bytes → Q (f ++ s) bytes
  octet : ∀ (a b : Char) (x y : Nat) (s : Str) (bytes : Bytes), HexVal a x → HexVal b y → Q s bytes →
    Q ('=' :: a :: b :: s) (UInt8.ofNat (x * 16 + y) :: bytes)
  char : ∀ (c : Char) (s : Str) (bytes : Bytes), lit c → Q s bytes → Q (c :: s) (utf8 [c] ++ bytes)

theorem folded_qp {lit : Char → Prop} {Q : Str → Bytes → Prop} (k : QpKind lit Q) {indent : Str}
    (hb : Fws ('\r' :: '\n' :: indent)) {bs : Bytes} {enc : Str} (h : QpWritten lit bs enc) :
    ∀ {t : Str}, Folded ('\r' :: '\n' :: indent) enc t → Rfc.OctetsWhole t → ∀ {s : Str} {cs : Bytes}, Q s cs →
      Q (t ++ s) (bs ++ cs) := by
  induction h with
  | nil =>
    intro t ht _ s cs hs
    cases ht
    exact hs
  | char c bs enc hc _ ih =>
    intro t ht hw s cs hs
    cases ht with
    | keep _ _ t ht =>
      have := k.char c _ _ hc (ih ht (hw.drop (s := [c])) hs)
      simpa using this
    | fold _ _ t ht =>
      have := k.fws _ _ _ hb (k.char c _ _ hc (ih ht ((hw.drop).drop (s := [c])) hs))
      simpa using this
  | hex b bs enc _ _ ih =>
    have hlt := b.toNat_lt
    have key : ∀ {t : Str}, Folded ('\r' :: '\n' :: indent)
        ('=' :: hexChar (b.toNat / 16) :: hexChar (b.toNat % 16) :: enc) ('=' :: t) → Rfc.OctetsWhole ('=' :: t) →
        ∃ t', t = hexChar (b.toNat / 16) :: hexChar (b.toNat % 16) :: t' ∧ Folded ('\r' :: '\n' :: indent) enc t' := by
      intro t ht hw
      generalize e : '=' :: t = u at ht
      cases ht with
      | fold _ _ t' ht => cases e
      | keep _ _ t' ht =>
        injection e with _ e
        subst e
        generalize e : hexChar (b.toNat / 16) = p at *
        cases ht with
        | fold _ _ t' ht => exact absurd rfl ((hw [] _).1)
        | keep _ _ t' ht =>
          cases ht with
          | fold _ _ t' ht => exact absurd rfl ((hw [] _).2 p)
          | keep _ _ t' ht => exact ⟨t', rfl, ht⟩
    have done : ∀ {t : Str}, Folded ('\r' :: '\n' :: indent)
        ('=' :: hexChar (b.toNat / 16) :: hexChar (b.toNat % 16) :: enc) ('=' :: t) → Rfc.OctetsWhole ('=' :: t) →
        ∀ {s : Str} {cs : Bytes}, Q s cs → Q ('=' :: t ++ s) (b :: bs ++ cs) := by
      intro t ht hw s cs hs
      obtain ⟨t', rfl, ht'⟩ := key ht hw
      have := k.octet _ _ _ _ _ _ (hexChar_val (n := b.toNat / 16) (by omega))
        (hexChar_val (n := b.toNat % 16) (by omega)) (ih ht' (hw.drop (s := ['=', _, _])) hs)
      rw [show b.toNat / 16 * 16 + b.toNat % 16 = b.toNat by omega] at this
      simpa using this
    intro t ht hw s cs hs
    have ht0 := ht
    cases ht with
    | keep _ _ t ht => exact done ht0 hw hs
    | fold _ _ t ht =>
      have := k.fws _ _ _ hb (done (.keep _ _ _ ht) hw.drop hs)
      simpa using this

theorem folded_noBar {brk s t : Str} (hb : '|' ∉ brk) (h : Folded brk s t) (hs : '|' ∉ s) : '|' ∉ t := by
  induction h with
  | nil => exact hs
  | keep c s t _ ih =>
    simp only [List.mem_cons, not_or] at hs ⊢
    exact ⟨hs.1, ih hs.2⟩
  | fold c s t _ ih =>
    simp only [List.mem_cons, List.mem_append, not_or] at hs ⊢
    exact ⟨hb, hs.1, ih hs.2⟩

/-- `sig-z-tag`, for a kind of dkim-quoted-printable. -/
inductive Copies (Q : Str → Bytes → Prop) : Str → List (Str × Bytes) → Prop
  | one (n v : Str) (bytes : Bytes) : Rfc.HdrName n → Q v bytes → '|' ∉ v → Copies Q (n ++ ':' :: v) [(n, bytes)]
  | more (n v : Str) (bytes : Bytes) (f r : Str) (rest : List (Str × Bytes)) : Rfc.HdrName n → Q v bytes → '|' ∉ v →
      OptFws f → Copies Q r rest → Copies Q (n ++ ':' :: v ++ '|' :: (f ++ r)) ((n, bytes) :: rest)

theorem zText_copies {ascii : Bool} {Q : Str → Bytes → Prop}
    (k : QpKind (fun c => dkimSafe c ∧ c ≠ '|' ∧ (ascii = true → c.toNat < 128)) Q) {indent : Str}
    (hb : Fws ('\r' :: '\n' :: indent)) {hs : List (Str × Bytes)} {t : Str}
    (h : ZText ('\r' :: '\n' :: indent) ascii hs t) (hn : ∀ f ∈ hs, ValidName f.1) (hw : Rfc.OctetsWhole t) :
    Copies Q t hs := by
  have hbar : '|' ∉ '\r' :: '\n' :: indent := by
    intro hm
    have := optFws_fws (.inr hb) _ hm
    simp [fwsChar] at this
  have opt : ∀ {br : Str}, (br = [] ∨ br = '\r' :: '\n' :: indent) → OptFws br := by
    rintro br (rfl | rfl)
    · exact .inl rfl
    · exact .inr hb
  have value : ∀ {v : Bytes} {u : Str}, Folded ('\r' :: '\n' :: indent) (encodeCopied ascii v) u → Rfc.OctetsWhole u →
      ∀ {br : Str}, (br = [] ∨ br = '\r' :: '\n' :: indent) → Q (u ++ br) v ∧ '|' ∉ u ++ br := by
    intro v u hu hw br hbr
    have hq : Q br [] := by
      rcases hbr with rfl | rfl
      · exact k.nil
      · have := k.fws _ _ _ hb k.nil
        simpa using this
    have h1 := folded_qp k hb (encodeCopied_written ascii v) hu hw hq
    rw [List.append_nil] at h1
    refine ⟨h1, ?_⟩
    simp only [List.mem_append, not_or]
    refine ⟨folded_noBar hbar hu (qpWritten_noBar (fun c hc => hc.2.1) (encodeCopied_written ascii v)), ?_⟩
    rcases hbr with rfl | rfl
    · simp
    · exact hbar
  have rest : ∀ {hs : List (Str × Bytes)} {t : Str}, ZRest ('\r' :: '\n' :: indent) ascii hs t →
      (∀ f ∈ hs, ValidName f.1) → ∀ (n : Str) (v : Bytes) (u : Str), ValidName n →
      Folded ('\r' :: '\n' :: indent) (encodeCopied ascii v) u → Rfc.OctetsWhole (n ++ ':' :: u ++ t) →
      Copies Q (n ++ ':' :: u ++ t) ((n, v) :: hs) := by
    intro hs t h
    induction h with
    | nil =>
      intro _ n v u hn hu hw
      rw [List.append_nil] at hw ⊢
      obtain ⟨h1, h2⟩ := value hu ((hw.drop).drop (s := [':'])) (br := []) (.inl rfl)
      rw [List.append_nil] at h1 h2
      exact .one n u v (hdrName_of hn) h1 h2
    | cons br br2 h hs p t hbr hbr2 hp _ ih =>
      intro hns n v u hn hu hw
      cases hp with
      | mk m b w hwd =>
        have hw2 : Rfc.OctetsWhole (m ++ ':' :: w ++ t) := by
          have e : n ++ ':' :: u ++ (br ++ '|' :: br2 ++ (m ++ ':' :: w) ++ t) =
              (n ++ ':' :: u ++ br ++ '|' :: br2) ++ (m ++ ':' :: w ++ t) := by simp
          rw [e] at hw
          exact hw.drop
        have hw1 : Rfc.OctetsWhole u := by
          have e : n ++ ':' :: u ++ (br ++ '|' :: br2 ++ (m ++ ':' :: w) ++ t) =
              (n ++ [':']) ++ (u ++ (br ++ '|' :: br2 ++ (m ++ ':' :: w) ++ t)) := by simp
          rw [e] at hw
          exact hw.drop.take
        obtain ⟨h1, h2⟩ := value hu hw1 hbr
        have h3 := ih (fun f hf => hns f (by simp [hf])) m b w (hns (m, b) (by simp)) hwd hw2
        have := Copies.more n _ v br2 _ _ (hdrName_of hn) h1 h2 (opt hbr2) h3
        simpa using this
  cases h with
  | mk h hs p t hp ht =>
    cases hp with
    | mk n v u hu => exact rest ht (fun f hf => hn f (by simp [hf])) n v u (hn (n, v) (by simp)) hu hw

theorem intl_kind : QpKind (fun c => dkimSafe c ∧ c ≠ '|' ∧ (false = true → c.toNat < 128)) Rfc8616.QuotedPrintable where
  nil := .nil
  fws f s bytes hf hs := .fws f s bytes hf hs
  octet a b x y s bytes ha hb hs := .octet a b x y s bytes ha hb hs
  char c s bytes hc hs := by
    rcases hc.1 with h | h
    · rw [utf8_ascii [c] (by intro d hd; simp at hd; subst hd; omega)]
      exact .safe c s bytes h.1 h.2.1 h.2.2.1 h.2.2.2 hs
    · exact .other c s bytes h hs

theorem rfc_kind : QpKind (fun c => dkimSafe c ∧ c ≠ '|' ∧ (true = true → c.toNat < 128)) Rfc.QuotedPrintable where
  nil := .nil
  fws f s bytes hf hs := .fws f s bytes hf hs
  octet a b x y s bytes ha hb hs := .octet a b x y s bytes ha hb hs
  char c s bytes hc hs := by
    have h2 := hc.2.2 rfl
    rcases hc.1 with h | h
    · rw [utf8_ascii [c] (by intro d hd; simp at hd; subst hd; omega)]
      exact .safe c s bytes h.1 h.2.1 h.2.2.1 h.2.2.2 hs
    · omega

theorem copies_intl {v : Str} {hs : List (Str × Bytes)} (h : Copies Rfc8616.QuotedPrintable v hs) :
    Rfc8616.CopiedFields v hs := by
  induction h with
  | one n v bytes hn hq hb =>
    have := Rfc8616.CopiedField.mk n [] v bytes hn (.inl rfl) hq hb
    exact .one n bytes _ (by simpa using this)
  | more n v bytes f r rest hn hq hb hf _ ih =>
    have := Rfc8616.CopiedField.mk n [] v bytes hn (.inl rfl) hq hb
    exact .more n bytes _ f r rest (by simpa using this) hf ih

theorem copies_rfc {v : Str} {hs : List (Str × Bytes)} (h : Copies Rfc.QuotedPrintable v hs) :
    Rfc.CopiedFields v hs := by
  induction h with
  | one n v bytes hn hq hb =>
    have := Rfc.CopiedField.mk n [] v bytes hn (.inl rfl) hq hb
    exact .one n bytes _ (by simpa using this)
  | more n v bytes f r rest hn hq hb hf _ ih =>
    have := Rfc.CopiedField.mk n [] v bytes hn (.inl rfl) hq hb
    exact .more n bytes _ f r rest (by simpa using this) hf ih

end Dkim
