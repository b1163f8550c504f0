import Verif.Spec.Errors
import Verif.Proofs.Record

/-!
# Errors of parsing signatures and key records
-/

namespace Dkim

open Spec

theorem trimmed_fws_nil {s : Str} (h : Trimmed s) (hf : ∀ c ∈ s, fwsChar c) : s = [] := by
  cases s with
  | nil => rfl
  | cons c r => exact absurd (hf c (by simp)) (h.1 c r rfl)

theorem optFws_fws {f : Str} (hf : OptFws f) : ∀ c ∈ f, fwsChar c := by
  rcases hf with rfl | hf
  · simp
  · exact fws_chars hf

theorem trimFws_any {f n g : Str} (hf : OptFws f) (hg : OptFws g) (hn : Trimmed n)
    (ht : Trimmed (trimFws (f ++ n ++ g))) : trimFws (f ++ n ++ g) = n := by
  cases n with
  | nil =>
    refine trimmed_fws_nil ht fun c hc => ?_
    have := trimFws_sub _ c hc
    simp only [List.append_nil, List.mem_append] at this
    rcases this with h | h
    · exact optFws_fws hf c h
    · exact optFws_fws hg c h
  | cons c r => exact trimFws_item hf hg hn (by simp)

theorem parseColon_unique {items : List Str} {v : Str} (h : ColonList items v)
    (hi : ∀ i ∈ items, Trimmed i ∧ ':' ∉ i) (ht : ∀ i ∈ parseColonSeparated v, Trimmed i) :
    parseColonSeparated v = items := by
  unfold parseColonSeparated at ht ⊢
  induction h with
  | one f n g hf hg =>
    obtain ⟨h2, h3⟩ := hi n (by simp)
    rw [splitOn_single] at ht ⊢
    · rw [List.map_singleton] at ht ⊢
      rw [trimFws_any hf hg h2 (ht _ (by simp))]
    all_goals
      simp only [List.mem_append, not_or]
      exact ⟨⟨optFws_noColon hf, h3⟩, optFws_noColon hg⟩
  | more f n g ns s hf hg _ ih =>
    obtain ⟨h2, h3⟩ := hi n (by simp)
    rw [splitOn_cons] at ht ⊢
    · rw [List.map_cons] at ht ⊢
      rw [trimFws_any hf hg h2 (ht _ (by simp)), ih (fun i h => hi i (by simp [h])) (fun i h => ht i (by simp [h]))]
    all_goals
      simp only [List.mem_append, not_or]
      exact ⟨⟨optFws_noColon hf, h3⟩, optFws_noColon hg⟩

/-- The items of a value are those that the code finds. -/
theorem items_iff {v : Str} (hv : IsValue v) (items : List Str) : Items v items ↔ parseColonSeparated v = items := by
  constructor
  · rintro ⟨h1, h2⟩
    exact parseColon_unique h1 h2 fun i h => (parseColon_items hv i h).1
  · rintro rfl
    exact ⟨parseColon_sound v, parseColon_items hv⟩

theorem err_ne_ok {ε α : Type} {r : Res ε α} {e : ε} (h : r = .err e) (a : α) : r ≠ .ok a := by
  rw [h]; simp

/-! ### Values of tags in a signature -/

theorem parseTagA_err (pre : Bool) (v : Str) (k : SigErrorKind) : parseTagA pre v = .err k ↔
    (k = .unsupportedAlgorithm ∧ lower v ∉ [c!"rsa-sha256", c!"ed25519-sha256", c!"rsa-sha1"]) ∨
      (k = .historicAlgorithm ∧ pre = false ∧ lower v = c!"rsa-sha1") := by
  have hok := parseTagA_iff pre v
  unfold parseTagA at hok ⊢
  have e := eqIgnoreCase_lower (s := v) (t := c!"rsa-sha1") (by decide)
  cases hp : SigAlg.parse pre v with
  | some a =>
    simp only [hp] at hok ⊢
    have h := (hok a).1 rfl
    simp only [reduceCtorEq, false_iff]
    rintro (⟨-, h'⟩ | ⟨-, rfl, h'⟩)
    · rcases h with ⟨_, h⟩ | ⟨_, h⟩ | ⟨_, _, h⟩ <;> exact h' (by rw [h]; decide)
    · rcases h with ⟨_, h⟩ | ⟨_, h⟩ | ⟨h, _⟩
      · rw [h'] at h; exact absurd h (by decide)
      · rw [h'] at h; exact absurd h (by decide)
      · cases h
  | none =>
    simp only [hp] at hok ⊢
    have hn : ∀ a, ¬ AlgText pre v a := fun a ha => by
      have := (hok a).2 ha
      split at this <;> cases this
    have h1 : lower v ≠ c!"rsa-sha256" := fun h => hn .rsaSha256 (.inl ⟨rfl, h⟩)
    have h2 : lower v ≠ c!"ed25519-sha256" := fun h => hn .ed25519Sha256 (.inr (.inl ⟨rfl, h⟩))
    by_cases h3 : lower v = c!"rsa-sha1"
    · have hpre : pre = false := by
        cases pre with
        | false => rfl
        | true => exact absurd (.inr (.inr ⟨rfl, rfl, h3⟩)) (hn .rsaSha1)
      subst hpre
      rw [if_pos (by simp [e.2 h3])]
      rw [Res.err.injEq]
      constructor
      · rintro rfl; exact .inr ⟨rfl, rfl, h3⟩
      · rintro (⟨-, h⟩ | ⟨rfl, -⟩)
        · exact absurd (by rw [h3]; decide) h
        · rfl
    · rw [if_neg (by rw [Bool.and_eq_true]; exact fun h => h3 (e.1 h.2))]
      simp only [Res.err.injEq]
      constructor
      · rintro rfl
        refine .inl ⟨rfl, ?_⟩
        simp only [List.mem_cons, List.not_mem_nil, or_false, not_or]
        exact ⟨h1, h2, h3⟩
      · rintro (⟨rfl, -⟩ | ⟨-, -, h⟩)
        · rfl
        · exact absurd h h3

theorem base64_nil_iff (bs : Bytes) : base64 bs = [] ↔ bs = [] := by
  constructor
  · intro h
    have e : base64 [] = [] := by decide
    rw [← e, ← C20_base64_rfc4648, ← C20_base64_rfc4648] at h
    have h1 := C20_base64_round_trip bs
    have h2 := C20_base64_round_trip []
    rw [h, h2] at h1
    injection h1 with h1
    exact h1.symm
  · rintro rfl; decide

theorem parseTagB_err (e : SigErrorKind) (v : Str) (k : SigErrorKind) : parseTagB e v = .err k ↔
    (k = .invalidBase64 ∧ ∀ bs, unfws v ≠ base64 bs) ∨ (k = e ∧ unfws v = []) := by
  unfold parseTagB
  cases hp : parseBase64Value v with
  | none =>
    have hn : ∀ bs, unfws v ≠ base64 bs := fun bs h => by
      rw [(parseBase64_iff v bs).2 h] at hp; cases hp
    simp only [Res.err.injEq]
    constructor
    · rintro rfl; exact .inl ⟨rfl, hn⟩
    · rintro (⟨rfl, -⟩ | ⟨-, h⟩)
      · rfl
      · exact absurd (h.trans ((base64_nil_iff []).2 rfl).symm) (hn [])
  | some bs =>
    have hb := (parseBase64_iff v bs).1 hp
    cases bs with
    | nil =>
      simp only [List.isEmpty_nil, if_true, Res.err.injEq]
      constructor
      · rintro rfl; exact .inr ⟨rfl, hb.trans ((base64_nil_iff []).2 rfl)⟩
      · rintro (⟨-, h⟩ | ⟨rfl, -⟩)
        · exact absurd hb (h [])
        · rfl
    | cons x r =>
      simp only [List.isEmpty_cons, Bool.false_eq_true, if_false, reduceCtorEq, false_iff]
      rintro (⟨-, h⟩ | ⟨-, h⟩)
      · exact h _ hb
      · rw [hb, base64_nil_iff] at h; cases h

theorem parseTagC_err (v : Str) (k : SigErrorKind) : parseTagC v = .err k ↔
    k = .unsupportedCanonicalization ∧ ∀ c, ¬ CanonText v c := by
  have h := parseTagC_iff v
  unfold parseTagC at h ⊢
  cases hp : Canonicalization.parse v with
  | none =>
    simp only [hp, reduceCtorEq, false_iff] at h
    simp only [Res.err.injEq]
    exact ⟨fun e => ⟨e.symm, h⟩, fun e => e.1.symm⟩
  | some c =>
    simp only [hp] at h
    simp only [reduceCtorEq, false_iff]
    exact fun e => e.2 c ((h c).1 rfl)

theorem parseTagD_err (ix : Idna) (v : Str) (k : SigErrorKind) : parseTagD ix v = .err k ↔
    k = .invalidDomain ∧ ¬ ValidDomain true ix v := by
  have h := parseTagD_iff ix v v
  unfold parseTagD at h ⊢
  split at h
  · rename_i hc
    rw [if_pos hc]
    simp only [reduceCtorEq, false_iff]
    exact fun e => e.2 (h.1 rfl).2
  · rename_i hc
    rw [if_neg hc, Res.err.injEq]
    exact ⟨fun e => ⟨e.symm, fun hd => by cases h.2 ⟨rfl, hd⟩⟩, fun e => e.1.symm⟩

theorem parseTagS_err (ix : Idna) (v : Str) (k : SigErrorKind) : parseTagS ix v = .err k ↔
    k = .invalidSelector ∧ ¬ ValidDomain false ix v := by
  have h := parseTagS_iff ix v v
  unfold parseTagS at h ⊢
  split at h
  · rename_i hc
    rw [if_pos hc]
    simp only [reduceCtorEq, false_iff]
    exact fun e => e.2 (h.1 rfl).2
  · rename_i hc
    rw [if_neg hc, Res.err.injEq]
    exact ⟨fun e => ⟨e.symm, fun hd => by cases h.2 ⟨rfl, hd⟩⟩, fun e => e.1.symm⟩

theorem parseTagH_err {v : Str} (hv : IsValue v) (k : SigErrorKind) : parseTagH v = .err k ↔
    (k = .emptySignedHeadersTag ∧ v = []) ∨
    (k = .invalidSignedHeaderName ∧ v ≠ [] ∧ ∃ items, Items v items ∧ ∃ n ∈ items, ¬ ValidName n) ∨
    (k = .fromHeaderNotSigned ∧ ∃ items, Items v items ∧ (∀ n ∈ items, ValidName n) ∧
      ∀ n ∈ items, lower n ≠ c!"from") := by
  simp only [items_iff hv, exists_eq_left']
  unfold parseTagH
  cases v with
  | nil =>
    have : parseColonSeparated [] = [[]] := by decide
    rw [this]
    have hnv : ¬ ValidName [] := fun h => h.1 rfl
    simp [hnv, eq_comm]
  | cons c r =>
    simp only [List.isEmpty_cons, Bool.false_eq_true, if_false, reduceCtorEq, and_false, false_or, ne_eq,
      not_false_eq_true, true_and]
    generalize parseColonSeparated (c :: r) = l
    by_cases h1 : l.all fieldNameOk = true
    · have h1' : ∀ n ∈ l, ValidName n := by simpa [List.all_eq_true, fieldNameOk_iff] using h1
      have hx : ¬ ∃ n ∈ l, ¬ ValidName n := fun ⟨n, a, b⟩ => b (h1' n a)
      by_cases h2 : (l.any fun h => fieldNameEq h c!"From") = true
      · simp only [h1, h2, Bool.not_true, Bool.false_eq_true, if_false, reduceCtorEq, false_iff]
        rintro (⟨-, h⟩ | ⟨-, -, h⟩)
        · exact hx h
        · obtain ⟨n, a, b⟩ := List.any_eq_true.1 h2
          exact h n a ((from_iff n).1 b)
      · have h2' : ∀ n ∈ l, lower n ≠ c!"from" := fun n hn e =>
          h2 (List.any_eq_true.2 ⟨n, hn, (from_iff n).2 e⟩)
        rw [Bool.not_eq_true] at h2
        simp only [h1, h2, Bool.not_true, Bool.not_false, Bool.false_eq_true, if_false, if_true, Res.err.injEq]
        constructor
        · rintro rfl; exact .inr ⟨rfl, h1', h2'⟩
        · rintro (⟨-, h⟩ | ⟨rfl, -⟩)
          · exact absurd h hx
          · rfl
    · have h1' : ∃ n ∈ l, ¬ ValidName n := by
        refine Classical.byContradiction fun h => h1 ?_
        rw [List.all_eq_true]
        intro n hn
        rw [fieldNameOk_iff]
        exact Classical.byContradiction fun h' => h ⟨n, hn, h'⟩
      rw [Bool.not_eq_true] at h1
      simp only [h1, Bool.not_false, if_true, Res.err.injEq]
      constructor
      · rintro rfl; exact .inl ⟨rfl, h1'⟩
      · rintro (⟨rfl, -⟩ | ⟨-, h, -⟩)
        · rfl
        · obtain ⟨n, a, b⟩ := h1'
          exact absurd (h n a) b

theorem parseTagI_err (ix : Idna) {v : Str} (hv : IsValue v) (k : SigErrorKind) : parseTagI ix v = .err k ↔
    k = .invalidIdentity ∧ ∀ i, ¬ IdentityText ix v i := by
  have h := parseTagI_iff ix hv
  have hnp := parseTagI_noPanic ix hv
  have hk : ∀ e, parseTagI ix v = .err e → e = .invalidIdentity := by
    intro e he
    unfold parseTagI at he
    split at he
    · cases he
    · cases he; rfl
    · split at he
      · cases he; rfl
      · split at he
        · cases he; rfl
        · cases he
  cases hp : parseTagI ix v with
  | panic => exact absurd hp hnp
  | err e =>
    have := hk e hp
    subst this
    rw [Res.err.injEq]
    exact ⟨fun e => ⟨e.symm, fun i hi => by rw [(h i).2 hi] at hp; cases hp⟩, fun e => e.1.symm⟩
  | ok i =>
    simp only [reduceCtorEq, false_iff]
    exact fun e => e.2 i ((h i).1 hp)

theorem parseTagNum_err (e : SigErrorKind) (v : Str) (k : SigErrorKind) : parseTagNum e v = .err k ↔
    k = e ∧ ∀ n, ¬ PlusDecimal v n := by
  have h := parseTagNum_iff e v
  unfold parseTagNum at h ⊢
  cases hp : parseU64 v with
  | none =>
    simp only [hp, reduceCtorEq, false_iff] at h
    simp only [Res.err.injEq]
    exact ⟨fun e => ⟨e.symm, h⟩, fun e => e.1.symm⟩
  | some c =>
    simp only [hp] at h
    simp only [reduceCtorEq, false_iff]
    exact fun e => e.2 c ((h c).1 rfl)

theorem parseTagQLoop_err (seen : Bool) (items : List Str) (k : SigErrorKind) :
    parseTagQLoop seen items = .err k ↔ (k = .invalidQueryMethod ∧ [] ∈ items) ∨
      (k = .noSupportedQueryMethods ∧ [] ∉ items ∧ seen = false ∧ ∀ i ∈ items, lower i ≠ c!"dns/txt") := by
  have e := fun s => eqIgnoreCase_lower (s := s) (t := c!"dns/txt") (by decide)
  induction items generalizing seen with
  | nil => cases seen <;> simp [parseTagQLoop, eq_comm]
  | cons s rest ih =>
    rw [parseTagQLoop]
    cases s with
    | nil => simp [eq_comm]
    | cons c r =>
      simp only [List.isEmpty_cons, Bool.false_eq_true, if_false, ih, List.mem_cons, reduceCtorEq, false_or,
        Bool.or_eq_false_iff, forall_eq_or_imp]
      have : eqIgnoreCase (c :: r) c!"dns/txt" = false ↔ lower (c :: r) ≠ c!"dns/txt" := by
        rw [← Bool.not_eq_true, e]
      rw [this, and_assoc]

theorem parseTagQ_err {v : Str} (hv : IsValue v) (k : SigErrorKind) : parseTagQ v = .err k ↔
    (k = .invalidQueryMethod ∧ ∃ items, Items v items ∧ [] ∈ items) ∨
    (k = .noSupportedQueryMethods ∧ ∃ items, Items v items ∧ [] ∉ items ∧ ∀ i ∈ items, lower i ≠ c!"dns/txt") := by
  simp only [items_iff hv, exists_eq_left']
  rw [parseTagQ, parseTagQLoop_err]
  simp

theorem parseTagZLoop_kind : ∀ (l : List Str) (e : SigErrorKind), parseTagZLoop l = .err e →
    e = .invalidCopiedHeaderField
  | [], e, h => by simp [parseTagZLoop] at h
  | p :: rest, e, h => by
    rw [parseTagZLoop] at h
    split at h
    · cases h
    · cases h; rfl
    · split at h
      · cases h
      · rename_i e' he
        cases h
        exact parseTagZLoop_kind rest _ he
      · cases h

theorem parseTagZ_err {v : Str} (hv : IsValue v) (k : SigErrorKind) : parseTagZ v = .err k ↔
    k = .invalidCopiedHeaderField ∧ ∀ hs, ¬ CopiedText v hs := by
  have h := parseTagZ_iff hv
  cases hp : parseTagZ v with
  | panic => exact absurd hp (parseTagZ_noPanic hv)
  | err e =>
    have := parseTagZLoop_kind _ e hp
    subst this
    rw [Res.err.injEq]
    exact ⟨fun e => ⟨e.symm, fun i hi => by rw [(h i).2 hi] at hp; cases hp⟩, fun e => e.1.symm⟩
  | ok i =>
    simp only [reduceCtorEq, false_iff]
    exact fun e => e.2 i ((h i).1 hp)

/-! ### The loop over the tags of a signature -/

theorem sigTag_err {ix : Idna} {pre : Bool} {t : TagSpec} (hv : IsValue t.value) (acc : SigAcc) (k : SigErrorKind) :
    sigTag ix pre acc t = .err k ↔ TagDefect ix pre t.name t.value k := by
  obtain ⟨n, v⟩ := t
  simp only at hv
  constructor
  · intro h
    unfold sigTag at h
    simp only at h
    rcases ite_eq_cases h with ⟨rfl, h⟩ | ⟨_, h⟩
    · rcases ite_eq_cases h with ⟨e, h⟩ | ⟨_, h⟩
      · cases h; exact .version _ e
      · cases h
    rcases ite_eq_cases h with ⟨rfl, h⟩ | ⟨_, h⟩
    · rcases (parseTagA_err _ _ _).1 (set_err.1 h) with ⟨rfl, g⟩ | ⟨rfl, h1, h2⟩
      · exact .algorithm _ g
      · exact .historic _ h1 h2
    rcases ite_eq_cases h with ⟨rfl, h⟩ | ⟨_, h⟩
    · rcases (parseTagB_err _ _ _).1 (set_err.1 h) with ⟨rfl, g⟩ | ⟨rfl, g⟩
      · exact .signature _ g
      · exact .noSignature _ g
    rcases ite_eq_cases h with ⟨rfl, h⟩ | ⟨_, h⟩
    · rcases (parseTagB_err _ _ _).1 (set_err.1 h) with ⟨rfl, g⟩ | ⟨rfl, g⟩
      · exact .bodyHash _ g
      · exact .noBodyHash _ g
    rcases ite_eq_cases h with ⟨rfl, h⟩ | ⟨_, h⟩
    · obtain ⟨rfl, g⟩ := (parseTagC_err _ _).1 (set_err.1 h)
      exact .canonicalization _ g
    rcases ite_eq_cases h with ⟨rfl, h⟩ | ⟨_, h⟩
    · obtain ⟨rfl, g⟩ := (parseTagD_err _ _ _).1 (set_err.1 h)
      exact .domain _ g
    rcases ite_eq_cases h with ⟨rfl, h⟩ | ⟨_, h⟩
    · rcases (parseTagH_err hv _).1 (set_err.1 h) with ⟨rfl, rfl⟩ | ⟨rfl, h0, items, h1, h2⟩ | ⟨rfl, items, h1, h2, h3⟩
      · exact .noHeaders
      · exact .headerName _ items h0 h1 h2
      · exact .noFrom _ items h1 h2 h3
    rcases ite_eq_cases h with ⟨rfl, h⟩ | ⟨_, h⟩
    · obtain ⟨rfl, g⟩ := (parseTagI_err _ hv _).1 (set_err.1 h)
      exact .identity _ g
    rcases ite_eq_cases h with ⟨rfl, h⟩ | ⟨_, h⟩
    · obtain ⟨rfl, g⟩ := (parseTagNum_err _ _ _).1 (set_err.1 h)
      exact .bodyLength _ g
    rcases ite_eq_cases h with ⟨rfl, h⟩ | ⟨_, h⟩
    · rcases (parseTagQ_err hv _).1 (set_err.1 h) with ⟨rfl, items, h1, h2⟩ | ⟨rfl, items, h1, h2, h3⟩
      · exact .queryMethod _ items h1 h2
      · exact .noQueryMethod _ items h1 h2 h3
    rcases ite_eq_cases h with ⟨rfl, h⟩ | ⟨_, h⟩
    · obtain ⟨rfl, g⟩ := (parseTagS_err _ _ _).1 (set_err.1 h)
      exact .selector _ g
    rcases ite_eq_cases h with ⟨rfl, h⟩ | ⟨_, h⟩
    · obtain ⟨rfl, g⟩ := (parseTagNum_err _ _ _).1 (set_err.1 h)
      exact .timestamp _ g
    rcases ite_eq_cases h with ⟨rfl, h⟩ | ⟨_, h⟩
    · obtain ⟨rfl, g⟩ := (parseTagNum_err _ _ _).1 (set_err.1 h)
      exact .expiration _ g
    rcases ite_eq_cases h with ⟨rfl, h⟩ | ⟨_, h⟩
    · obtain ⟨rfl, g⟩ := (parseTagZ_err hv _).1 (set_err.1 h)
      exact .copied _ g
    · cases h
  · intro h
    cases h with
    | version v h => simp [sigTag, h]
    | algorithm v h => exact set_err.2 ((parseTagA_err _ _ _).2 (.inl ⟨rfl, h⟩))
    | historic v h h' => exact set_err.2 ((parseTagA_err _ _ _).2 (.inr ⟨rfl, h, h'⟩))
    | signature v h => exact set_err.2 ((parseTagB_err _ _ _).2 (.inl ⟨rfl, h⟩))
    | noSignature v h => exact set_err.2 ((parseTagB_err _ _ _).2 (.inr ⟨rfl, h⟩))
    | bodyHash v h => exact set_err.2 ((parseTagB_err _ _ _).2 (.inl ⟨rfl, h⟩))
    | noBodyHash v h => exact set_err.2 ((parseTagB_err _ _ _).2 (.inr ⟨rfl, h⟩))
    | canonicalization v h => exact set_err.2 ((parseTagC_err _ _).2 ⟨rfl, h⟩)
    | domain v h => exact set_err.2 ((parseTagD_err _ _ _).2 ⟨rfl, h⟩)
    | noHeaders =>
      exact set_err (f := fun x => { acc with signedHeaders := some x }).2 ((parseTagH_err hv _).2 (.inl ⟨rfl, rfl⟩))
    | headerName v items h0 h1 h2 => exact set_err.2 ((parseTagH_err hv _).2 (.inr (.inl ⟨rfl, h0, items, h1, h2⟩)))
    | noFrom v items h1 h2 h3 => exact set_err.2 ((parseTagH_err hv _).2 (.inr (.inr ⟨rfl, items, h1, h2, h3⟩)))
    | identity v h => exact set_err.2 ((parseTagI_err _ hv _).2 ⟨rfl, h⟩)
    | bodyLength v h => exact set_err.2 ((parseTagNum_err _ _ _).2 ⟨rfl, h⟩)
    | queryMethod v items h1 h2 => exact set_err.2 ((parseTagQ_err hv _).2 (.inl ⟨rfl, items, h1, h2⟩))
    | noQueryMethod v items h1 h2 h3 => exact set_err.2 ((parseTagQ_err hv _).2 (.inr ⟨rfl, items, h1, h2, h3⟩))
    | selector v h => exact set_err.2 ((parseTagS_err _ _ _).2 ⟨rfl, h⟩)
    | timestamp v h => exact set_err.2 ((parseTagNum_err _ _ _).2 ⟨rfl, h⟩)
    | expiration v h => exact set_err.2 ((parseTagNum_err _ _ _).2 ⟨rfl, h⟩)
    | copied v h => exact set_err.2 ((parseTagZ_err hv _).2 ⟨rfl, h⟩)

theorem sigTag_ok_iff {ix : Idna} {pre : Bool} {t : TagSpec} (hv : IsValue t.value) (acc : SigAcc) :
    (∃ acc', sigTag ix pre acc t = .ok acc') ↔ ∀ k, ¬ TagDefect ix pre t.name t.value k := by
  cases h : sigTag ix pre acc t with
  | ok acc' =>
    refine ⟨fun _ k hk => ?_, fun _ => ⟨acc', rfl⟩⟩
    rw [(sigTag_err hv acc k).2 hk] at h; cases h
  | err k =>
    constructor
    · rintro ⟨_, h'⟩
      cases h'
    · exact fun h' => absurd ((sigTag_err hv acc k).1 h) (h' k)
  | panic => exact absurd h (sigTag_noPanic ix pre hv acc)

/-- The loop ends with an error at the first tag with a defect, and without one if there is
no such tag. -/
theorem sigLoop_cases {ix : Idna} {pre : Bool} {tags : List TagSpec} (hv : ∀ t ∈ tags, IsValue t.value)
    (acc : SigAcc) : (∃ acc', sigLoop ix pre acc tags = .ok acc' ∧ NoTagDefect ix pre (toPairs tags)) ∨
      ∃ k before after n v, sigLoop ix pre acc tags = .err k ∧ toPairs tags = before ++ (n, v) :: after ∧
        NoTagDefect ix pre before ∧ TagDefect ix pre n v k := by
  induction tags generalizing acc with
  | nil => exact .inl ⟨acc, rfl, fun t ht => by simp [toPairs] at ht⟩
  | cons t ts ih =>
    have hvt := hv t (by simp)
    rw [sigLoop]
    cases h : sigTag ix pre acc t with
    | panic => exact absurd h (sigTag_noPanic ix pre hvt acc)
    | err k =>
      exact .inr ⟨k, [], toPairs ts, t.name, t.value, rfl, rfl, fun t ht => (by simp at ht),
        (sigTag_err hvt acc k).1 h⟩
    | ok acc1 =>
      have h0 := (sigTag_ok_iff hvt acc).1 ⟨acc1, h⟩
      rcases ih (fun t ht => hv t (by simp [ht])) acc1 with ⟨acc', h1, h2⟩ | ⟨k, b, a, n, v, h1, h2, h3, h4⟩
      · refine .inl ⟨acc', h1, fun p hp => ?_⟩
        rcases List.mem_cons.1 hp with rfl | hp
        · exact h0
        · exact h2 p hp
      · refine .inr ⟨k, (t.name, t.value) :: b, a, n, v, h1, by rw [← List.cons_append.symm, ← h2]; rfl, ?_, h4⟩
        intro p hp
        rcases List.mem_cons.1 hp with rfl | hp
        · exact h0
        · exact h3 p hp

theorem absent_iff {tags : List TagSpec} {n : Str} : (∀ v, (n, v) ∉ toPairs tags) ↔ ∀ t ∈ tags, t.name ≠ n := by
  constructor
  · intro h t ht e
    exact h t.value (mem_pairs.2 ⟨t, ht, e, rfl⟩)
  · intro h v hv
    obtain ⟨t, ht, e, _⟩ := mem_pairs.1 hv
    exact h t ht e

theorem field_none {ε α : Type} {tags : List TagSpec} {N : Str} {p : Str → Res ε α} {y : Option α}
    (hf : (∀ t ∈ tags, t.name = N → ∃ x, p t.value = .ok x ∧ y = some x) ∧
      ((∀ t ∈ tags, t.name ≠ N) → y = none)) : y = none ↔ ∀ v, (N, v) ∉ toPairs tags := by
  rw [absent_iff]
  refine ⟨fun h t ht e => ?_, hf.2⟩
  obtain ⟨x, _, h'⟩ := hf.1 t ht e
  rw [h] at h'
  cases h'

theorem field_some {ε α : Type} {tags : List TagSpec} {N : Str} {p : Str → Res ε α} {y : Option α}
    (hf : (∀ t ∈ tags, t.name = N → ∃ x, p t.value = .ok x ∧ y = some x) ∧
      ((∀ t ∈ tags, t.name ≠ N) → y = none)) (a : α) (hy : y = some a) :
    ∃ v, (N, v) ∈ toPairs tags ∧ p v = .ok a := by
  refine Classical.byContradiction fun h => ?_
  have : ∀ t ∈ tags, t.name ≠ N := by
    intro t ht e
    obtain ⟨x, h1, h2⟩ := hf.1 t ht e
    rw [hy] at h2
    cases h2
    exact h ⟨t.value, mem_pairs.2 ⟨t, ht, e, rfl⟩, h1⟩
  rw [hf.2 this] at hy
  cases hy

/-- The first missing tag: `have` says of each required tag whether it is there. -/
def firstMissing : List (SigErrorKind × Bool) → Option SigErrorKind
  | [] => none
  | (k, true) :: rest => firstMissing rest
  | (k, false) :: _ => some k

/-- What the required tags are in the local variables. -/
def requiredAcc (acc : SigAcc) : List (SigErrorKind × Bool) :=
  [(.missingVersionTag, acc.versionSeen), (.missingAlgorithmTag, acc.algorithm.isSome),
   (.missingSignatureTag, acc.signatureData.isSome), (.missingBodyHashTag, acc.bodyHash.isSome),
   (.missingDomainTag, acc.domain.isSome), (.missingSignedHeadersTag, acc.signedHeaders.isSome),
   (.missingSelectorTag, acc.selector.isSome)]

theorem sigFinish_err {ix : Idna} {acc : SigAcc} {k : SigErrorKind} (h : sigFinish ix acc = .err k) :
    firstMissing (requiredAcc acc) = some k ∨
      (firstMissing (requiredAcc acc) = none ∧
        ((k = .domainMismatch ∧ ∃ d, acc.domain = some d ∧ domainMismatch ix acc.identity d = some true) ∨
          (k = .expirationNotAfterTimestamp ∧ (∃ d, acc.domain = some d ∧
            domainMismatch ix acc.identity d = some false) ∧
            expirationBad acc.timestamp acc.expiration = true))) := by
  obtain ⟨v, a, b, bh, c, d, hh, i, l, sel, t, x, z, ext⟩ := acc
  unfold sigFinish at h
  simp only at h
  cases v with
  | false => cases h; exact .inl rfl
  | true =>
  cases a with
  | none => cases h; exact .inl rfl
  | some a =>
  cases b with
  | none => cases h; exact .inl rfl
  | some b =>
  cases bh with
  | none => cases h; exact .inl rfl
  | some bh =>
  cases d with
  | none => cases h; exact .inl rfl
  | some d =>
  cases hh with
  | none => cases h; exact .inl rfl
  | some hh =>
  cases sel with
  | none => cases h; exact .inl rfl
  | some sel =>
  refine .inr ⟨rfl, ?_⟩
  simp only [Bool.not_true, Bool.false_eq_true, if_false] at h
  cases hm : domainMismatch ix i d with
  | none => rw [hm] at h; cases h
  | some m =>
    rw [hm] at h
    cases m with
    | true => cases h; exact .inl ⟨rfl, d, rfl, hm⟩
    | false =>
      rcases ite_eq_cases h with ⟨h1, h2⟩ | ⟨_, h2⟩
      · cases h2; exact .inr ⟨rfl, ⟨d, rfl, hm⟩, h1⟩
      · cases h2

theorem firstMissing_split {l : List (Str × SigErrorKind)} (f : Str → Bool) {k : SigErrorKind}
    (h : firstMissing (l.map fun p => (p.2, f p.1)) = some k) :
    ∃ b n a, l = b ++ (n, k) :: a ∧ (∀ p ∈ b, f p.1 = true) ∧ f n = false := by
  induction l with
  | nil => cases h
  | cons p l ih =>
    obtain ⟨n, e⟩ := p
    rw [List.map_cons] at h
    cases hf : f n with
    | true =>
      simp only [hf] at h
      obtain ⟨b, m, a, h1, h2, h3⟩ := ih h
      refine ⟨(n, e) :: b, m, a, by rw [h1]; rfl, ?_, h3⟩
      intro q hq
      rcases List.mem_cons.1 hq with rfl | hq
      · exact hf
      · exact h2 q hq
    | false =>
      simp only [hf] at h
      cases h
      exact ⟨[], n, l, rfl, by simp, hf⟩

theorem firstMissing_none {l : List (Str × SigErrorKind)} (f : Str → Bool)
    (h : firstMissing (l.map fun p => (p.2, f p.1)) = none) : ∀ p ∈ l, f p.1 = true := by
  induction l with
  | nil => simp
  | cons p l ih =>
    obtain ⟨n, e⟩ := p
    rw [List.map_cons] at h
    cases hf : f n with
    | true =>
      simp only [hf] at h
      intro q hq
      rcases List.mem_cons.1 hq with rfl | hq
      · exact hf
      · exact ih h q hq
    | false => simp only [hf] at h; cases h

theorem sigInternal_err {ix : Idna} (law : CaseLaw ix) (pre : Bool) {tags : List TagSpec}
    (hv : ∀ t ∈ tags, IsValue t.value) (hn : (tags.map (·.name)).Nodup) {k : SigErrorKind}
    (h : sigFromTagListInternal ix pre tags = .err k) : FirstDefect ix pre (toPairs tags) k := by
  unfold sigFromTagListInternal at h
  rcases sigLoop_cases (ix := ix) (pre := pre) hv {} with ⟨acc, h1, h2⟩ | ⟨k', b, a, n, v, h1, h2, h3, h4⟩
  · rw [h1] at h
    simp only at h
    have hA := field_algorithm h1 hn
    have hB := field_signatureData h1 hn
    have hBh := field_bodyHash h1 hn
    have hD := field_domain h1 hn
    have hH := field_signedHeaders h1 hn
    have hS := field_selector h1 hn
    have hI := field_identity h1 hn
    have hT := field_timestamp h1 hn
    have hX := field_expiration h1 hn
    have hV := field_version h1 hn
    let f : Str → Bool := fun n => (toPairs tags).any fun p => p.1 == n
    have hf : ∀ n, f n = false ↔ ∀ v, (n, v) ∉ toPairs tags := by
      intro n
      simp only [f, List.any_eq_false, beq_iff_eq]
      exact ⟨fun h v hm => h _ hm rfl, fun h p hp e => h p.2 (e ▸ hp)⟩
    have hft : ∀ n, f n = true ↔ ∃ v, (n, v) ∈ toPairs tags := by
      intro n
      simp only [f, List.any_eq_true, beq_iff_eq]
      exact ⟨fun ⟨p, hp, e⟩ => ⟨p.2, e ▸ hp⟩, fun ⟨v, hm⟩ => ⟨_, hm, rfl⟩⟩
    have isSome : ∀ {α : Type} {n : Str} {y : Option α}, (y = none ↔ ∀ v, (n, v) ∉ toPairs tags) →
        y.isSome = f n := by
      intro α n y h
      cases hb : f n with
      | false => rw [h.2 ((hf n).1 hb)]; rfl
      | true =>
        cases y with
        | some _ => rfl
        | none =>
          obtain ⟨v, hm⟩ := (hft n).1 hb
          exact absurd hm (h.1 rfl v)
    have hver : acc.versionSeen = f c!"v" := by
      cases hb : f c!"v" with
      | false => exact hV.2 (absent_iff.1 ((hf _).1 hb))
      | true =>
        obtain ⟨v, hm⟩ := (hft _).1 hb
        obtain ⟨t, ht, e, _⟩ := mem_pairs.1 hm
        exact (hV.1 t ht e).2
    have hreq : requiredAcc acc = requiredTags.map fun p => (p.2, f p.1) := by
      simp only [requiredAcc, requiredTags, List.map_cons, List.map_nil, hver, isSome (field_none hA),
        isSome (field_none hB), isSome (field_none hBh), isSome (field_none hD), isSome (field_none hH),
        isSome (field_none hS)]
    rcases sigFinish_err h with hm | ⟨hm, hd⟩
    · rw [hreq] at hm
      obtain ⟨b, n, a, e, h3, h4⟩ := firstMissing_split f hm
      exact .missing b a n k h2 e (fun p hp => (hft _).1 (h3 p hp)) ((hf n).1 h4)
    · rw [hreq] at hm
      have hall : AllPresent requiredTags (toPairs tags) := fun p hp => (hft _).1 (firstMissing_none f hm p hp)
      have huniq : ∀ n v w, (n, v) ∈ toPairs tags → (n, w) ∈ toPairs tags → v = w := by
        intro n v w h3 h4
        obtain ⟨t, a1, a2, a3⟩ := mem_pairs.1 h3
        obtain ⟨u, b1, b2, b3⟩ := mem_pairs.1 h4
        have := name_unique hn t u a1 b1 (a2.trans b2.symm)
        subst this
        exact a3.symm.trans b3
      have hval : ∀ n v, (n, v) ∈ toPairs tags → IsValue v := by
        intro n v h3
        obtain ⟨t, a1, _, rfl⟩ := mem_pairs.1 h3
        exact hv t a1
      -- the domain and identity
      have hdom : ∀ d, acc.domain = some d → (c!"d", d) ∈ toPairs tags ∧ ValidDomain true ix d := by
        intro d hd
        obtain ⟨v, m, e⟩ := field_some hD d hd
        obtain ⟨rfl, e⟩ := (parseTagD_iff ix v d).1 e
        exact ⟨m, e⟩
      have hident : ∀ i, acc.identity = some i → ∃ v, (c!"i", v) ∈ toPairs tags ∧ IdentityText ix v i := by
        intro i hi
        obtain ⟨v, m, e⟩ := field_some hI i hi
        exact ⟨v, m, (parseTagI_iff ix (hval _ _ m) i).1 e⟩
      have helse : ∀ d, acc.domain = some d →
          (domainMismatch ix acc.identity d = some false ↔ ¬ IdentityElsewhere ix (toPairs tags)) := by
        intro d hd
        rw [domainMismatch_iff law (fun j hj => by obtain ⟨v, _, h⟩ := hident j hj; exact h.1.2.1) (hdom d hd).2]
        constructor
        · rintro hu ⟨d', v, i, m1, m2, m3, m4⟩
          have e1 := huniq _ _ _ m1 (hdom d hd).1
          subst e1
          cases hi : acc.identity with
          | none => exact (field_none hI).1 hi v m2
          | some j =>
            obtain ⟨w, n1, n2⟩ := hident j hi
            have := huniq _ _ _ m2 n1
            subst this
            have e2 : j = i := by
              have a1 := (parseTagI_iff ix (hval _ _ m2) i).2 m3
              have a2 := (parseTagI_iff ix (hval _ _ m2) j).2 n2
              rw [a1] at a2
              cases a2; rfl
            subst e2
            exact m4 (hu j hi)
        · intro hu j hj
          refine Classical.byContradiction fun hc => hu ?_
          obtain ⟨w, n1, n2⟩ := hident j hj
          exact ⟨d, w, j, (hdom d hd).1, n1, n2, hc⟩
      rcases hd with ⟨rfl, d, hd, hm⟩ | ⟨rfl, ⟨d, hd, hm⟩, hx⟩
      · refine .domains h2 hall (Classical.byContradiction fun hc => ?_)
        rw [(helse d hd).2 hc] at hm
        cases hm
      · refine .times h2 hall ((helse d hd).1 hm) ?_
        unfold expirationBad at hx
        split at hx
        · rename_i t x ht hx'
          obtain ⟨v, v1, v2⟩ := field_some hT t ht
          obtain ⟨w, w1, w2⟩ := field_some hX x hx'
          exact ⟨v, w, t, x, v1, (parseTagNum_iff _ _ _).1 v2, w1, (parseTagNum_iff _ _ _).1 w2,
            of_decide_eq_true hx⟩
        · cases hx
  · rw [h1] at h
    cases h
    exact .value b a n v k h2 h3 h4

/-! ### There is only one first defect -/

theorem split_unique {α : Type} {P : α → Prop} {l a b a' b' : List α} {x x' : α} (h : l = a ++ x :: b)
    (h' : l = a' ++ x' :: b') (ha : ∀ y ∈ a, ¬ P y) (hx : P x) (ha' : ∀ y ∈ a', ¬ P y) (hx' : P x') :
    a = a' ∧ x = x' ∧ b = b' := by
  rw [h, List.append_eq_append_iff] at h'
  rcases h' with ⟨c, h1, h2⟩ | ⟨c, h1, h2⟩
  · cases c with
    | nil => simp at h1 h2; exact ⟨h1.symm, h2.1, h2.2⟩
    | cons y c =>
      injection h2 with h2 _
      subst h2
      exact absurd hx (ha' x (by rw [h1]; simp))
  · cases c with
    | nil => simp at h1 h2; exact ⟨h1, h2.1.symm, h2.2.symm⟩
    | cons y c =>
      injection h2 with h2 _
      subst h2
      exact absurd hx' (ha x' (by rw [h1]; simp))

theorem tagDefect_unique {ix : Idna} {pre : Bool} {n v : Str} (hv : IsValue v) {k k' : SigErrorKind}
    (h : TagDefect ix pre n v k) (h' : TagDefect ix pre n v k') : k = k' := by
  have h1 := (sigTag_err (t := ⟨n, v⟩) hv {} k).2 h
  have h2 := (sigTag_err (t := ⟨n, v⟩) hv {} k').2 h'
  rw [h1] at h2
  cases h2; rfl

theorem firstDefect_unique {ix : Idna} {pre : Bool} {tags : List (Str × Str)} (hv : ∀ t ∈ tags, IsValue t.2)
    {k k' : SigErrorKind} (h : FirstDefect ix pre tags k) (h' : FirstDefect ix pre tags k') : k = k' := by
  have clash : ∀ {b a : List (Str × Str)} {n v : Str} {k : SigErrorKind}, tags = b ++ (n, v) :: a →
      TagDefect ix pre n v k → ¬ NoTagDefect ix pre tags := by
    intro b a n v k e hd hno
    exact hno (n, v) (by rw [e]; simp) k hd
  have absent : ∀ {b a : List (Str × SigErrorKind)} {n : Str} {k : SigErrorKind},
      requiredTags = b ++ (n, k) :: a → (∀ v, (n, v) ∉ tags) → ¬ AllPresent requiredTags tags := by
    intro b a n k e hno hall
    obtain ⟨v, hm⟩ := hall (n, k) (by rw [e]; simp)
    exact hno v hm
  cases h with
  | value b a n v k e h1 h2 =>
    cases h' with
    | value b' a' n' v' k' e' h1' h2' =>
      have := split_unique (P := fun t : Str × Str => ∃ k, TagDefect ix pre t.1 t.2 k) e e'
        (fun y hy ⟨k, hk⟩ => h1 y hy k hk) ⟨k, h2⟩ (fun y hy ⟨k, hk⟩ => h1' y hy k hk) ⟨k', h2'⟩
      obtain ⟨_, e3, _⟩ := this
      injection e3 with e4 e5
      subst e4; subst e5
      exact tagDefect_unique (hv (n, v) (by rw [e]; simp)) h2 h2'
    | missing _ _ _ _ h3 => exact absurd h3 (clash e h2)
    | domains h3 => exact absurd h3 (clash e h2)
    | times h3 => exact absurd h3 (clash e h2)
  | missing b a n k h1 e h2 h3 =>
    cases h' with
    | value b' a' n' v' k' e' h1' h2' => exact absurd h1 (clash e' h2')
    | missing b' a' n' k' h1' e' h2' h3' =>
      have := split_unique (P := fun p : Str × SigErrorKind => ∀ v, (p.1, v) ∉ tags) e e'
        (fun y hy hn => by obtain ⟨v, hm⟩ := h2 y hy; exact hn v hm) h3
        (fun y hy hn => by obtain ⟨v, hm⟩ := h2' y hy; exact hn v hm) h3'
      exact (Prod.mk.inj this.2.1).2
    | domains _ h4 => exact absurd h4 (absent e h3)
    | times _ h4 => exact absurd h4 (absent e h3)
  | domains h1 h2 h3 =>
    cases h' with
    | value b' a' n' v' k' e' h1' h2' => exact absurd h1 (clash e' h2')
    | missing b' a' n' k' h1' e' h2' h3' => exact absurd h2 (absent e' h3')
    | domains => rfl
    | times _ _ h => exact absurd h3 h
  | times h1 h2 h3 =>
    cases h' with
    | value b' a' n' v' k' e' h1' h2' => exact absurd h1 (clash e' h2')
    | missing b' a' n' k' h1' e' h2' h3' => exact absurd h2 (absent e' h3')
    | domains _ _ h => exact absurd h h3
    | times => rfl

/-! ### Key records -/

theorem recItems_none {α : Type} (item : Str → Option α) (l : List Str) : recItems item l = none ↔ [] ∈ l := by
  induction l with
  | nil => simp [recItems]
  | cons s rest ih =>
    rw [recItems]
    cases s with
    | nil => simp
    | cons c r =>
      simp only [List.isEmpty_cons, Bool.false_eq_true, if_false, List.mem_cons, reduceCtorEq, false_or]
      rw [← ih]
      cases recItems item rest <;> simp

theorem recList_err {α : Type} (item : Str → Option α) {v : Str} (hv : IsValue v) (e1 e2 k : RecordError) :
    (match recItems item (parseColonSeparated v) with
      | none => Res.err e1
      | some l => if l.isEmpty then Res.err e2 else Res.ok l) = Res.err k ↔
      (k = e1 ∧ ∃ items, Items v items ∧ [] ∈ items) ∨
      (k = e2 ∧ ∃ items, Items v items ∧ [] ∉ items ∧ ∀ i ∈ items, item i = none) := by
  simp only [items_iff hv, exists_eq_left']
  generalize parseColonSeparated v = l
  cases h : recItems item l with
  | none =>
    have h' := (recItems_none item l).1 h
    simp only [Res.err.injEq]
    constructor
    · rintro rfl; exact .inl ⟨rfl, h'⟩
    · rintro (⟨rfl, -⟩ | ⟨-, h, -⟩)
      · rfl
      · exact absurd h' h
  | some xs =>
    have h1 : [] ∉ l := fun hm => by rw [(recItems_none item l).2 hm] at h; cases h
    have h2 := ((recItems_iff item l xs).1 h).2
    simp only
    cases xs with
    | nil =>
      rw [List.isEmpty_nil, if_pos rfl, Res.err.injEq]
      have h3 : ∀ i ∈ l, item i = none := List.filterMap_eq_nil_iff.1 h2.symm
      constructor
      · rintro rfl; exact .inr ⟨rfl, h1, h3⟩
      · rintro (⟨-, h⟩ | ⟨rfl, -⟩)
        · exact absurd h h1
        · rfl
    | cons x r =>
      rw [List.isEmpty_cons, if_neg (by simp)]
      simp only [reduceCtorEq, false_iff]
      rintro (⟨-, h⟩ | ⟨-, -, h⟩)
      · exact h1 h
      · rw [List.filterMap_eq_nil_iff.2 h] at h2; cases h2

theorem recTagH_err (pre : Bool) {v : Str} (hv : IsValue v) (k : RecordError) : recTagH pre v = .err k ↔
    (k = .invalidHashAlgorithm ∧ ∃ items, Items v items ∧ [] ∈ items) ∨
    (k = .noSupportedHashAlgorithms ∧ ∃ items, Items v items ∧ [] ∉ items ∧ ∀ i ∈ items, hashNamed pre i = none) := by
  have e : recHashAlg pre = hashNamed pre := funext (recHashAlg_eq pre)
  rw [← recList_err _ hv, ← e]
  unfold recTagH
  cases recItems (recHashAlg pre) (parseColonSeparated v) <;> rfl

theorem recTagS_err {v : Str} (hv : IsValue v) (k : RecordError) : recTagS v = .err k ↔
    (k = .invalidServiceType ∧ ∃ items, Items v items ∧ [] ∈ items) ∨
    (k = .noSupportedServiceTypes ∧ ∃ items, Items v items ∧ [] ∉ items ∧ ∀ i ∈ items, serviceNamed i = none) := by
  have e : recServiceType = serviceNamed := funext recServiceType_eq
  rw [← recList_err _ hv, ← e]
  unfold recTagS
  cases recItems recServiceType (parseColonSeparated v) <;> rfl

theorem recTagT_err {v : Str} (hv : IsValue v) (k : RecordError) : recTagT v = .err k ↔
    k = .invalidFlag ∧ ∃ items, Items v items ∧ [] ∈ items := by
  simp only [items_iff hv, exists_eq_left', ← recItems_none recFlag]
  unfold recTagT
  cases h : recItems recFlag (parseColonSeparated v) with
  | none => simp only [Res.err.injEq]; exact ⟨fun e => ⟨e.symm, trivial⟩, fun e => e.1.symm⟩
  | some xs => simp

theorem recTagK_err (v : Str) (k : RecordError) : recTagK v = .err k ↔
    k = .unsupportedKeyType ∧ ∀ t, ¬ KeyTypeText v t := by
  have h := recTagK_iff v
  cases hp : recTagK v with
  | panic => unfold recTagK at hp; split at hp <;> (try split at hp) <;> cases hp
  | err e =>
    have : e = .unsupportedKeyType := by unfold recTagK at hp; split at hp <;> (try split at hp) <;> cases hp; rfl
    subst this
    rw [Res.err.injEq]
    exact ⟨fun e => ⟨e.symm, fun i hi => by rw [(h i).2 hi] at hp; cases hp⟩, fun e => e.1.symm⟩
  | ok i =>
    simp only [reduceCtorEq, false_iff]
    exact fun e => e.2 i ((h i).1 hp)

theorem recTagN_err (lossy : Bytes → Str) (v : Str) (k : RecordError) : recTagN lossy v = .err k ↔
    k = .invalidQuotedPrintable ∧ ∀ bs, ¬ QpSection v bs := by
  have h := recTagN_iff lossy v
  cases hp : recTagN lossy v with
  | panic => exact absurd hp (recTagN_noPanic lossy v)
  | err e =>
    have : e = .invalidQuotedPrintable := by unfold recTagN at hp; split at hp <;> cases hp; rfl
    subst this
    rw [Res.err.injEq]
    exact ⟨fun e => ⟨e.symm, fun bs hb => by rw [(h _).2 ⟨bs, hb, rfl⟩] at hp; cases hp⟩, fun e => e.1.symm⟩
  | ok i =>
    simp only [reduceCtorEq, false_iff]
    obtain ⟨bs, hb, _⟩ := (h i).1 hp
    exact fun e => e.2 bs hb

theorem recTagP_err (v : Str) (k : RecordError) : recTagP v = .err k ↔
    k = .invalidBase64 ∧ ∀ bs, unfws v ≠ base64 bs := by
  have h := recTagP_iff v
  unfold recTagP at h ⊢
  cases hp : parseBase64Value v with
  | none =>
    simp only [hp, reduceCtorEq, false_iff] at h
    simp only [Res.err.injEq]
    exact ⟨fun e => ⟨e.symm, h⟩, fun e => e.1.symm⟩
  | some c =>
    simp only [hp] at h
    simp only [reduceCtorEq, false_iff]
    exact fun e => e.2 c ((h c).1 rfl)

theorem recTag_err {lossy : Bytes → Str} {pre : Bool} {t : TagSpec} (hv : IsValue t.value) (acc : RecAcc) (i : Nat)
    (k : RecordError) : recTag lossy pre acc i t = .err k ↔ RecordTagDefect pre (i = 0) t.name t.value k := by
  obtain ⟨n, v⟩ := t
  simp only at hv
  constructor
  · intro h
    unfold recTag at h
    simp only at h
    rcases ite_eq_cases h with ⟨rfl, h⟩ | ⟨_, h⟩
    · rcases ite_eq_cases h with ⟨e, h⟩ | ⟨e, h⟩
      · cases h; exact .misplaced _ e
      · rcases ite_eq_cases h with ⟨e', h⟩ | ⟨_, h⟩
        · cases h; exact .version _ (Classical.not_not.1 e) e'
        · cases h
    rcases ite_eq_cases h with ⟨rfl, h⟩ | ⟨_, h⟩
    · rcases (recTagH_err _ hv _).1 (set_err.1 h) with ⟨rfl, items, h1, h2⟩ | ⟨rfl, items, h1, h2, h3⟩
      · exact .hash _ items h1 h2
      · exact .noHash _ items h1 h2 h3
    rcases ite_eq_cases h with ⟨rfl, h⟩ | ⟨_, h⟩
    · obtain ⟨rfl, g⟩ := (recTagK_err _ _).1 (set_err.1 h)
      exact .keyType _ g
    rcases ite_eq_cases h with ⟨rfl, h⟩ | ⟨_, h⟩
    · obtain ⟨rfl, g⟩ := (recTagN_err _ _ _).1 (set_err.1 h)
      exact .notes _ g
    rcases ite_eq_cases h with ⟨rfl, h⟩ | ⟨_, h⟩
    · obtain ⟨rfl, g⟩ := (recTagP_err _ _).1 (set_err.1 h)
      exact .key _ g
    rcases ite_eq_cases h with ⟨rfl, h⟩ | ⟨_, h⟩
    · rcases (recTagS_err hv _).1 (set_err.1 h) with ⟨rfl, items, h1, h2⟩ | ⟨rfl, items, h1, h2, h3⟩
      · exact .service _ items h1 h2
      · exact .noService _ items h1 h2 h3
    rcases ite_eq_cases h with ⟨rfl, h⟩ | ⟨_, h⟩
    · obtain ⟨rfl, items, h1, h2⟩ := (recTagT_err hv _).1 (set_err.1 h)
      exact .flag _ items h1 h2
    · cases h
  · intro h
    cases h with
    | misplaced v h => simp [recTag, h]
    | version v h h' => simp [recTag, h, h']
    | hash v items h1 h2 => exact set_err.2 ((recTagH_err _ hv _).2 (.inl ⟨rfl, items, h1, h2⟩))
    | noHash v items h1 h2 h3 => exact set_err.2 ((recTagH_err _ hv _).2 (.inr ⟨rfl, items, h1, h2, h3⟩))
    | keyType v h => exact set_err.2 ((recTagK_err _ _).2 ⟨rfl, h⟩)
    | notes v h => exact set_err.2 ((recTagN_err _ _ _).2 ⟨rfl, h⟩)
    | key v h => exact set_err.2 ((recTagP_err _ _).2 ⟨rfl, h⟩)
    | service v items h1 h2 => exact set_err.2 ((recTagS_err hv _).2 (.inl ⟨rfl, items, h1, h2⟩))
    | noService v items h1 h2 h3 => exact set_err.2 ((recTagS_err hv _).2 (.inr ⟨rfl, items, h1, h2, h3⟩))
    | flag v items h1 h2 => exact set_err.2 ((recTagT_err hv _).2 ⟨rfl, items, h1, h2⟩)

/-- The loop, after the tags `done`, ends with an error at the first tag with a defect. -/
theorem recLoop_cases {lossy : Bytes → Str} {pre : Bool} {tags : List TagSpec} (hv : ∀ t ∈ tags, IsValue t.value)
    (acc : RecAcc) (done : List (Str × Str)) (hd : NoRecordDefect pre done) :
    (∃ acc', recLoop lossy pre acc done.length tags = .ok acc' ∧ NoRecordDefect pre (done ++ toPairs tags)) ∨
      ∃ k before after n v, recLoop lossy pre acc done.length tags = .err k ∧
        done ++ toPairs tags = before ++ (n, v) :: after ∧ NoRecordDefect pre before ∧
        RecordTagDefect pre (before = []) n v k := by
  induction tags generalizing acc done with
  | nil => exact .inl ⟨acc, rfl, by simpa [toPairs] using hd⟩
  | cons t ts ih =>
    have hvt := hv t (by simp)
    have hz : (done.length = 0) = (done = []) := by simp
    rw [recLoop]
    cases h : recTag lossy pre acc done.length t with
    | panic => exact absurd h (recTag_noPanic acc)
    | err k =>
      have := (recTag_err hvt acc _ k).1 h
      rw [hz] at this
      exact .inr ⟨k, done, toPairs ts, t.name, t.value, rfl, rfl, hd, this⟩
    | ok acc1 =>
      have h0 : ∀ k, ¬ RecordTagDefect pre (done = []) t.name t.value k := by
        intro k hk
        rw [← hz] at hk
        rw [(recTag_err hvt acc _ k).2 hk] at h
        cases h
      have hd' : NoRecordDefect pre (done ++ [(t.name, t.value)]) := by
        intro a n v b e k
        rcases List.eq_nil_or_concat b with rfl | ⟨b', x, rfl⟩
        · obtain ⟨e1, e2⟩ := List.append_inj' e rfl
          injection e2 with e2
          injection e2 with e3 e4
          subst e1; subst e3; subst e4
          exact h0 k
        · rw [List.concat_eq_append, ← List.cons_append, ← List.append_assoc] at e
          obtain ⟨e1, e2⟩ := List.append_inj' e rfl
          exact hd a n v b' e1 k
      have := ih (fun t ht => hv t (by simp [ht])) acc1 (done ++ [(t.name, t.value)]) hd'
      have e : done ++ [(t.name, t.value)] ++ toPairs ts = done ++ toPairs (t :: ts) := by simp [toPairs]
      rw [e, List.length_append] at this
      exact this

theorem recordFromTagList_err {lossy : Bytes → Str} {pre : Bool} {tags : List TagSpec}
    (hv : ∀ t ∈ tags, IsValue t.value) (hn : (tags.map (·.name)).Nodup) {k : RecordError}
    (h : recordFromTagList lossy pre tags = .err k) : FirstRecordDefect pre (toPairs tags) k := by
  unfold recordFromTagList at h
  rcases recLoop_cases (lossy := lossy) (pre := pre) hv {} [] (fun a n v b e => by simp at e) with
    ⟨acc, h1, h2⟩ | ⟨k', b, a, n, v, h1, h2, h3, h4⟩
  · rw [List.length_nil] at h1
    rw [h1] at h
    simp only at h
    have hP := rfield_p h1 hn
    cases hk : acc.keyData with
    | none =>
      rw [hk] at h
      cases h
      exact .missing h2 ((field_none hP).1 hk)
    | some d => rw [hk] at h; cases h
  · rw [List.length_nil] at h1
    rw [h1] at h
    cases h
    exact .value b a n v k h2 h3 h4

theorem recordDefect_unique {pre : Bool} {first : Prop} {n v : Str} (hv : IsValue v) {k k' : RecordError}
    (h : RecordTagDefect pre first n v k) (h' : RecordTagDefect pre first n v k') : k = k' := by
  have key : ∀ i : Nat, (i = 0) = first → k = k' := by
    rintro i rfl
    have h1 := (recTag_err (lossy := fun _ => []) (t := ⟨n, v⟩) hv {} i k).2 h
    have h2 := (recTag_err (lossy := fun _ => []) (t := ⟨n, v⟩) hv {} i k').2 h'
    rw [h1] at h2
    cases h2; rfl
  by_cases hf : first
  · exact key 0 (by simp [hf])
  · exact key 1 (by simp [hf])

theorem firstRecordDefect_unique {pre : Bool} {tags : List (Str × Str)} (hv : ∀ t ∈ tags, IsValue t.2)
    {k k' : RecordError} (h : FirstRecordDefect pre tags k) (h' : FirstRecordDefect pre tags k') : k = k' := by
  cases h with
  | value b a n v k e h1 h2 =>
    cases h' with
    | value b' a' n' v' k' e' h1' h2' =>
      have e2 := e'
      rw [e, List.append_eq_append_iff] at e2
      rcases e2 with ⟨c, c1, c2⟩ | ⟨c, c1, c2⟩
      · cases c with
        | nil =>
          simp only [List.append_nil, List.nil_append, List.cons.injEq, Prod.mk.injEq] at c1 c2
          obtain ⟨⟨rfl, rfl⟩, -⟩ := c2
          subst c1
          exact recordDefect_unique (hv (n, v) (by rw [e]; simp)) h2 h2'
        | cons y c =>
          injection c2 with c2 _
          subst c2
          exact absurd h2 (h1' b n v c c1 k)
      · cases c with
        | nil =>
          simp only [List.append_nil, List.nil_append, List.cons.injEq, Prod.mk.injEq] at c1 c2
          obtain ⟨⟨rfl, rfl⟩, -⟩ := c2
          subst c1
          exact recordDefect_unique (hv (n', v') (by rw [e]; simp)) h2 h2'
        | cons y c =>
          injection c2 with c2 _
          subst c2
          exact absurd h2' (h1 b' n' v' c c1 k')
    | missing h3 => exact absurd h2 (h3 b n v a e k)
  | missing h1 =>
    cases h' with
    | value b a n v k e h1' h2' => exact absurd h2' (h1 b n v a e _)
    | missing => rfl

end Dkim
