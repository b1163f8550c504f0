import Verif.Proofs.Signature

/-!
# Properties C29 to C32: parsing of DKIM signatures

`Spec.SignatureOf` says, tag by tag, which signature a list of tags stands for.
`Spec.CaseLaw` is the only assumption on the IDNA functions: ASCII letter case in
the input does not matter.
-/

namespace Dkim

open Spec

/-- C30: a text parses as a signature exactly if it is a tag list that stands for
that signature. -/
theorem C30_parse_exact (ix : Idna) (law : CaseLaw ix) (pre : Bool) (txt : Str) (s : DkimSignature) :
    sigFromStr ix pre txt = .ok s ↔
      ∃ tags, ListText tags txt ∧ (tags.map (·.1)).Nodup ∧ SignatureOf ix pre tags s :=
  sigFromStr_iff law pre txt s

theorem colonList_sub {items : List Str} {v : Str} (h : ColonList items v) :
    ∀ i ∈ items, ∀ c ∈ i, c ∈ v := by
  induction h with
  | one f n g => intro i hi c hc; simp at hi; subst hi; simp [hc]
  | more f n g ns s _ _ _ ih =>
    intro i hi c hc
    rcases List.mem_cons.1 hi with rfl | hi
    · simp [hc]
    · have := ih i hi c hc
      simp [this]

theorem isValue_noSemicolon {v : Str} (h : IsValue v) : ';' ∉ v := by
  intro hm
  obtain ⟨_, h2⟩ := isValue_inserted h
  have : ';' ∈ unfws v := by rw [unfws_eq, List.mem_filter]; exact ⟨hm, by decide⟩
  rcases h2 _ this with ⟨_, _, h⟩ | h
  · exact h rfl
  · exact absurd h (by decide)

/-- C29: the invariants of every parsed signature. -/
theorem C29_invariants (ix : Idna) (law : CaseLaw ix) (pre : Bool) (txt : Str) (s : DkimSignature)
    (h : sigFromStr ix pre txt = .ok s) :
    (∃ tags, ListText tags txt ∧ (tags.map (·.1)).Nodup ∧ (c!"v", c!"1") ∈ tags ∧
      ∀ n ∈ [c!"a", c!"b", c!"bh", c!"d", c!"h", c!"s"], ∃ v, (n, v) ∈ tags) ∧
    s.signatureData ≠ [] ∧ s.bodyHash ≠ [] ∧
    (∃ n ∈ s.signedHeaders, lower n = c!"from") ∧
    (∀ n ∈ s.signedHeaders, ValidName n ∧ ';' ∉ n) ∧
    ValidDomain true ix s.domain ∧ ValidDomain false ix s.selector ∧
    (∀ i, s.identity = some i → ValidIdentity ix i ∧ UnderDomain ix i.domain s.domain) ∧
    (∀ t x, s.timestamp = some t → s.expiration = some x → t < x) := by
  obtain ⟨tags, h1, h2, hs⟩ := (sigFromStr_iff law pre txt s).1 h
  obtain ⟨va, ma, _⟩ := hs.algorithm
  obtain ⟨vb, mb, hb⟩ := hs.signatureData
  obtain ⟨vbh, mbh, hbh⟩ := hs.bodyHash
  obtain ⟨vd, md, hd⟩ := hs.domain
  obtain ⟨vh, mh, hh⟩ := hs.signedHeaders
  obtain ⟨vs, ms, hsel⟩ := hs.selector
  refine ⟨⟨tags, h1, h2, hs.version, ?_⟩, hb.1, hbh.1, hh.2.2, ?_, hd.1 ▸ hd.2, hsel.1 ▸ hsel.2, ?_,
    hs.expirationAfter⟩
  · intro n hn
    simp only [List.mem_cons, List.not_mem_nil, or_false] at hn
    rcases hn with rfl | rfl | rfl | rfl | rfl | rfl
    · exact ⟨va, ma⟩
    · exact ⟨vb, mb⟩
    · exact ⟨vbh, mbh⟩
    · exact ⟨vd, md⟩
    · exact ⟨vh, mh⟩
    · exact ⟨vs, ms⟩
  · intro n hn
    refine ⟨hh.2.1 n hn, fun hm => ?_⟩
    exact isValue_noSemicolon (listText_values h1 _ mh) (colonList_sub hh.1 n hn _ hm)
  · intro i hi
    refine ⟨?_, hs.identityUnderDomain i hi⟩
    have := hs.identity
    rw [hi] at this
    obtain ⟨v, _, h⟩ := this
    exact h.1

theorem required_perm {α : Type} {tags tags' : List (Str × Str)} {n : Str} {means : Str → α → Prop} {x : α}
    (h : ∀ v, (n, v) ∈ tags ↔ (n, v) ∈ tags') (hr : Required tags n means x) : Required tags' n means x := by
  obtain ⟨v, h1, h2⟩ := hr
  exact ⟨v, (h v).1 h1, h2⟩

theorem optional_perm {α : Type} {tags tags' : List (Str × Str)} {n : Str} {means : Str → α → Prop}
    {x : Option α} (h : ∀ v, (n, v) ∈ tags ↔ (n, v) ∈ tags') (hr : Optional tags n means x) :
    Optional tags' n means x := by
  cases x with
  | some a => exact required_perm h hr
  | none => intro v hm; exact hr v ((h v).2 hm)

theorem defaulting_perm {α : Type} {tags tags' : List (Str × Str)} {n : Str} {means : Str → α → Prop}
    {d x : α} (h : ∀ v, (n, v) ∈ tags ↔ (n, v) ∈ tags') (hr : Defaulting tags n means d x) :
    Defaulting tags' n means d x := by
  rcases hr with hr | ⟨h1, h2⟩
  · exact Or.inl (required_perm h hr)
  · exact Or.inr ⟨fun v hm => h1 v ((h v).2 hm), h2⟩

theorem signatureOf_perm {ix : Idna} {pre : Bool} {tags tags' : List (Str × Str)} {s : DkimSignature}
    (hp : ∀ n ∈ knownTags, ∀ v, (n, v) ∈ tags ↔ (n, v) ∈ tags') (h : SignatureOf ix pre tags s) :
    SignatureOf ix pre tags' { s with extTags := tags'.filter fun t => !knownTags.contains t.1 } where
  version := (hp _ (by decide) _).1 h.version
  algorithm := required_perm (hp _ (by decide)) h.algorithm
  signatureData := required_perm (hp _ (by decide)) h.signatureData
  bodyHash := required_perm (hp _ (by decide)) h.bodyHash
  canonicalization := defaulting_perm (hp _ (by decide)) h.canonicalization
  domain := required_perm (hp _ (by decide)) h.domain
  signedHeaders := required_perm (hp _ (by decide)) h.signedHeaders
  identity := optional_perm (hp _ (by decide)) h.identity
  bodyLength := optional_perm (hp _ (by decide)) h.bodyLength
  queryMethods v hv := h.queryMethods v ((hp _ (by decide) _).2 hv)
  selector := required_perm (hp _ (by decide)) h.selector
  timestamp := optional_perm (hp _ (by decide)) h.timestamp
  expiration := optional_perm (hp _ (by decide)) h.expiration
  copiedHeaders := defaulting_perm (hp _ (by decide)) h.copiedHeaders
  extTags := rfl
  identityUnderDomain := h.identityUnderDomain
  expirationAfter := h.expirationAfter

/-- C30: if two texts are tag lists whose recognised tags are the same up to order
(the unrecognised ones being anything), then parsing one succeeds if parsing the
other does, and the results agree in everything but the extension tags, which are
the unrecognised tags in order. -/
theorem C30_order_irrelevant (ix : Idna) (law : CaseLaw ix) (pre : Bool) (txt txt' : Str)
    (tags tags' : List (Str × Str)) (h : ListText tags txt) (h' : ListText tags' txt')
    (hn' : (tags'.map (·.1)).Nodup)
    (hp : List.Perm (tags.filter fun t => t.1 ∈ knownTags) (tags'.filter fun t => t.1 ∈ knownTags))
    (s : DkimSignature) (hs : sigFromStr ix pre txt = .ok s) :
    s.extTags = (tags.filter fun t => t.1 ∉ knownTags) ∧
      sigFromStr ix pre txt' = .ok { s with extTags := tags'.filter fun t => t.1 ∉ knownTags } := by
  have e : ∀ l : List (Str × Str), (l.filter fun t => decide (t.1 ∉ knownTags)) =
      l.filter fun t => !knownTags.contains t.1 := by
    intro l
    congr 1
    funext t
    simp [List.contains_eq_mem]
  obtain ⟨tags1, h1, h2, h3⟩ := (sigFromStr_iff law pre txt s).1 hs
  have := listText_unique h1 h
  subst this
  rw [e, e]
  refine ⟨h3.extTags, (sigFromStr_iff law pre txt' _).2 ⟨tags', h', hn', signatureOf_perm ?_ h3⟩⟩
  intro n hk v
  have := hp.mem_iff (a := (n, v))
  simpa [List.mem_filter, hk] using this

/-- C30: in particular any reordering of the tags. -/
theorem C30_reordering (ix : Idna) (law : CaseLaw ix) (pre : Bool) (txt txt' : Str)
    (tags tags' : List (Str × Str)) (h : ListText tags txt) (h' : ListText tags' txt')
    (hp : List.Perm tags tags') :
    (∃ s, sigFromStr ix pre txt = .ok s) ↔ (∃ s, sigFromStr ix pre txt' = .ok s) := by
  have key : ∀ {txt txt' tags tags'}, ListText tags txt → ListText tags' txt' → List.Perm tags tags' →
      (∃ s, sigFromStr ix pre txt = .ok s) → ∃ s, sigFromStr ix pre txt' = .ok s := by
    rintro txt txt' tags tags' h h' hp ⟨s, hs⟩
    obtain ⟨tags1, h1, h2, h3⟩ := (sigFromStr_iff law pre txt s).1 hs
    have := listText_unique h1 h
    subst this
    exact ⟨_, (C30_order_irrelevant ix law pre txt txt' tags1 tags' h h'
      (((hp.map (·.1)).nodup_iff).1 h2) (hp.filter _) s hs).2⟩
  exact ⟨key h h' hp, key h' h hp.symm⟩

/-- C30: defaults of absent tags. -/
theorem C30_defaults (ix : Idna) (law : CaseLaw ix) (pre : Bool) (txt : Str) (s : DkimSignature)
    (tags : List (Str × Str)) (ht : ListText tags txt) (h : sigFromStr ix pre txt = .ok s) :
    ((∀ v, (c!"c", v) ∉ tags) → s.canonicalization = ⟨.simple, .simple⟩) ∧
    ((∀ v, (c!"i", v) ∉ tags) → s.identity = none) ∧
    ((∀ v, (c!"l", v) ∉ tags) → s.bodyLength = none) ∧
    ((∀ v, (c!"t", v) ∉ tags) → s.timestamp = none) ∧
    ((∀ v, (c!"x", v) ∉ tags) → s.expiration = none) ∧
    ((∀ v, (c!"z", v) ∉ tags) → s.copiedHeaders = []) := by
  obtain ⟨tags1, h1, h2, hs⟩ := (sigFromStr_iff law pre txt s).1 h
  have := listText_unique h1 ht
  subst this
  have opt : ∀ {α : Type} {n : Str} {means : Str → α → Prop} {x : Option α},
      Optional tags1 n means x → (∀ v, (n, v) ∉ tags1) → x = none := by
    intro α n means x h hn
    cases x with
    | none => rfl
    | some a => obtain ⟨v, hv, _⟩ := h; exact absurd hv (hn v)
  have deft : ∀ {α : Type} {n : Str} {means : Str → α → Prop} {d x : α},
      Defaulting tags1 n means d x → (∀ v, (n, v) ∉ tags1) → x = d := by
    intro α n means d x h hn
    rcases h with ⟨v, hv, _⟩ | ⟨_, h⟩
    · exact absurd hv (hn v)
    · exact h
  exact ⟨deft hs.canonicalization, opt hs.identity, opt hs.bodyLength, opt hs.timestamp,
    opt hs.expiration, deft hs.copiedHeaders⟩

/-! ## C31 -/

theorem salvage_field (f : SigError → Option Str) (N : Str)
    (hset : ∀ e (t : TagSpec), t.name = N → f (salvage e [t]) = some t.value)
    (hother : ∀ e (t : TagSpec), t.name ≠ N → f (salvage e [t]) = f e)
    (e : SigError) (tags : List TagSpec) (hn : (tags.map (·.name)).Nodup) (he : f e = none) :
    ∀ v, f (salvage e tags) = some v ↔ (N, v) ∈ toPairs tags := by
  have step : ∀ e t ts, salvage e (t :: ts) = salvage (salvage e [t]) ts := fun _ _ _ => rfl
  have noneOf : ∀ (tags : List TagSpec) (e : SigError), (∀ t ∈ tags, t.name ≠ N) →
      f (salvage e tags) = f e := by
    intro tags
    induction tags with
    | nil => intro e _; rfl
    | cons t ts ih =>
      intro e h
      rw [step, ih _ fun t' ht' => h t' (by simp [ht']), hother e t (h t (by simp))]
  induction tags generalizing e with
  | nil => intro v; simp [salvage, he, toPairs]
  | cons t ts ih =>
    intro v
    rw [List.map_cons, List.nodup_cons] at hn
    rw [step]
    by_cases ht : t.name = N
    · rw [noneOf ts _ fun t' h' e' => hn.1 (by rw [ht, ← e']; exact List.mem_map.2 ⟨t', h', rfl⟩),
        hset e t ht, mem_pairs]
      constructor
      · intro hv; exact ⟨t, by simp, ht, by simpa using hv⟩
      · rintro ⟨t', ht', hn', rfl⟩
        rcases List.mem_cons.1 ht' with rfl | h1
        · rfl
        · exact absurd (List.mem_map.2 ⟨t', h1, hn'.trans ht.symm⟩) hn.1
    · rw [ih _ hn.2 (by rw [hother e t ht]; exact he), mem_pairs, mem_pairs]
      constructor
      · rintro ⟨t', h1, h2⟩; exact ⟨t', by simp [h1], h2⟩
      · rintro ⟨t', h1, h2, h3⟩
        rcases List.mem_cons.1 h1 with rfl | h1
        · exact absurd h2 ht
        · exact ⟨t', h1, h2, h3⟩

/-- C31: when a well-formed tag list does not stand for a signature, the error
carries exactly the raw `a=`, `b=`, `d=`, `i=`, `s=` values. -/
theorem C31_salvage (ix : Idna) (pre : Bool) (txt : Str) (tags : List (Str × Str)) (e : SigError)
    (ht : ListText tags txt) (hn : (tags.map (·.1)).Nodup) (h : sigFromStr ix pre txt = .err e) :
    (∀ v, e.algorithmStr = some v ↔ (c!"a", v) ∈ tags) ∧
    (∀ v, e.signatureDataStr = some v ↔ (c!"b", v) ∈ tags) ∧
    (∀ v, e.domainStr = some v ↔ (c!"d", v) ∈ tags) ∧
    (∀ v, e.identityStr = some v ↔ (c!"i", v) ∈ tags) ∧
    (∀ v, e.selectorStr = some v ↔ (c!"s", v) ∈ tags) := by
  have hp : parseTagList txt = .ok (ofPairs tags) := (C22_tag_list_exact txt (ofPairs tags)).2
    ⟨by simpa [ofPairs, Function.comp_def] using ht, by simpa [ofPairs, Function.comp_def] using hn⟩
  unfold sigFromStr at h
  rw [hp] at h
  simp only at h
  unfold sigFromTagList at h
  have hn' : ((ofPairs tags).map (·.name)).Nodup := by simpa [ofPairs, Function.comp_def] using hn
  have e2 : toPairs (ofPairs tags) = tags := by simp [toPairs, ofPairs, Function.comp_def]
  cases hi : sigFromTagListInternal ix pre (ofPairs tags) with
  | ok s => rw [hi] at h; simp at h
  | panic => rw [hi] at h; simp at h
  | err kind =>
    rw [hi] at h
    simp only [Res.err.injEq] at h
    subst h
    have aux : ∀ (f : SigError → Option Str) (N : Str),
        (∀ e (t : TagSpec), t.name = N → f (salvage e [t]) = some t.value) →
        (∀ e (t : TagSpec), t.name ≠ N → f (salvage e [t]) = f e) → f (SigError.new kind) = none →
        ∀ v, f (salvage (SigError.new kind) (ofPairs tags)) = some v ↔ (N, v) ∈ tags := by
      intro f N h1 h2 h3 v
      have := salvage_field f N h1 h2 (SigError.new kind) (ofPairs tags) hn' h3 v
      rwa [e2] at this
    refine ⟨aux (·.algorithmStr) _ ?_ ?_ rfl, aux (·.signatureDataStr) _ ?_ ?_ rfl,
      aux (·.domainStr) _ ?_ ?_ rfl, aux (·.identityStr) _ ?_ ?_ rfl, aux (·.selectorStr) _ ?_ ?_ rfl⟩
    all_goals
      intro e t hn
      simp only [salvage]
      first
      | (rw [hn]; rfl)
      | (repeat' split) <;> first
        | rfl
        | exact absurd (by assumption) hn

/-- C31: when the text is not a tag list, the error says so and carries nothing. -/
theorem C31_no_tag_list (ix : Idna) (pre : Bool) (txt : Str)
    (h : ¬ ∃ tags, ListText tags txt ∧ (tags.map (·.1)).Nodup) :
    sigFromStr ix pre txt = .err ⟨.tagListFormat, none, none, none, none, none⟩ := by
  unfold sigFromStr
  cases hp : parseTagList txt with
  | error e => rfl
  | ok tags =>
    obtain ⟨h1, h2⟩ := (C22_tag_list_exact txt tags).1 hp
    exact absurd ⟨_, h1, by simpa [Function.comp_def] using h2⟩ h

/-- C31: parsing gives a signature or an error, for every text. -/
theorem C31_total (ix : Idna) (pre : Bool) (txt : Str) : sigFromStr ix pre txt ≠ .panic := by
  unfold sigFromStr
  cases hp : parseTagList txt with
  | error e => simp
  | ok tags =>
    obtain ⟨hv, hn⟩ := parseTagList_values hp
    simp only
    unfold sigFromTagList
    have : sigFromTagListInternal ix pre tags ≠ .panic := by
      unfold sigFromTagListInternal
      cases hl : sigLoop ix pre {} tags with
      | err e => simp
      | panic => exact absurd hl (sigLoop_noPanic ix pre hv _)
      | ok acc =>
        simp only
        have hdv : ∀ d, acc.domain = some d → ValidDomain true ix d := by
          intro d hd
          have := (required_of_field (means := fun v d => d = v ∧ ValidDomain true ix v)
            (field_domain hl hn) (fun t _ x => parseTagD_iff ix _ x)).1 hd
          obtain ⟨v, _, rfl, h⟩ := this
          exact h
        have hiv : ∀ i, acc.identity = some i → ValidDomain true ix i.domain := by
          intro i hi
          obtain ⟨v, _, h⟩ := (required_of_field (field_identity hl hn)
            (fun t ht x => parseTagI_iff ix (hv t ht) x)).1 hi
          exact h.1.2.1
        have hm : ∀ d, acc.domain = some d → domainMismatch ix acc.identity d ≠ none := by
          intro d hd
          unfold domainMismatch
          cases hi : acc.identity with
          | none => simp
          | some i =>
            obtain ⟨r, hr⟩ := eqOrSubdomainOf_some (hiv i hi) (hdv d hd)
            simp [hr]
        unfold sigFinish
        split
        · simp
        split
        · simp
        split
        · simp
        split
        · simp
        split
        · simp
        next d hd =>
        split
        · simp
        split
        · simp
        split
        · next hx => exact absurd hx (hm _ hd)
        · simp
        · split <;> simp
    cases hi : sigFromTagListInternal ix pre tags with
    | ok s => simp
    | err k => simp
    | panic => exact absurd hi this

/-! ## C32 -/

/-- C32: what is accepted as a number: digits denoting a number below 2^64, also
with a plus sign in front. -/
theorem C32_numeric_exact (v : Str) (n : Nat) :
    parseU64 v = some n ↔ Decimal v n ∨ ∃ ds, v = '+' :: ds ∧ Decimal ds n := parseU64_iff v n

/-- C32, partial: texts that do not start with a plus sign are accepted exactly if
they are decimal numbers below 2^64. Missing: texts that start with a plus sign,
for which the claim is false, see `C32_violation`. -/
theorem C32_numeric_partial (v : Str) (hv : ∀ r, v ≠ '+' :: r) (n : Nat) :
    parseU64 v = some n ↔ Decimal v n := by
  rw [parseU64_iff, PlusDecimal]
  constructor
  · rintro (h | ⟨ds, e, _⟩)
    · exact h
    · exact absurd e (hv ds)
  · exact Or.inl

/-- C32: this is what decides about the tags `l=`, `t=` and `x=`: with such a value
that is not accepted no text parses, and otherwise the signature has the number. -/
theorem C32_tags (ix : Idna) (law : CaseLaw ix) (pre : Bool) (txt : Str) (s : DkimSignature)
    (tags : List (Str × Str)) (ht : ListText tags txt) (h : sigFromStr ix pre txt = .ok s) :
    (∀ v, (c!"l", v) ∈ tags → ∃ n, s.bodyLength = some n ∧ parseU64 v = some n) ∧
    (∀ v, (c!"t", v) ∈ tags → ∃ n, s.timestamp = some n ∧ parseU64 v = some n) ∧
    (∀ v, (c!"x", v) ∈ tags → ∃ n, s.expiration = some n ∧ parseU64 v = some n) := by
  obtain ⟨tags1, h1, h2, hs⟩ := (sigFromStr_iff law pre txt s).1 h
  have := listText_unique h1 ht
  subst this
  have uniq : ∀ n v v', (n, v) ∈ tags1 → (n, v') ∈ tags1 → v = v' := by
    intro n v v' hm hm'
    have hn : ((ofPairs tags1).map (·.name)).Nodup := by simpa [ofPairs, Function.comp_def] using h2
    have := name_unique hn ⟨n, v⟩ ⟨n, v'⟩ (List.mem_map.2 ⟨_, hm, rfl⟩) (List.mem_map.2 ⟨_, hm', rfl⟩) rfl
    simpa using this
  have opt : ∀ {n : Str} {x : Option Nat}, Optional tags1 n PlusDecimal x →
      ∀ v, (n, v) ∈ tags1 → ∃ k, x = some k ∧ parseU64 v = some k := by
    intro n x ho v hv
    cases x with
    | none => exact absurd hv (ho v)
    | some k =>
      obtain ⟨v', hv', hk⟩ := ho
      rw [uniq n v v' hv hv']
      exact ⟨k, rfl, (parseU64_iff v' k).2 hk⟩
  exact ⟨opt hs.bodyLength, opt hs.timestamp, opt hs.expiration⟩

/-- A signature value used in examples. -/
def exampleSig : Str :=
  c!"v=1; a=rsa-sha256; d=Example.com; s=sel; i=\"a=3Bb\"@mail.example.com;\r\n h=From : To; t=+1; bh=AA==; b=/w==; foo=bar"

/-- What it stands for. -/
def exampleSigData : DkimSignature where
  algorithm := .rsaSha256
  signatureData := [255]
  bodyHash := [0]
  canonicalization := ⟨.simple, .simple⟩
  domain := c!"Example.com"
  signedHeaders := [c!"From", c!"To"]
  identity := some ⟨some c!"\"a;b\"", c!"mail.example.com"⟩
  bodyLength := none
  selector := c!"sel"
  timestamp := some 1
  expiration := none
  copiedHeaders := []
  extTags := [(c!"foo", c!"bar")]

/-- Non-vacuity for C29 to C32. -/
theorem exampleSig_parse : sigFromStr asciiIdna false exampleSig = .ok exampleSigData := by rfl

/-- C32: the violation: a timestamp with a plus sign is accepted. -/
theorem C32_violation :
    (∃ s, sigFromStr asciiIdna false exampleSig = .ok s ∧ s.timestamp = some 1) ∧
      ¬ ∃ n, Decimal c!"+1" n := by
  refine ⟨⟨_, exampleSig_parse, rfl⟩, ?_⟩
  rintro ⟨n, h⟩
  have := h.2.1 '+' (by simp)
  simp [digit] at this

example : sigFromStr asciiIdna false c!"v=1; s=sel; a=foo; d=x" =
    .err ⟨.unsupportedAlgorithm, some c!"foo", none, some c!"x", none, some c!"sel"⟩ := rfl

end Dkim
