import Verif.Proofs.Record
import Verif.Props.Signature

/-!
# Property C33 and the parsing part of C52: key records

`lossy` is `String::from_utf8_lossy`, about which nothing is assumed.
-/

namespace Dkim

open Spec

/-- C33: a text parses as a key record exactly if it is a tag list that stands for
that record. -/
theorem C33_parse_exact (lossy : Bytes → Str) (pre : Bool) (txt : Str) (r : KeyRecord) :
    recordFromStr lossy pre txt = .ok r ↔
      ∃ tags, ListText tags txt ∧ (tags.map (·.1)).Nodup ∧ RecordOf lossy pre tags r :=
  recordFromStr_iff lossy pre txt r

/-- C33: parsing never panics. -/
theorem C33_total (lossy : Bytes → Str) (pre : Bool) (txt : Str) :
    recordFromStr lossy pre txt ≠ .panic := recordFromStr_noPanic lossy pre txt

theorem hashNamed_lower {pre : Bool} {s : Str} {a : HashAlg} (h : hashNamed pre s = some a) :
    (a = .sha256 ∧ lower s = c!"sha256") ∨ (a = .sha1 ∧ pre = true ∧ lower s = c!"sha1") := by
  unfold hashNamed at h
  split at h
  · next e => exact .inl ⟨by simpa using h.symm, e⟩
  · split at h
    · next e => exact .inr ⟨by simpa using h.symm, e⟩
    · simp at h

theorem serviceNamed_lower {s : Str} {a : ServiceType} (h : serviceNamed s = some a) :
    (a = .any ∧ s = c!"*") ∨ (a = .email ∧ lower s = c!"email") := by
  unfold serviceNamed at h
  split at h
  · next e => exact .inl ⟨by simpa using h.symm, e⟩
  · split at h
    · next e => exact .inr ⟨by simpa using h.symm, e⟩
    · simp at h

theorem flagNamed_lower {s : Str} {a : SelectorFlag} (h : flagNamed s = some a) :
    (a = .testing ∧ lower s = c!"y") ∨ (a = .noSubdomains ∧ lower s = c!"s") := by
  unfold flagNamed at h
  split at h
  · next e => exact .inl ⟨by simpa using h.symm, e⟩
  · split at h
    · next e => exact .inr ⟨by simpa using h.symm, e⟩
    · simp at h

/-- C33: the rules that every parsed key record satisfies, tag by tag. -/
theorem C33_rules (lossy : Bytes → Str) (pre : Bool) (txt : Str) (r : KeyRecord)
    (tags : List (Str × Str)) (ht : ListText tags txt) (h : recordFromStr lossy pre txt = .ok r) :
    -- `p=` is there and its Base64 content is the key data
    (∃ v, (c!"p", v) ∈ tags ∧ unfws v = base64 r.keyData) ∧
    -- `v=`, if there, comes first and is DKIM1
    (∀ v, (c!"v", v) ∈ tags → v = c!"DKIM1" ∧ tags.head? = some (c!"v", c!"DKIM1")) ∧
    -- the lists are not empty
    r.hashAlgorithms ≠ [] ∧ r.serviceTypes ≠ [] ∧
    -- what they contain is named in the record, if it has the tag
    (∀ v, (c!"h", v) ∈ tags → ∀ a ∈ r.hashAlgorithms, ∃ items n, ColonList items v ∧ n ∈ items ∧
      ((a = .sha256 ∧ lower n = c!"sha256") ∨ (a = .sha1 ∧ pre = true ∧ lower n = c!"sha1"))) ∧
    (∀ v, (c!"s", v) ∈ tags → ∀ a ∈ r.serviceTypes, ∃ items n, ColonList items v ∧ n ∈ items ∧
      ((a = .any ∧ n = c!"*") ∨ (a = .email ∧ lower n = c!"email"))) ∧
    (∀ v, (c!"t", v) ∈ tags → ∀ a ∈ r.flags, ∃ items n, ColonList items v ∧ n ∈ items ∧
      ((a = .testing ∧ lower n = c!"y") ∨ (a = .noSubdomains ∧ lower n = c!"s"))) ∧
    -- the key type is rsa unless `k=` says ed25519
    (r.keyType = .ed25519 ↔ ∃ v, (c!"k", v) ∈ tags ∧ lower v = c!"ed25519") ∧
    (∀ v, (c!"k", v) ∈ tags → lower v = c!"ed25519" ∨ lower v = c!"rsa") := by
  obtain ⟨tags1, h1, h2, hr⟩ := (recordFromStr_iff lossy pre txt r).1 h
  have := listText_unique h1 ht
  subst this
  have uniq : ∀ n v w, (n, v) ∈ tags1 → (n, w) ∈ tags1 → v = w := by
    intro n v w hv hw
    have hn' : ((ofPairs tags1).map (·.name)).Nodup := by simpa [ofPairs, Function.comp_def] using h2
    have := name_unique hn' ⟨n, v⟩ ⟨n, w⟩ (List.mem_map.2 ⟨_, hv, rfl⟩) (List.mem_map.2 ⟨_, hw, rfl⟩) rfl
    exact congrArg TagSpec.value this
  have deft : ∀ {α : Type} {n : Str} {means : Str → α → Prop} {d x : α},
      Defaulting tags1 n means d x → ∀ v, (n, v) ∈ tags1 → means v x := by
    intro α n means d x h v hv
    rcases h with ⟨w, hw, hm⟩ | ⟨h, _⟩
    · rw [uniq n v w hv hw]; exact hm
    · exact absurd hv (h v)
  refine ⟨hr.keyData, ?_, ?_, ?_, ?_, ?_, ?_, ?_, ?_⟩
  · intro v hv
    obtain ⟨rest, e⟩ := hr.version v hv
    refine ⟨uniq _ _ _ hv (by rw [e]; simp), by rw [e]; rfl⟩
  · rcases hr.hashAlgorithms with ⟨_, _, h⟩ | ⟨_, h⟩
    · exact h.2
    · rw [h]; cases pre <;> simp
  · rcases hr.serviceTypes with ⟨_, _, h⟩ | ⟨_, h⟩
    · exact h.2
    · rw [h]; simp
  · intro v hv a ha
    obtain ⟨⟨items, c, _, e⟩, _⟩ := deft hr.hashAlgorithms v hv
    rw [e, List.mem_filterMap] at ha
    obtain ⟨n, hn, e⟩ := ha
    exact ⟨items, n, c, hn, hashNamed_lower e⟩
  · intro v hv a ha
    obtain ⟨⟨items, c, _, e⟩, _⟩ := deft hr.serviceTypes v hv
    rw [e, List.mem_filterMap] at ha
    obtain ⟨n, hn, e⟩ := ha
    exact ⟨items, n, c, hn, serviceNamed_lower e⟩
  · intro v hv a ha
    obtain ⟨items, c, _, e⟩ := deft hr.flags v hv
    rw [e, List.mem_filterMap] at ha
    obtain ⟨n, hn, e⟩ := ha
    exact ⟨items, n, c, hn, flagNamed_lower e⟩
  · constructor
    · intro hk
      rcases hr.keyType with ⟨v, hv, ⟨e, _⟩ | ⟨_, e⟩⟩ | ⟨_, e⟩
      · rw [hk] at e; simp at e
      · exact ⟨v, hv, e⟩
      · rw [hk] at e; simp at e
    · rintro ⟨v, hv, e⟩
      rcases deft hr.keyType v hv with ⟨_, e'⟩ | ⟨e', _⟩
      · rw [e] at e'; exact absurd e' (by decide)
      · exact e'
  · intro v hv
    rcases deft hr.keyType v hv with ⟨_, e⟩ | ⟨_, e⟩
    · exact .inr e
    · exact .inl e

/-- C33: defaults for absent tags. -/
theorem C33_defaults (lossy : Bytes → Str) (pre : Bool) (txt : Str) (r : KeyRecord)
    (tags : List (Str × Str)) (ht : ListText tags txt) (h : recordFromStr lossy pre txt = .ok r) :
    ((∀ v, (c!"h", v) ∉ tags) → r.hashAlgorithms = if pre then [.sha256, .sha1] else [.sha256]) ∧
    ((∀ v, (c!"k", v) ∉ tags) → r.keyType = .rsa) ∧
    ((∀ v, (c!"n", v) ∉ tags) → r.notes = none) ∧
    ((∀ v, (c!"s", v) ∉ tags) → r.serviceTypes = [.any]) ∧
    ((∀ v, (c!"t", v) ∉ tags) → r.flags = []) := by
  obtain ⟨tags1, h1, h2, hr⟩ := (recordFromStr_iff lossy pre txt r).1 h
  have := listText_unique h1 ht
  subst this
  have deft : ∀ {α : Type} {n : Str} {means : Str → α → Prop} {d x : α},
      Defaulting tags1 n means d x → (∀ v, (n, v) ∉ tags1) → x = d := by
    intro α n means d x h hn
    rcases h with ⟨v, hv, _⟩ | ⟨_, h⟩
    · exact absurd hv (hn v)
    · exact h
  refine ⟨deft hr.hashAlgorithms, deft hr.keyType, ?_, deft hr.serviceTypes, deft hr.flags⟩
  intro hn
  have := hr.notes
  cases hx : r.notes with
  | none => rfl
  | some a => rw [hx] at this; obtain ⟨v, hv, _⟩ := this; exact absurd hv (hn v)

/-- C33: testing mode is on exactly if the `t=` list names `y`. -/
theorem C33_testing (lossy : Bytes → Str) (pre : Bool) (txt : Str) (r : KeyRecord)
    (tags : List (Str × Str)) (ht : ListText tags txt) (h : recordFromStr lossy pre txt = .ok r) :
    r.isTesting = true ↔ ∃ v, (c!"t", v) ∈ tags ∧ ∃ items, ColonList items v ∧
      (∀ i ∈ items, i ≠ [] ∧ Trimmed i ∧ ':' ∉ i) ∧ ∃ n ∈ items, lower n = c!"y" := by
  obtain ⟨tags1, h1, h2, hr⟩ := (recordFromStr_iff lossy pre txt r).1 h
  have := listText_unique h1 ht
  subst this
  unfold KeyRecord.isTesting
  rw [List.contains_eq_mem, decide_eq_true_eq]
  constructor
  · intro hm
    rcases hr.flags with ⟨v, hv, items, c, hi, e⟩ | ⟨_, e⟩
    · refine ⟨v, hv, items, c, hi, ?_⟩
      rw [e, List.mem_filterMap] at hm
      obtain ⟨n, hn, e⟩ := hm
      rcases flagNamed_lower e with ⟨_, e⟩ | ⟨e, _⟩
      · exact ⟨n, hn, e⟩
      · simp at e
    · rw [e] at hm; simp at hm
  · rintro ⟨v, hv, items, c, hi, n, hn, e⟩
    have hn' : ((ofPairs tags1).map (·.name)).Nodup := by simpa [ofPairs, Function.comp_def] using h2
    rcases hr.flags with ⟨w, hw, items', c', hi', e'⟩ | ⟨h, _⟩
    · have hvw := name_unique hn' ⟨_, v⟩ ⟨_, w⟩ (List.mem_map.2 ⟨_, hv, rfl⟩) (List.mem_map.2 ⟨_, hw, rfl⟩) rfl
      have hvw : v = w := congrArg TagSpec.value hvw
      subst hvw
      have : items = items' := (parseColon_complete c hi).symm.trans (parseColon_complete c' hi')
      subst this
      rw [e', List.mem_filterMap]
      refine ⟨n, hn, ?_⟩
      unfold flagNamed
      rw [if_pos e]
    · exact absurd hv (h v)

/-- C33: the order of the tags other than `v=` does not matter, nor do unrecognised
tags. -/
theorem C33_reordering (lossy : Bytes → Str) (pre : Bool) (txt txt' : Str)
    (tags tags' : List (Str × Str)) (h : ListText tags txt) (h' : ListText tags' txt')
    (hn' : (tags'.map (·.1)).Nodup)
    (hp : List.Perm (tags.filter fun t => t.1 ∈ knownRecordTags) (tags'.filter fun t => t.1 ∈ knownRecordTags))
    (hfirst : ∀ v, tags.head? = some (c!"v", v) → tags'.head? = some (c!"v", v))
    (r : KeyRecord) (hr : recordFromStr lossy pre txt = .ok r) :
    recordFromStr lossy pre txt' = .ok { r with extTags := tags'.filter fun t => t.1 ∉ knownRecordTags } := by
  obtain ⟨tags1, h1, h2, h3⟩ := (recordFromStr_iff lossy pre txt r).1 hr
  have := listText_unique h1 h
  subst this
  have hm : ∀ n ∈ knownRecordTags, ∀ v, (n, v) ∈ tags1 ↔ (n, v) ∈ tags' := by
    intro n hk v
    have := hp.mem_iff (a := (n, v))
    simpa [List.mem_filter, hk] using this
  refine (recordFromStr_iff lossy pre txt' _).2 ⟨tags', h', hn', ?_⟩
  exact {
    version := by
      intro v hv
      obtain ⟨rest, e⟩ := h3.version v ((hm _ (by decide) v).2 hv)
      have := hfirst c!"DKIM1" (by rw [e]; rfl)
      obtain ⟨t', ht'⟩ : ∃ t', tags' = (c!"v", c!"DKIM1") :: t' := by
        cases tags' with
        | nil => simp at this
        | cons a t' => simp at this; exact ⟨t', by rw [this]⟩
      exact ⟨t', ht'⟩
    hashAlgorithms := defaulting_perm (hm _ (by decide)) h3.hashAlgorithms
    keyType := defaulting_perm (hm _ (by decide)) h3.keyType
    notes := optional_perm (hm _ (by decide)) h3.notes
    keyData := required_perm (hm _ (by decide)) h3.keyData
    serviceTypes := defaulting_perm (hm _ (by decide)) h3.serviceTypes
    flags := defaulting_perm (hm _ (by decide)) h3.flags
    extTags := by
      show List.filter _ tags' = _
      congr 1
      funext t
      simp [List.contains_eq_mem] }

/-- A record with several tags, folding whitespace and unknown items. -/
def exampleRecord : Str :=
  c!"v=DKIM1; h=sha256 : x-new; k=ed25519; n=a=20note; p=aGVs bG8=; s=*:email; t=y:s:x; q=1"

/-- What it stands for. -/
def exampleRecordData : KeyRecord where
  hashAlgorithms := [.sha256]
  keyType := .ed25519
  notes := some c!"a note"
  keyData := b!"hello"
  serviceTypes := [.any, .email]
  flags := [.testing, .noSubdomains]
  extTags := [(c!"q", c!"1")]

/-- The example parses, so the hypotheses of the theorems above are met. -/
theorem exampleRecord_parse :
    recordFromStr (fun b => b.map fun x => Char.ofNat x.toNat) false exampleRecord = .ok exampleRecordData := by
  decide

/-! ## C52, parsing part -/

/-- C52: without the feature no signature with SHA-1 parses. -/
theorem C52_no_sha1_signature (ix : Idna) (law : CaseLaw ix) (txt : Str) (s : DkimSignature)
    (h : sigFromStr ix false txt = .ok s) : s.algorithm ≠ .rsaSha1 := by
  obtain ⟨tags, _, _, hs⟩ := (sigFromStr_iff law false txt s).1 h
  obtain ⟨v, _, hv⟩ := hs.algorithm
  intro e
  rw [e] at hv
  simp [AlgText] at hv

/-- C52: without the feature no key record enables SHA-1. -/
theorem C52_no_sha1_record (lossy : Bytes → Str) (txt : Str) (r : KeyRecord)
    (h : recordFromStr lossy false txt = .ok r) : HashAlg.sha1 ∉ r.hashAlgorithms := by
  obtain ⟨tags, _, _, hr⟩ := (recordFromStr_iff lossy false txt r).1 h
  intro hm
  rcases hr.hashAlgorithms with ⟨v, _, ⟨items, _, _, e⟩, _⟩ | ⟨_, e⟩
  · rw [e, List.mem_filterMap] at hm
    obtain ⟨n, _, e⟩ := hm
    rcases hashNamed_lower e with ⟨e, _⟩ | ⟨_, e, _⟩
    · simp at e
    · simp at e
  · rw [e] at hm; simp at hm

/-- C52: a signature text with `a=rsa-sha1` that is otherwise fine parses with the
feature and fails without it. -/
example :
    (sigFromStr asciiIdna true
      c!"v=1;a=rsa-sha1;b=AAAA;bh=AAAA;d=ab.cd;h=from;s=x" matches .ok _) = true ∧
    (sigFromStr asciiIdna false
      c!"v=1;a=rsa-sha1;b=AAAA;bh=AAAA;d=ab.cd;h=from;s=x" matches .ok _) = false := by
  decide

end Dkim
