import Verif.Proofs.Copied
import Verif.Props.Signer

/-!
# The output of the signer as input of the parser: helper lemmas for C15 and C37
-/

namespace Dkim

open Spec

variable {E : Env}

/-- The tags in the value of a produced header. -/
theorem output_tags (law : IdnaLaw E.idna) (hs : SortLaw E.sortBy) (hset : SetLaw E.keySet)
    {headers : List Field} {requests : List (SignRequest E)} (hh : TypedHeaders headers)
    (ht : ∀ r ∈ requests, TypedRequest r) {chunks : List Bytes} {clock : Nat → Nat}
    {out : List (Except SigningError SigningOutput)}
    (h : Signed headers requests chunks clock out)
    (hlen : ∀ k, (codeBody k chunks.flatten).length < 2 ^ 64) {i : Nat} {r : SignRequest E}
    (hr : requests[i]? = some r) {o : SigningOutput} (ho : out[i]? = some (.ok o)) :
    TypedRequest r ∧ Accepted r ∧ HasFrom headers ∧ ∃ part sig bText tags,
      bodyToSign r chunks.flatten = some part ∧ o.signature = withSignature (sigData r headers part (clock i)) sig ∧
      Folded ('\r' :: '\n' :: r.format.indentation) (encodeBase64 sig) bText ∧
      (∃ data, signWith r.signingKey (hashOf r.algorithm) data = some sig) ∧
      tags.map (·.1) = computeTagNames E.sortBy (sigData r headers part (clock i)) r.format.tagOrder ∧
      (tags.map (·.1)).Nodup ∧ ListText tags o.headerValue ∧
      TagsOf E.idna (sigData r headers part (clock i)) r.format.asciiOnly
        ('\r' :: '\n' :: r.format.indentation) bText tags := by
  obtain ⟨h1, h2, h3, part, h4, h5⟩ := signed_output law hs hset hh ht h hlen hr ho
  have hf := sigData_fine h1 h2 hh h3 part (clock i)
  obtain ⟨ns1, ns2, before, after, g1, ⟨t1, lead, g2, g3, g4⟩, hp⟩ := produceSignature_spec law hs hf
    r.signingKey h2.keyType r.format h2.indent headers
  refine ⟨h1, h2, h3, ?_⟩
  rcases hp with ⟨_, e⟩ | ⟨sig, text, k1, k2, k3, e⟩
  · rw [h5] at e; cases e
  · rw [h5] at e
    injection e with e
    subst e
    obtain ⟨tags, m1, m2, m3⟩ := formatted_listText law hf (GoodIndent.fws h2.indent)
      (folded_base64_value h2.indent k3) (g4 text)
    rw [← g2] at m2
    refine ⟨part, sig, text, tags, h4, rfl, k3, ⟨_, k1⟩, m1, by rw [m1]; exact g3, m2, ?_, m3⟩
    rw [m1]
    exact computeTagNames_perm hs _ _

theorem copied_names {r : SignRequest E} {headers : List Field} (part : Bytes) (now : Nat) (P : Str → Prop) :
    (∀ h ∈ (sigData r headers part now).copiedHeaders, P h.1) ↔
      (r.copyHeaders = true → ∀ f ∈ headers, (∃ n ∈ namesToSign r headers, lower n = lower f.name) → P f.name) := by
  simp only [sigData]
  rcases (Bool.eq_false_or_eq_true r.copyHeaders) with e | e
  · rw [e, if_pos rfl]
    constructor
    · intro h _ f hf ⟨n, h1, h2⟩
      refine h (f.name, f.body) (List.mem_map.2 ⟨f, List.mem_filter.2 ⟨hf, ?_⟩, rfl⟩)
      exact List.any_eq_true.2 ⟨n, h1, (sameName_iff _ _).2 h2⟩
    · intro h x hx
      obtain ⟨f, hf, rfl⟩ := List.mem_map.1 hx
      obtain ⟨h1, h2⟩ := List.mem_filter.1 hf
      obtain ⟨n, h3, h4⟩ := List.any_eq_true.1 h2
      exact h rfl f h1 ⟨n, h3, (sameName_iff _ _).1 h4⟩
  · rw [e]
    simp

theorem copied_valid {r : SignRequest E} {headers : List Field} (ht : TypedRequest r) (ha : Accepted r)
    (hh : TypedHeaders headers) (hf : HasFrom headers) (part : Bytes) (now : Nat) :
    ∀ h ∈ (sigData r headers part now).copiedHeaders, ValidName h.1 ∧ ';' ∉ h.1 := by
  intro h hm
  simp only [sigData] at hm
  rcases (Bool.eq_false_or_eq_true r.copyHeaders) with e | e
  · rw [e, if_pos rfl] at hm
    exact copied_fine hh (namesToSign_fine ht ha hh hf).2 h hm
  · rw [e] at hm
    simp at hm

/-- The conditions for parsing, for the data of a request. -/
theorem sigData_reads (hhash : ∀ a b, E.hash a b ≠ []) {r : SignRequest E} {headers : List Field}
    (ht : TypedRequest r) (ha : Accepted r)
    (hh : TypedHeaders headers) (hf : HasFrom headers) {part : Bytes} {now : Nat}
    (hnow : now < 2 ^ 64) (hpart : part.length < 2 ^ 64)
    (hlocal : ∀ i l, r.identity = some i → i.localPart = some l → l = [] ∨ LocalPart l)
    (hq : ∀ v, (c!"q", v) ∈ r.extTags → QueryText v) (hleft : TimeLeft r now) :
    Reads E.idna E.pre (sigData r headers part now) where
  alg := ht.sha1
  hash_ne := hhash _ _
  from_signed := (namesToSign_fine ht ha hh hf).1
  localPart := hlocal
  length := by
    intro n hn
    simp only [sigData] at hn
    rcases ite_eq_cases hn with ⟨_, hn⟩ | ⟨_, hn⟩
    · cases hn
    · injection hn with hn
      omega
  timestamp := by
    intro n hn
    simp only [sigData] at hn
    cases e : r.timestamp with
    | none => rw [e] at hn; cases hn
    | now => rw [e] at hn; injection hn with hn; omega
    | exact t => rw [e] at hn; injection hn with hn; have := ht.timestamp t e; omega
  expiration := by
    intro n hn
    simp only [sigData] at hn
    rw [Option.map_eq_some_iff] at hn
    obtain ⟨d, _, rfl⟩ := hn
    omega
  query := hq
  order := by
    intro t x h1 h2
    simp only [sigData] at h1 h2
    rw [Option.map_eq_some_iff] at h2
    obtain ⟨d, hd, rfl⟩ := h2
    have hd0 : d ≠ 0 := by
      rintro rfl
      exact ha.duration hd
    obtain ⟨l1, l2⟩ := hleft (by rw [hd]; simp)
    cases e : r.timestamp with
    | none => rw [e] at h1; cases h1
    | now =>
      rw [e] at h1
      injection h1 with h1
      have := l2 e
      simp only
      omega
    | exact t' =>
      rw [e] at h1
      injection h1 with h1
      have := l1 t' e
      simp only
      omega

theorem bodyToSign_length {r : SignRequest E} {body part : Bytes} (h : bodyToSign r body = some part)
    (hlen : ∀ k, (codeBody k body).length < 2 ^ 64) : part.length < 2 ^ 64 := by
  have := hlen r.canonicalization.body
  unfold bodyToSign at h
  cases e : r.bodyLength with
  | noLimit => rw [e] at h; injection h with h; subst h; exact this
  | messageContent => rw [e] at h; injection h with h; subst h; exact this
  | exact n =>
    rw [e] at h
    simp only at h
    rcases ite_eq_cases h with ⟨_, h⟩ | ⟨_, h⟩
    · cases h
    · injection h with h
      subst h
      rw [List.length_take]
      omega

theorem signWith_ne {C : Crypto} (law : SignLaw C) {key : SigningKey C} {h : HashAlg} {data sig : Bytes}
    (hs : signWith key h data = some sig) : sig ≠ [] := by
  cases key with
  | rsa k => exact law.rsa_nonempty _ _ _ _ hs
  | ed25519 k =>
    injection hs with hs
    subst hs
    have := law.ed_length k data
    intro e
    rw [e] at this
    simp at this

end Dkim
