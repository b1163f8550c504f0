import Verif.Proofs.Reread

/-!
# Properties C15 and C37: the produced signature header can be parsed
-/

namespace Dkim

open Spec

variable {E : Env}

/-- Everything about the reading of a produced header. -/
theorem output_read_written (law : IdnaLaw E.idna) (hs : SortLaw E.sortBy) (hset : SetLaw E.keySet)
    (hsign : SignLaw E.crypto) (hhash : ∀ a b, E.hash a b ≠ [])
    {headers : List Field} {requests : List (SignRequest E)} (hh : TypedHeaders headers)
    (ht : ∀ r ∈ requests, TypedRequest r) {chunks : List Bytes} {clock : Nat → Nat}
    {out : List (Except SigningError SigningOutput)}
    (h : Signed headers requests chunks clock out)
    (hlen : ∀ k, (codeBody k chunks.flatten).length < 2 ^ 64) {i : Nat} (hclock : clock i < 2 ^ 64)
    {r : SignRequest E} (hr : requests[i]? = some r) {o : SigningOutput} (ho : out[i]? = some (.ok o))
    (hdom : ReadableDomains r)
    (hlocal : ∀ j l, r.identity = some j → j.localPart = some l → l = [] ∨ LocalPart l)
    (hc : ReadableNames r headers) (hq : ∀ v, (c!"q", v) ∈ r.extTags → QueryText v)
    (hleft : TimeLeft r (clock i)) :
    ∃ s cz, sigFromStr E.idna E.pre o.headerValue = .ok s ∧
      s.domain = writtenName E.idna r.format.asciiOnly r.domain ∧
      s.selector = writtenName E.idna r.format.asciiOnly r.selector ∧
      s.identity = r.identity.map (fun j =>
        ⟨dropEmpty j.localPart, writtenName E.idna r.format.asciiOnly j.domain⟩) ∧
      SameSignature E.idna s { o.signature with
        domain := s.domain, selector := s.selector, identity := s.identity,
        copiedHeaders := cz, extTags := r.extTags.filter fun t => t.1 != c!"q" } ∧
      ReadCopies o.signature.copiedHeaders cz ∧
      (r.format.tagOrder = none → s.extTags = r.extTags.filter fun t => t.1 != c!"q") := by
  obtain ⟨h1, h2, h3, part, sig, bText, tags, g1, g2, g3, ⟨data, g4⟩, g5, g6, g7, g8⟩ :=
    output_tags law hs hset hh ht h hlen hr ho
  have hf := sigData_fine h1 h2 hh h3 part (clock i)
  have hreads := sigData_reads hhash h1 h2 hh h3 hclock (bodyToSign_length g1 hlen) hlocal hq hleft
  have hcv := copied_valid h1 h2 hh h3 part (clock i)
  obtain ⟨cz, hcz⟩ := readCopies_exists.2 ((copied_names part (clock i) _).2 hc)
  obtain ⟨pd, d1, d2, _⟩ := domainForm_fine law hf.domain r.format.asciiOnly
  obtain ⟨ps, s1, s2, _⟩ := domainForm_fine law hf.selector r.format.asciiOnly
  have e1 : pd = writtenName E.idna r.format.asciiOnly r.domain := d2
  have e2 : ps = writtenName E.idna r.format.asciiOnly r.selector := s2
  have hsig := tags_signature law hf hreads (GoodIndent.fws h2.indent) g8 (signWith_ne hsign g4) g3 d1
    (by rw [e1]; exact hdom.domain) s1 (by rw [e2]; exact hdom.selector)
    (pi := r.identity.map fun j => ⟨dropEmpty j.localPart, writtenName E.idna r.format.asciiOnly j.domain⟩)
    (by
      intro j hj
      have hj' : r.identity = some j := hj
      obtain ⟨p, p1, p2, _⟩ := domainForm_fine law (hf.identity j hj) r.format.asciiOnly
      obtain ⟨q1, q2⟩ := hdom.identity j hj'
      exact ⟨p, p1, by rw [hj', p2]; rfl, by rw [p2]; exact q1, by rw [p2, e1]; exact q2⟩)
    (by
      intro hj
      have hj' : r.identity = none := hj
      rw [hj']; rfl)
    (cz := cz) (fun t ht => (zText_iff (GoodIndent.fws h2.indent) ht hcv).2 hcz)
    (fun e => by rw [e] at hcz; cases hcz; rfl)
  refine ⟨_, cz, (sigFromStr_iff law.toCaseLaw E.pre _ _).2 ⟨tags, g7, g6, hsig⟩, e1, e2, rfl, ?_, ?_, ?_⟩
  · rw [g2]
    exact ⟨rfl, rfl, rfl, rfl, rfl, rfl, rfl, rfl, rfl, rfl, rfl, rfl, g8.ext_perm hf⟩
  · rw [g2]
    exact hcz
  · intro e
    refine g8.ext_eq hf ?_
    rw [g5, e]
    rfl

/-- Names that are kept can be read. -/
theorem Spec.KeptNames.readable {r : SignRequest E} (ht : TypedRequest r) (ha : Accepted r) (hk : KeptNames r) :
    ReadableDomains r where
  domain := KeptName.valid ht.domain hk.domain
  selector := KeptName.valid ht.selector hk.selector
  identity j hj := ⟨KeptName.valid (ht.identity j hj) (hk.identity j hj),
    underDomain_congr (hk.identity j hj).1 hk.domain.1 (ha.identity j hj)⟩

/-- The same if the names are kept. -/
theorem output_read (law : IdnaLaw E.idna) (hs : SortLaw E.sortBy) (hset : SetLaw E.keySet)
    (hsign : SignLaw E.crypto) (hhash : ∀ a b, E.hash a b ≠ [])
    {headers : List Field} {requests : List (SignRequest E)} (hh : TypedHeaders headers)
    (ht : ∀ r ∈ requests, TypedRequest r) {chunks : List Bytes} {clock : Nat → Nat}
    {out : List (Except SigningError SigningOutput)}
    (h : Signed headers requests chunks clock out)
    (hlen : ∀ k, (codeBody k chunks.flatten).length < 2 ^ 64) {i : Nat} (hclock : clock i < 2 ^ 64)
    {r : SignRequest E} (hr : requests[i]? = some r) {o : SigningOutput} (ho : out[i]? = some (.ok o))
    (hk : KeptNames r)
    (hlocal : ∀ j l, r.identity = some j → j.localPart = some l → l = [] ∨ LocalPart l)
    (hc : ReadableNames r headers) (hq : ∀ v, (c!"q", v) ∈ r.extTags → QueryText v)
    (hleft : TimeLeft r (clock i)) :
    ∃ s pi cz, sigFromStr E.idna E.pre o.headerValue = .ok s ∧
      SameSignature E.idna s { o.signature with
        identity := pi, copiedHeaders := cz, extTags := r.extTags.filter fun t => t.1 != c!"q" } ∧
      ReadCopies o.signature.copiedHeaders cz ∧
      (r.format.tagOrder = none → s.extTags = r.extTags.filter fun t => t.1 != c!"q") ∧
      pi = r.identity.map fun j => ⟨dropEmpty j.localPart, j.domain⟩ := by
  obtain ⟨h1, h2, _, part, sig, _, _, _, g2, _⟩ := output_tags law hs hset hh ht h hlen hr ho
  obtain ⟨s, cz, s1, s2, s3, s4, s5, s6, s7⟩ := output_read_written law hs hset hsign hhash hh ht h hlen hclock hr ho
    (hk.readable h1 h2) hlocal hc hq hleft
  refine ⟨s, _, cz, s1, ⟨s5.algorithm, s5.signatureData, s5.bodyHash, s5.canonicalization, ?_, s5.signedHeaders, ?_,
    s5.bodyLength, ?_, s5.timestamp, s5.expiration, s5.copiedHeaders, s5.extTags⟩, s6, s7, rfl⟩
  · rw [s2, g2]
    exact hk.domain.1
  · rw [s4]
    cases e : r.identity with
    | none => rfl
    | some j => simp [(hk.identity j e).1]
  · rw [s3, g2]
    exact hk.selector.1

/-! ## C37 -/

theorem optional_number {tags : List (Str × Str)} {n : Str} {o : Option Nat} {k : Nat}
    (h : Optional tags n PlusDecimal o) {v : Str} (hm : (n, v) ∈ tags)
    (hv : ∀ v, (n, v) ∈ tags → v = natToStr k) : o = some k := by
  cases o with
  | none => exact absurd hm (h v)
  | some m =>
    obtain ⟨w, h1, h2⟩ := h
    rw [hv w h1] at h2
    rw [(natToStr_plusDecimal.1 h2).1]

theorem at_split {a b c d : Str} (h : a ++ '@' :: b = c ++ '@' :: d) (hb : '@' ∉ b) (hd : '@' ∉ d) : a = c := by
  have h1 := rsplitOnce_append a b hb
  have h2 := rsplitOnce_append c d hd
  rw [h, h2] at h1
  injection h1 with h1
  injection h1 with h1
  exact h1.symm

/-- C37, exactly: the produced header value parses if and only if the domain names are valid
in the form in which they are written, the names of copied header fields can be read as they
are, the local part of the identity is valid, an extension tag `q` has a value in which
`dns/txt` is listed, and the timestamp is not the greatest integer. -/
theorem C37_parses_exactly (law : IdnaLaw E.idna) (hs : SortLaw E.sortBy) (hset : SetLaw E.keySet)
    (hsign : SignLaw E.crypto) (hhash : ∀ a b, E.hash a b ≠ [])
    (headers : List Field) (requests : List (SignRequest E)) (hh : TypedHeaders headers)
    (ht : ∀ r ∈ requests, TypedRequest r) (chunks : List Bytes) (clock : Nat → Nat)
    (out : List (Except SigningError SigningOutput))
    (h : Signed headers requests chunks clock out)
    (hlen : ∀ k, (codeBody k chunks.flatten).length < 2 ^ 64) (i : Nat) (hclock : clock i < 2 ^ 64)
    (r : SignRequest E) (hr : requests[i]? = some r) (o : SigningOutput) (ho : out[i]? = some (.ok o)) :
    (∃ s, sigFromStr E.idna E.pre o.headerValue = .ok s) ↔
      ReadableDomains r ∧ ReadableNames r headers ∧
      (∀ j l, r.identity = some j → j.localPart = some l → l = [] ∨ LocalPart l) ∧
      (∀ v, (c!"q", v) ∈ r.extTags → QueryText v) ∧ TimeLeft r (clock i) := by
  constructor
  · rintro ⟨s, hsp⟩
    obtain ⟨h1, h2, h3, part, sig, bText, tags, g1, g2, g3, ⟨data, g4⟩, g5, g6, g7, g8⟩ :=
      output_tags law hs hset hh ht h hlen hr ho
    have hf := sigData_fine h1 h2 hh h3 part (clock i)
    obtain ⟨tags', m1, m2, m3⟩ := (sigFromStr_iff law.toCaseLaw E.pre _ _).1 hsp
    rw [listText_unique m1 g7] at m3
    have inv := fun {n v : Str} (hm : (n, v) ∈ tags) (h1 : n ≠ c!"b") (h2 : n ≠ c!"bh") =>
      tagText_inv (g8.text hm h1 h2)
    obtain ⟨pd, d1, d2, _⟩ := domainForm_fine law hf.domain r.format.asciiOnly
    obtain ⟨ps, s1, s2, _⟩ := domainForm_fine law hf.selector r.format.asciiOnly
    obtain ⟨vd, x1, x2, x3⟩ := m3.domain
    obtain ⟨vs, y1, y2, y3⟩ := m3.selector
    have hx := inv x1 (by decide) (by decide)
    simp [isOutputTag] at hx
    rw [d1] at hx
    injection hx with hx
    have hy := inv y1 (by decide) (by decide)
    simp [isOutputTag] at hy
    rw [s1] at hy
    injection hy with hy
    have ed : s.domain = writtenName E.idna r.format.asciiOnly r.domain := by
      rw [x2, ← hx]; exact d2
    have es : s.selector = writtenName E.idna r.format.asciiOnly r.selector := by
      rw [y2, ← hy]; exact s2
    have hid : ∀ j, r.identity = some j → ∃ k, s.identity = some k ∧
        k.domain = writtenName E.idna r.format.asciiOnly j.domain ∧ k.localPart.getD [] = j.localPart.getD [] ∧
        ValidIdentity E.idna k := by
      intro j hj
      obtain ⟨v, hv⟩ := g8.mem (n := c!"i") ((mem_fixedNames _).2 (by simp [sigData, hj]))
      have hopt := m3.identity
      cases hsi : s.identity with
      | none =>
        rw [hsi] at hopt
        exact absurd hv (hopt v)
      | some k =>
        rw [hsi] at hopt
        obtain ⟨w, w1, w2, w3⟩ := hopt
        have hw := inv w1 (by decide) (by decide)
        simp [isOutputTag] at hw
        obtain ⟨j', hj', hw⟩ := hw
        have e : j = j' := by
          have : r.identity = some j' := hj'
          rw [hj] at this
          injection this
        subst e
        obtain ⟨p, p1, p2, p3, p4⟩ := domainForm_fine law (hf.identity j hj) r.format.asciiOnly
        have ht2 := identityForm_text law (hf.identity j hj) p1 hw
        have hu := utf8_injective (qpBytes_unique w3 ht2)
        have hp : '@' ∉ p := fun hm => (domainChar_valChar (p4 _ hm)).2.2 rfl
        have hs2 := at_split hu w2.2.2 hp
        have hs3 : k.domain = p := by
          have hu' : k.localPart.getD [] ++ '@' :: k.domain = j.localPart.getD [] ++ '@' :: p := hu
          rw [hs2] at hu'
          exact List.cons.inj (List.append_cancel_left hu') |>.2
        exact ⟨k, rfl, by rw [hs3, p2], hs2, w2⟩
    refine ⟨⟨?_, ?_, ?_⟩, ?_, ?_, ?_, ?_⟩
    · rw [← ed, x2]; exact x3
    · rw [← es, y2]; exact y3
    · intro j hj
      obtain ⟨k, k1, k2, _, k4⟩ := hid j hj
      rw [← k2, ← ed]
      exact ⟨k4.2.1, m3.identityUnderDomain k k1⟩
    · refine (copied_names part (clock i) _).1 (readCopies_exists.1 ?_)
      have hcv := copied_valid h1 h2 hh h3 part (clock i)
      by_cases hz : (sigData r headers part (clock i)).copiedHeaders = []
      · rw [hz]
        exact ⟨[], .nil⟩
      · obtain ⟨v, hv⟩ := g8.mem (n := c!"z") ((mem_fixedNames _).2 (by simp [hz]))
        rcases m3.copiedHeaders with ⟨w, w1, w2⟩ | ⟨w, _⟩
        · have hw := inv w1 (by decide) (by decide)
          simp [isOutputTag] at hw
          exact ⟨_, (zText_iff (GoodIndent.fws h2.indent) hw hcv).1 w2⟩
        · exact absurd hv (w v)
    · intro j l hj hl
      obtain ⟨k, k1, _, k3, k4⟩ := hid j hj
      rw [hl, Option.getD_some] at k3
      cases hkl : k.localPart with
      | none => rw [hkl] at k3; exact .inl k3.symm
      | some l' =>
        rw [hkl] at k3
        simp only [Option.getD_some] at k3
        subst k3
        exact .inr (k4.1 _ hkl)
    · intro v hv
      have hn : c!"q" ∈ tags.map (·.1) := by
        rw [g8.names.mem_iff, tagNamesUnsorted_eq, List.mem_append]
        exact .inr (List.mem_map.2 ⟨_, hv, rfl⟩)
      obtain ⟨⟨a, w⟩, hm, e⟩ := List.mem_map.1 hn
      simp only at e
      subst e
      have hw := g8.ext_mem hm rfl
      have e : v = w := by
        have hnd := hf.ext_nodup
        have key : ∀ (l : List (Str × Str)), (l.map (·.1)).Nodup → (c!"q", v) ∈ l → (c!"q", w) ∈ l → v = w := by
          intro l
          induction l with
          | nil => intro _ h; cases h
          | cons y l ih =>
            intro h0 ha hb
            rw [List.map_cons, List.nodup_cons] at h0
            rcases List.mem_cons.1 ha with ea | ea <;> rcases List.mem_cons.1 hb with eb | eb
            · rw [← eb] at ea
              injection ea
            · rw [← ea] at h0
              exact absurd (List.mem_map_of_mem (f := fun x : Str × Str => x.1) eb) h0.1
            · rw [← eb] at h0
              exact absurd (List.mem_map_of_mem (f := fun x : Str × Str => x.1) ea) h0.1
            · exact ih h0.2 ea eb
        exact key _ hnd hv hw
      rw [e]
      exact m3.queryMethods w hm
    · intro hd
      cases ed : r.validDuration with
      | none => exact absurd ed hd
      | some d =>
        obtain ⟨x, hx⟩ : ∃ x, (sigData r headers part (clock i)).expiration = some x ∧ x ≤ 2 ^ 64 - 1 := by
          refine ⟨_, by simp only [sigData, ed, Option.map_some]; rfl, ?_⟩
          exact Nat.min_le_left _ _
        have key : ∀ t, (sigData r headers part (clock i)).timestamp = some t → t < 2 ^ 64 - 1 := by
          intro t et
          obtain ⟨v, hv⟩ := g8.mem (n := c!"t") ((mem_fixedNames _).2 (by simp [et]))
          obtain ⟨w, hw⟩ := g8.mem (n := c!"x") ((mem_fixedNames _).2 (by simp [hx.1]))
          have e1 := optional_number m3.timestamp hv (k := t) (by
            intro v' hv'
            have := inv hv' (by decide) (by decide)
            simp [isOutputTag] at this
            obtain ⟨k, k1, k2⟩ := this
            rw [et] at k1
            injection k1 with k1
            rw [k1]; exact k2)
          have e2 := optional_number m3.expiration hw (k := x) (by
            intro v' hv'
            have := inv hv' (by decide) (by decide)
            simp [isOutputTag] at this
            obtain ⟨k, k1, k2⟩ := this
            rw [hx.1] at k1
            injection k1 with k1
            rw [k1]; exact k2)
          have := m3.expirationAfter t x e1 e2
          have := hx.2
          omega
        refine ⟨fun t et => key t (by simp only [sigData, et]), fun et => key _ (by simp only [sigData, et])⟩
  · rintro ⟨hd, hc, h1, h2, h3⟩
    obtain ⟨s, _, h4, _⟩ := output_read_written law hs hset hsign hhash hh ht h hlen hclock hr ho hd h1 hc h2 h3
    exact ⟨s, h4⟩

/-- Names without equals signs and bars can be read as they are. -/
theorem copyable_readable (law : IdnaLaw E.idna) (hs : SortLaw E.sortBy) (hset : SetLaw E.keySet)
    {headers : List Field} {requests : List (SignRequest E)} (hh : TypedHeaders headers)
    (ht : ∀ r ∈ requests, TypedRequest r) {chunks : List Bytes} {clock : Nat → Nat}
    {out : List (Except SigningError SigningOutput)}
    (h : Signed headers requests chunks clock out)
    (hlen : ∀ k, (codeBody k chunks.flatten).length < 2 ^ 64) {i : Nat}
    {r : SignRequest E} (hr : requests[i]? = some r) {o : SigningOutput} (ho : out[i]? = some (.ok o))
    (hc : CopyableNames r headers) : ReadableNames r headers := by
  obtain ⟨h1, h2, h3, part, _⟩ := output_tags law hs hset hh ht h hlen hr ho
  have hcv := copied_valid h1 h2 hh h3 part (clock i)
  refine (copied_names part (clock i) _).1 (readCopies_exists.1 ⟨_, (readCopies_same hcv).2 ?_⟩)
  exact (copied_names part (clock i) (fun n => '=' ∉ n ∧ '|' ∉ n)).2 hc

/-- C37 holds for requests of which the domain names are written in a form that stands for
the same name, the header field names to be copied are without equals signs and bars, the local part of the identity is valid, an extension tag `q`
has a value in which `dns/txt` is listed, and the timestamp is not the greatest
integer. -/
theorem C37_parses_partial (law : IdnaLaw E.idna) (hs : SortLaw E.sortBy) (hset : SetLaw E.keySet)
    (hsign : SignLaw E.crypto) (hhash : ∀ a b, E.hash a b ≠ [])
    (headers : List Field) (requests : List (SignRequest E)) (hh : TypedHeaders headers)
    (ht : ∀ r ∈ requests, TypedRequest r) (chunks : List Bytes) (clock : Nat → Nat)
    (out : List (Except SigningError SigningOutput))
    (h : Signed headers requests chunks clock out)
    (hlen : ∀ k, (codeBody k chunks.flatten).length < 2 ^ 64) (i : Nat) (hclock : clock i < 2 ^ 64)
    (r : SignRequest E) (hr : requests[i]? = some r) (o : SigningOutput) (ho : out[i]? = some (.ok o))
    (hk : KeptNames r) (hc : CopyableNames r headers)
    (hlocal : ∀ j l, r.identity = some j → j.localPart = some l → l = [] ∨ LocalPart l)
    (hq : ∀ v, (c!"q", v) ∈ r.extTags → QueryText v) (hleft : TimeLeft r (clock i)) :
    ∃ s, sigFromStr E.idna E.pre o.headerValue = .ok s := by
  obtain ⟨h1, h2, _⟩ := output_tags law hs hset hh ht h hlen hr ho
  exact (C37_parses_exactly law hs hset hsign hhash headers requests hh ht chunks clock out h hlen i hclock r hr
    o ho).2 ⟨hk.readable h1 h2, copyable_readable law hs hset hh ht h hlen hr ho hc, hlocal, hq, hleft⟩

/-! ## C15 -/

/-- What is read from a produced header value, if it can be read: the returned signature
data, with the domain names as written, without an empty local part of the identity, without
extension tag `q`, and with the copied header fields as described by `ReadCopies`. With a
custom tag order, the extension tags are read in that order. -/
theorem C15_read_exactly (law : IdnaLaw E.idna) (hs : SortLaw E.sortBy) (hset : SetLaw E.keySet)
    (hsign : SignLaw E.crypto) (hhash : ∀ a b, E.hash a b ≠ [])
    (headers : List Field) (requests : List (SignRequest E)) (hh : TypedHeaders headers)
    (ht : ∀ r ∈ requests, TypedRequest r) (chunks : List Bytes) (clock : Nat → Nat)
    (out : List (Except SigningError SigningOutput))
    (h : Signed headers requests chunks clock out)
    (hlen : ∀ k, (codeBody k chunks.flatten).length < 2 ^ 64) (i : Nat) (hclock : clock i < 2 ^ 64)
    (r : SignRequest E) (hr : requests[i]? = some r) (o : SigningOutput) (ho : out[i]? = some (.ok o))
    (s : DkimSignature) (hparse : sigFromStr E.idna E.pre o.headerValue = .ok s) :
    let written := writtenName E.idna r.format.asciiOnly
    s.domain = written o.signature.domain ∧ s.selector = written o.signature.selector ∧
    s.identity = o.signature.identity.map (fun j =>
      ⟨if j.localPart = some [] then none else j.localPart, written j.domain⟩) ∧
    ∃ copied, ReadCopies o.signature.copiedHeaders copied ∧
      SameSignature E.idna s { o.signature with
        domain := s.domain
        selector := s.selector
        identity := s.identity
        copiedHeaders := copied
        extTags := o.signature.extTags.filter fun t => t.1 != c!"q" } ∧
      (r.format.tagOrder = none → s.extTags = o.signature.extTags.filter fun t => t.1 != c!"q") := by
  obtain ⟨hd, hc, hlocal, hq, hleft⟩ := (C37_parses_exactly law hs hset hsign hhash headers requests hh ht chunks clock
    out h hlen i hclock r hr o ho).1 ⟨s, hparse⟩
  obtain ⟨s', cz, h1, h2, h3, h4, h5, h6, h7⟩ := output_read_written law hs hset hsign hhash hh ht h hlen hclock hr ho hd
    hlocal hc hq hleft
  rw [hparse] at h1
  injection h1 with h1
  subst h1
  obtain ⟨k1, k2, k3, k4, k5⟩ := C36_reflects law hs hset headers requests hh ht chunks clock out h hlen i r hr
    o ho
  have e1 : o.signature.domain = r.domain := by rw [k5]; rfl
  have e2 : o.signature.extTags = r.extTags := by rw [k5]; rfl
  have e3 : o.signature.identity = r.identity := by rw [k5]; rfl
  have e4 : o.signature.selector = r.selector := by rw [k5]; rfl
  refine ⟨by rw [e1]; exact h2, by rw [e4]; exact h3, by rw [e3]; exact h4, cz, h6, ?_, ?_⟩
  · rw [e2]
    exact h5
  · rw [e2]
    exact h7

/-- C15, exactly: the produced header value parses, to the returned signature data, if and
only if the domain names are written in a form that stands for the same name, the names of
copied header fields are without equals signs and bars, the local part of the identity is
valid, there is no extension tag `q`, and the timestamp is not the greatest integer. -/
theorem C15_round_trip_exactly (law : IdnaLaw E.idna) (hs : SortLaw E.sortBy) (hset : SetLaw E.keySet)
    (hsign : SignLaw E.crypto) (hhash : ∀ a b, E.hash a b ≠ [])
    (headers : List Field) (requests : List (SignRequest E)) (hh : TypedHeaders headers)
    (ht : ∀ r ∈ requests, TypedRequest r) (chunks : List Bytes) (clock : Nat → Nat)
    (out : List (Except SigningError SigningOutput))
    (h : Signed headers requests chunks clock out)
    (hlen : ∀ k, (codeBody k chunks.flatten).length < 2 ^ 64) (i : Nat) (hclock : clock i < 2 ^ 64)
    (r : SignRequest E) (hr : requests[i]? = some r) (o : SigningOutput) (ho : out[i]? = some (.ok o)) :
    (∃ s, sigFromStr E.idna E.pre o.headerValue = .ok s ∧ SameSignature E.idna s o.signature) ↔
      KeptNames r ∧ CopyableNames r headers ∧
      (∀ j l, r.identity = some j → j.localPart = some l → LocalPart l) ∧
      c!"q" ∉ r.extTags.map (·.1) ∧ TimeLeft r (clock i) := by
  obtain ⟨g1, g2, g3, part, sg, _, _, g4, g5, _⟩ := output_tags law hs hset hh ht h hlen hr ho
  have hcv := copied_valid g1 g2 hh g3 part (clock i)
  have e1 : o.signature.copiedHeaders = (sigData r headers part (clock i)).copiedHeaders := by rw [g5]; rfl
  have e2 : o.signature.extTags = r.extTags := by rw [g5]; rfl
  have e3 : o.signature.identity = r.identity := by rw [g5]; rfl
  have e4 : o.signature.domain = r.domain := by rw [g5]; rfl
  have e5 : o.signature.selector = r.selector := by rw [g5]; rfl
  have hcopy : ReadCopies o.signature.copiedHeaders o.signature.copiedHeaders ↔ CopyableNames r headers := by
    rw [e1, readCopies_same hcv]
    exact copied_names part (clock i) (fun n => '=' ∉ n ∧ '|' ∉ n)
  have hext : (r.extTags.filter fun t => t.1 != c!"q") = r.extTags ↔ c!"q" ∉ r.extTags.map (·.1) := by
    rw [List.filter_eq_self]
    constructor
    · intro hall hm
      obtain ⟨t, ht, e⟩ := List.mem_map.1 hm
      have := hall t ht
      rw [e] at this
      exact absurd this (by decide)
    · intro hn t ht
      rw [bne_iff_ne]
      intro e
      exact hn (List.mem_map.2 ⟨t, ht, e⟩)
  constructor
  · rintro ⟨s, s1, s2⟩
    obtain ⟨hd, hc, hlocal, hq, hleft⟩ := (C37_parses_exactly law hs hset hsign hhash headers requests hh ht chunks
      clock out h hlen i hclock r hr o ho).1 ⟨s, s1⟩
    obtain ⟨n1, n2, n3, cz, c1, c2, _⟩ := C15_read_exactly law hs hset hsign hhash headers requests hh ht chunks clock
      out h hlen i hclock r hr o ho s s1
    refine ⟨⟨⟨?_, ?_⟩, ⟨?_, ?_⟩, ?_⟩, hcopy.1 ?_, ?_, hext.1 ?_, hleft⟩
    · have := s2.domain
      rwa [n1, e4] at this
    · exact hd.domain.choose_spec.2.1
    · have := s2.selector
      rwa [n2, e5] at this
    · exact hd.selector.choose_spec.2.1
    · intro j hj
      refine ⟨?_, (hd.identity j hj).1.choose_spec.2.1⟩
      have := s2.identity
      rw [n3, e3, hj] at this
      simp at this
      exact this.2
    · have := s2.copiedHeaders
      rw [c2.copiedHeaders] at this
      simp only at this
      rw [this] at c1
      exact c1
    · intro j l hj hl
      refine (hlocal j l hj hl).resolve_left ?_
      rintro rfl
      have := s2.identity
      rw [n3, e3, hj] at this
      simp [hl] at this
    · have := (c2.extTags.symm.trans s2.extTags).length_eq
      rw [e2] at this
      exact List.filter_sublist.eq_of_length this
  · rintro ⟨hk, hc, hlocal, hq, hleft⟩
    obtain ⟨s, pi, cz, s1, s2, c1, _, e6⟩ := output_read law hs hset hsign hhash hh ht h hlen hclock hr ho hk
      (fun j l a b => .inr (hlocal j l a b)) (copyable_readable law hs hset hh ht h hlen hr ho hc)
      (fun v hv => absurd (List.mem_map.2 ⟨_, hv, rfl⟩) hq) hleft
    refine ⟨s, s1, ?_⟩
    have ez : cz = o.signature.copiedHeaders := c1.unique (hcopy.2 hc)
    have ei : pi = o.signature.identity := by
      rw [e6, e3]
      cases e : r.identity with
      | none => rfl
      | some j =>
        have : j.localPart ≠ some [] := fun e' => localPart_ne_nil (hlocal j [] e e') rfl
        rw [Option.map_some, dropEmpty, if_neg this]
    rw [ei, ez, hext.2 hq, ← e2] at s2
    exact s2

/-- C15 holds for requests of which the domain names are written in a form that stands for
the same name, the header field names to be copied are without equals signs and bars, the local part of the identity is valid, there is no extension
tag `q`, and the timestamp is not the greatest integer. With a custom tag order, the
extension tags are read in that order. -/
theorem C15_round_trip_partial (law : IdnaLaw E.idna) (hs : SortLaw E.sortBy) (hset : SetLaw E.keySet)
    (hsign : SignLaw E.crypto) (hhash : ∀ a b, E.hash a b ≠ [])
    (headers : List Field) (requests : List (SignRequest E)) (hh : TypedHeaders headers)
    (ht : ∀ r ∈ requests, TypedRequest r) (chunks : List Bytes) (clock : Nat → Nat)
    (out : List (Except SigningError SigningOutput))
    (h : Signed headers requests chunks clock out)
    (hlen : ∀ k, (codeBody k chunks.flatten).length < 2 ^ 64) (i : Nat) (hclock : clock i < 2 ^ 64)
    (r : SignRequest E) (hr : requests[i]? = some r) (o : SigningOutput) (ho : out[i]? = some (.ok o))
    (hk : KeptNames r) (hc : CopyableNames r headers)
    (hlocal : ∀ j l, r.identity = some j → j.localPart = some l → LocalPart l)
    (hq : c!"q" ∉ r.extTags.map (·.1)) (hleft : TimeLeft r (clock i)) :
    ∃ s, sigFromStr E.idna E.pre o.headerValue = .ok s ∧ SameSignature E.idna s o.signature ∧
      (r.format.tagOrder = none → s.extTags = o.signature.extTags) := by
  obtain ⟨s, s1, s2⟩ := (C15_round_trip_exactly law hs hset hsign hhash headers requests hh ht chunks clock out h
    hlen i hclock r hr o ho).2 ⟨hk, hc, hlocal, hq, hleft⟩
  obtain ⟨_, _, _, _, _, c2, c3⟩ := C15_read_exactly law hs hset hsign hhash headers requests hh ht chunks clock out h
    hlen i hclock r hr o ho s s1
  refine ⟨s, s1, s2, fun e => ?_⟩
  rw [c3 e]
  exact List.filter_sublist.eq_of_length (c2.extTags.symm.trans s2.extTags).length_eq

end Dkim
