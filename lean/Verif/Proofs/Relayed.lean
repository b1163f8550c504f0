import Verif.Proofs.Relay
import Verif.Props.Success
import Verif.Props.Monotone
import Verif.Props.EndToEnd
import Verif.Props.HeaderCanon
import Verif.Props.Refold

/-!
# What success says stays true when relays change a message: helpers for C116
-/

namespace Dkim

open Spec

variable {E : Env}

/-! ### The header -/

/-- Two headers have the same canonical content. -/
structure SameHeader (signed guarded : List Str) (alg : CanonAlg) (headers headers' : List Field) : Prop where
  counts : ∀ n ∈ guarded, occurrences headers n = occurrences headers' n
  fields : ∀ n ∈ signed,
    ((fromBottom headers n).take (mentions signed n)).map (fun f => canonField alg f.name f.body) =
      ((fromBottom headers' n).take (mentions signed n)).map (fun f => canonField alg f.name f.body)

theorem SameHeader.symm {signed guarded : List Str} {alg : CanonAlg} {h h' : List Field}
    (hs : SameHeader signed guarded alg h h') : SameHeader signed guarded alg h' h :=
  ⟨fun n hn => (hs.counts n hn).symm, fun n hn => (hs.fields n hn).symm⟩

theorem fromBottom_append (a b : List Field) (n : Str) :
    fromBottom (a ++ b) n = fromBottom b n ++ fromBottom a n := by
  simp [fromBottom]

theorem occurrences_append (a b : List Field) (n : Str) :
    occurrences (a ++ b) n = occurrences a n + occurrences b n := by
  simp [occurrences]

theorem fromBottom_single (g : Field) (n : Str) :
    fromBottom [g] n = if sameName g.name n then [g] else [] := by
  simp [fromBottom, List.filter_cons]

/-- Parts of two headers have the same instances of each signed name, and as many of each guarded one. -/
structure SamePart (signed guarded : List Str) (alg : CanonAlg) (x y : List Field) : Prop where
  counts : ∀ n ∈ guarded, occurrences x n = occurrences y n
  fields : ∀ n ∈ signed, (fromBottom x n).map (fun f => canonField alg f.name f.body) =
    (fromBottom y n).map (fun f => canonField alg f.name f.body)

theorem SamePart.within {signed guarded : List Str} {alg : CanonAlg} {x y : List Field}
    (h : SamePart signed guarded alg x y) (a b : List Field) : SamePart signed guarded alg (a ++ x ++ b) (a ++ y ++ b) := by
  refine ⟨fun n hn => ?_, fun n hn => ?_⟩
  · simp only [occurrences_append, h.counts n hn]
  · simp only [fromBottom_append, List.map_append, h.fields n hn]

theorem SamePart.header {signed guarded : List Str} {alg : CanonAlg} {x y : List Field}
    (h : SamePart signed guarded alg x y) : SameHeader signed guarded alg x y := by
  refine ⟨h.counts, fun n hn => ?_⟩
  rw [List.map_take, List.map_take, h.fields n hn]

theorem samePart_exchange (signed guarded : List Str) (alg : CanonAlg) {g h : Field} (hne : lower g.name ≠ lower h.name) :
    SamePart signed guarded alg [g, h] [h, g] := by
  refine ⟨fun n _ => ?_, fun n _ => ?_⟩
  · rw [show [g, h] = [g] ++ [h] from rfl, show [h, g] = [h] ++ [g] from rfl, occurrences_append, occurrences_append,
      Nat.add_comm]
  · rw [show [g, h] = [g] ++ [h] from rfl, show [h, g] = [h] ++ [g] from rfl, fromBottom_append, fromBottom_append,
      fromBottom_single, fromBottom_single]
    by_cases h1 : sameName g.name n = true
    · by_cases h2 : sameName h.name n = true
      · exact absurd (((sameName_iff _ _).1 h1).trans ((sameName_iff _ _).1 h2).symm) hne
      · rw [if_neg h2, List.append_nil, List.nil_append]
    · rw [if_neg h1, List.append_nil, List.nil_append]

theorem samePart_refold (signed guarded : List Str) {alg : CanonAlg} {g h : Field} (hn : lower g.name = lower h.name)
    (hc : canonField alg g.name g.body = canonField alg h.name h.body) : SamePart signed guarded alg [g] [h] := by
  have e : ∀ n, sameName g.name n = sameName h.name n := by intro n; simp [sameName, hn]
  have e' : ∀ n, sameName n g.name = sameName n h.name := by intro n; simp [sameName, hn]
  refine ⟨fun n _ => ?_, fun n _ => ?_⟩
  · simp [occurrences, e']
  · rw [fromBottom_single, fromBottom_single, e n]
    split
    · simp [hc]
    · rfl

theorem fieldsStep_samePart {signed guarded : List Str} {alg : CanonAlg} {x y : List Field}
    (h : FieldsStep signed guarded alg x y) : SamePart signed guarded alg x y := by
  cases h with
  | add a b g h1 h2 =>
    have : SamePart signed guarded alg [] [g] := by
      refine ⟨fun n hn => ?_, fun n hn => ?_⟩
      · have : sameName n g.name ≠ true := fun e => h2 n hn ((sameName_iff _ _).1 e).symm
        simp [occurrences, this]
      · have : sameName g.name n ≠ true := fun e => h1 n hn ((sameName_iff _ _).1 e)
        rw [fromBottom_single, if_neg this]
        rfl
    simpa using this.within a b
  | exchange a b g h hne => simpa using (samePart_exchange signed guarded alg hne).within a b
  | refold a b g h ws halg hn hg hh =>
    subst halg
    have := C08_refolding_invisible g.name h.name ws g.body h.body ((sameName_iff _ _).2 hn) hg hh
    rw [canonHeader_eq, canonHeader_eq] at this
    simpa using (samePart_refold signed guarded hn this).within a b

theorem onTop_sameHeader {signed guarded : List Str} (alg : CanonAlg) {headers : List Field} {g : Field}
    (h1 : mentions signed g.name ≤ occurrences headers g.name) (h2 : ∀ n ∈ guarded, lower g.name ≠ lower n) :
    SameHeader signed guarded alg headers (g :: headers) := by
  rw [show g :: headers = [g] ++ headers from rfl]
  refine ⟨fun n hn => ?_, fun n hn => ?_⟩
  · have : sameName n g.name ≠ true := fun e => h2 n hn ((sameName_iff _ _).1 e).symm
    rw [occurrences_append]
    simp [occurrences, this]
  · rw [fromBottom_append, fromBottom_single]
    by_cases e : sameName g.name n = true
    · have e0 := (sameName_iff _ _).1 e
      have hl : mentions signed n ≤ (fromBottom headers n).length := by
        have a1 : mentions signed g.name = mentions signed n := by
          unfold mentions; congr 1; funext m; simp [sameName, e0]
        have a2 : occurrences headers g.name = (fromBottom headers n).length := by
          unfold occurrences fromBottom
          rw [← List.countP_eq_length_filter, List.countP_reverse]
          congr 1; funext f
          rw [sameName_comm]; simp [sameName, e0]
        omega
      rw [List.take_append_of_le_length hl]
    · rw [if_neg e, List.append_nil]

/-! ### One change -/

/-- Everything that success of the signature of a message says, for some key and with the extension tags
as they are. -/
def Good (E : Env) (resolver : Resolver) (cfg : Config) (now : Int) (sig : DkimSignature) (m : Mail) : Prop :=
  ∃ ext record key value original, (ext = sig.extTags ∨ SameTags sig.extTags ext) ∧
    Succeeded E resolver cfg now m.headers m.body m.field { sig with extTags := ext } record key value original

theorem good_content {resolver : Resolver} {cfg : Config} {now : Int} {sig : DkimSignature} {m m' : Mail}
    (hf : m.field = m'.field)
    (hh : SameHeader sig.signedHeaders cfg.headersForbiddenUnsigned sig.canonicalization.header m.headers m'.headers)
    (hb : codeBody sig.canonicalization.body m.body = codeBody sig.canonicalization.body m'.body)
    (h : Good E resolver cfg now sig m) : Good E resolver cfg now sig m' := by
  obtain ⟨ext, record, key, value, original, he, hs⟩ := h
  have hc : SameContent cfg { sig with extTags := ext } m.headers m'.headers m.body m'.body :=
    ⟨hh.counts, hh.fields, hb⟩
  refine ⟨ext, record, key, value, original, he, ?_⟩
  rw [← hf]
  exact { hs with
    unsigned := fun n hn => by rw [← hc.counts n hn]; exact hs.unsigned n hn
    verified := by rw [← signedInput_canonical hc]; exact hs.verified
    bodyHash := by have := hs.bodyHash; rw [hb] at this; exact this
    limitedHash := by have := hs.limitedHash; rw [hb] at this; exact this }

theorem good_signature (L : Lawful E) (blank : BlankLaw E.idna) {resolver : Resolver} {cfg : Config} {now : Int}
    {sig : DkimSignature} {a b : List Field} {n n' s s' : Str} {body : Bytes}
    (halg : sig.canonicalization.header = .relaxed) (hn : lower n = lower n') (hr : Refold s s')
    (h : Good E resolver cfg now sig ⟨a, ⟨n, utf8 s⟩, b, body⟩) :
    Good E resolver cfg now sig ⟨a, ⟨n', utf8 s'⟩, b, body⟩ := by
  obtain ⟨ext, record, key, value, original, he, hs⟩ := h
  have hv : value = s := (utf8_injective hs.signature.1).symm
  subst hv
  obtain ⟨ext', h1, h2⟩ := C56_same_signature L.idna blank E.pre value s' hr _
    ((sigFromStr_iff L.idna E.pre value _).2 hs.signature.2)
  obtain ⟨original', h3, h4⟩ := withoutB_refold hs.stripped hr
  have hp : SamePart sig.signedHeaders cfg.headersForbiddenUnsigned sig.canonicalization.header
      (Mail.headers ⟨a, ⟨n, utf8 value⟩, b, body⟩) (Mail.headers ⟨a, ⟨n', utf8 s'⟩, b, body⟩) := by
    have := (samePart_refold sig.signedHeaders cfg.headersForbiddenUnsigned (alg := sig.canonicalization.header)
      (g := ⟨n, utf8 value⟩) (h := ⟨n', utf8 s'⟩) hn (by rw [halg]; exact refold_canonField hn hr)).within a b
    simpa [Mail.headers] using this
  have hc : SameContent cfg sig (Mail.headers ⟨a, ⟨n, utf8 value⟩, b, body⟩)
      (Mail.headers ⟨a, ⟨n', utf8 s'⟩, b, body⟩) body body := ⟨hp.counts, hp.header.fields, rfl⟩
  have hi : signedInput (Mail.headers ⟨a, ⟨n, utf8 value⟩, b, body⟩) ⟨n, utf8 value⟩ original sig =
      signedInput (Mail.headers ⟨a, ⟨n', utf8 s'⟩, b, body⟩) ⟨n', utf8 s'⟩ original' sig := by
    rw [signedInput_canonical hc]
    unfold signedInput headerHashInput
    simp only [halg, refold_canonField hn h4]
  refine ⟨ext', record, key, s', original', ?_, ?_⟩
  · right
    rcases he with rfl | he
    · exact h2
    · exact he.trans h2
  · exact {
      named := by
        have := hs.named
        simp only [IsDkimField] at this ⊢
        rw [← hn]
        exact this
      signature := ⟨rfl, (sigFromStr_iff L.idna E.pre s' _).1 h1⟩
      stripped := h3
      required := hs.required
      unsigned := fun x hx => by rw [← hp.counts x hx]; exact hs.unsigned x hx
      expired := hs.expired
      future := hs.future
      sha1 := hs.sha1
      answer := hs.answer
      keyType := hs.keyType
      keyData := hs.keyData
      hashAlgorithm := hs.hashAlgorithm
      identity := hs.identity
      keyRead := hs.keyRead
      size := hs.size
      verified := by
        have := hs.verified
        exact (congrArg (fun x => verifyWith key (hashOf sig.algorithm) (E.hash (hashOf sig.algorithm) x)
          sig.signatureData = true) hi).mp this
      bodyHash := hs.bodyHash
      limitedHash := hs.limitedHash }

theorem step_good (L : Lawful E) (blank : BlankLaw E.idna) {resolver : Resolver} {cfg : Config} {now : Int}
    {sig : DkimSignature} {m m' : Mail}
    (h : RelayStep sig.signedHeaders cfg.headersForbiddenUnsigned sig.canonicalization m m') :
    Good E resolver cfg now sig m ↔ Good E resolver cfg now sig m' := by
  have both : m.field = m'.field →
      SameHeader sig.signedHeaders cfg.headersForbiddenUnsigned sig.canonicalization.header m.headers m'.headers →
      codeBody sig.canonicalization.body m.body = codeBody sig.canonicalization.body m'.body →
      (Good E resolver cfg now sig m ↔ Good E resolver cfg now sig m') := fun h1 h2 h3 =>
    ⟨good_content h1 h2 h3, good_content h1.symm h2.symm h3.symm⟩
  cases h with
  | above a a' f b body h =>
    refine both rfl ?_ rfl
    have := (fieldsStep_samePart h).within [] (f :: b)
    exact SamePart.header (by simpa [Mail.headers] using this)
  | below a f b b' body h =>
    refine both rfl ?_ rfl
    have := (fieldsStep_samePart h).within (a ++ [f]) []
    exact SamePart.header (by simpa [Mail.headers] using this)
  | onTop m g h1 h2 => exact both rfl (onTop_sameHeader _ h1 h2) rfl
  | down a f g b body hne =>
    refine both rfl ?_ rfl
    have := (samePart_exchange sig.signedHeaders cfg.headersForbiddenUnsigned sig.canonicalization.header hne).within a b
    exact SamePart.header (by simpa [Mail.headers] using this)
  | signature a n n' s s' b body halg hn hr =>
    exact ⟨good_signature L blank halg hn hr, good_signature L blank halg hn.symm hr.symm⟩
  | body a f b body body' h => exact both rfl ⟨fun _ _ => rfl, fun _ _ => rfl⟩ (bodyStep_codeBody h)

theorem relayed_good (L : Lawful E) (blank : BlankLaw E.idna) {resolver : Resolver} {cfg : Config} {now : Int}
    {sig : DkimSignature} {m m' : Mail}
    (h : Relayed sig.signedHeaders cfg.headersForbiddenUnsigned sig.canonicalization m m') :
    Good E resolver cfg now sig m → Good E resolver cfg now sig m' := by
  induction h with
  | same => exact id
  | step m₂ m₃ _ hs ih => exact fun g => (step_good L blank hs).1 (ih g)
  | back m₂ m₃ _ hs ih => exact fun g => (step_good L blank hs).2 (ih g)

/-- A field that is evaluated has fewer than the maximum above it. -/
theorem dkimFields_above {max : Nat} {above below : List Field} {f g : Field}
    (h : (above.length, g) ∈ dkimFields max (above ++ f :: below)) :
    above.countP (fun g => decide (IsDkimField g)) < max := by
  unfold dkimFields positions at h
  rw [List.zipIdx_append, List.map_append, List.filter_append, List.take_append] at h
  have hl : ((above.zipIdx.map fun p => (p.2, p.1)).filter (fun p => decide (IsDkimField p.2))).length =
      above.countP fun g => decide (IsDkimField g) := by
    rw [← List.countP_eq_length_filter, List.countP_map]
    conv => rhs; rw [← List.zipIdx_map_fst 0 above, List.countP_map]
    rfl
  rw [hl] at h
  rcases List.mem_append.1 h with h | h
  · have h := (List.mem_filter.1 (List.mem_of_mem_take h)).1
    obtain ⟨p, hp, e⟩ := List.mem_map.1 h
    have := List.snd_lt_of_mem_zipIdx hp
    injection e with e _
    omega
  · by_cases hm : above.countP (fun g => decide (IsDkimField g)) < max
    · exact hm
    · rw [Nat.sub_eq_zero_of_le (by omega), List.take_zero] at h
      cases h

end Dkim
