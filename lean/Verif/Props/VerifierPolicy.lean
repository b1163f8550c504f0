import Verif.Props.Verifier

/-!
# Properties C42 to C46, and C52: policy
-/

namespace Dkim

open Spec

variable {E : Env}

/-! ## Auxiliary -/

theorem firstFailure_unique {cs : List Check} {e e' : VerificationError} (h : FirstFailure cs e)
    (h' : FirstFailure cs e') : e = e' := by
  obtain ⟨a, c, b, rfl, h1, h2, h3⟩ := h
  obtain ⟨a', c', b', h4, h5, h6, h7⟩ := h'
  rw [List.append_eq_append_iff] at h4
  rcases h4 with ⟨x, rfl, hx⟩ | ⟨x, rfl, hx⟩
  · cases x with
    | nil =>
      simp only [List.nil_append, List.cons.injEq] at hx
      rw [← h3, ← h7, hx.1]
    | cons y x =>
      simp only [List.cons_append, List.cons.injEq] at hx
      exact absurd (h5 c (by simp [hx.1])) h2
  · cases x with
    | nil =>
      simp only [List.nil_append, List.cons.injEq] at hx
      rw [← h3, ← h7, hx.1]
    | cons y x =>
      simp only [List.cons_append, List.cons.injEq] at hx
      exact absurd (h1 c' (by simp [hx.1])) h6

theorem Run.judged (L : Lawful E) {resolver : Resolver} {cfg : Config} {clock : Nat → Int}
    (T : TypedTimes cfg clock) {headers : List Field} {chunks : List Bytes} {results : List VerificationResult}
    {asked : List Str} (h : Run E resolver cfg clock headers chunks results asked) {r : VerificationResult}
    (hr : r ∈ results) {f : Field} (hf : headers[r.index]? = some f) :
    Judged E resolver cfg (clock r.index) headers chunks.flatten r.index f r := by
  obtain ⟨f', hf', hj⟩ := (verify_judged L T h).1 r hr
  have := (mem_dkimFields hf').1
  rw [hf] at this
  injection this with this
  rw [this]
  exact hj

theorem Spec.Judged.of_firstFailure (law : CaseLaw E.idna) {resolver : Resolver} {cfg : Config} {now : Int}
    {headers : List Field} {body : Bytes} {i : Nat} {f : Field} {r : VerificationResult}
    (hj : Judged E resolver cfg now headers body i f r) {value : Str} {sig : DkimSignature}
    (hsig : FieldSignature E f value sig) {e : VerificationError}
    (hf : FirstFailure (signatureChecks E cfg (unixTime cfg now) headers sig) e) :
    r = ⟨.failure e, i, some sig, none⟩ := by
  cases hj with
  | unparsed e h1 h2 => exact absurd hsig (h1 _ _)
  | rejected v s e h1 h2 =>
    obtain ⟨rfl, rfl⟩ := fieldSignature_unique law hsig h1
    rw [firstFailure_unique hf h2]
  | noAnswer v s n e h1 h2 h3 h4 =>
    obtain ⟨rfl, rfl⟩ := fieldSignature_unique law hsig h1
    exact absurd hf h2.not_firstFailure
  | noRecords v s n h1 h2 h3 h4 =>
    obtain ⟨rfl, rfl⟩ := fieldSignature_unique law hsig h1
    exact absurd hf h2.not_firstFailure
  | verified v o s n ts before after txt rec h1 h2 h3 h4 h5 h6 h7 h8 =>
    obtain ⟨rfl, rfl⟩ := fieldSignature_unique law hsig h1
    exact absurd hf h3.not_firstFailure
  | unverified v o s n ts before txt e rec h1 h2 h3 h4 h5 h6 h7 h8 =>
    obtain ⟨rfl, rfl⟩ := fieldSignature_unique law hsig h1
    exact absurd hf h3.not_firstFailure

/-- The errors of the checks of a signature. -/
def initialErrors : List VerificationError :=
  [.policy .requiredHeaderNotSigned, .policy .unsignedHeaderOccurrence, .overflow, .policy .signatureExpired,
    .policy .timestampInFuture, .policy .sha1HashAlgorithm]

theorem bodyStatus_not_initial {cfg : Config} {sig : DkimSignature} {body : Bytes} {e : VerificationError}
    (h : bodyStatus E cfg sig body = .failure e) : e ∉ initialErrors := by
  unfold bodyStatus at h
  simp only at h
  split at h
  · split at h
    · simp at h
    · injection h with h; subst h; decide
  · split at h
    · injection h with h; subst h; decide
    · split at h
      · injection h with h; subst h; decide
      · split at h
        · simp at h
        · injection h with h; subst h; decide

theorem outcome_not_initial {cfg : Config} {headers : List Field} {f : Field} {original : Str} {sig : DkimSignature}
    {txt : Except IoErr Bytes} {e : VerificationError} {r : Option KeyRecord}
    (h : Outcome E cfg headers f original sig txt (.failed e r)) : e ∉ initialErrors := by
  cases r with
  | none =>
    obtain ⟨_, k, rfl, _⟩ := h
    simp [initialErrors]
  | some r =>
    obtain ⟨c, hc, rfl, _⟩ := h.2.mem
    simp only [recordChecks, List.mem_cons, List.not_mem_nil, or_false] at hc
    rcases hc with rfl | rfl | rfl | rfl | rfl | rfl | rfl | rfl <;> simp [initialErrors]

theorem Spec.Judged.initial (law : CaseLaw E.idna) {resolver : Resolver} {cfg : Config} {now : Int}
    {headers : List Field} {body : Bytes} {i : Nat} {f : Field} {r : VerificationResult}
    (hj : Judged E resolver cfg now headers body i f r) {value : Str} {sig : DkimSignature}
    (hsig : FieldSignature E f value sig) {e : VerificationError} (he : e ∈ initialErrors) :
    r.status = .failure e ↔ FirstFailure (signatureChecks E cfg (unixTime cfg now) headers sig) e := by
  constructor
  · intro hs
    cases hj with
    | unparsed e' h1 h2 => exact absurd hsig (h1 _ _)
    | rejected v s e h1 h2 =>
      obtain ⟨rfl, rfl⟩ := fieldSignature_unique law hsig h1
      injection hs with hs
      subst hs
      exact h2
    | noAnswer v s n e' h1 h2 h3 h4 =>
      injection hs with hs
      subst hs
      cases e' <;> simp [lookupError, initialErrors] at he
    | noRecords v s n h1 h2 h3 h4 =>
      injection hs with hs
      subst hs
      simp [initialErrors] at he
    | verified v o s n ts before after txt rec h1 h2 h3 h4 h5 h6 h7 h8 =>
      exact absurd he (bodyStatus_not_initial hs)
    | unverified v o s n ts before txt e rec h1 h2 h3 h4 h5 h6 h7 h8 =>
      injection hs with hs
      subst hs
      exact absurd he (outcome_not_initial h8)
  · intro hf
    rw [hj.of_firstFailure law hsig hf]

theorem firstFailure_cons {c : Check} {cs : List Check} {e : VerificationError} :
    FirstFailure (c :: cs) e ↔ (¬ c.holds ∧ c.error = e) ∨ (c.holds ∧ FirstFailure cs e) := by
  constructor
  · rintro ⟨a, d, b, h1, h2, h3, h4⟩
    cases a with
    | nil =>
      simp only [List.nil_append, List.cons.injEq] at h1
      exact .inl ⟨by rw [h1.1]; exact h3, by rw [h1.1]; exact h4⟩
    | cons x a =>
      simp only [List.cons_append, List.cons.injEq] at h1
      refine .inr ⟨by rw [h1.1]; exact h2 x (by simp), a, d, b, h1.2, fun q hq => h2 q (by simp [hq]), h3, h4⟩
  · rintro (⟨h1, h2⟩ | ⟨h1, a, d, b, rfl, h2, h3, h4⟩)
    · exact ⟨[], c, cs, rfl, by simp, h1, h2⟩
    · refine ⟨c :: a, d, b, rfl, ?_, h3, h4⟩
      intro q hq
      rcases List.mem_cons.1 hq with rfl | hq
      · exact h1
      · exact h2 q hq

theorem firstFailure_nil {e : VerificationError} : ¬ FirstFailure [] e := by
  rintro ⟨a, d, b, h1, _⟩
  simp at h1

/-! ## C42 -/

theorem fromBottom_congr {headers : List Field} {n h : Str} (e : sameName n h = true) :
    fromBottom headers n = fromBottom headers h := by
  rw [sameName_iff] at e
  unfold fromBottom
  congr 1
  funext f
  simp only [sameName, e]

theorem selectAux_named (headers : List Field) (h : Str) (sel : List Str) : ∀ earlier : List Str,
    (selectAux headers earlier sel).filter (fun f => sameName f.name h) =
      ((fromBottom headers h).drop (earlier.countP (sameName h))).take (mentions sel h) := by
  induction sel with
  | nil => intro earlier; simp [selectAux, mentions]
  | cons n ns ih =>
    intro earlier
    rw [selectAux, List.filter_append, ih]
    by_cases hn : sameName h n = true
    · have hn' : sameName n h = true := by rw [sameName_comm]; exact hn
      have hc : earlier.countP (sameName n) = earlier.countP (sameName h) := by
        rw [sameName_iff] at hn
        congr 1
        funext m
        simp only [sameName, hn]
      have hm : mentions (n :: ns) h = mentions ns h + 1 := by simp [mentions, List.countP_cons, hn]
      have hk : (n :: earlier).countP (sameName h) = earlier.countP (sameName h) + 1 := by
        simp [List.countP_cons, hn]
      rw [fromBottom_congr hn', hc, hm, hk]
      generalize earlier.countP (sameName h) = k
      cases hg : (fromBottom headers h)[k]? with
      | none =>
        rw [List.getElem?_eq_none_iff] at hg
        rw [List.drop_eq_nil_iff.2 (by omega), List.drop_eq_nil_iff.2 (by omega)]
        simp
      | some f =>
        obtain ⟨hlt, hg'⟩ := List.getElem?_eq_some_iff.1 hg
        have hf : sameName f.name h = true := by
          have : f ∈ fromBottom headers h := List.mem_of_getElem? hg
          simp only [fromBottom, List.mem_filter] at this
          exact this.2
        rw [List.drop_eq_getElem_cons hlt, hg', List.take_succ_cons]
        simp [hf]
    · have hm : mentions (n :: ns) h = mentions ns h := by simp [mentions, List.countP_cons, hn]
      have hk : (n :: earlier).countP (sameName h) = earlier.countP (sameName h) := by
        simp [List.countP_cons, hn]
      rw [hm, hk]
      have hnil : ((fromBottom headers n)[earlier.countP (sameName n)]?).toList.filter
          (fun f => sameName f.name h) = [] := by
        rw [List.filter_eq_nil_iff]
        intro f hf
        rw [Option.mem_toList] at hf
        have := List.mem_of_getElem? hf
        simp only [fromBottom, List.mem_filter] at this
        have h2 := this.2
        rw [sameName_iff] at h2 hn ⊢
        rw [h2]
        exact fun e => hn e.symm
      rw [hnil, List.nil_append]

theorem fromBottom_length (headers : List Field) (h : Str) :
    (fromBottom headers h).length = occurrences headers h := by
  unfold fromBottom occurrences
  rw [← List.countP_eq_length_filter, List.countP_reverse]
  congr 1
  funext f
  exact sameName_comm _ _

/-- C42: if a signature succeeds, then every field with a name that must not be unsigned
is among the data that were verified; the selected fields with this name are all such
fields of the message, counted from the bottom. -/
theorem C42_all_covered (L : Lawful E) {resolver : Resolver} {cfg : Config} {clock : Nat → Int}
    (T : TypedTimes cfg clock) {headers : List Field} {chunks : List Bytes} {results : List VerificationResult}
    {asked : List Str} (h : Run E resolver cfg clock headers chunks results asked) (r : VerificationResult)
    (hr : r ∈ results) (hs : r.status = .success) :
    ∃ f sig record key value original, headers[r.index]? = some f ∧ r.signature = some sig ∧
      Succeeded E resolver cfg (clock r.index) headers chunks.flatten f sig record key value original ∧
      ∀ n ∈ cfg.headersForbiddenUnsigned,
        (selectedFields headers sig.signedHeaders).filter (fun g => sameName g.name n) = fromBottom headers n ∧
        ∀ g ∈ headers, lower g.name = lower n → ∃ before after,
          signedInput headers f original sig =
            before ++ (canonField sig.canonicalization.header g.name g.body ++ b!"\r\n") ++ after := by
  obtain ⟨f, sig, record, key, value, original, h1, h2, _, h4⟩ := C40_success_sound L T h r hr hs
  refine ⟨f, sig, record, key, value, original, h1, h2, h4, ?_⟩
  intro n hn
  have hle := h4.unsigned n hn
  have hsel : (selectedFields headers sig.signedHeaders).filter (fun g => sameName g.name n)
      = fromBottom headers n := by
    unfold selectedFields
    rw [selectAux_named]
    simp only [List.countP_nil, List.drop_zero]
    exact List.take_of_length_le (by rw [fromBottom_length]; exact hle)
  refine ⟨hsel, ?_⟩
  intro g hg hname
  have hmem : g ∈ selectedFields headers sig.signedHeaders := by
    have : g ∈ fromBottom headers n := by
      simp only [fromBottom, List.mem_filter, List.mem_reverse]
      exact ⟨hg, (sameName_iff _ _).2 hname⟩
    rw [← hsel] at this
    exact (List.mem_filter.1 this).1
  obtain ⟨a, b, hab⟩ := List.append_of_mem hmem
  unfold signedInput headerHashInput
  rw [hab]
  simp only [List.flatMap_append, List.flatMap_cons, List.append_assoc]
  exact ⟨a.flatMap _, _, rfl⟩

/-- C42: if a message has more fields of such a name than the signature signs, for
example because one was added, then the signature fails with a policy error. -/
theorem C42_added_field (L : Lawful E) {resolver : Resolver} {cfg : Config} {clock : Nat → Int}
    (T : TypedTimes cfg clock) {headers : List Field} {chunks : List Bytes} {results : List VerificationResult}
    {asked : List Str} (h : Run E resolver cfg clock headers chunks results asked) (r : VerificationResult)
    (hr : r ∈ results) (f : Field) (hf : headers[r.index]? = some f) (value : Str) (sig : DkimSignature)
    (hsig : FieldSignature E f value sig) (n : Str) (hn : n ∈ cfg.headersForbiddenUnsigned)
    (hlt : mentions sig.signedHeaders n < occurrences headers n) :
    r.status = .failure (.policy .unsignedHeaderOccurrence) ∨
      (r.status = .failure (.policy .requiredHeaderNotSigned) ∧
        ∃ n ∈ cfg.headersRequired, ∀ m ∈ sig.signedHeaders, lower m ≠ lower n) := by
  have hj := h.judged L T hr hf
  have hno : ¬ ∀ h ∈ cfg.headersForbiddenUnsigned, occurrences headers h ≤ mentions sig.signedHeaders h :=
    fun hall => by have := hall n hn; omega
  by_cases hreq : ∀ h ∈ cfg.headersRequired, ∃ n ∈ sig.signedHeaders, lower n = lower h
  · refine .inl ((hj.initial L.idna hsig (by decide)).2 ?_)
    unfold signatureChecks
    rw [firstFailure_cons, firstFailure_cons]
    exact .inr ⟨hreq, .inl ⟨hno, rfl⟩⟩
  · refine .inr ⟨(hj.initial L.idna hsig (by decide)).2 ?_, ?_⟩
    · unfold signatureChecks
      rw [firstFailure_cons]
      exact .inl ⟨hreq, rfl⟩
    · simpa using hreq

/-! ## C43 -/

/-- The checks that come before those of the times. -/
structure EarlierChecks (E : Env) (cfg : Config) (headers : List Field) (sig : DkimSignature) : Prop where
  required : ∀ h ∈ cfg.headersRequired, ∃ n ∈ sig.signedHeaders, lower n = lower h
  unsigned : ∀ h ∈ cfg.headersForbiddenUnsigned, occurrences headers h ≤ mentions sig.signedHeaders h
  overflow : ∀ n, sig.bodyLength = some n → n ≤ E.usizeMax

/-- The signature is expired. -/
def Expired (cfg : Config) (t : Nat) (sig : DkimSignature) : Prop :=
  cfg.allowExpired = false ∧ ∃ x, sig.expiration = some x ∧ x + cfg.timeTolerance ≤ t

/-- The signature is from the future. -/
def FromFuture (cfg : Config) (t : Nat) (sig : DkimSignature) : Prop :=
  cfg.allowTimestampInFuture = false ∧ ∃ s, sig.timestamp = some s ∧ t + cfg.timeTolerance < s

theorem expired_iff (cfg : Config) (t : Nat) (sig : DkimSignature) : Expired cfg t sig ↔
    ¬ (cfg.allowExpired = true ∨ ∀ x, sig.expiration = some x → t < x + cfg.timeTolerance) := by
  unfold Expired
  cases cfg.allowExpired with
  | true => simp
  | false => simp

theorem future_iff (cfg : Config) (t : Nat) (sig : DkimSignature) : FromFuture cfg t sig ↔
    ¬ (cfg.allowTimestampInFuture = true ∨ ∀ s, sig.timestamp = some s → s ≤ t + cfg.timeTolerance) := by
  unfold FromFuture
  cases cfg.allowTimestampInFuture with
  | true => simp
  | false => simp

/-- C43: given the earlier checks pass, a signature is rejected as expired exactly if
expiration is not allowed, and the time is at or after expiration plus tolerance. -/
theorem C43_expired (L : Lawful E) {resolver : Resolver} {cfg : Config} {clock : Nat → Int}
    (T : TypedTimes cfg clock) {headers : List Field} {chunks : List Bytes} {results : List VerificationResult}
    {asked : List Str} (h : Run E resolver cfg clock headers chunks results asked) (r : VerificationResult)
    (hr : r ∈ results) (f : Field) (hf : headers[r.index]? = some f) (value : Str) (sig : DkimSignature)
    (hsig : FieldSignature E f value sig) (hpass : EarlierChecks E cfg headers sig) :
    r.status = .failure (.policy .signatureExpired) ↔ Expired cfg (unixTime cfg (clock r.index)) sig := by
  rw [(h.judged L T hr hf).initial L.idna hsig (by decide), expired_iff]
  unfold signatureChecks
  simp only [firstFailure_cons, firstFailure_nil]
  simp
  exact ⟨fun h => h.2.2.2, fun h => ⟨hpass.required, hpass.unsigned, hpass.overflow, h⟩⟩

/-- C43: given the earlier checks pass and the signature is not rejected as expired, it is
rejected as from the future exactly if this is not allowed, and the timestamp is
later than the time plus tolerance. -/
theorem C43_future (L : Lawful E) {resolver : Resolver} {cfg : Config} {clock : Nat → Int}
    (T : TypedTimes cfg clock) {headers : List Field} {chunks : List Bytes} {results : List VerificationResult}
    {asked : List Str} (h : Run E resolver cfg clock headers chunks results asked) (r : VerificationResult)
    (hr : r ∈ results) (f : Field) (hf : headers[r.index]? = some f) (value : Str) (sig : DkimSignature)
    (hsig : FieldSignature E f value sig) (hpass : EarlierChecks E cfg headers sig)
    (hexp : ¬ Expired cfg (unixTime cfg (clock r.index)) sig) :
    r.status = .failure (.policy .timestampInFuture) ↔ FromFuture cfg (unixTime cfg (clock r.index)) sig := by
  rw [(h.judged L T hr hf).initial L.idna hsig (by decide), future_iff]
  rw [expired_iff, Classical.not_not] at hexp
  unfold signatureChecks
  simp only [firstFailure_cons, firstFailure_nil]
  simp [hexp]
  exact ⟨fun h => h.2.2.2, fun h => ⟨hpass.required, hpass.unsigned, hpass.overflow, h⟩⟩

/-- C43: whatever else is the case with it, a signature that is expired or from the future
does not succeed. -/
theorem C43_no_success (L : Lawful E) {resolver : Resolver} {cfg : Config} {clock : Nat → Int}
    (T : TypedTimes cfg clock) {headers : List Field} {chunks : List Bytes} {results : List VerificationResult}
    {asked : List Str} (h : Run E resolver cfg clock headers chunks results asked) (r : VerificationResult)
    (hr : r ∈ results) (sig : DkimSignature) (hsig : r.signature = some sig)
    (hbad : Expired cfg (unixTime cfg (clock r.index)) sig ∨ FromFuture cfg (unixTime cfg (clock r.index)) sig) :
    r.status ≠ .success := by
  intro hs
  obtain ⟨f, sig', record, key, value, original, _, h2, _, h4⟩ := C40_success_sound L T h r hr hs
  rw [hsig] at h2
  injection h2 with h2
  subst h2
  rw [expired_iff, future_iff] at hbad
  rcases hbad with hb | hb
  · exact hb h4.expired
  · exact hb h4.future

/-! ## C44 -/

/-- C44 (partial): if a signature succeeds, the RSA key in the reported record has a
modulus that occupies, in whole bytes, at least the minimal number of bits, and at
least the configured number. So the claimed limits hold when the number of bits of
the modulus is a multiple of eight. Missing: moduli with up to seven bits less are
accepted; see `C44_violation`. -/
theorem C44_key_size_partial (L : Lawful E) {resolver : Resolver} {cfg : Config} {clock : Nat → Int}
    (T : TypedTimes cfg clock) {headers : List Field} {chunks : List Bytes} {results : List VerificationResult}
    {asked : List Str} (h : Run E resolver cfg clock headers chunks results asked) (r : VerificationResult)
    (hr : r ∈ results) (hs : r.status = .success) :
    ∃ sig record key, r.signature = some sig ∧ r.keyRecord = some record ∧
      publicKey E.crypto (keyTypeOf sig.algorithm) record.keyData = some key ∧
      ∀ k, key = .rsa k →
        (if E.pre then 512 else 1024) ≤ (E.crypto.rsaPkBits k + 7) / 8 * 8 ∧
        cfg.minKeyBits ≤ (E.crypto.rsaPkBits k + 7) / 8 * 8 ∧
        (E.crypto.rsaPkBits k % 8 = 0 →
          (if E.pre then 512 else 1024) ≤ E.crypto.rsaPkBits k ∧ cfg.minKeyBits ≤ E.crypto.rsaPkBits k) := by
  obtain ⟨f, sig, record, key, value, original, _, h2, h3, h4⟩ := C40_success_sound L T h r hr hs
  refine ⟨sig, record, key, h2, h3, h4.keyRead, ?_⟩
  rintro k rfl
  obtain ⟨h5, h6⟩ := h4.size
  simp only [BitsAtLeast] at h5 h6
  refine ⟨by omega, by omega, fun h8 => ⟨by omega, by omega⟩⟩

/-! ## C45 -/

theorem Spec.Judged.of_headerVerified (law : CaseLaw E.idna) {resolver : Resolver} {cfg : Config} {now : Int}
    {headers : List Field} {body : Bytes} {i : Nat} {f : Field} {r : VerificationResult}
    (hj : Judged E resolver cfg now headers body i f r) {sig : DkimSignature} {record : KeyRecord}
    (hv : HeaderVerified E resolver cfg now headers f sig record) :
    r.status = bodyStatus E cfg sig body ∧ r.signature = some sig := by
  obtain ⟨value, original, name, txts, before, txt, after, g1, g2, g3, g4, g5, g6, g7, g8⟩ := hv
  have horig : ∀ o, WithoutB value o → o = original := by
    intro o ho
    exact withoutB_unique g1 ho g2
  cases hj with
  | unparsed e h1 h2 => exact absurd g1 (h1 _ _)
  | rejected v s e h1 h2 =>
    obtain ⟨rfl, rfl⟩ := fieldSignature_unique law g1 h1
    exact absurd h2 g3.not_firstFailure
  | noAnswer v s n e h1 h2 h3 h4 =>
    obtain ⟨rfl, rfl⟩ := fieldSignature_unique law g1 h1
    rw [← queryFor_unique g4 h3, g5] at h4
    simp at h4
  | noRecords v s n h1 h2 h3 h4 =>
    obtain ⟨rfl, rfl⟩ := fieldSignature_unique law g1 h1
    rw [← queryFor_unique g4 h3, g5] at h4
    injection h4 with h4
    subst h4
    simp [firstTwoAndLast] at g6
  | verified v o s n ts before after txt rec h1 h2 h3 h4 h5 h6 h7 h8 =>
    obtain ⟨rfl, rfl⟩ := fieldSignature_unique law g1 h1
    exact ⟨rfl, rfl⟩
  | unverified v o s n ts before' txt' e rec h1 h2 h3 h4 h5 h6 h7 h8 =>
    obtain ⟨rfl, rfl⟩ := fieldSignature_unique law g1 h1
    have := horig o h2
    subst this
    rw [← queryFor_unique g4 h4, g5] at h5
    injection h5 with h5
    subst h5
    exfalso
    have hm : txt ∈ before' ++ [txt'] := by rw [← h6, g6]; simp
    rw [List.mem_append, List.mem_singleton] at hm
    rcases hm with hm | rfl
    · obtain ⟨e, r, ho⟩ := h7 txt hm
      exact outcome_exclusive ho g8
    · exact outcome_exclusive h8 g8

/-- C45: with the flag set, and `l=` smaller than the canonicalized body, the signature
does not succeed; if all that does not concern the body is in order, the error is that
of unsigned content. -/
theorem C45_forbidden (L : Lawful E) {resolver : Resolver} {cfg : Config} {clock : Nat → Int}
    (T : TypedTimes cfg clock) {headers : List Field} {chunks : List Bytes} {results : List VerificationResult}
    {asked : List Str} (h : Run E resolver cfg clock headers chunks results asked) (r : VerificationResult)
    (hr : r ∈ results) (hflag : cfg.forbidUnsignedContent = true) (sig : DkimSignature) (n : Nat)
    (hlen : sig.bodyLength = some n) (hlt : n < (codeBody sig.canonicalization.body chunks.flatten).length) :
    (r.signature = some sig → r.status ≠ .success) ∧
    ∀ f record, headers[r.index]? = some f →
      HeaderVerified E resolver cfg (clock r.index) headers f sig record →
      r.status = .failure (.policy .unsignedContent) := by
  constructor
  · intro hsig hs
    obtain ⟨f, sig', record, key, value, original, _, h2, _, h4⟩ := C40_success_sound L T h r hr hs
    rw [hsig] at h2
    injection h2 with h2
    subst h2
    have := (h4.limitedHash n hlen).2.1 hflag
    omega
  · intro f record hf hv
    rw [((h.judged L T hr hf).of_headerVerified L.idna hv).1]
    unfold bodyStatus
    simp only [hlen]
    rw [if_neg (by omega), if_pos ⟨hlt, hflag⟩]

/-- C45: with `l=` larger than the canonicalized body, the signature does not succeed; if
all that does not concern the body is in order, the error is that of insufficient
content. -/
theorem C45_insufficient (L : Lawful E) {resolver : Resolver} {cfg : Config} {clock : Nat → Int}
    (T : TypedTimes cfg clock) {headers : List Field} {chunks : List Bytes} {results : List VerificationResult}
    {asked : List Str} (h : Run E resolver cfg clock headers chunks results asked) (r : VerificationResult)
    (hr : r ∈ results) (sig : DkimSignature) (n : Nat) (hlen : sig.bodyLength = some n)
    (hlt : (codeBody sig.canonicalization.body chunks.flatten).length < n) :
    (r.signature = some sig → r.status ≠ .success) ∧
    ∀ f record, headers[r.index]? = some f →
      HeaderVerified E resolver cfg (clock r.index) headers f sig record →
      r.status = .failure .insufficientContent := by
  constructor
  · intro hsig hs
    obtain ⟨f, sig', record, key, value, original, _, h2, _, h4⟩ := C40_success_sound L T h r hr hs
    rw [hsig] at h2
    injection h2 with h2
    subst h2
    have := (h4.limitedHash n hlen).1
    omega
  · intro f record hf hv
    rw [((h.judged L T hr hf).of_headerVerified L.idna hv).1]
    unfold bodyStatus
    simp only [hlen]
    rw [if_pos hlt]

/-- C45: without the flag, content beyond `l=` has no influence on the result: two
messages with the same header, whose canonicalized bodies agree on the first `l=`
bytes, have the same result. -/
theorem C45_rest_irrelevant (L : Lawful E) {resolver : Resolver} {cfg : Config} {clock : Nat → Int}
    (T : TypedTimes cfg clock) {headers : List Field} {chunks chunks' : List Bytes}
    {results results' : List VerificationResult} {asked asked' : List Str}
    (h : Run E resolver cfg clock headers chunks results asked)
    (h' : Run E resolver cfg clock headers chunks' results' asked') (r r' : VerificationResult)
    (hr : r ∈ results) (hr' : r' ∈ results') (hi : r.index = r'.index)
    (hflag : cfg.forbidUnsignedContent = false) (sig : DkimSignature) (hsig : r.signature = some sig) (n : Nat)
    (hlen : sig.bodyLength = some n) (hle : n ≤ (codeBody sig.canonicalization.body chunks.flatten).length)
    (hle' : n ≤ (codeBody sig.canonicalization.body chunks'.flatten).length)
    (htake : (codeBody sig.canonicalization.body chunks.flatten).take n
      = (codeBody sig.canonicalization.body chunks'.flatten).take n) :
    r = r' := by
  obtain ⟨_, e, _⟩ := h.eq L T
  obtain ⟨_, e', _⟩ := h'.eq L T
  rw [e, List.mem_map] at hr
  rw [e', List.mem_map] at hr'
  obtain ⟨p, hp, rfl⟩ := hr
  obtain ⟨p', hp', rfl⟩ := hr'
  rw [resultFor_index L resolver T, resultFor_index L resolver T] at hi
  have := nodup_map_inj (dkimFields_nodup _ _) hp hp' hi
  subst this
  unfold resultFor finalResult at hsig ⊢
  simp only at hsig
  rw [hsig]
  congr 1
  split
  · rfl
  · next s hs _ =>
    injection hs with hs
    subst hs
    unfold bodyStatus
    simp only [hlen, hflag, Bool.false_eq_true, and_false, if_false]
    rw [if_neg (Nat.not_lt.2 hle), if_neg (Nat.not_lt.2 hle'), htake]
  · rfl

/-! ## C46 -/

/-- C46: the result is `pass` exactly for success. -/
theorem C46_pass (s : VerificationStatus) : s.toDkimResult = .pass ↔ s = .success := by
  rcases s with _ | e
  · simp [VerificationStatus.toDkimResult]
  · simp only [reduceCtorEq, iff_false]
    intro h
    rcases e with e | _ | _ | _ | _ | _ | e | _ | _ | _ | _ | e | _ | _ | _ <;>
      simp only [VerificationStatus.toDkimResult, reduceCtorEq] at h
    · rcases e with ⟨k⟩; cases k <;> cases h
    · cases e <;> cases h
    · cases e <;> cases h

/-- C46: the result is `temperror` exactly for timeouts and failed lookups. -/
theorem C46_temperror (s : VerificationStatus) :
    s.toDkimResult = .temperror ↔ s = .failure .timeout ∨ s = .failure .keyLookup := by
  rcases s with _ | e
  · simp [VerificationStatus.toDkimResult]
  · rcases e with e | _ | _ | _ | _ | _ | e | _ | _ | _ | _ | e | _ | _ | _ <;>
      simp [VerificationStatus.toDkimResult]
    · rcases e with ⟨k⟩; cases k <;> simp [SigErrorKind.toDkimResult]
    · cases e <;> simp [RecordError.toDkimResult]
    · cases e <;> simp [CryptoError.toDkimResult]

/-- C46: the result is `policy` exactly for policy errors. -/
theorem C46_policy (s : VerificationStatus) :
    s.toDkimResult = .policy ↔ ∃ e, s = .failure (.policy e) := by
  rcases s with _ | e
  · simp [VerificationStatus.toDkimResult]
  · rcases e with e | _ | _ | _ | _ | _ | e | _ | _ | _ | _ | e | _ | _ | _ <;>
      simp [VerificationStatus.toDkimResult]
    · rcases e with ⟨k⟩; cases k <;> simp [SigErrorKind.toDkimResult]
    · cases e <;> simp [RecordError.toDkimResult]
    · cases e <;> simp [CryptoError.toDkimResult]

/-- C46: the result is `fail` exactly if the signature primitive rejects the signature,
or the body hash differs. -/
theorem C46_fail (s : VerificationStatus) : s.toDkimResult = .fail ↔
    s = .failure (.verificationFailure .verificationFailure) ∨ s = .failure .bodyHashMismatch := by
  rcases s with _ | e
  · simp [VerificationStatus.toDkimResult]
  · rcases e with e | _ | _ | _ | _ | _ | e | _ | _ | _ | _ | e | _ | _ | _ <;>
      simp [VerificationStatus.toDkimResult]
    · rcases e with ⟨k⟩; cases k <;> simp [SigErrorKind.toDkimResult]
    · cases e <;> simp [RecordError.toDkimResult]
    · cases e <;> simp [CryptoError.toDkimResult]

/-- C46: the result is never `none`. -/
theorem C46_never_none (s : VerificationStatus) : s.toDkimResult ≠ .none := by
  rcases s with _ | e
  · simp [VerificationStatus.toDkimResult]
  · rcases e with e | _ | _ | _ | _ | _ | e | _ | _ | _ | _ | e | _ | _ | _ <;>
      simp [VerificationStatus.toDkimResult]
    · rcases e with ⟨k⟩; cases k <;> simp [SigErrorKind.toDkimResult]
    · cases e <;> simp [RecordError.toDkimResult]
    · cases e <;> simp [CryptoError.toDkimResult]

/-! ## C52 -/

/-- C52: unless SHA-1 is enabled by both the feature and the configuration, no signature
with SHA-1 succeeds. -/
theorem C52_no_success (L : Lawful E) {resolver : Resolver} {cfg : Config} {clock : Nat → Int}
    (T : TypedTimes cfg clock) {headers : List Field} {chunks : List Bytes} {results : List VerificationResult}
    {asked : List Str} (h : Run E resolver cfg clock headers chunks results asked) (r : VerificationResult)
    (hr : r ∈ results) (hoff : ¬ (E.pre = true ∧ cfg.allowSha1 = true)) (sig : DkimSignature)
    (hsig : r.signature = some sig) (hs : r.status = .success) : hashOf sig.algorithm ≠ .sha1 := by
  obtain ⟨f, sig', record, key, value, original, _, h2, _, h4⟩ := C40_success_sound L T h r hr hs
  rw [hsig] at h2
  injection h2 with h2
  subst h2
  by_cases hp : E.pre = true
  · rcases h4.sha1 hp with h5 | h5
    · exact absurd ⟨hp, h5⟩ hoff
    · exact h5
  · have hp' : E.pre = false := by simpa using hp
    have h5 := (sigFromStr_iff L.idna E.pre value sig).2 h4.signature.2
    rw [hp'] at h5
    have := C52_no_sha1_signature E.idna L.idna value sig h5
    intro h6
    cases ha : sig.algorithm <;> rw [ha] at h6 this <;> simp_all [hashOf]

/-- C52: with the feature, and without permission by the configuration, a signature with
SHA-1 that passes the other checks fails with a policy error. -/
theorem C52_policy (L : Lawful E) {resolver : Resolver} {cfg : Config} {clock : Nat → Int}
    (T : TypedTimes cfg clock) {headers : List Field} {chunks : List Bytes} {results : List VerificationResult}
    {asked : List Str} (h : Run E resolver cfg clock headers chunks results asked) (r : VerificationResult)
    (hr : r ∈ results) (f : Field) (hf : headers[r.index]? = some f) (value : Str) (sig : DkimSignature)
    (hsig : FieldSignature E f value sig) (hpre : E.pre = true) (hoff : cfg.allowSha1 = false)
    (halg : hashOf sig.algorithm = .sha1) :
    (∃ e, r.status = .failure e ∧ e ∈ initialErrors) ∧
    (EarlierChecks E cfg headers sig → ¬ Expired cfg (unixTime cfg (clock r.index)) sig →
      ¬ FromFuture cfg (unixTime cfg (clock r.index)) sig → r.status = .failure (.policy .sha1HashAlgorithm)) := by
  have hj := h.judged L T hr hf
  have hno : ¬ (E.pre = true → cfg.allowSha1 = true ∨ hashOf sig.algorithm ≠ .sha1) := by
    simp [hpre, hoff, halg]
  constructor
  · have : ∃ e ∈ initialErrors, FirstFailure (signatureChecks E cfg (unixTime cfg (clock r.index)) headers sig) e := by
      unfold signatureChecks
      simp only [firstFailure_cons, initialErrors, List.mem_cons, exists_eq_or_imp]
      simp only [hno]
      generalize (∀ h ∈ cfg.headersRequired, ∃ n ∈ sig.signedHeaders, lower n = lower h) = p1
      generalize (∀ h ∈ cfg.headersForbiddenUnsigned, occurrences headers h ≤ mentions sig.signedHeaders h) = p2
      generalize (∀ n, sig.bodyLength = some n → n ≤ E.usizeMax) = p3
      generalize (cfg.allowExpired = true ∨ ∀ x, sig.expiration = some x →
        unixTime cfg (clock r.index) < x + cfg.timeTolerance) = p4
      generalize (cfg.allowTimestampInFuture = true ∨ ∀ s, sig.timestamp = some s →
        s ≤ unixTime cfg (clock r.index) + cfg.timeTolerance) = p5
      simp
      by_cases p1 <;> by_cases p2 <;> by_cases p3 <;> by_cases p4 <;> by_cases p5 <;> simp [*]
    obtain ⟨e, he, hfail⟩ := this
    exact ⟨e, (hj.initial L.idna hsig he).2 hfail, he⟩
  · intro hpass hexp hfut
    rw [expired_iff, Classical.not_not] at hexp
    rw [future_iff, Classical.not_not] at hfut
    refine (hj.initial L.idna hsig (by decide)).2 ?_
    unfold signatureChecks
    simp only [firstFailure_cons, firstFailure_nil]
    simp [hexp, hfut, hpre, hoff, halg]
    exact ⟨hpass.required, hpass.unsigned, hpass.overflow⟩

end Dkim
