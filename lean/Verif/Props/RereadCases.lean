import Verif.Props.Reread

/-!
# C15 and C37: requests for which the claims fail

The requests below are accepted by the signer, and are signed; the library itself
does not accept the produced signature, or reads something else.
-/

namespace Dkim

open Spec

/-- A header and a request, of the right types, that lead to the output `o` in the test
environment. -/
def TestRun (headers : List Field) (r : SignRequest testEnv) (o : SigningOutput) : Prop :=
  TypedHeaders headers ∧ TypedRequest r ∧ Signed headers [r] [b!"ab", b!"\r\n"] (fun _ => 5) [.ok o]

/-- The error of a result. -/
def Res.errOf {ε α : Type} : Res ε α → Option ε
  | .err e => some e
  | _ => none

theorem Res.errOf_ne {ε α : Type} {x : Res ε α} {e : ε} (h : x.errOf = some e) (s : α) : x ≠ .ok s := by
  rintro rfl
  cases h

theorem testHeaders_typed : TypedHeaders testHeaders := by
  intro f hf
  rw [← fieldNameOk_iff, ← fieldBodyOk_iff]
  revert f
  decide

/-- A check that implies `TypedRequest`. -/
def typedCheck (r : SignRequest testEnv) : Bool :=
  isValidDomainString asciiIdna r.domain true && isValidDomainString asciiIdna r.selector false &&
  (r.identity.all fun i => isValidDomainString asciiIdna i.domain true) &&
  (match r.headerSelection with | .manual ns => ns.all fieldNameOk | .auto => true) &&
  (match r.bodyLength with | .exact n => decide (n < 2 ^ 64) | _ => true) &&
  (match r.timestamp with | .exact n => decide (n < 2 ^ 64) | _ => true) &&
  (r.validDuration.all fun n => decide (n < 2 ^ 64)) &&
  decide (1 ≤ r.format.lineWidth) && r.algorithm != .rsaSha1

theorem typed_of_check {r : SignRequest testEnv} (h : typedCheck r = true) : TypedRequest r := by
  simp only [typedCheck, Bool.and_eq_true, decide_eq_true_eq, bne_iff_ne, ne_eq] at h
  obtain ⟨⟨⟨⟨⟨⟨⟨⟨h1, h2⟩, h3⟩, h4⟩, h5⟩, h6⟩, h7⟩, h8⟩, h9⟩ := h
  refine ⟨test_validDomain _ _ h1, test_validDomain _ _ h2, ?_, ?_, ?_, ?_, ?_, h8, fun e => absurd e h9⟩
  · intro i e; rw [e] at h3; exact test_validDomain _ _ h3
  · intro ns e n hn; rw [e] at h4; exact (fieldNameOk_iff n).1 (List.all_eq_true.1 h4 n hn)
  · intro n e; rw [e] at h5; exact of_decide_eq_true h5
  · intro n e; rw [e] at h6; exact of_decide_eq_true h6
  · intro n e; rw [e] at h7; exact of_decide_eq_true h7

/-! ## C37 -/

/-- Extension tag `q` with a value that does not list `dns/txt`. -/
def otherQuery : SignRequest testEnv := { testRequest with extTags := [(c!"q", c!"foo")] }

set_option maxRecDepth 20000 in
/-- C37 is violated: extension tag `q` is not refused, whatever its value. -/
theorem C37_violation_query : ∃ o, TestRun testHeaders otherQuery o ∧
    ∀ s, sigFromStr testEnv.idna testEnv.pre o.headerValue ≠ .ok s :=
  ⟨_, ⟨testHeaders_typed, typed_of_check (by decide), _, _, _, rfl, rfl, rfl⟩,
    Res.errOf_ne (e := _) (by rfl)⟩

/-- A header with a field name that is to be copied. -/
def oddHeaders (n : Str) : List Field := [⟨c!"From", b!" me"⟩, ⟨n, b!" a"⟩]

/-- A request to sign and copy that field. -/
def oddRequest (n : Str) : SignRequest testEnv :=
  { testRequest with headerSelection := .manual [c!"From", n] }

theorem oddHeaders_typed {n : Str} (h : fieldNameOk n = true) : TypedHeaders (oddHeaders n) := by
  intro f hf
  rw [← fieldNameOk_iff, ← fieldBodyOk_iff]
  simp only [oddHeaders, List.mem_cons, List.not_mem_nil, or_false] at hf
  rcases hf with rfl | rfl
  · decide
  · exact ⟨h, rfl⟩

set_option maxRecDepth 20000 in
/-- C37 is violated: the names of copied header fields are written without encoding;
an equals sign in a name is then taken for an encoded byte. -/
theorem C37_violation_equals : ∃ o, TestRun (oddHeaders c!"X=Y") (oddRequest c!"X=Y") o ∧
    ∀ s, sigFromStr testEnv.idna testEnv.pre o.headerValue ≠ .ok s :=
  ⟨_, ⟨oddHeaders_typed (by decide), typed_of_check (by decide), _, _, _, rfl, rfl, rfl⟩,
    Res.errOf_ne (e := _) (by rfl)⟩

set_option maxRecDepth 20000 in
/-- C37 is violated: a bar in a copied name is taken for the end of a copied field. -/
theorem C37_violation_bar : ∃ o, TestRun (oddHeaders c!"X|Y") (oddRequest c!"X|Y") o ∧
    ∀ s, sigFromStr testEnv.idna testEnv.pre o.headerValue ≠ .ok s :=
  ⟨_, ⟨oddHeaders_typed (by decide), typed_of_check (by decide), _, _, _, rfl, rfl, rfl⟩,
    Res.errOf_ne (e := _) (by rfl)⟩

/-- A request with the greatest timestamp. -/
def lateRequest : SignRequest testEnv := { testRequest with timestamp := .exact (2 ^ 64 - 1) }

set_option maxRecDepth 20000 in
/-- C37 is violated: the expiration time saturates, and is then not after the
timestamp. -/
theorem C37_violation_time : ∃ o, TestRun testHeaders lateRequest o ∧
    ∀ s, sigFromStr testEnv.idna testEnv.pre o.headerValue ≠ .ok s :=
  ⟨_, ⟨testHeaders_typed, typed_of_check (by decide), _, _, _, rfl, rfl, rfl⟩,
    Res.errOf_ne (e := _) (by rfl)⟩

/-- A request with an identity of which the local part is not valid; the fields of
`Identity` are public, and not checked by the signer. -/
def dottedRequest : SignRequest testEnv :=
  { testRequest with identity := some ⟨some c!"a..b", c!"example.com"⟩ }

set_option maxRecDepth 20000 in
/-- C37 is violated: the local part of the identity is not checked. -/
theorem C37_violation_local : ∃ o, TestRun testHeaders dottedRequest o ∧
    ∀ s, sigFromStr testEnv.idna testEnv.pre o.headerValue ≠ .ok s :=
  ⟨_, ⟨testHeaders_typed, typed_of_check (by decide), _, _, _, rfl, rfl, rfl⟩,
    Res.errOf_ne (e := _) (by rfl)⟩

/-! ## C15 -/

/-- Extension tag `q` with the value that is the default. -/
def dnsQuery : SignRequest testEnv := { testRequest with extTags := [(c!"q", c!"dns/txt")] }

/-- What is read from the first output. -/
def Res.toOption {ε α : Type} : Res ε α → Option α
  | .ok a => some a
  | _ => none

theorem Res.of_toOption {ε α : Type} {x : Res ε α} {a : α} (h : x.toOption = some a) : x = .ok a := by
  cases x with
  | ok b => injection h with h; rw [h]
  | err e => cases h
  | panic => cases h

set_option maxRecDepth 20000 in
/-- C15 is violated: an extension tag `q` is written, but not read. -/
theorem C15_violation_query : ∃ o s, TestRun testHeaders dnsQuery o ∧
    sigFromStr testEnv.idna testEnv.pre o.headerValue = .ok s ∧
    o.signature.extTags = [(c!"q", c!"dns/txt")] ∧ s.extTags = [] :=
  ⟨_, _, ⟨testHeaders_typed, typed_of_check (by decide), _, _, _, rfl, rfl, rfl⟩,
    Res.of_toOption (by rfl), rfl, rfl⟩

set_option maxRecDepth 20000 in
/-- C15 is violated: the copied header field `X=41` is read as `XA`. -/
theorem C15_violation_name : ∃ o s, TestRun (oddHeaders c!"X=41") (oddRequest c!"X=41") o ∧
    sigFromStr testEnv.idna testEnv.pre o.headerValue = .ok s ∧
    o.signature.copiedHeaders = [(c!"From", b!" me"), (c!"X=41", b!" a")] ∧
    s.copiedHeaders = [(c!"From", b!" me"), (c!"XA", b!" a")] :=
  ⟨_, _, ⟨oddHeaders_typed (by decide), typed_of_check (by decide), _, _, _, rfl, rfl, rfl⟩,
    Res.of_toOption (by rfl), rfl, rfl⟩

/-! ## The hypotheses of the theorems can be met -/

set_option maxRecDepth 20000 in
/-- Non-vacuity of C37_parses_partial, C37_parses_exactly and C15_round_trip_partial:
`testRequest` copies header fields, has an identity with a local part, an expiration
time and an extension tag, and meets all hypotheses. -/
example : ∃ o s, TestRun testHeaders testRequest o ∧ CopyableNames testRequest testHeaders ∧
    (∀ j l, testRequest.identity = some j → j.localPart = some l → LocalPart l) ∧
    c!"q" ∉ testRequest.extTags.map (·.1) ∧ TimeLeft testRequest 5 ∧
    sigFromStr testEnv.idna testEnv.pre o.headerValue = .ok s ∧
    s.copiedHeaders = [(c!"from", b!" me"), (c!"Subject", b!" a;\r\n b")] := by
  refine ⟨_, _, ⟨testHeaders_typed, testRequest_typed, _, _, _, rfl, rfl, rfl⟩, ?_, ?_, by decide, ?_,
    Res.of_toOption (by rfl), rfl⟩
  · intro _
    decide
  · intro j l hj hl
    injection hj with hj
    subst hj
    injection hl with hl
    subst hl
    exact (isLocalPart_iff _).1 (by decide)
  · intro _
    refine ⟨?_, by intro h; cases h⟩
    intro t h
    injection h with h
    subst h
    decide

end Dkim
