import Verif.Model.ResolverAdapter
import Verif.Props.VerifierCases

/-!
# Property C74: the adapter for the DNS resolver
-/

namespace Dkim

open Spec

variable {E : Env}

/-- C74: an unusable name is invalid input. -/
theorem C74_unusable (H : Hickory) (name : Str) (h : H.fromAscii name = none) :
    (H.lookupTxt name).result = .error .invalidInput := by
  unfold Hickory.lookupTxt
  rw [h]

/-- C74: absence of records is `notFound`. -/
theorem C74_absent (H : Hickory) (name : Str) (n : H.Name) (h : H.fromAscii name = some n)
    (ha : (H.txtLookup n).2 = .error none) : (H.lookupTxt name).result = .error .notFound := by
  unfold Hickory.lookupTxt
  rw [h]
  cases hn : H.txtLookup n with
  | mk d a => rw [hn] at ha; subst ha; simp only [hn]

/-- C74: any other failure is passed on. -/
theorem C74_failure (H : Hickory) (name : Str) (n : H.Name) (h : H.fromAscii name = some n) (e : H.Failure)
    (ha : (H.txtLookup n).2 = .error (some e)) : (H.lookupTxt name).result = .error (H.failureKind e) := by
  unfold Hickory.lookupTxt
  rw [h]
  cases hn : H.txtLookup n with
  | mk d a => rw [hn] at ha; subst ha; simp only [hn]

/-- C74: the records are passed on in their order, none is left out or marked as broken,
and the bytes of each are those of its character-strings one after the other. -/
theorem C74_records (H : Hickory) (name : Str) (n : H.Name) (h : H.fromAscii name = some n) (txts : List (List Bytes))
    (ha : (H.txtLookup n).2 = .ok txts) :
    ∃ records : List (Except IoErr Bytes), (H.lookupTxt name).result = .ok records ∧ records.length = txts.length ∧
      ∀ (i : Nat) strings, txts[i]? = some strings → records[i]? = some (.ok (strings.foldr (fun a b => a ++ b) [])) := by
  refine ⟨txts.map fun txt => Except.ok txt.flatten, ?_, by simp, ?_⟩
  · unfold Hickory.lookupTxt
    rw [h]
    cases hn : H.txtLookup n with
    | mk d a => rw [hn] at ha; subst ha; simp only [hn]
  · intro i strings hi
    rw [List.getElem?_map, hi]
    have : ∀ l : List Bytes, l.flatten = l.foldr (fun a b => a ++ b) [] := by
      intro l
      induction l with
      | nil => rfl
      | cons a l ih => simp [ih]
    simp [this]

/-- C74: the adapter takes no longer than the resolver, which is not asked for unusable
names. -/
theorem C74_delay (H : Hickory) (name : Str) :
    (H.fromAscii name = none → (H.lookupTxt name).delay = 0) ∧
    ∀ n, H.fromAscii name = some n → (H.lookupTxt name).delay = (H.txtLookup n).1 := by
  unfold Hickory.lookupTxt
  constructor
  · intro h
    rw [h]
  · intro n h
    rw [h]
    cases hn : H.txtLookup n with
    | mk d a =>
      simp only [hn]
      split
      all_goals
        next e =>
        injection e with e
        exact e.symm

/-- The result for a signature that passes the initial checks, if the lookup fails. -/
theorem lookup_failed (L : Lawful E) {resolver : Resolver} {cfg : Config} {clock : Nat → Int}
    (T : TypedTimes cfg clock) {headers : List Field} {chunks : List Bytes} {results : List VerificationResult}
    {asked : List Str} (h : Run E resolver cfg clock headers chunks results asked) (r : VerificationResult)
    (hr : r ∈ results) (f : Field) (hf : headers[r.index]? = some f) (value : Str) (sig : DkimSignature)
    (hsig : FieldSignature E f value sig)
    (hpass : AllPass (signatureChecks E cfg (unixTime cfg (clock r.index)) headers sig)) (name : Str)
    (hq : QueryFor E sig name) (e : IoErr) (hres : (resolver name).result = .error e) :
    r.status = .failure (lookupError e) ∧ r.keyRecord = none := by
  obtain ⟨f', hf', hj⟩ := (verify_judged L T h).1 r hr
  have e0 : f' = f := by
    have := (mem_dkimFields hf').1
    rw [hf] at this
    injection this with this
    exact this.symm
  subst e0
  revert hj hpass
  generalize hidx : r.index = i
  intro hpass hj
  cases hj with
  | unparsed e h1 h2 => exact absurd hsig (h1 _ _)
  | rejected v s e h1 h2 =>
    obtain ⟨rfl, rfl⟩ := fieldSignature_unique L.idna hsig h1
    exact absurd h2 hpass.not_firstFailure
  | noAnswer v s n e' h1 h2 h3 h4 =>
    obtain ⟨rfl, rfl⟩ := fieldSignature_unique L.idna hsig h1
    rw [queryFor_unique hq h3, h4] at hres
    injection hres with hres
    subst hres
    exact ⟨rfl, rfl⟩
  | noRecords v s n h1 h2 h3 h4 =>
    obtain ⟨rfl, rfl⟩ := fieldSignature_unique L.idna hsig h1
    rw [queryFor_unique hq h3, h4] at hres
    cases hres
  | verified v o s n ts before after txt rec h1 h2 h3 h4 h5 h6 h7 h8 =>
    obtain ⟨rfl, rfl⟩ := fieldSignature_unique L.idna hsig h1
    rw [queryFor_unique hq h4, h5] at hres
    cases hres
  | unverified v o s n ts before txt e rec h1 h2 h3 h4 h5 h6 h7 h8 =>
    obtain ⟨rfl, rfl⟩ := fieldSignature_unique L.idna hsig h1
    rw [queryFor_unique hq h4, h5] at hres
    cases hres

/-- C74: with the adapter, the verifier reports for a signature that passes the initial
checks that no key was found, if there are no records. -/
theorem C74_no_key (L : Lawful E) (H : Hickory) {cfg : Config} {clock : Nat → Int} (T : TypedTimes cfg clock)
    {headers : List Field} {chunks : List Bytes} {results : List VerificationResult} {asked : List Str}
    (h : Run E H.lookupTxt cfg clock headers chunks results asked) (r : VerificationResult) (hr : r ∈ results)
    (f : Field) (hf : headers[r.index]? = some f) (value : Str) (sig : DkimSignature)
    (hsig : FieldSignature E f value sig)
    (hpass : AllPass (signatureChecks E cfg (unixTime cfg (clock r.index)) headers sig)) (name : Str)
    (hq : QueryFor E sig name) (n : H.Name) (hn : H.fromAscii name = some n)
    (ha : (H.txtLookup n).2 = .error none) : r.status = .failure .noKeyFound ∧ r.keyRecord = none :=
  lookup_failed L T h r hr f hf value sig hsig hpass name hq .notFound (C74_absent H name n hn ha)

/-- C74: likewise for a name that cannot be used. -/
theorem C74_bad_name (L : Lawful E) (H : Hickory) {cfg : Config} {clock : Nat → Int} (T : TypedTimes cfg clock)
    {headers : List Field} {chunks : List Bytes} {results : List VerificationResult} {asked : List Str}
    (h : Run E H.lookupTxt cfg clock headers chunks results asked) (r : VerificationResult) (hr : r ∈ results)
    (f : Field) (hf : headers[r.index]? = some f) (value : Str) (sig : DkimSignature)
    (hsig : FieldSignature E f value sig)
    (hpass : AllPass (signatureChecks E cfg (unixTime cfg (clock r.index)) headers sig)) (name : Str)
    (hq : QueryFor E sig name) (hn : H.fromAscii name = none) :
    r.status = .failure .invalidKeyDomain ∧ r.keyRecord = none :=
  lookup_failed L T h r hr f hf value sig hsig hpass name hq .invalidInput (C74_unusable H name hn)

/-- A resolver that knows one key, in two character-strings. -/
def testHickory : Hickory where
  Name := Str
  fromAscii s := if s = c!"x" then none else some s
  Failure := Unit
  failureKind _ := .other
  txtLookup n :=
    if n = c!"e._domainkey.example.com." then (5, .ok [[b!"v=DKIM1; k=ed", b!"25519; p=BA=="]])
    else if n = c!"broken" then (7, .error (some ()))
    else (6, .error none)

set_option maxRecDepth 100000 in
/-- Non-vacuity: one of the signatures is verified with the key, for the other there is
none. -/
theorem test_hickory : statuses testEnv testHickory.lookupTxt .default 1500 testMessage testBody
    = some [(0, .failure .noKeyFound), (2, .success)] := by
  rfl

/-- Non-vacuity: the other answers. -/
example : (testHickory.lookupTxt c!"x").result = .error .invalidInput ∧
    (testHickory.lookupTxt c!"broken").result = .error .other ∧
    (testHickory.lookupTxt c!"y").result = .error .notFound := ⟨by rfl, by rfl, by rfl⟩

end Dkim
