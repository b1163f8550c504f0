import Verif.Proofs.Examples
import Verif.Props.AutoSigned
import Verif.Props.OutputField

/-!
# Property C79: the example programs work together
-/

namespace Dkim

open Spec

variable {E : Env}

theorem exampleInput_some {input : Str} {headers : List Field} {body : Str}
    (h : exampleInput input = some (headers, body)) :
    ∃ header, replaceLf input = header ++ blank ++ body ∧ splitOnceStr blank (replaceLf input) = some (header, body) ∧
      headerFieldsFromStr header = some headers := by
  unfold exampleInput at h
  split at h
  · cases h
  · split at h
    · cases h
    · next header body' hs =>
      split at h
      · cases h
      · next fs hf =>
        cases h
        exact ⟨header, splitOnceStr_some hs, hs, hf⟩

/-- A printed header field in front of a message becomes its first field. -/
theorem exampleInput_prepend {name value : Str} (hn : ValidName name) (hv : ValidBody (utf8 value))
    {input : Str} {headers : List Field} {body : Str} (h : exampleInput input = some (headers, body)) :
    exampleInput (name ++ c!":" ++ replaceCrlf value ++ c!"\n" ++ input) =
      some (⟨name, utf8 value⟩ :: headers, body) := by
  obtain ⟨header, h1, h2, h3⟩ := exampleInput_some h
  obtain ⟨fs, _, hfs, e, hl⟩ := C24_parsed_block header headers h3
  have hall : ∀ f ∈ (name, value) :: fs, ValidName f.1 ∧ ValidBody (utf8 f.2) := by
    intro f hf
    rcases List.mem_cons.1 hf with rfl | hf
    · exact ⟨hn, hv⟩
    · exact hfs f hf
  obtain ⟨ls, g1, g2, _⟩ := exists_lineFields [(name, value)] (fun f hf => hall f (by
    rw [List.mem_singleton.1 hf]; simp))
  obtain ⟨lf, rfl⟩ : ∃ lf, ls = [lf] := by
    match ls, g2 with
    | [lf], _ => exact ⟨lf, rfl⟩
  have hok := g1 lf (by simp)
  have hlines := hok.lines
  simp only [List.map_cons, List.map_nil, List.cons.injEq, Prod.mk.injEq, and_true] at g2
  obtain ⟨en, ev⟩ := g2
  have etext : name ++ c!":" ++ replaceCrlf value ++ c!"\n" = lf.lines.flatMap (· ++ ['\n']) := by
    rw [ev, replaceCrlf_folded _ _ hok.2.1 fun l hm => (hok.2.2.1 l hm).1, en]
    simp only [LineField.lines, List.flatMap_cons]
    have : ∀ (m : Str) (cs : List Str), (m ++ cs.flatMap fun x => '\n' :: x) ++ ['\n'] =
        m ++ ['\n'] ++ cs.flatMap (· ++ ['\n']) := by
      intro m cs
      induction cs generalizing m with
      | nil => simp
      | cons c cs ih =>
        rw [List.flatMap_cons, List.flatMap_cons]
        have := ih c
        simp only [List.append_assoc, List.cons_append, List.nil_append] at this ⊢
        rw [this]
    have h5 := this (lf.name ++ ':' :: lf.first) lf.conts
    simp only [List.append_assoc, List.cons_append, List.nil_append] at h5 ⊢
    exact h5
  have hw : lf.lines.flatMap (· ++ ['\r', '\n']) = name ++ [':'] ++ value ++ ['\r', '\n'] := by
    have := writeBlock_lines [lf]
    simp only [List.map_cons, List.map_nil, ← en, ← ev, writeBlock, List.flatMap_cons, List.flatMap_nil,
      List.append_nil] at this
    exact this.symm
  have hparse : headerFieldsFromStr (lf.lines.flatMap (· ++ ['\r', '\n']) ++ header) =
      some (⟨name, utf8 value⟩ :: headers) := by
    have e1 : strLines (lf.lines.flatMap (· ++ ['\r', '\n']) ++ header) = strLines (writeBlock ((name, value) :: fs)) := by
      have : writeBlock ((name, value) :: fs) = lf.lines.flatMap (· ++ ['\r', '\n']) ++ writeBlock fs := by
        rw [hw]; simp [writeBlock]
      rw [this, strLines_append _ fun l hm => (hlines l hm).1, strLines_append _ fun l hm => (hlines l hm).1, hl]
    rw [headerFieldsFromStr_congr e1, C24_block_round_trip _ (by simp) hall, e]
    rfl
  rw [etext]
  unfold exampleInput
  have hne : (lf.lines.flatMap (· ++ ['\n']) ++ input).isEmpty = false := by
    simp [LineField.lines]
  rw [hne, replaceLf_append, replaceLf_lines _ fun l hm => (hlines l hm).1,
    splitOnceStr_lines _ hlines _ (by rw [h1]; exact header_no_break h3), h2]
  simp only [Bool.false_eq_true, if_false, Option.map_some, hparse]

theorem exampleInput_typed {input : Str} {headers : List Field} {body : Str}
    (h : exampleInput input = some (headers, body)) : TypedHeaders headers := by
  obtain ⟨header, _, _, h3⟩ := exampleInput_some h
  obtain ⟨fs, _, hfs, e, _⟩ := C24_parsed_block header headers h3
  intro f hf
  rw [e] at hf
  obtain ⟨g, hg, rfl⟩ := List.mem_map.1 hf
  exact hfs g hg

theorem exampleInput_length {input : Str} {headers : List Field} {body : Str}
    (h : exampleInput input = some (headers, body)) (hlen : (utf8 input).length < 2 ^ 62) (k : CanonAlg) :
    (codeBody k [utf8 body].flatten).length < 2 ^ 64 := by
  obtain ⟨header, h1, _, _⟩ := exampleInput_some h
  have h2 := replaceLf_length input
  have h3 := codeBody_length k [utf8 body].flatten
  rw [h1, utf8_append, List.length_append] at h2
  simp only [List.flatten_cons, List.flatten_nil, List.append_nil] at h3 ⊢
  omega

theorem exampleRequest_eq {key : SigningKey E.crypto} {domain selector : Str} {alg : SigAlg} (halg : alg ≠ .rsaSha1)
    (htype : typeOfKey key = keyTypeOf alg) :
    exampleRequest key domain selector = some { SignRequest.new domain selector alg key with validDuration := none } := by
  unfold exampleRequest
  have : SigAlg.fromParts E.pre key.keyType .sha256 = some alg := by
    cases key <;> cases alg <;> first | rfl | exact absurd rfl halg | cases htype
  rw [this]

theorem sigAlg_of_key {C : Crypto} (key : SigningKey C) :
    ∃ alg : SigAlg, alg ≠ .rsaSha1 ∧ typeOfKey key = keyTypeOf alg := by
  cases key with
  | rsa k => exact ⟨.rsaSha256, nofun, rfl⟩
  | ed25519 k => exact ⟨.ed25519Sha256, nofun, rfl⟩

/-- What a run of dkimsign consists of. -/
theorem dkimsign_some {P : Pkcs8 E.crypto} {keyFile domain selector : Str} {clock : Nat → Nat} {input : Str}
    {res : Str × List SigningError} (h : dkimsign P keyFile domain selector clock input = some res) :
    ValidDomain true E.idna domain ∧ ValidDomain false E.idna selector ∧
    ∃ key alg headers body out, signingKeyFromPem P keyFile = .ok key ∧ alg ≠ .rsaSha1 ∧
      typeOfKey key = keyTypeOf alg ∧ exampleInput input = some (headers, body) ∧
      Signed headers [{ SignRequest.new domain selector alg key with validDuration := none }] [utf8 body] clock out ∧
      res = printOutputs out := by
  unfold dkimsign at h
  split at h
  · next hv =>
    rw [Bool.and_eq_true] at hv
    refine ⟨(isValidDomainString_iff _ _ _).1 hv.1, (isValidDomainString_iff _ _ _).1 hv.2, ?_⟩
    split at h
    · cases h
    · next key hk =>
      obtain ⟨alg, h1, h2⟩ := sigAlg_of_key key
      rw [exampleRequest_eq h1 h2] at h
      dsimp only at h
      split at h
      · cases h
      · next headers body hi =>
        split at h
        · cases h
        · cases h
        · next signer hp =>
          split at h
          · cases h
          · next signer' ss hb =>
            split at h
            · cases h
            · next sigs hs =>
              cases h
              exact ⟨key, alg, headers, body, sigs, hk, h1, h2, hi, ⟨_, _, _, hp, hb, hs⟩, rfl⟩
  · cases h

/-- C79: when dkimsign has signed a message, its output in front of the message makes a
message of which dkimverify reports that the first signature, the new one, is verified,
if the public key is published and the form in which the domain and the selector are written
stands for the same name. -/
theorem C79_sign_then_verify_partial (law : IdnaLaw E.idna) (hs : SortLaw E.sortBy) (hset : SetLaw E.keySet)
    (hord : OrderLaw E.lookupOrder) (hsign : SignLaw E.crypto) (hhash : ∀ a b, E.hash a b ≠ [])
    (P : Pkcs8 E.crypto) (keyFile domain selector : Str) (hkd : KeptName E.idna false domain)
    (hks : KeptName E.idna false selector) (clock : Nat → Nat) (hclock : clock 0 < 2 ^ 63)
    (input : Str) (hlen : (utf8 input).length < 2 ^ 62) (text : Str)
    (h : dkimsign P keyFile domain selector clock input = some (text, []))
    (resolver : Resolver)
    (hkey : ∀ key alg, signingKeyFromPem P keyFile = .ok key → alg ≠ .rsaSha1 → typeOfKey key = keyTypeOf alg →
      KeyPublished resolver .default (SignRequest.new domain selector alg key))
    (vclock : Nat → Int) (hv : ∀ k, vclock k < 2 ^ 63) :
    ∃ results, dkimverify E resolver vclock (text ++ input) = some results ∧
      ∃ res ∈ results, res.index = 0 ∧ res.status = .success := by
  obtain ⟨hd, hsel, key, alg, headers, body, out, h1, h2, h3, h4, h5, h6⟩ := dkimsign_some h
  have ht : ∀ r ∈ [{ SignRequest.new domain selector alg key with validDuration := none }], TypedRequest r := by
    intro r hr
    rw [List.mem_singleton.1 hr]
    exact new_typed hd hsel h2 none nofun
  have hh := exampleInput_typed h4
  have hbl := exampleInput_length h4 hlen
  obtain ⟨o, e⟩ : ∃ o, out = [.ok o] := by
    obtain ⟨s, s', ss, g1, g2, g3⟩ := h5
    obtain ⟨s1, ss1, out1, k1, k2, k3, _⟩ := C35_results law hs hset headers _ s hh ht g1 [utf8 body] clock hbl
    rw [g2] at k1
    cases k1
    rw [g3] at k2
    cases k2
    match out, k3, h6 with
    | [.ok o], _, _ => exact ⟨o, rfl⟩
    | [.error x], _, h6 => cases h6
  subst e
  have ho : ([.ok o] : List (Except SigningError SigningOutput))[0]? = some (.ok o) := rfl
  obtain ⟨hname, _, hfield⟩ := C17_well_formed law hs hset headers _ hh ht _ clock _ h5 hbl o (by simp)
  have hbody : ValidBody (utf8 o.headerValue) := by
    unfold SigningOutput.toHeaderField at hfield
    rw [← fieldBodyOk_iff]
    cases hb : fieldBodyOk (utf8 o.headerValue) with
    | true => rfl
    | false => rw [hb] at hfield; simp at hfield
  have etext : text = o.headerName ++ c!":" ++ replaceCrlf o.headerValue ++ c!"\n" := by
    simp only [printOutputs, List.append_nil, Prod.mk.injEq] at h6
    exact h6.1
  have hin := exampleInput_prepend hname hbody h4
  rw [← etext] at hin
  obtain ⟨results, asked, ⟨v, v', ss, r1, r2, r3⟩, r4⟩ := auto_verify law hs hset hord hsign hhash hh ht h5 hbl
    hclock rfl (new_kept hkd hks none) (new_auto h2 none) (by rintro ⟨⟩) ho (resolver := resolver) (cfg := exampleConfig) (vclock := vclock)
    ⟨hv, fun _ e => by cases e⟩ rfl rfl (above := []) (chunks' := [utf8 body]) rfl (by decide) nofun
    (hkey key alg h1 h2 h3) (.inl rfl) (.inl rfl)
  refine ⟨results, ?_, r4⟩
  unfold dkimverify
  rw [hin]
  simp only [List.nil_append] at r1
  simp only [r1, r2, r3]

/-- A message as a text file: header fields, an empty line, and the body, with LF line
ends. -/
def Spec.textMessage (fs : List (Str × Str)) (body : Str) : Str := toLf (writeBlock fs) ++ c!"\n" ++ body

theorem exampleInput_text {fs : List (Str × Str)} (hne : fs ≠ [])
    (hfs : ∀ f ∈ fs, ValidName f.1 ∧ ValidBody (utf8 f.2)) (body : Str) :
    exampleInput (textMessage fs body) = some (fs.map fun f => ⟨f.1, utf8 f.2⟩, replaceLf body) := by
  obtain ⟨ls, g1, g2, g3⟩ := exists_lineFields fs hfs
  have hlines : ∀ l ∈ ls.flatMap LineField.lines, cleanChars l ∧ l ≠ [] := by
    intro l hl
    obtain ⟨f, hf, hl⟩ := List.mem_flatMap.1 hl
    exact (g1 f hf).lines l hl
  have hw : writeBlock fs = (ls.flatMap LineField.lines).flatMap (· ++ ['\r', '\n']) := by
    rw [g2, writeBlock_lines]
  have hparse : headerFieldsFromStr (writeBlock fs) = some (fs.map fun f => ⟨f.1, utf8 f.2⟩) :=
    C24_block_round_trip fs hne hfs
  have hsne : ls.flatMap LineField.lines ≠ [] := by
    cases ls with
    | nil => exact absurd g2 hne
    | cons f ls => simp [LineField.lines]
  generalize hL : ls.flatMap LineField.lines = L at *
  obtain ⟨init, last, rfl⟩ : ∃ init last, L = init ++ [last] :=
    ⟨L.dropLast, L.getLast hsne, (List.dropLast_concat_getLast hsne).symm⟩
  have hlast := hlines last (by simp)
  have hinit : ∀ l ∈ init, cleanChars l ∧ l ≠ [] := fun l hl => hlines l (by simp [hl])
  unfold exampleInput textMessage
  rw [hw, toLf_lines _ fun l hl => (hlines l hl).1]
  have hne' : ((init ++ [last]).flatMap (· ++ ['\n']) ++ c!"\n" ++ body).isEmpty = false := by
    simp
  have e1 : replaceLf ((init ++ [last]).flatMap (· ++ ['\n']) ++ c!"\n" ++ body) =
      init.flatMap (· ++ ['\r', '\n']) ++ (last ++ blank ++ replaceLf body) := by
    rw [replaceLf_append, replaceLf_append, replaceLf_lines _ fun l hl => (hlines l hl).1]
    simp [replaceLf]
  have e2 : splitOnceStr blank (init.flatMap (· ++ ['\r', '\n']) ++ (last ++ blank ++ replaceLf body)) =
      some (init.flatMap (· ++ ['\r', '\n']) ++ last, replaceLf body) := by
    rw [splitOnceStr_lines _ hinit _ (by rw [List.append_assoc]; exact not_break_prefix hlast.1 hlast.2 _),
      splitOnceStr_last hlast.1]
    rfl
  have e3 : headerFieldsFromStr (init.flatMap (· ++ ['\r', '\n']) ++ last) = some (fs.map fun f => ⟨f.1, utf8 f.2⟩) := by
    rw [← hparse, hw]
    refine headerFieldsFromStr_congr ?_
    have h1 := strLines_append (init ++ [last]) (fun l hl => (hlines l hl).1) []
    rw [List.append_nil] at h1
    rw [h1, strLines_append init (fun l hl => (hinit l hl).1)]
    unfold strLines
    rw [linesAux_last last [] (fun hm => (hlast.1 _ hm).2 rfl), List.nil_append, if_neg hlast.2]
    simp [linesAux]
  rw [hne', e1]
  simp only [Bool.false_eq_true, if_false]
  rw [e2]
  dsimp only
  rw [e3]

/-- C79: dkimsign signs every message with valid header fields, of which one is From, an
empty line, and any body, if the arguments and the key file are valid; only the RSA
primitive can fail. -/
theorem C79_signs (law : IdnaLaw E.idna) (hs : SortLaw E.sortBy) (hset : SetLaw E.keySet)
    (P : Pkcs8 E.crypto) (keyFile domain selector : Str) (hd : ValidDomain true E.idna domain)
    (hsel : ValidDomain false E.idna selector) (key : SigningKey E.crypto)
    (hkey : signingKeyFromPem P keyFile = .ok key) (clock : Nat → Nat)
    (fs : List (Str × Str)) (hfs : ∀ f ∈ fs, ValidName f.1 ∧ ValidBody (utf8 f.2))
    (hfrom : ∃ f ∈ fs, lower f.1 = c!"from") (body : Str) (hlen : (utf8 (textMessage fs body)).length < 2 ^ 62) :
    (∃ text, dkimsign P keyFile domain selector clock (textMessage fs body) = some (text, [])) ∨
    (dkimsign P keyFile domain selector clock (textMessage fs body) = some ([], [.signingFailure]) ∧
      ∃ data, signWith key .sha256 data = none) := by
  have hne : fs ≠ [] := by
    rintro rfl
    obtain ⟨f, hf, _⟩ := hfrom
    cases hf
  have hin := exampleInput_text hne hfs body
  have hh := exampleInput_typed hin
  have hbl := exampleInput_length hin hlen
  obtain ⟨alg, h1, h2⟩ := sigAlg_of_key key
  have ht : ∀ r ∈ [{ SignRequest.new domain selector alg key with validDuration := none }], TypedRequest r := by
    intro r hr
    rw [List.mem_singleton.1 hr]
    exact new_typed hd hsel h1 none nofun
  obtain ⟨s, g1⟩ := (C34_accepts law.toCaseLaw _ _ ht).2 ⟨by
    obtain ⟨f, hf, e⟩ := hfrom
    exact ⟨⟨f.1, utf8 f.2⟩, List.mem_map.2 ⟨f, hf, rfl⟩, e⟩, by simp, by simp, by
    intro r hr
    rw [List.mem_singleton.1 hr]
    exact new_valid h2 none nofun⟩
  obtain ⟨s', ss, out, g2, g3, g4, g5⟩ := C35_results law hs hset _ _ s hh ht g1 [utf8 (replaceLf body)] clock hbl
  obtain ⟨res, k1, k2, k3⟩ := g5 0 _ rfl
  have eout : out = [res] := by
    match out, g4, k1 with
    | [x], _, k1 => simpa using k1
  have erun : dkimsign P keyFile domain selector clock (textMessage fs body) = some (printOutputs [res]) := by
    unfold dkimsign
    have hv : (isValidDomainName E.idna domain && isValidSelector E.idna selector) = true := by
      rw [Bool.and_eq_true]
      exact ⟨(isValidDomainString_iff _ _ _).2 hd, (isValidDomainString_iff _ _ _).2 hsel⟩
    rw [if_pos hv, hkey]
    dsimp only
    rw [exampleRequest_eq h1 h2]
    dsimp only
    rw [hin]
    dsimp only
    rw [g1]
    dsimp only
    rw [g2]
    dsimp only
    rw [g3, eout]
  rw [erun]
  cases res with
  | ok o => exact .inl ⟨_, rfl⟩
  | error e =>
    refine .inr ?_
    rcases k3 e rfl with rfl | ⟨rfl, v, hv⟩
    · have := k2.1 rfl
      cases this
    · have : hashOf alg = .sha256 := by cases alg <;> first | rfl | exact absurd rfl h1
      exact ⟨rfl, _, this ▸ hv⟩

/-- C79: both programs panic if there is no empty line, that is, no two LF in a row. -/
theorem C79_empty_line (P : Pkcs8 E.crypto) (keyFile domain selector : Str) (clock : Nat → Nat)
    (resolver : Resolver) (vclock : Nat → Int) (input : Str) (h : ¬ ∃ a b, input = a ++ c!"\n\n" ++ b) :
    dkimsign P keyFile domain selector clock input = none ∧ dkimverify E resolver vclock input = none := by
  have hin : exampleInput input = none := by
    cases hi : exampleInput input with
    | none => rfl
    | some p =>
      obtain ⟨header, h1, _⟩ := exampleInput_some (headers := p.1) (body := p.2) hi
      exact absurd (replaceLf_blank input _ _ h1) h
  constructor
  · cases hr : dkimsign P keyFile domain selector clock input with
    | none => rfl
    | some res =>
      obtain ⟨_, _, _, _, headers, body, _, _, _, _, h4, _⟩ := dkimsign_some hr
      rw [hin] at h4
      cases h4
  · unfold dkimverify
    rw [hin]

/-- C79: in particular they panic for every message with CRLF line ends. -/
theorem C79_crlf (P : Pkcs8 E.crypto) (keyFile domain selector : Str) (clock : Nat → Nat)
    (resolver : Resolver) (vclock : Nat → Int) (input : Str)
    (h : ∀ a b, input = a ++ c!"\n" ++ b → ∃ a', a = a' ++ c!"\r") :
    dkimsign P keyFile domain selector clock input = none ∧ dkimverify E resolver vclock input = none := by
  refine C79_empty_line P keyFile domain selector clock resolver vclock input ?_
  rintro ⟨a, b, e⟩
  obtain ⟨a', ha⟩ := h (a ++ c!"\n") b (by rw [e]; simp)
  have := congrArg List.getLast? ha
  simp at this

/-! ## Concrete cases -/

/-- A stand-in for the PKCS #8 library that reads an Ed25519 key from every text. -/
def anyTextPkcs8 : Pkcs8 testEnv.crypto where
  Info := Unit
  fromPem _ := some ([], [])
  labelValid _ := true
  keyInfo _ := some ()
  toRsa _ := none
  toEd _ := some ()

set_option maxRecDepth 100000 in
/-- Non-vacuity of the theorems: a message is signed, and the key is published. -/
example : (∃ text, dkimsign anyTextPkcs8 c!"key" c!"example.com" c!"e" (fun _ => 1000)
      (textMessage [(c!"From", c!" a@b"), (c!"Subject", c!" x\r\n y")] c!"hi\n") = some (text, [])) ∧
    (∀ f ∈ [(c!"From", c!" a@b"), (c!"Subject", c!" x\r\n y")], fieldNameOk f.1 = true ∧ fieldBodyOk (utf8 f.2) = true) ∧
    textMessage [(c!"From", c!" a@b"), (c!"Subject", c!" x\r\n y")] c!"hi\n" =
      c!"From: a@b\nSubject: x\n y\n\nhi\n" ∧
    KeptName testEnv.idna false c!"example.com" ∧ KeptName testEnv.idna false c!"e" ∧
    KeyPublished (E := testEnv) testResolver .default
      (SignRequest.new c!"example.com" c!"e" .ed25519Sha256 (.ed25519 ())) :=
  ⟨⟨_, rfl⟩, by decide, by rfl, ⟨rfl, rfl⟩, ⟨rfl, rfl⟩,
    c!"example.com", c!"e", _, .ok b!"v=DKIM1; k=ed25519; p=BA==", _, .ed25519 (), rfl, rfl, rfl,
      List.mem_cons_self, (txtRecord_iff _ _).2 rfl, rfl, by decide, by decide, nofun, rfl, trivial, trivial,
      test_keyPair⟩

end Dkim
