import Verif.Proofs.TestEnv
import Verif.Model.Verifier

/-!
# The unit tests of the library, run on the model

These are not proofs of anything general. They check the hand translation: each
example is a unit test found in `/repo/src` (cited), with the same inputs and the
expected values stated there.
-/

namespace Dkim.Tests

open Dkim

/-! ## canonicalize.rs:362-469 -/

/-- canonicalize.rs:362-386 `canonicalize_headers_relaxed_ok`. -/
example : canonHeaders .relaxed
    [⟨c!"from", b!" Good \t "⟩, ⟨c!"to", b!" see   me"⟩, ⟨c!"Date", b!" Fri 24\r\n\tfoo"⟩,
     ⟨c!"To", b!" another one"⟩]
    [c!"to", c!"from", c!"to"] = b!"to:another one\r\nfrom:Good\r\nto:see me\r\n" := by decide

set_option maxRecDepth 20000 in
/-- canonicalize.rs:388-407 `canonicalize_header_relaxed_dkim_sig`. -/
example : canonHeader .relaxed c!"Dkim-Signature"
    (b!"v=1; a=rsa-sha256; d=example.net; s=brisbane;\r\n  c=simple; q=dns/txt; i=@eng.example.net;\r\n" ++
     b!"  h=from:to:subject:date;\r\n  bh=MTIzNDU2Nzg5MDEyMzQ1Njc4OTAxMjM0NTY3ODkwMTI=;\r\n  b=dzdV...   ") =
    b!"dkim-signature:v=1; a=rsa-sha256; d=example.net; s=brisbane; c=simple; q=dns/txt; i=@eng.example.net; " ++
    b!"h=from:to:subject:date; bh=MTIzNDU2Nzg5MDEyMzQ1Njc4OTAxMjM0NTY3ODkwMTI=; b=dzdV..." := by rfl

/-- canonicalize.rs:409-419 `body_canon_simple_ok`. -/
example : canonBody .simple [b!"well  hello \r\n", b!"\r\n\r? what's up \r\n\r\n", b!"\r\n"] =
    some b!"well  hello \r\n\r\n\r? what's up \r\n" := by decide

/-- canonicalize.rs:421-431 `body_canon_relaxed_basic`. -/
example : canonBody .relaxed [b!"well  hello \r\n", b!"\r\n what's up \r\n\r\n", b!"\r\n"] =
    some b!"well hello\r\n\r\n what's up\r\n" := by decide

/-- canonicalize.rs:433-450 `body_canon_relaxed_small_chunks`. -/
example : canonBody .relaxed
    [b!"well ", b!" hello ", b!"\r", b!"\n\r", b!"\n what's up \r\n\r\n", b!"\r\n"] =
    some b!"well hello\r\n\r\n what's up\r\n" := by decide

/-- canonicalize.rs:452-459 `body_canon_relaxed_initial_empty_lines`. -/
example : canonBody .relaxed [b!"\r\n\r\n", b!"\ra \r", b!"\nb  ", b!"c"] =
    some b!"\r\n\r\n\ra\r\nb c\r\n" := by decide

/-! ## message_hash.rs:254-390; the hash function is replaced by the identity -/

/-- Stances and results of a body hasher. -/
def hashed (fail : Bool) (keys : List BodyHasherKey) (chunks : List Bytes) :
    Option (List Stance × BodyHashResults) :=
  match (BodyHasher.build fail keys).hashChunks chunks with
  | none => none
  | some (bh, stances) => (bh.finish fun _ b => b).map fun r => (stances, r)

/-- message_hash.rs:275-294 `body_hasher_simple`. -/
example : (hashed false [(none, .sha256, .simple), (none, .sha256, .relaxed)] [b!"abc \r\n"]).map
      (fun r => (r.1, (r.2.get (none, .sha256, .simple)).map (·.toOption.map (·.2)),
        (r.2.get (none, .sha256, .relaxed)).map (·.toOption.map (·.2)))) =
    some ([.interested], some (some 6), some (some 5)) := by rfl

/-- message_hash.rs:296-313 `body_hasher_fail_on_partial`. -/
example : hashed true [(some 4, .sha256, .relaxed)] [b!"ab", b!"c"] =
    some ([.interested, .interested], [((some 4, .sha256, .relaxed), .error .inputTruncated)]) := by rfl

/-- message_hash.rs:315-335 `body_hasher_hash_with_length`. -/
example : hashed false [(some 28, .sha256, .simple)]
      [b!"well  hello \r\n", b!"\r\n what's up \r", b!"\n\r\n"] =
    some ([.interested, .interested, .done],
      [((some 28, .sha256, .simple), .ok (b!"well  hello \r\n\r\n what's up \r", 28))]) := by rfl

/-! ## tag_list.rs:227-278 -/

/-- The parsed tags. -/
def tagsOf (s : Str) : Option (List (Str × Str)) :=
  match parseTagList s with
  | .ok ts => some (ts.map fun t => (t.name, t.value))
  | .error _ => none

set_option maxRecDepth 20000 in
/-- tag_list.rs:231-248 `tag_list_from_str_ok`. -/
example : tagsOf
    (c!" v = 1 ; a=rsa-sha256;d=example.net; s=brisbane;\r\n  c=simple; q=dns/txt; i=中文@eng.example.net;\r\n" ++
     c!"  t=1117574938; x=1118006938;\r\n  h=from:to:subject:date;\r\n" ++
     c!"  z=From:foo@eng.example.net|To:joe@example.com|\r\n" ++
     c!"   Subject:demo=20run|Date:July=205,=202005=203:44:08=20PM=20-0700\r\n   ;\r\n" ++
     c!"  bh=MTIzNDU2Nzg5MDEyMzQ1Njc4OTAxMjM0NTY3ODkwMTI=;\r\n" ++
     c!"  b=dzdVyOfAKCdLXdJOc9G2q8LoXSlEniSbav+yuU4zGeeruD00lszZVoG4ZHRNiYzR") =
    some [(c!"v", c!"1"), (c!"a", c!"rsa-sha256"), (c!"d", c!"example.net"), (c!"s", c!"brisbane"),
      (c!"c", c!"simple"), (c!"q", c!"dns/txt"), (c!"i", c!"中文@eng.example.net"), (c!"t", c!"1117574938"),
      (c!"x", c!"1118006938"), (c!"h", c!"from:to:subject:date"),
      (c!"z", c!"From:foo@eng.example.net|To:joe@example.com|\r\n   Subject:demo=20run|Date:July=205,=202005=203:44:08=20PM=20-0700"),
      (c!"bh", c!"MTIzNDU2Nzg5MDEyMzQ1Njc4OTAxMjM0NTY3ODkwMTI="),
      (c!"b", c!"dzdVyOfAKCdLXdJOc9G2q8LoXSlEniSbav+yuU4zGeeruD00lszZVoG4ZHRNiYzR")] := by rfl

/-- tag_list.rs:250-257 `parse_colon_separated_value_ok`. -/
example : parseColonSeparated c!"ab:\r\n\tc\r\n\td\r\n\t:e" = [c!"ab", c!"c\r\n\td", c!"e"] := by decide
example : parseColonSeparated [] = [[]] := by decide

/-- tag_list.rs:259-263 `parse_base64_value_ok`. -/
example : parseBase64Value [] = some [] := by decide
example : parseBase64Value c!"TQ==" = some b!"M" := by decide

/-- tag_list.rs:265-277 `parse_quoted_printable_header_field_ok`. -/
example : parseQpHeaderField c!" Date:=20July=205,=0D=0A=092005=20\r\n\t3:44:08=20PM=20-0700 " =
    some (some (c!"Date", b!" July 5,\r\n\t2005 3:44:08 PM -0700")) := by rfl

/-! ## quoted_printable.rs:251-294 -/

/-- quoted_printable.rs:255-263 `encode_basic`. -/
def sampleBytes : Bytes := b!"a=|; b\n" ++ [0xf0, 0x9f, 0x8f, 0xa0, 0xfe] ++ b!"c"

example : qpEncode sampleBytes none false = c!"a=3D|=3B=20b=0A🏠=FEc" := by rfl
example : qpEncode sampleBytes (some '|') false = c!"a=3D=7C=3B=20b=0A🏠=FEc" := by rfl
example : qpEncode sampleBytes none true = c!"a=3D|=3B=20b=0A=F0=9F=8F=A0=FEc" := by rfl
example : qpEncode sampleBytes (some '|') true = c!"a=3D=7C=3B=20b=0A=F0=9F=8F=A0=FEc" := by rfl

/-- quoted_printable.rs:265-278 `decode_basic`. -/
example : [c!"", c!"\t", c!"\t\r\n\t", c!" ab ", c!" ab cd ", c!" ab\r\n cd ", c!"abc我"].map qpDecode =
    [.ok [], .ok [], .ok [], .ok b!"ab", .ok b!"abcd", .ok b!"abcd",
      .ok (b!"abc" ++ [0xe6, 0x88, 0x91])] := by rfl
example : [c!"\t\r\n", c!"\t\r\n\t\r\n\t", c!"ab;cd"].map qpDecode = [.err, .err, .err] := by rfl

/-- quoted_printable.rs:280-287 `decode_tag_list`. -/
example : qpDecode
    c!"=20v=20 =3     D=20=FF1=\r\n\t3B我=0D=0A=09a=3Drsa-sha256=3B=20s=3Dbrisbane=3B" =
    .ok (b!" v = " ++ [0xff] ++ b!"1;" ++ [0xe6, 0x88, 0x91] ++ b!"\r\n\ta=rsa-sha256; s=brisbane;") := by rfl

/-- quoted_printable.rs:289-293 `decode_qp_section_ok`. -/
example : qpSectionDecode c!" wha i☮ ef o=92fj" =
    .ok (b!" wha i" ++ [0xe2, 0x98, 0xae] ++ b!" ef o" ++ [0x92] ++ b!"fj") := by rfl

/-! ## parse.rs:67-94 -/

/-- parse.rs:71-83 `strip_fws_ok`. -/
example : [c!"", c!"x", c!" x", c!"\r\n", c!" \r\n", c!" \r\nx", c!" \r\n ", c!" \r\n x", c!"\r\nx",
      c!"\r\n x"].map stripFws =
    [none, none, some c!"x", none, some c!"\r\n", some c!"\r\nx", some c!"", some c!"x", none,
      some c!"x"] := by decide

/-- parse.rs:85-93 `rstrip_fws_ok`. -/
example : [c!"", c!"x", c!"x ", c!"\r\n", c!"x\r\n ", c!"x \r\n "].map rstripFws =
    [none, none, some c!"x", none, some c!"x", some c!"x"] := by decide

/-! ## header.rs:323-385 -/

/-- header.rs:327-334 `field_name_ok`. -/
example : [c!"abc", c!"", c!"abc ", c!"a:c"].map fieldNameOk = [true, false, false, false] := by decide

/-- header.rs:336-350 `field_body_ok`. -/
example : [b!"", b!"abc", b!" ab\r\n\tcd ", b!"\r\n\ta", b!"  "].map fieldBodyOk =
    [true, true, true, true, true] := by decide
example : [b!" \r\na", b!" \r\n\r\n a", b!" \r\n \r\n a", b!" \ra", b!" \na", b!" abc\r\n"].map fieldBodyOk =
    [false, false, false, false, false, false] := by decide

/-- header.rs:352-370 `split_crlf_ok`. -/
example : [b!"", b!"a", b!"\r", b!"\rb", b!"\r\n", b!"a\r\n", b!"\r\nb", b!"\r\n\r\n",
      b!"ab\r\n\r\nc\r\r\n\rde\r"].map splitCrlf =
    [[b!""], [b!"a"], [b!"\r"], [b!"\rb"], [b!"", b!""], [b!"a", b!""], [b!"", b!"b"], [b!"", b!"", b!""],
      [b!"ab", b!"", b!"c\r", b!"\rde\r"]] := by decide

/-- header.rs:372-384 `header_fields_ok`. -/
example : headerFieldsNew [⟨c!"From", b!" me"⟩, ⟨c!"To", b!" you (yes,\r\n\t you!)"⟩] ≠ none := by decide

/-! ## record.rs:323-359 -/

/-- record.rs:328-348 `dkim_key_record_from_tag_list_ok`. -/
example : recordFromStr testEnv.lossy false c!"v=DKIM1; p=YWJj; s = email; n = highly=20interesting;" =
    .ok { hashAlgorithms := [.sha256], keyType := .rsa, notes := some c!"highly interesting",
          keyData := b!"abc", serviceTypes := [.email], flags := [], extTags := [] } := by rfl

/-- record.rs:350-358 `dkim_key_record_from_str_broken` (the key shortened). -/
example : recordFromStr testEnv.lossy false c!"v=DKIM1; h=sha256; k=rsa; \n\t  p=MIIBIjANBgkq" =
    .err .tagListFormat := by rfl

/-! ## signature.rs:1110-1326 -/

/-- The conversions of crate `idna` for the labels that occur in the tests. -/
def labelTable : List (Str × Str) :=
  [(c!"中国", c!"xn--fiqs8s"), (c!"☕", c!"xn--53h"), (c!"例子", c!"xn--fsqu00a"), (c!"子", c!"xn--7dv"),
   (c!"假例子", c!"xn--fsq30uk66a"), (c!"x☕y", c!"xn--xy-jk2a"), (c!"_x☕y", c!"xn--_xy-x43a"),
   (c!"_☕", c!"xn--_-2yp")]

def labelToAscii (s : Str) : Option Str :=
  if s.all (fun c => c.toNat < 128) then
    if s.take 5 = c!"xn---" then none else some (strLower s)
  else (labelTable.find? fun p => p.1 = s).map (·.2)

def labelToUnicode (s : Str) : Str × Bool :=
  match labelTable.find? fun p => p.2 = s with
  | some p => (p.1, true)
  | none => (strLower s, true)

def joinDots : List Str → Str
  | [] => []
  | [a] => a
  | a :: b :: l => a ++ '.' :: joinDots (b :: l)

def tableIdna : Idna where
  toAscii s := ((splitOn '.' s).mapM labelToAscii).map joinDots
  toUnicode s := (joinDots ((splitOn '.' s).map fun l => (labelToUnicode l).1), true)

set_option maxRecDepth 20000 in
/-- signature.rs:1116-1139 `domain_name_ok`. -/
example : [c!"com", c!"com123", c!"example.com", c!"_abc.example.com", c!"中国", c!"example.中国",
      c!"☕.example.中国", c!"xn--53h.example.xn--fiqs8s"].all (isValidDomainName tableIdna) = true := by rfl

set_option maxRecDepth 20000 in
example : [c!"", c!"-com", c!"c,m", c!"c;m", c!"123", c!"com.", c!"example..com", c!"example-.com",
      c!"example.123", c!"_$@.example.com", c!"example.com.", c!"ex mple.com", c!"xn---y.example.com"].any
        (isValidDomainName tableIdna) = false := by rfl

set_option maxRecDepth 20000 in
/-- signature.rs:1141-1156 `domain_name_eq_or_subdomain`. -/
example : [(c!"eXaMpLe.CoM", c!"example.com"), (c!"mAiL.eXaMpLe.CoM", c!"example.com"),
      (c!"XaMpLe.CoM", c!"example.com"), (c!"meXaMpLe.CoM", c!"example.com"),
      (c!"例子.xn--fiqs8s", c!"xn--fsqu00a.中国"), (c!"☕.例子.xn--fiqs8s", c!"xn--fsqu00a.中国"),
      (c!"子.xn--fiqs8s", c!"xn--fsqu00a.中国"), (c!"假例子.xn--fiqs8s", c!"xn--fsqu00a.中国")].map
        (fun p => eqOrSubdomainOf tableIdna p.1 p.2) =
    [some true, some true, some false, some false, some true, some true, some false, some false] := by rfl

set_option maxRecDepth 20000 in
/-- signature.rs:1158-1173 `selector_ok`. -/
example : [c!"example", c!"x☕y", c!"_x☕y", c!"123", c!"☕.example", c!"_☕.example", c!"xn--53h.example",
      c!"xn--_-2yp.example"].all (isValidSelector tableIdna) = true := by rfl
example : [c!"", c!".", c!"example.", c!"xn---x.example"].any (isValidSelector tableIdna) = false := by rfl

set_option maxRecDepth 20000 in
/-- signature.rs:1175-1181 `identity_ok`. -/
example : [c!"我@☕.example.中国", c!"\"我\"@☕.example.中国", c!"me@@☕.example.中国"].map
      (fun s => (Identity.new tableIdna s).isSome) = [true, true, false] := by rfl

set_option maxRecDepth 20000 in
/-- signature.rs:1183-1199 `identity_repr_ok`. -/
example : ∀ s ∈ [c!"@example.org", c!"Me@Example.Org", c!"我.x#!@example.中国", c!"\"x #$我\\\"\"@example.org"],
    (Identity.new tableIdna s).map Identity.display = some s := by
  intro s hs
  simp only [List.mem_cons, List.not_mem_nil, or_false] at hs
  rcases hs with rfl | rfl | rfl | rfl <;> rfl

set_option maxRecDepth 100000 in
/-- signature.rs:1201-1263 `rfc_example_signature`. -/
example : ∃ bh b, sigFromStr tableIdna false
    (c!" v=1; a=rsa-sha256; d=example.net; s=brisbane;\r\n   c=simple; q=dns/txt; i=@eng.example.net;\r\n" ++
     c!"   t=1117574938; x=1118006938;\r\n   h=from:to:subject:date;\r\n" ++
     c!"   z=From:foo@eng.example.net|To:joe@example.com|\r\n" ++
     c!"    Subject:demo=20run|Date:July=205,=202005=203:44:08=20PM=20-0700;\r\n" ++
     c!"   bh=MTIzNDU2Nzg5MDEyMzQ1Njc4OTAxMjM0NTY3ODkwMTI=;\r\n" ++
     c!"   b=dzdVyOfAKCdLXdJOc9G2q8LoXSlEniSbav+yuU4zGeeruD00lszZVoG4ZHRNiYzR") =
    .ok { algorithm := .rsaSha256
          signatureData := b
          bodyHash := bh
          canonicalization := ⟨.simple, .simple⟩
          domain := c!"example.net"
          signedHeaders := [c!"from", c!"to", c!"subject", c!"date"]
          identity := some ⟨none, c!"eng.example.net"⟩
          selector := c!"brisbane"
          bodyLength := none
          timestamp := some 1117574938
          expiration := some 1118006938
          copiedHeaders := [(c!"From", b!"foo@eng.example.net"), (c!"To", b!"joe@example.com"),
            (c!"Subject", b!"demo run"), (c!"Date", b!"July 5, 2005 3:44:08 PM -0700")]
          extTags := [] } ∧
    decodeBase64 c!"MTIzNDU2Nzg5MDEyMzQ1Njc4OTAxMjM0NTY3ODkwMTI=" = some bh ∧
    decodeBase64 c!"dzdVyOfAKCdLXdJOc9G2q8LoXSlEniSbav+yuU4zGeeruD00lszZVoG4ZHRNiYzR" = some b :=
  ⟨_, _, rfl, rfl, rfl⟩

set_option maxRecDepth 100000 in
/-- signature.rs:1265-1325 `complicated_i18n_example_signature`. -/
example : ∃ bh b, sigFromStr tableIdna false
    (c!" v = 1 ; a=rsa-sha256;d=example.net; s=brisbane;\r\n   c=simple; q=dns/txt; i=中文=40en\r\n" ++
     c!"    g.example =2E net;\r\n   t=1117574938; x=1118006938;  y= curious\r\n    value; zz=;\r\n" ++
     c!"   h=from:to:subject:date;\r\n" ++
     c!"   bh=MTIzNDU2Nzg5MDEyMzQ1Njc4OTAxMjM0NTY3ODkwMTI=;\r\n" ++
     c!"   b=dzdVyOfAKCdLXdJOc9G2q8LoXSlEniSbav+yuU4zGeeruD00lszZVoG4ZHRNiYzR") =
    .ok { algorithm := .rsaSha256
          signatureData := b
          bodyHash := bh
          canonicalization := ⟨.simple, .simple⟩
          domain := c!"example.net"
          signedHeaders := [c!"from", c!"to", c!"subject", c!"date"]
          identity := some ⟨some c!"中文", c!"eng.example.net"⟩
          selector := c!"brisbane"
          bodyLength := none
          timestamp := some 1117574938
          expiration := some 1118006938
          copiedHeaders := []
          extTags := [(c!"y", c!"curious\r\n    value"), (c!"zz", c!"")] } ∧
    decodeBase64 c!"MTIzNDU2Nzg5MDEyMzQ1Njc4OTAxMjM0NTY3ODkwMTI=" = some bh ∧
    decodeBase64 c!"dzdVyOfAKCdLXdJOc9G2q8LoXSlEniSbav+yuU4zGeeruD00lszZVoG4ZHRNiYzR" = some b :=
  ⟨_, _, rfl, rfl, rfl⟩

/-! ## signer/format.rs:563-596 -/

/-- signer/format.rs:567-578 `format_tag_h_ok`. -/
example : formatTagH { width := 10, indent := c!"  ", last := false, ascii := false } 0 [c!"Ribbit"] =
    some (c!" h=Ribbit;", 10) := by decide

/-- signer/format.rs:580-595 `format_tag_z_ok`. -/
example : formatTagZ { width := 10, indent := c!" ", last := false, ascii := false } 0
      [(c!"From", b!" Me <x@gluet.ch>"), (c!"To", 32 :: [0xe2, 0x99, 0xa5])] =
    some (c!" z=From:=2\r\n 0Me=20<x@\r\n gluet.ch>\r\n |To:=20♥;", 10) := by rfl

/-! ## signer/mod.rs:633-664 -/

/-- signer/mod.rs:639-648 `select_headers_ok`. -/
example : selectHeaders
      ([c!"From", c!"Aa", c!"Bb", c!"Aa", c!"Dd"].map fun n => ⟨n, []⟩)
      (fun n => [c!"from", c!"aa", c!"bb", c!"cc"].any (fieldNameEq n)) =
    [c!"Aa", c!"Bb", c!"Aa", c!"From"] := by decide

/-! ## verifier/header.rs:490-572 -/

/-- The statuses of the tasks found: -/
def found (s : Str) (cfg : Config) : Option (List VerifyStatus) :=
  match headerFieldsFromStr s with
  | none => none
  | some headers => (findSignatures testEnv headers cfg fun _ => 0).map fun ts => ts.map (·.status)

/-- verifier/header.rs:495-503 `header_verifier_find_signatures_empty`. -/
example : found c!"From: me\nTo: you\n" Config.default = some [] := by rfl

set_option maxRecDepth 100000 in
/-- verifier/header.rs:505-537 `header_verifier_find_signatures_ok`. -/
example : (found
      (c!"a: aaa\ndkim-signature: broken~~\nb: bb\n" ++
       c!"dkim-signature: v=1; d=example.com; s=sel; a=rsa-sha256;\n  h=From:To; bh=YWJjCg==; b=ZGVmCg==;\n" ++
       c!"dkim-signature: v=1; d=example.com; s=sel; a=rsa-sha256;\n" ++
       c!"  h=From:To; i=@example.org; bh=YWJjCg==; b=ZGVmCg==;\n" ++
       c!"c: ccc cc\ndkim-signature: v=2; d=example.com; s=sel; x=y\n")
      { Config.default with maxSignatures := 3 }).map
        (fun l => l.map fun s => match s with | .inProgress => 0 | .failed _ => 1 | .successful => 2) =
    some [1, 0, 1] := by rfl

/-- verifier/header.rs:539-558 `validate_signed_headers_ok`. -/
example : [[c!"a", c!"b", c!"a", c!"a"], [c!"a", c!"b", c!"a"], [c!"a", c!"b"]].map
      (validateSignedHeaders ([c!"a", c!"b", c!"a", c!"c"].map fun n => ⟨n, []⟩) [] [c!"a", c!"d"]) =
    [none, none, some (.policy .unsignedHeaderOccurrence)] := by decide

/-! ## verifier/query.rs:198-252 `queries_spawn_ok` (commented out in the code) -/

example : selectTxts 0 none [.ok b!"one", .ok (b!"two" ++ [0xff, 0]), .ok b!"three", .error .other] =
    [.ok c!"one", .error .invalidData, .error .other] := by rfl

/-! ## verifier/verify.rs:127-138 -/

/-- verifier/verify.rs:131-137 `make_original_dkim_sig_basic`. -/
example : [c!" a = 1 ; b = 2 ; c = 3 ", c!" a = 1 ; b = 2 ;", c!" a = 1 ; b = 2 ", c!" a = 1 ; b ="].map
      makeOriginal =
    [c!" a = 1 ; b =; c = 3 ", c!" a = 1 ; b =;", c!" a = 1 ; b =", c!" a = 1 ; b ="] := by decide

end Dkim.Tests
