import Verif.Tests.Crypto

/-!
# The integration tests of the library, run on the model

The tests of `/repo/tests` (other than those that need the network), with the keys of
`/repo/tests/keys`. These are tests of the model, not proofs: they are evaluated by
Lean's interpreter. The expected text in `basic_sign` contains a body hash and an RSA
signature, so that it fixes every byte that the model hashes.
-/

namespace Dkim.Tests

open Dkim

/-- tests/keys/brisbane_private.pem, without the first and last line. -/
def brisbanePrivate : Str :=
  c!"MIICeQIBADANBgkqhkiG9w0BAQEFAASCAmMwggJfAgEAAoGBAPAhE/9QLdIGwSYapn1klbf8OQygZ4udCDV9afv/Ni0jE3ZK" ++
  c!"cUKPE4Iob2/dviNh9xM2HmKNKyrrfW4Ei0truh36/9G10LZTMnWVZP3jupH5FxpzaBu2j80yonR/N9WMfg64qGK11j21/qZz" ++
  c!"AaNo0FxZOggyY9I8N1A81RhyRxDZAgMBAAECgYEAuaf5fBaTtqS+RSWpv507HIsH2LlUFV+N7z1N6iXBz1glPfoEY3+Xh7SX" ++
  c!"pBf/X//oNZRMHcojrAVybtNYlzFtLS1wplfsWwm9TPVJtCeRLngMlyTURk78EtrlyQmABghqqUD0LRnAzqLnyUuU9p1f+u0d" ++
  c!"vulbN41xkeMquMzjrVkCQQD6K2yzadGWbI6fX/nIPIKW5JPh1B87yQAHe2hIRVzsN4V4OGcLWZl2MBJk290dLiBssgDWFQYQ" ++
  c!"X2beEqwZQww/AkEA9bm/9T4BZMAMUJLba3vY1S6uDN4BvNvUdYyo7jLj70emOTnC8v95ViLPK5x7f98aR7tpFjD8AMrKAwl1" ++
  c!"bwf85wJBAPPk5BviPZAOk9lzQ1zhCVu8yyPunui1ZE7nFFrpLNeqpXf4XRWmq8OayEQGSgLJ1pjBzajpZDkQGYTF5XzXbhcC" ++
  c!"QQCpnMawjFU/6wRVFZmZboo0VJ1VSmTerMrRPP9aNAx7nPRS6dj0DH3/g9WGn+PrVt94Bhe6dqNsFI4uXHgP5O6fAkEA2Q8j" ++
  c!"lL2LKWxsuzo2RowdXqTmKgcEGaAJqT3kkZcYyi38vbHQhjIwsDPqgtaHaGbvPC1vQKA6s+jWR7jiEVid9w=="

/-- tests/keys/brisbane_rsa.pem, without the first and last line. -/
def brisbaneRsa : Str :=
  c!"MIGJAoGBAPAhE/9QLdIGwSYapn1klbf8OQygZ4udCDV9afv/Ni0jE3ZKcUKPE4Iob2/dviNh9xM2HmKNKyrrfW4Ei0truh36" ++
  c!"/9G10LZTMnWVZP3jupH5FxpzaBu2j80yonR/N9WMfg64qGK11j21/qZzAaNo0FxZOggyY9I8N1A81RhyRxDZAgMBAAE="

/-- tests/keys/brisbane_spki.pem, without the first and last line. -/
def brisbaneSpki : Str :=
  c!"MIGfMA0GCSqGSIb3DQEBAQUAA4GNADCBiQKBgQDwIRP/UC3SBsEmGqZ9ZJW3/DkMoGeLnQg1fWn7/zYtIxN2SnFCjxOCKG9v" ++
  c!"3b4jYfcTNh5ijSsq631uBItLa7od+v/RtdC2UzJ1lWT947qR+Rcac2gbto/NMqJ0fzfVjH4OuKhitdY9tf6mcwGjaNBcWToI" ++
  c!"MmPSPDdQPNUYckcQ2QIDAQAB"

/-- tests/keys/rsa512.pem, without the first and last line. -/
def rsa512 : Str :=
  c!"MIIBUwIBADANBgkqhkiG9w0BAQEFAASCAT0wggE5AgEAAkEAxkHGl02yUM4L6+npU0QyUhfFaAbbKnfHCvloEGQzTQK6Suc3" ++
  c!"3wmZkRuStXx5jt2kGr1MDKfQyV/Z+5bvAsQkmQIDAQABAkBL//0EFWnM5h/V0PZ70AHGTIyFQ1OS5RWtVEybM/4if8IpgBtM" ++
  c!"oy8tS+XEnxSJjgaaZ3VTlKR5WROSu3S+l2oBAiEA/rGo1LPYl0qRobz7OAkka8qlH9gSaGnug9LSPHp1tUECIQDHRgfP/8R6" ++
  c!"gDkQTJ0VNdl/9rAbN++4TV7XvufRJwrhWQIgFqgrQrC1BdBmYCL1niiCCuy9/7Uy/gLeau+oMCUcr4ECIB1ZHwVvMcyo3b6c" ++
  c!"yfW5vJKwDje0AUYvfuxfXVzcVynhAiBSkcrV5Kcri1NbpNd142NVi9TkT8st1SDikUS4gXrtBw=="

/-- tests/keys/rsa512pub.pem, without the first and last line. -/
def rsa512pub : Str :=
  c!"MFwwDQYJKoZIhvcNAQEBBQADSwAwSAJBAMZBxpdNslDOC+vp6VNEMlIXxWgG2yp3xwr5aBBkM00CukrnN98JmZEbkrV8eY7d" ++
  c!"pBq9TAyn0Mlf2fuW7wLEJJkCAwEAAQ=="

/-- tests/keys/rsa1024.pem, without the first and last line. -/
def rsa1024 : Str :=
  c!"MIICdgIBADANBgkqhkiG9w0BAQEFAASCAmAwggJcAgEAAoGBALUkDJOAIGeI8najiOutHJNuqMp45/5C7wnL5gIcHyQhAYRT" ++
  c!"9ivjmPI77KufIsqBpjf5pHrmMNkew5ptPBBoFHK24otg1tXoD+dxb/kQqbv2mKD9te5RA+KG1pMaBOAtj+SJZcgZ7G4Q6ZGj" ++
  c!"qU+En3xMTMs6L2EsjD9JHBnY90MhAgMBAAECgYEAqTQNU1Lh8hSoeE32Pj+sa8N4g/lAq++WHk6KgfoG1NbH9fYAA6tMWSnE" ++
  c!"v+OcuhE1VSAqlmqjwozMJlpXOvQd9B+R4YHIbiE9ZuMD6tPQ6MsZAK+11/5B2It3oYiqfe99iZiO6aox9nfijJLi6exLuHa+" ++
  c!"l12eUtNyDtoQ2BWNsKkCQQDdNkImlCDtgLG4COKj/XC0d/jGxUnyOF7HQHYstWK0+XONpELTHQx/e7o9n7mcrJjD+P1DS2an" ++
  c!"biT9uXrhyI/rAkEA0aCSk80QyW8RdUc2+gBex2BliZHXqd3thm3a4xtbikmCQxpw49ZcpqSlVjLyxRdKy524nqgG23FG6dvv" ++
  c!"BRNCIwJAbi6vZk3T1NiMLLFoSexbrdgv9rmf6mD/fFl0QzKZlrDFSKCvlD3c0sbK7hTXu90QPlSPuWweFnk7PZGcTke6vwJA" ++
  c!"AzsIR0LXyWLuz/HjBQNQcp4nsnEO8805xeKXhvx68qyjV0lnB/vbva235pYua58qRe0OVVOdl3AteZksG9XqJQJAYh6ojMAO" ++
  c!"YXTVWUKNQezwGsLNwRO/UQtV8JkMVZ8GXTq8OJhTUZjov/VhiM2FqSygsglWDVx5GwTiqp9+/1dxtw=="

/-- tests/keys/rsa1024pub.pem, without the first and last line. -/
def rsa1024pub : Str :=
  c!"MIGfMA0GCSqGSIb3DQEBAQUAA4GNADCBiQKBgQC1JAyTgCBniPJ2o4jrrRyTbqjKeOf+Qu8Jy+YCHB8kIQGEU/Yr45jyO+yr" ++
  c!"nyLKgaY3+aR65jDZHsOabTwQaBRytuKLYNbV6A/ncW/5EKm79pig/bXuUQPihtaTGgTgLY/kiWXIGexuEOmRo6lPhJ98TEzL" ++
  c!"Oi9hLIw/SRwZ2PdDIQIDAQAB"

/-- tests/keys/rsa2048.pem, without the first and last line. -/
def rsa2048 : Str :=
  c!"MIIEvgIBADANBgkqhkiG9w0BAQEFAASCBKgwggSkAgEAAoIBAQCx0la+Qhnc9NBD6BZ10Rtv9826sZtyoCjME09i2KV2cGL/" ++
  c!"SPmw9oa2nlRPdKCOEfwfKeejP1upkgoXLUIjm0N5MWFh7D3erD1Itc1g5deZvmGsWnRWVfK7jaaGDh/53U7nyl2YldKF0yE5" ++
  c!"t9IZ9RCQcYA4Fde4OUsm3fEjcBawf1fpt8YaU5LikspzfseNgFDaK3nUMLYkwRwAC2tOBZ6G97tlHgOVDZy1LrhWKsy2H3sj" ++
  c!"hGdt3/bai9Oairha6zQXrM+8vDlkOor790eh4FeyODLY1vv9W1P9Uy8bkhEjHMTCrtfKUEpA3B4LD/LhJc1Qsb9R1tQoTlN+" ++
  c!"PudoaPTNAgMBAAECggEAVcXbyZIg34/HFbpReysOTQf+2FrrXHMcurNly4ws4+B6ICGXL2D6wgPFLz5WY7ERKAcSkI/zKuwi" ++
  c!"qeNOz9YIyeCj1JQbk9kJBpWLJ342bRaEDprjGvICT62X8XnGusOhV/UpCHzcO2kH0ct1MMgg4UueSW9fyqD4Oxs7QZjDmQZF" ++
  c!"/NfsgJmRCd7UYSsrXLUuQg2aG9/5SXchPqGGObXSr3AnF/ufWEVvwC7f7YTed8rskqGY7KzlRXqClrfdurREBteYDhmAOyVz" ++
  c!"eziJSboT8mot2HWdwYIwYoQ25cqLFAWzDW5137aX9pFw6CGT0ap0vJmVCsFVptOo6WIbP2oPEQKBgQDbQhddknBgDO05TtaW" ++
  c!"/53oYFJHxxsU5RDRF2a96Qdnh/wjeHqvTkcOsB8EuEOTPS9kWBm9CLtpFB/cOtTdSMg7usoFP7oKBRBW4NGnnmxary/WCLZZ" ++
  c!"FzDi0vkGkyeWz8FuAkZeqiDE1P5MiihUGA0za89E3SrCgNK7XvEf8nfy6wKBgQDPnquz1vlPP2C20OSZDeVt07UC8Ki/ltJh" ++
  c!"V7pfoCyZGn5f+yDCaagCGjFKwhyj6OA++z5CO+ReNApmFRcHyNDMzUJsX6XpXaD3bdArOCD8CTwfw3+oo8LVrKnVRGlvKWbg" ++
  c!"0Qu0tfdKOvl0IoZHyOIhJDnkovExGzYlcYZMpb4ZJwKBgQCKl+JRIYmrDUC+Ytk+JWHZS1l3SaISuSDCKnqlPLGTfd+hRDy4" ++
  c!"p1A/NpDE2PzOC3TzhsTuOqDMMQ5alU2Mer8nElE0tC2Su9SyNfYQcBGp2Obx8hvhgMlD93u17jquF7D7KrD0kbGY+dGs6//F" ++
  c!"+FYP1Ov1aZ/nxqpuCft86DVt9QKBgQDKxqXcV7HXfIbxBsS915ykz4iS/olR1fRTrmMQ0le8kOuswpEUUC0PIJXT9hIS5Hdg" ++
  c!"C/KarfQ1LY6adS6xI6kK3c5qGmDos9Fq143hKEjO4BYgz8f25Tp9hs24xcBUGZOpL4LHVJHZpg/NJYsQwVpaFA+XBq2a0IDp" ++
  c!"wR7x7U7lMQKBgBj829OkexRgB7xrZUquwHhnC8rRrJjNKg7t65gVb7TXd8w1euqSpHydwFGkrzx1zaSxO7rObjOcMXgjMdqE" ++
  c!"7wKkAKlmmIXol5GLV6ZJjecoTGqwWavmhcm/IcQowhIafa7fm2e2AaLJv22KVMdW7QOXDCOhN/o//5wSxabP/vd9"

/-- tests/keys/rsa2048pub.pem, without the first and last line. -/
def rsa2048pub : Str :=
  c!"MIIBIjANBgkqhkiG9w0BAQEFAAOCAQ8AMIIBCgKCAQEAsdJWvkIZ3PTQQ+gWddEbb/fNurGbcqAozBNPYtildnBi/0j5sPaG" ++
  c!"tp5UT3SgjhH8Hynnoz9bqZIKFy1CI5tDeTFhYew93qw9SLXNYOXXmb5hrFp0VlXyu42mhg4f+d1O58pdmJXShdMhObfSGfUQ" ++
  c!"kHGAOBXXuDlLJt3xI3AWsH9X6bfGGlOS4pLKc37HjYBQ2it51DC2JMEcAAtrTgWehve7ZR4DlQ2ctS64VirMth97I4Rnbd/2" ++
  c!"2ovTmoq4Wus0F6zPvLw5ZDqK+/dHoeBXsjgy2Nb7/VtT/VMvG5IRIxzEwq7XylBKQNweCw/y4SXNULG/UdbUKE5Tfj7naGj0" ++
  c!"zQIDAQAB"

def readSigningKey (pem : Str) (pre : Bool) : Option (SigningKey (realEnv pre).crypto) :=
  ((decodeBase64 pem).bind rsaPrivate).map .rsa

/-- tests/common/mod.rs:61-74 `sign`, for one request; the result is the first output. -/
def signOne (pre : Bool) (headers : Option (List Field)) (body : Bytes)
    (request : Option (SignRequest (realEnv pre))) : Option SigningOutput := do
  match prepareSigning (realEnv pre) (← headers) [← request] with
  | .ok signer =>
    match (← (← signer.processBody [body]).1.sign fun _ => 1800000000).head? with
    | some (.ok o) => some o
    | _ => none
  | _ => none

/-- tests/common/mod.rs:76-94 `verify`: the status of the first signature. -/
def verifyOne (pre : Bool) (resolver : Resolver) (headers : Option (List Field)) (body : Bytes)
    (cfg : Config) : Option VerificationStatus := do
  let (some v, _) ← verifyHeader (realEnv pre) resolver (← headers) cfg (fun _ => 1800000000) | none
  let (v, _) ← v.processBody [body]
  let results ← v.finish (realEnv pre)
  results.head?.map (·.status)

/-- A resolver that knows one name. -/
def resolverFor (name key : Str) : Resolver := fun n =>
  ⟨0, if n = name then .ok [.ok (utf8 (c!"v=DKIM1; k=rsa; p=" ++ key))] else .error .notFound⟩

/-- tests/common/mod.rs:96-102 `prepend_header_field`. -/
def prepend (f : Option Field) (rest : Option (List Field)) : Option (List Field) := do
  headerFieldsNew ((← f) :: (← rest))

/-! ## tests/rfc_appendix_a.rs -/

def appendixHeaders : Option (List Field) := headerFieldsFromStr (
  c!"DKIM-Signature: v=1; a=rsa-sha256; s=brisbane; d=example.com;\n" ++
  c!"      c=simple/simple; q=dns/txt; i=joe@football.example.com;\n" ++
  c!"      h=Received : From : To : Subject : Date : Message-ID;\n" ++
  c!"      bh=2jUSOH9NhtVGCQWNr9BrIAPreKQjO6Sn7XIkfJVOzv8=;\n" ++
  c!"      b=AuUoFEfDxTDkHlLXSZEpZj79LICEps6eda7W3deTVFOk4yAUoqOB\n" ++
  c!"        4nujc7YopdG5dWLSdNg6xNAZpOPr+kHxt1IrE+NahM6L/LbvaHut\n" ++
  c!"        KVdkLLkpVaVVQPzeRDI009SO2Il5Lu7rDNH6mZckBdrIx0orEtZV\n" ++
  c!"        4bmp/YzhwvcubU4=;\n" ++
  c!"Received: from client1.football.example.com  [192.0.2.1]\n" ++
  c!"      by submitserver.example.com with SUBMISSION;\n" ++
  c!"      Fri, 11 Jul 2003 21:01:54 -0700 (PDT)\n" ++
  c!"From: Joe SixPack <joe@football.example.com>\n" ++
  c!"To: Suzie Q <suzie@shopping.example.net>\n" ++
  c!"Subject: Is dinner ready?\n" ++
  c!"Date: Fri, 11 Jul 2003 21:00:37 -0700 (PDT)\n" ++
  c!"Message-ID: <20030712040037.46341.5F8J@football.example.com>\n")

def appendixBody : Bytes := utf8 (
  c!"Hi.\r\n" ++
  c!"\r\n" ++
  c!"We lost the game. Are you hungry yet?\r\n" ++
  c!"\r\n" ++
  c!"Joe.\r\n")

#guard verifyOne false (resolverFor c!"brisbane._domainkey.example.com." brisbaneRsa) appendixHeaders
  appendixBody .default = some .success

#guard verifyOne false (resolverFor c!"brisbane._domainkey.example.com." brisbaneSpki) appendixHeaders
  appendixBody .default = some .success

/-! With another body, or another header field, the signature does not verify. -/

#guard verifyOne false (resolverFor c!"brisbane._domainkey.example.com." brisbaneRsa) appendixHeaders
  (appendixBody ++ b!"x") .default = some (.failure .bodyHashMismatch)

#guard verifyOne false (resolverFor c!"brisbane._domainkey.example.com." brisbaneRsa)
  (appendixHeaders.map fun h => h.map fun f =>
    if f.name = c!"Subject" then { f with body := b!" Is dinner ready!" } else f)
  appendixBody .default = some (.failure (.verificationFailure .verificationFailure))

def appendixRequest (hs : List Field) : Option (SignRequest (realEnv false)) := do
  some { SignRequest.new c!"example.com" c!"brisbane" .rsaSha256 (← readSigningKey brisbanePrivate false) with
    headerSelection := .manual (selectHeaders hs fun n =>
      [c!"Received", c!"From", c!"To", c!"Subject", c!"Date", c!"Message-ID"].any fun d => fieldNameEq d n) }

#guard (do
  let o ← signOne false appendixHeaders appendixBody (appendixRequest (← appendixHeaders))
  verifyOne false (resolverFor c!"brisbane._domainkey.example.com." brisbaneSpki)
    (prepend o.toHeaderField appendixHeaders) appendixBody .default) = some .success

/-! ## tests/sign.rs -/

def signHeaders : Option (List Field) := do
  let hs ← headerFieldsFromStr (
  c!"Message-ID: <1511928109048645963@gluet.ch>\n" ++
  c!"Date: Fri, 9 Jun 2023 16:13:12 +0200\n" ++
  c!"MIME-Version: 1.0\n" ++
  c!"Content-Type: text/plain; charset=utf-8\n" ++
  c!"Content-Disposition: inline\n" ++
  c!"Content-Transfer-Encoding: 8bit\n" ++
  c!"References: <4344283917108237944@example.com>\n" ++
  c!" <3993077819152979884@gluet.ch>\n" ++
  c!" <3209900529850518454@example.com>\n" ++
  c!"In-Reply-To: <3209900529850518454@example.com>\n" ++
  c!"From: me <me@gluet.ch>\n" ++
  c!"To: you@example.com")
  headerFieldsNew (hs ++ [⟨c!"Subject", b!" wie gohts dr R" ++ [0xfc] ++ b!"dis" ++ [0xfc] ++ b!"li?"⟩])

def signBody : Bytes := utf8 (
  c!"Hallo!\r\n" ++
  c!"\r\n" ++
  c!"Here is some trailing whitespace:  \r\n" ++
  c!"  <- and some leading whitespace\r\n" ++
  c!"𝔍nclude some Unicode emojis 🕊 💜\r\n" ++
  c!"all just to exercise the c14n algorithm a bit.\r\n" ++
  c!"\r\n" ++
  c!"Das wars!\r\n" ++
  c!"\r\n" ++
  c!"Tschüss,\r\n")

/-- `Ord::cmp` for tag names. -/
def ordCmp : Comparator := fun a b => compareLex (compareOn id) a b
where
  compareLex (cmp : Char → Char → Ordering) : Str → Str → Ordering
    | [], [] => .eq
    | [], _ => .lt
    | _, [] => .gt
    | a :: l, b :: m => (cmp a b).then (compareLex cmp l m)

def basicRequest : Option (SignRequest (realEnv false)) := do
  some { SignRequest.new c!"example.com" c!"sel" .rsaSha256 (← readSigningKey rsa2048 false) with
    canonicalization := ⟨.relaxed, .relaxed⟩
    timestamp := .exact 1686737001
    validDuration := none
    format := { OutputFormat.default with
      headerName := c!"DKiM-Signature"
      lineWidth := 64
      indentation := c!"  "
      tagOrder := some ordCmp } }

#guard (signOne false signHeaders signBody basicRequest).map (·.formatHeader) = some (
  c!"DKiM-Signature: a=rsa-sha256; b=litEQ1zgN91wbbXy4cA4KoYXMICLLq68\r\n" ++
  c!"  0Nx344mTgELlzZ7nbO3CnFmjKOl2RxW+bhH4sroTS5LfPjc7zMgBAkoydza+Q6\r\n" ++
  c!"  bSSfed2/iU16JTvKdCtmuw5UoyEVhgja+VrORA/dEp6yJ7T8N+FAz7rVFLsass\r\n" ++
  c!"  hBYNu+hixg7DbMYBklOocU8OezNPB8kIg0T1lNP4dD3futrYuQiCYE+gxV20wK\r\n" ++
  c!"  jacmjK7axG5tdx2UjeWq8nQezcvuPaoiQivJavxOPXluJNTGISUafTFKZt7tIW\r\n" ++
  c!"  ADu69AYdrlM9wY7udiT/wsh0ErI1EM3cetFozOuj7cPweq1gU1XH63lSji/mAQ\r\n" ++
  c!"  ==; bh=i9bmAkqhhUlk6na4gb+reyESFnAbREglMDib/b+U2Qk=;\r\n" ++
  c!"  c=relaxed/relaxed; d=example.com; h=Subject:To:From:\r\n" ++
  c!"  In-Reply-To:References:Date; s=sel; t=1686737001; v=1")

/-! ## tests/verify.rs -/

def defaultRequest (pre : Bool) (alg : SigAlg) (key : Str) : Option (SignRequest (realEnv pre)) := do
  some (SignRequest.new c!"example.com" c!"sel" alg (← readSigningKey key pre))

def selResolver (key : Str) : Resolver := resolverFor c!"sel._domainkey.example.com." key

#guard (do
  let o ← signOne false signHeaders signBody (defaultRequest false .rsaSha256 rsa2048)
  verifyOne false (selResolver rsa2048pub) (prepend o.toHeaderField signHeaders) signBody .default) =
    some .success

#guard (do
  let r ← defaultRequest false .rsaSha256 rsa2048
  let o ← signOne false signHeaders signBody (some { r with bodyLength := .messageContent })
  verifyOne false (selResolver rsa2048pub) (prepend o.toHeaderField signHeaders)
    (signBody ++ b!"\r\n-- trailing content, ignored --\r\n") .default) = some .success

/-! ## tests/copied_headers.rs -/

def copiedHeaders : Option (List Field) :=
  headerFieldsFromStr c!"From: me\nTo: you\nSubject: how are you"

def copiedBody : Bytes := utf8 (
  c!"Hello dearie,\r\n" ++
  c!"how goes it?\r\n" ++
  c!"\r\n" ++
  c!"Gruesse\r\n")

def copiedOutput : Option SigningOutput := do
  let r ← defaultRequest false .rsaSha256 rsa2048
  signOne false copiedHeaders copiedBody
    (some { r with headerSelection := .manual [c!"Subject", c!"To", c!"From"], copyHeaders := true })

#guard (do
  let o ← copiedOutput
  verifyOne false (selResolver rsa2048pub)
    (prepend o.toHeaderField (copiedHeaders.map fun h => h.map fun f =>
      if f.name = c!"Subject" then { f with body := b!" REPLACED" } else f)) copiedBody .default) =
    some (.failure (.verificationFailure .verificationFailure))

#guard (do
  let o ← copiedOutput
  verifyOne false (selResolver rsa2048pub)
    (prepend o.toHeaderField (headerFieldsFromVec o.signature.copiedHeaders)) copiedBody .default) =
    some .success

/-! ## tests/low_level.rs -/

def lowHeaders : Option (List Field) := headerFieldsFromStr (
  c!"Message-ID: <1511928109048645963@gluet.ch>\n" ++
  c!"Date: Fri, 9 Jun 2023 16:13:12 +0200\n" ++
  c!"MIME-Version: 1.0\n" ++
  c!"Content-Type: text/plain; charset=utf-8\n" ++
  c!"Content-Disposition: inline\n" ++
  c!"Content-Transfer-Encoding: 8bit\n" ++
  c!"From: me <me@gluet.ch>\n" ++
  c!"To: you@example.com")

def lowBody : Bytes := utf8 (
  c!"Hello!\r\n" ++
  c!"\r\n" ++
  c!"How are you?\r\n" ++
  c!"\r\n" ++
  c!"Ciao,\r\n" ++
  c!"Your friend\r\n" ++
  c!"\r\n")

def lowField : Option Field := do
  let bodyHash := encodeBase64 (sha256 (← canonBody .relaxed [lowBody]))
  let ident := qpEncode b!"\"me;you\"@sub.example.com" none false
  let value := c!" v = 1 ;\r\n i=" ++ ident ++ c!"; d=Example.Com; s=Sel1;\r\n h=From : To;\r\n" ++
    c!" a\r\n =\r\n Rsa-Sha256\r\n ; c=Relaxed/Relaxed; bh=" ++ bodyHash ++ c!"; b="
  let data := canonHeaders .relaxed (← lowHeaders) [c!"From", c!"To"] ++
    canonHeader .relaxed c!"DKIM-Signature" (utf8 value)
  let sig ← rsaSign .sha256 (← (decodeBase64 rsa2048).bind rsaPrivate) (sha256 data)
  some ⟨c!"DKIM-Signature", utf8 (value ++ encodeBase64 sig)⟩

#guard verifyOne false (resolverFor c!"sel1._domainkey.example.com." rsa2048pub)
  (prepend lowField lowHeaders) lowBody .default = some .success

/-- The text up to and including the last `b=`. -/
def cutAfterB (s : Str) : Str :=
  s.take (((List.range s.length).filter fun i => (s.drop i).take 2 = c!"b=").foldl max 0 + 2)

#guard (do
  let o ← signOne false lowHeaders lowBody (some
    { SignRequest.new c!"example.com" c!"sel1" .rsaSha256 (← readSigningKey rsa2048 false) with
      headerSelection := .manual [c!"From", c!"To"] })
  let .ok sig := sigFromStr asciiIdna false o.headerValue | none
  let .ok record := recordFromStr (realEnv false).lossy false (c!"v=DKIM1; k=rsa; p=" ++ rsa2048pub) | none
  let key ← readRsaPublicKey realCrypto record.keyData
  let headers ← prepend o.toHeaderField lowHeaders
  let data := canonHeaders sig.canonicalization.header headers sig.signedHeaders ++
    canonHeader sig.canonicalization.header o.headerName (utf8 (cutAfterB o.headerValue))
  some (decide (sha256 (← canonBody sig.canonicalization.body [lowBody]) = sig.bodyHash), record.keyType,
    rsaVerify key .sha256 (sha256 data) sig.signatureData)) = some (true, KeyType.rsa, true)

/-! ## tests/rfc8301.rs -/

#guard (do
  let o ← signOne true signHeaders signBody (defaultRequest true .rsaSha256 rsa512)
  some [← verifyOne true (selResolver rsa512pub) (prepend o.toHeaderField signHeaders) signBody .default,
    ← verifyOne true (selResolver rsa512pub) (prepend o.toHeaderField signHeaders) signBody
      { Config.default with minKeyBits := 512 }]) =
  some [.failure (.policy .keyTooSmall), .success]

#guard (do
  let o ← signOne false signHeaders signBody (defaultRequest false .rsaSha256 rsa512)
  verifyOne false (selResolver rsa512pub) (prepend o.toHeaderField signHeaders) signBody .default) =
  some (.failure (.verificationFailure .insufficientKeySize))

#guard (do
  let o ← signOne true signHeaders signBody (defaultRequest true .rsaSha1 rsa1024)
  some [← verifyOne true (selResolver rsa1024pub) (prepend o.toHeaderField signHeaders) signBody .default,
    ← verifyOne true (selResolver rsa1024pub) (prepend o.toHeaderField signHeaders) signBody
      { Config.default with allowSha1 := true }]) =
  some [.failure (.policy .sha1HashAlgorithm), .success]

def sha1Field : Field := ⟨c!"DKIM-Signature", utf8 (
  c!" v=1; d=example.com; s=sel; a=rsa-sha1; t=1687794684;\r\n" ++
  c!"\th=Subject:To:From:In-Reply-To:References:Date; bh=MXqKrb5jreQOzPjHMEfbuldBxU8\r\n" ++
  c!"\t=; b=JxWc1tmeyfhtffOkn0p/9tZeAZ91vl/KuxuixeiAA33N9hxv5OVQPfBV88L3/r5WbZiKOcMc\r\n" ++
  c!"\tLfl9jL9J91ijWcHdVo2l8e7s8Fh3IluGPIgGaVb1Meaa2LQ8894i0xGvRA8V5CPaq8DF3KG3Rkjqy\r\n" ++
  c!"\tczZsfxAdaIgp63QvBsxm/Q=")⟩

#guard (match verifyOne false (selResolver rsa1024pub) (prepend (some sha1Field) signHeaders) signBody
    .default with
  | some (.failure (.dkimSignatureFormat e)) => e.kind = .historicAlgorithm
  | _ => false)

/-! The same signature verifies where SHA-1 is compiled in and allowed: it was made with
the key of this test, so that this checks the SHA-1 path against a real signature. -/

#guard verifyOne true (selResolver rsa1024pub) (prepend (some sha1Field) signHeaders) signBody
  { Config.default with allowSha1 := true } = some .success

end Dkim.Tests
