# Design: a Lean 4 model of viadkim

Target: the Rust library in `/repo` (viadkim, a fork without lookup timeouts).
The code was read as text only; it was neither built nor run.

Contents: 1 representation; 2 plan per property; 3 what is modelled and what is
not; 4 trusted base; 5 findings; 6 tests and seeded bugs; 7 axioms per theorem.

## 1. Representation

* Bytes: `List UInt8`. Rust `str`/`String`: `List Char` (`Str`). Where Rust works
  on UTF-8 bytes of a string, the model encodes with `String.utf8EncodeChar`
  (Lean core) and decodes with a decoder defined in the model.
* `Result`/`Option`: `Except`/`Option`. Panics (`unwrap`, `expect`, `assert!`,
  `unreachable!`) are explicit error values (`none`, or `Res.panic`), so that
  "never panics" is a theorem and not an assumption.
* `u64`/`usize` values are `Nat`, with the bounds and the saturating or checked
  operations written out. The platform's `usize::MAX` is a parameter.
* `HashMap`/`HashSet` iteration order: the model takes an arbitrary permutation
  and the theorems quantify over it.
* `async`: the model is sequential (in this fork the awaits are sequential).
* Log output (`tracing`) and derived `Debug` output are not modelled; messages of
  errors, names, and the debug output of byte strings are (C83 to C85).
* `debug_assert!` is left out, as in a release build; `Model/Asserts.lean` describes a debug build, and
  C108 shows that it does the same.
* Cargo feature `pre-rfc8301` is a Boolean parameter; all theorems hold for both.

External code is a structure `Env` of parameters (`Model/Env.lean`), with the
assumed laws in separate definitions (`Spec/Laws.lean`, `Spec/Domain.lean`,
`Spec/Refold.lean`), passed as explicit hypotheses, never as axioms:

| crate | in the model | assumed laws (hypotheses) |
| --- | --- | --- |
| `idna` | `toAscii : Str → Option Str`, `toUnicode : Str → Str × Bool` | `CaseLaw`: ASCII case of the input is ignored. `IdnaLaw` (signer output): the empty name is kept; the Unicode form of a valid name is not empty, and its ASCII characters are letters, digits, hyphen, underscore, dot. It is not assumed that the converted form of a name stands for the same name (`KeptName`), as this is false for idna 0.4 (finding 19); where needed, it is a condition on the names in the request. `BlankLaw` (C56): whitespace is kept |
| `sha1`, `sha2` | `hash : HashAlg → Bytes → Bytes`; incremental update = append | output not empty (only for reading back signer output) |
| `rsa`, `ed25519-dalek` | opaque key types, `sign`, `verify`, key readers, modulus | `SignLaw`: signatures have the advertised length. For sign-then-verify: the published public key accepts what the private key signed (`KeyPair`) |
| `pkcs8` | PEM reader, label check, key info (C73) | none |
| `hickory-resolver` | name parser, lookup (C74) | none |
| `base64ct` | written out from RFC 4648 (padded, canonical) | that this is what the crate does |
| `sort_by` | `sortBy` | `SortLaw`: the result is a permutation of the input |
| `HashSet`, `HashMap` | `keySet`, `lookupOrder` | `SetLaw`, `OrderLaw` |
| `String::from_utf8_lossy` | `lossy` | none (C85: well-formed text is kept) |
| `str::escape_debug` | written out; its tables are `UnicodeTables` | none (C83, no control characters: none is printable) |
| DNS | `Resolver`: from query name to answer and delay | none |
| clock | parameter; seconds below 2^63 (`TypedTimes`) | none |

Each law is met by a concrete instance (`testEnv` in `Proofs/TestEnv.lean`,
`asciiIdna` in `Proofs/Instances.lean`), so no theorem is vacuous because of
contradictory laws. What Rust's types guarantee of arguments (validated
newtypes, 64-bit times) is stated in `TypedRequest`, `TypedHeaders`,
`TypedTimes`.

## 2. Plan per property

Model files are under `lean/Verif/Model`, specifications under
`lean/Verif/Spec`, helper lemmas under `lean/Verif/Proofs`, property theorems
under `lean/Verif/Props`.

* C01 Model `BodyCanonicalizer` as the byte state machine; prove
  `run (a ++ b) = run a; run b` and lift to chunk lists.
* C02, C03 Specification works on whole lines. Simulation invariant between the
  state machine after a prefix and the specification. Expected: the code
  deviates for bodies of only CRLFs (simple) and for a last unterminated line
  of only whitespace (relaxed); then negation with witness, exact
  characterisation of the deviation, and `_partial` theorem elsewhere.
* C04 From the specification; same exceptions.
* C05, C06 Model `CountingHasher` and `BodyHasher` with a hasher list; invariant
  by induction over chunks; results compared with the whole-body spec.
* C07, C08 Words specification.
* C09–C12 Specification `kthFromBottom`; injectivity by unique line splitting.
* C13, C14 Model `make_original_dkim_sig` as scanning at semicolons; specification
  by tag-list grammar segments; signer output shape lemma.
* C15, C37 Grammar of the formatter's output, plus per-tag round trips. Expected
  violations for C37 (ext tag `q`, header names with `|` or `=` in z=,
  timestamp `u64::MAX`): negations with witnesses; `_partial` elsewhere. Whether the
  written form of a name stands for the same name is a condition on the request
  (`KeptNames`), not an assumed law.
* C16 Composition of C05, C14, C15, C09, C41. Exact version (`C16_exactly`) for any later
  message: by C40 in both directions and C37 for reading, under the two assumptions on keys and
  hashes that it names.
* C17 From the formatter's shape and exact validation (C23).
* C18–C21 Induction over the decoder and encoder; relation "folded".
* C22 Inductive/declarative grammar; soundness and completeness of the greedy parser.
* C23, C24 Character-level specification; round trip by induction over fields.
* C25–C28, C51 Direct.
* C29–C33, C52 Loop over tags equals a lookup-based specification.
* C34–C36 Model `prepare_signing`, `sign` with explicit panics.
* C38–C42, C45, C48, C50 Model `find_signatures`, grouping, queries, `verify_all`,
  `finish`; refinement to a per-field function.
* C43, C44, C46 Decision logic. C44: expected violation, since key size is
  rounded up to whole bytes; negation plus `_partial`.
* C47 Resolver with delays; expected violation (the timeout code is commented
  out); negation with witness.
* C49 Cursor invariant of the formatter; where the cursor is wrong (a folded extension tag before `b`), a bound of twice the width by following the text behind `b` from an artificial start of line.
* C53 From C40 and C12.
* C54, C55 An inductive specification of the defects of tag values, and of the
  order in which they are noticed; both directions, by uniqueness of the first
  defect. The verifier's specification (`Judged`) uses it for exact errors.
* C56 A relation "same words, other folding whitespace" on texts; induction over
  the tag list grammar, then tag by tag.
* C57, C75 From `Judged`: only the selected fields' canonical forms, the
  occurrence counts of configured names and the canonical body are used.
* C58, C59, C70, C72 Monotonicity of the checks in `Judged`.
* C60 The batch result equals a per-request function.
* C61 From C06, lifted through `Signer` and `Verifier`.
* C62 From C16, with the other signatures as further fields on top.
* C63, C64, C65, C71 From the formatter's shape. C63: expected violation for a
  timestamp at the end of the u64 range; C65: expected violation for extension
  tags, whose values are copied as they are.
* C66 From the specifications of the canonical forms.
* C67 From C38, C48 and C41.
* C68 A small grammar of sections; induction over the decoder.
* C69 Decision table.
* C73, C74 Small models with the external decoders and the resolver as parameters.
* C76 A second model of the functions that cut text, with byte offsets and explicit
  panics; refinement: it always equals the first, and never panics.
* C77 Key records up to folding, with the relation `Refold` of C56. Proved from the
  grammar characterisation of records (C33, `recordFromStr_iff`) tag by tag:
  lists, Base64, keywords are independent of folding; a qp-section is, except that a
  line break in it is an error. The exception is exact (`C77_exactly`).
* C78 Specialisation of C16: for automatic selection the names of signed fields are
  known, so that the conditions of C16 (readable, not oversigned, policy) are proved
  instead of assumed, except that the names are kept when written (`KeptNames`); for the
  default request acceptance is proved from C34 and C35.
* C79 Model of the two example programs as functions of the key file, the arguments and
  the text on standard input (`Model/Examples`), with `unwrap` as panic. Proved from
  C78, the header block round trip (C24) and C17; lemmas about replacing line breaks and
  splitting at the empty line.
* C80 Consequence of the case distinction `Judged`: each case fixes whether signature and
  record are shown; statuses are sorted into three lists.
* C81 Consequence of `Judged`; the lookup errors are the only ones mapped to temperror.
* C82 Refinement stated outright: a result is produced iff `Judged` allows it, by
  soundness (`verify_judged`) and uniqueness of `Judged`; existence by C50.
* C83 Model of `BytesDebug` and `Base64Debug` (`{:?}` only), with the escape function of the
  standard library written out and its two Unicode tables as parameters; round trip with a
  reader of quoted byte strings that is specified separately.
* C84 The messages as functions; injectivity over complete lists of the values.
* C85 Names as functions; the text built by a separate writer is parsed by C33's exact
  characterisation.
* C86 A predicate that says for each error what must be the case; from the case distinction
  `Judged`.
* C87 Instances of C40, C42, C52, C38, C86 for the default configuration, and of C36, C49 for
  the default request.
* C88 The specification of results does not mention the orders; C48 for the names asked;
  for signing, the result as a function of the request alone (C60).
* C89 Body with appended text: lines of the longer body are the lines of both (splitting at CRLF),
  so that the form without empty lines at the end is continued; then by the specification of
  the body part of a result.
* C90 An independent verdict about the body with the canonical forms of RFC 6376; equal to the
  status by C02/C03 exactly for regular bodies; witnesses for the others.
* C91 From C48 and the validity of parsed domains and selectors; the length is exact, and too
  large for the DNS in a witness.
* C92 An inductive specification of the text of each tag (`WrittenTag`) and of exact
  Quoted-Printable (`QpWritten`, also used to make C19 exact); from the shape of the
  formatter's output (C64), with folding whitespace deleted from b, bh, h and z.
* C93 A separate specification of filling lines with words (`flow`); by induction over the
  tags the formatter's text and cursor are those of the words of each tag (`TagWords`); the
  signature goes in at the column that was estimated since its length is known (`SignLaw`).
* C94 From the result of a request as function of the names signed, the hashed header data and
  the canonical body (C60); the hashed data is determined by the canonical forms.
* C95 From C16 for each position of the final header, and uniqueness of the run of the verifier.
* C96 A second model of the loop over the lookups in which replies take time or never come
  (`Model/Waiting`). The property does not hold; when it does, and how long the code waits
  otherwise, is stated exactly.
* C97 As C53 up to equal header hash inputs; then the tags agree up to whitespace, and the meaning
  of each known tag does not depend on whitespace (`Bare`).
* C98 From C40 for the verified signature, C14, C15 and C36 for the signature that was made, and the
  argument of C53 between the two. No assumption about the cryptographic primitives; collision and
  forgery are exhibited as cases.
* C99 A third model of the loop over the lookups in which the answer depends on the number of
  questions asked before (`Model/Changing`); the proof about the whole run is for one arbitrary reply
  per lookup, and that for fixed resolvers is a special case.
* C100 The ABNF as relations between text and meaning (`Spec/Rfc`), written from the RFC alone; then
  each production implies what C30 says of the value that the library reads. The limits are listed in
  a structure of their own, and a text outside each of them shows that it is needed.
* C101 The same for key records, by C33.
* C102 The converse of C100 in two parts: a text that is read is in the grammar of
  `Spec/Rfc` exactly if it meets the list `Rfc.Strict` (by C30 and the converse of each
  lemma for C100); and each value of a produced header (C92) meets the list. Partial:
  `z=` is folded inside encoded characters, so the theorem is for the tags with `z=`
  unfolded, or for requests without copies, or (exactly) without such a fold.
* C103 `Spec/RfcValid.lean` says when RFC 6376 calls a signature valid: the field and a
  TXT record under `<selector>._domainkey.<domain>` are in the grammars of sections 3.5
  and 3.6.1, the record can be used (6.1.2), and the hashes of 3.7 verify, the body with
  the canonical form of 3.4. From C100 and C101 the library reads both texts as the RFC
  does, and by C40 and C90 it reports success. For the converse, C40 says what success
  implies, and C101 and C102 say when the texts that were read are in the grammars.
* C104 By C16 a verifier without policy that only knows the given key record (in a form
  that the library reads; the grammar has one with the same tags) accepts the signature,
  by C102 and C103 it is then valid in the sense of C103, which says nothing about this
  library any more; the answer of the DNS is replaced by the given one.
* C105 `Spec/Rfc8616.lean` is the grammar of `Spec/Rfc.lean` as changed by RFC 8616:
  literal characters outside of ASCII in dkim-quoted-printable, and names of which the
  form with A-labels is a domain name. As C100 and C102, from C30 (the exact meaning of
  texts for the library) and C92 (what is written in each tag). The IDNA functions are
  those of the environment; the example has one that knows a U-label.
* C106 `Spec/Rfc8616Valid.lean` as `Spec/RfcValid.lean`, with the names that are looked up
  and compared in the form with A-labels. As C103 and C104, from C105.
* C107 `Spec/Rfc5322.lean` has the grammar of the header section from RFC 5322 and RFC 6532 on text;
  equivalence with the lines of C24 by induction in both directions, where whitespace at the end of a
  line is carried along until the fold of which it is part.
* C108 `Model/Asserts.lean` has the functions with assertions, and all functions that call them, once
  more for a debug build, where a failing assertion panics. They are shown equal to the functions
  without assertions: values come from the tag list parser and so are tag values, also in pieces;
  deleting the value of `b=` from a header field value leaves a header field value, by the grammar of
  C107; the text formatted by the signer is a header field value, as in C17.
* C109 By C86 (each reported error has a reason) for the settings turned off; by C82 for pairs of
  configurations: what is specified for one is specified for the other, except for policy errors.
  `C109_key_size_hidden` shows why the key size is excluded: the failure of the last key record is
  reported, also if an earlier one was only too small.
* C110 Violated: `C110_whole_body` has a family of bodies, read in pieces of two bytes, that are
  written into one buffer, so no bound exists (`C110_violation`). The bound with the empty lines at the
  end of what was read is proved by the amount pending in the canonicalizer, as in C66, and the
  invariant that the empty lines counted are among the line feeds in the white space at the end.
* C111 `Model/Work.lean` has the functions of the verifier once more, with a list of the steps: a text
  parsed as a key record, a signature checked with a key. `C111_same`: the results are those of the plain
  functions. The records for which a signature is checked are specified by the list `recordChecks` of C41
  without the last, and compared with the steps for each field; for the parsed texts, the cache is an
  invariant: what was parsed, followed by what is still unparsed, is always the answer.
* C112 `Model/Machine.lean` has the functions that count once more, with an addition that panics or wraps
  when the sum is too large. Violated for bodies larger than the address space, by families of bodies in
  chunks of one or two bytes, for every machine. For smaller bodies the functions equal the plain ones:
  what is counted and what is pending in the canonicalizer is at most what was read (as in C66 and C110).
  With overflow checks, each function gives the same as the plain one unless it panics.
* C113 `Model/Selecting.lean` has `canonicalize_headers` once more, with the number of header fields that
  are looked at; shown to have the same result. The exact number is specified by a search for each name
  from the bottom (`Spec/Selecting.lean`), and an invariant on the processed fields connects the two. The
  linear bound is refuted by a family of well-formed headers and names.
  For names taken from the header itself, as the signer does by default, the number is the sum of the positions
  of the signed fields (`C113_chosen`), and the bound is refuted for signing runs also.
* C114 `Model/Sharing.lean` has the loops of `hash_chunk` and `finish` once more, with the calls of the
  canonicalizers, and with `finish` as in the code: closures that are taken, and `unwrap` of the shared piece.
  Same results for all states. The calls are those of kinds with an active hasher, each once (induction over the
  hashers); a hasher is active exactly if `NeedsMore` (the invariant of C05).
* C115 `Model/Reading.lean` has the functions that read tag lists and Quoted-Printable text once more, with the
  number of characters tested; same results. Each function tests at most a multiple of the characters it
  consumes, plus a constant, and at least one per character consumed (induction). Whitespace after a value is
  read a second time, which is paid for by its length.
* C116 `Spec/Relay.lean` defines a message with a signature and the changes that relays make, one by one, and their
  closure. Each change keeps everything that success of the signature says (`Succeeded` of C40): for the header by the
  instances of each signed name (C57), for the signature field by C56 and the position of the value of `b=`, for the
  body by the states of the canonicalizer, which are the same after any run of whitespace. Conversely, a body that
  ends with CRLF is connected with its canonical form by such changes, line by line (`C116_bodies`).
  A header is connected with the part of it that is signed, and two such parts with the same instances of each name
  with each other, from the top down (`C116_headers`; that the data determine the instances is C12).

## 3. What is modelled and what is not

Every definition under `Verif/Model` cites file and lines.

| source file | model | left out |
| --- | --- | --- |
| `canonicalize.rs` | `Model/Canon` (all) | |
| `header.rs` | `Model/Header`, `Model/Debug` (all) | |
| `message_hash.rs` | `Model/BodyHash`, `Model/DataHash` (all) | |
| `parse.rs`, `tag_list.rs` | `Model/TagList` (all), once more with byte offsets in `Model/Slices` (shown equal, C76) and with debug assertions in `Model/Asserts` (C108; also for the other files) | |
| `quoted_printable.rs`, `util.rs` (Base64) | `Model/Encode` (all), with byte offsets in `Model/Slices`; `Model/Debug` | `{:#?}` |
| `record.rs` | `Model/Record`, `Model/Messages` (all) | `Debug` of the record |
| `signature.rs` | `Model/Signature`, `Model/Domain`, `Model/Messages` (all) | `Debug` of the signature, trivial accessors |
| `crypto/*.rs` | `Model/Crypto`, `Model/KeyFile` | the algorithms in external crates |
| `signer/*.rs` | `Model/Signer`, `Model/Format` (all); error texts in `Model/Messages` | `tracing` |
| `verifier/*.rs` | `Model/Verifier` (all); waiting in `Model/Waiting`; error texts in `Model/Messages` | `tracing` |
| `verifier/lookup/*.rs` | `Model/Verifier`, `Model/ResolverAdapter` | the resolver |
| `examples/*.rs` | `Model/Examples` | command line, reading files, logging, the derived debug text printed by dkimverify |
| `lib.rs` | | re-exports |

Simplifications that a reader should know of:

* `String` capacity, memory exhaustion and arithmetic overflow of lengths of
  strings in memory are not modelled. Counters that the code checks or saturates
  are modelled with these checks. The counters of the body, which may exceed what is
  in memory, are unlimited in `Model/Canon` and `Model/BodyHash`, and limited in
  `Model/Machine` (C112).
* `sort_by` may panic in newer versions of the standard library if a custom
  comparator is not a total order; the model has no such panic.
* Lookups: this fork awaits the queries one after the other, in the order of a
  `HashMap` (arbitrary in the model), and without timeout. Time passes only in
  lookups; `Model/Verifier` leaves it out, `Model/Waiting` has it, with resolvers
  that never answer, and in `Model/Changing` the answers may change from question
  to question (C99). That a caller drops the future is not modelled.
* The example programs use `str::lines`; in older versions of the standard library
  it removes a CR also from the end of a last line without LF. The model follows
  newer versions.
* `SystemTime` is in whole seconds since the epoch, possibly negative; one reading
  per signature.

## 4. Trusted base

* Lean 4.33.0's kernel. Only Lean core is imported (no Mathlib module).
* Axioms: at most `propext`, `Classical.choice`, `Quot.sound`; listed per theorem
  in section 7. No `sorry`, no own axioms, no `native_decide`, no `bv_decide`.
* The faithfulness of the hand translation. Section 6 says how it was tested.
* The behaviour of external crates as far as stated as law in section 1.
* The specifications under `Verif/Spec` and in the heads of the `Props` files say
  what they should; they were written from the RFCs and the English statements,
  and use only data types of the model.

## 5. Findings

Where the code does not have a property, the negation is proved with a concrete
witness, the property is proved where it holds (`_partial`), and mostly the
exceptions are characterised exactly (`_exact`, `_exactly`, `_iff`).

1. `C02_violation`: simple body canonicalization turns a non-empty body of only
   CRLFs into the empty string; RFC 6376 asks for a single CRLF.
2. `C03_violation`: relaxed body canonicalization: a last line that is not
   terminated and has only whitespace yields an extra empty line.
3. `C04_violation`: for these reasons, canonicalization is not idempotent.
4. `C15_violation_query`, `C15_violation_name`: an extension tag `q` is written
   but not read back; copied header field `X=41` is read back as `XA`.
5. `C16_violation_oversigning`: listing DKIM-Signature once more than it occurs
   gives a signature that the library's own verifier rejects.
6. `C19_violation`: an extra character to be encoded that is itself an upper case
   hex digit or `=` still occurs in the encoded text (not used by the signer).
7. `C22_violation`: two FWS after the equals sign of an empty value, allowed by the
   literal grammar of the RFC, are rejected.
8. `C32_violation`: `t=+1` and the like are accepted.
9. `C37_violation_*`: accepted requests whose signature the library cannot read:
   extension tag `q` without `dns/txt`; copied header names with `=` or `|`;
   timestamp 2^64-1 with expiration; identity with invalid local part; names that
   change their meaning when converted (19).
10. `C44_violation`: an RSA key of 1017 bits passes a minimum of 1024 bits, as sizes
    are rounded up to whole bytes.
11. `C47_violation`: the configured lookup timeout has no effect
    (`C47_delay_ignored`).
12. `C49_violation`: a line of the produced header field is much longer than the
    configured width if an extension tag with a folded value is ordered before
    `b=`: the column is computed as if the value had no line break. The lines
    are still at most about twice as long as configured (`C49_bound`), and at most
    one line is too long, the one in which the value of `b=` ends
    (`C49_one_line`).
13. `C63_violation`: with timestamp 2^64-1 the expiration is not after it.
14. `C65_violation`: with `ascii_only`, extension tag values are still written as
    they are.
15. `C67_violation`: the same DNS name can be queried twice: selector
    `a._domainkey.b` with domain `c`, and selector `a` with domain
    `b._domainkey.c`.
16. `C90_irregular`: messages with the body CRLF (simple), or with whitespace behind
    the last CRLF (relaxed), that are signed according to RFC 6376 are rejected
    (the consequence of 1 and 2 for verification).
17. `C91_violation`: a name with more than 254 characters is asked, as selector and
    domain are limited to 253 characters each, but not together.
18. `C96_violation`: lookups are not concurrent; two lookups of six seconds take
    twelve; a lookup that is never answered blocks verification for ever, and the
    lookups behind it are not begun.
19. `C37_violation_names`: domain names are written in converted form. If the conversion
    is not stable, an accepted name can be written in a form that stands for another
    name, or for none. idna 0.4.0 (the version in use) decodes labels that encode nothing
    (published as RUSTSEC-2024-0421), so that for example the domain
    `xn--xn--abc-.com` is accepted, and is written as `d=xn--abc.com`, which the library
    rejects. The condition is `KeptNames`; it is exact (`C15_round_trip_exactly`), and it
    is met by every name that is given in the form that is written (`kept_of_form`). The
    witness uses a conversion that decodes only such labels, not the crate itself.
20. `C102_violation`: in `z=`, lines are broken anywhere, also inside an encoded character
    (`=2` at the end of a line and `0` on the next one; a unit test of the repository
    expects this). In the grammar of the RFC an encoded character is not divided. The
    library itself removes whitespace before decoding and so reads such values.
21. `C110_violation`: empty lines are counted, and written into one buffer by the next byte
    of another kind; a body that consists of empty lines and a last letter is in memory as
    a whole, even if it is processed in chunks of one byte. The README says that the whole
    message need not be in memory. (C66 still bounds the buffer by what was read.)
22. `C112_panic_violation`, `C112_length_violation`, `C112_lines_violation`: the bytes hashed and the
    empty lines of a body are counted with `+=` on `usize`, without a check. On a machine of 32 bits, a body
    of more than 4 GiB, processed in chunks, makes a debug build panic; in a release build, the signer
    writes a wrong `l=`, and 2^32 empty lines disappear from the body that is hashed, so that a body with them
    is verified in place of one without them (`C112_verified_violation`).
23. `C113_violation`: `canonicalize_headers` searches the header anew from the bottom for each name in
    `h=`, so the work grows with the product of the numbers of fields and of names. A message with n
    short fields and n names in `h=` causes n² tests (`C113_worst`), each time a signature is checked.
    The names come with the message: a header whose signature asks for this is at most 6 n + 80 bytes long (`C113_written`, `C113_violation_verifier`).
    The signer does the same with the default selection of header fields: if all n fields are signed, n (n + 1) / 2
    fields are looked at, whatever their names (`C113_all_signed`, `C113_violation_signer`).
    When it copies the signed fields, it searches the names anew for each field (`C113_copies_violation`).

Further behaviour that is stated in theorems, and not a violation of a listed
property: key records with notes (`n=`) that contain a line break cannot be read
(`QpSection` in `Spec/Record.lean`); of more than three TXT records only the first
two and the last are tried (`C41_records_tried`); the reported failure is that of
the last record; the example programs panic for messages with CRLF line ends
(`C79_crlf`).

## 6. Tests and seeded bugs

* `Verif/Tests`: the unit tests and the integration tests of the repository, as
  far as they need no Ed25519, are repeated on the model with `#guard` or `rfl`; where
  needed, with executable SHA-1, SHA-256 and RSA (`Tests/Crypto.lean`).
  They are tests of the translation, not proofs. All agree.
* `seeded/LOG.jsonl`: in a scratch copy, definitions of the model were edited as a
  realistic bug would, one at a time, and everything was rebuilt. Each line has
  the edit, the claim that it breaks, the theorems that failed and those that were
  tightened because they had not.

## 7. Axioms per theorem

`p` is `propext`, `c` is `Classical.choice`, `q` is `Quot.sound`, `-` is none
(from `#print axioms`). All theorems are in namespace `Dkim`.

* C01 (proved): `C01_chunk_independent` pq, `C01_chunks_as_whole` pq
* C02 (partial): `C02_simple_body_exact` pq, `C02_simple_body_partial` pq, `C02_violation` pq, `C02_rfc_iff` pcq
* C03 (partial): `C03_relaxed_body_exact` pq, `C03_relaxed_body_partial` pq, `C03_violation` p, `C03_rfc_iff` pcq
* C04 (partial): `C04_simple_idempotent_iff` pcq, `C04_relaxed_idempotent_iff` pcq, `C04_idempotent_partial` pcq, `C04_violation` -
* C05 (proved): `C05_body_hash_results` pcq
* C06 (proved): `C06_done_is_done` pcq, `C06_stop_early` pcq
* C07 (proved): `C07_relaxed_header_steps` pcq, `C07_relaxed_header_words` pcq, `C07_simple_header` -
* C08 (proved): `C08_refolding_invisible` pcq, `C08_every_value_has_words` pq, `C08_distinct_words_distinct_forms` pcq, `C08_idempotent` pq
* C09 (proved): `C09_selected_from_bottom` pcq
* C10 (proved): `C10_unlisted_fields` pcq, `C10_field_on_top` pcq
* C11 (proved): `C11_oversigned` pcq
* C12 (proved): `C12_hash_input_injective` pcq, `C12_simple_literal` pcq
* C13 (proved): `C13_deletes_value` pcq, `C13_without_b` pcq, `C13_any_text` pcq, `C13_injective` pcq
* C14 (proved): `C14_reconstructed` pcq, `C14_any_signature` pcq
* C15 (partial): `C15_read_exactly` pcq, `C15_round_trip_exactly` pcq, `C15_round_trip_partial` pcq, `C15_violation_query` pcq, `C15_violation_name` pcq
* C16 (partial): `C16_sign_verify_partial` pcq, `C16_relayed_partial` pcq, `C16_violation_oversigning` pcq, `C16_same_data_exactly` pcq, `C16_oversigned` pcq, `C16_exactly` pcq, `C16_on_top_exactly` pcq
* C17 (proved): `C17_well_formed` pcq, `C17_no_injection` pcq
* C18 (proved): `C18_qp_round_trip` pcq, `C18_qp_section_round_trip` pcq
* C19 (partial): `C19_qp_tokens` pcq, `C19_qp_safe_chars` pcq, `C19_qp_equals` pcq, `C19_extra_char_absent_partial` pcq, `C19_violation` pcq, `C19_extra_char_iff` pcq, `C19_unicode_space` pcq, `C19_qp_exact` pcq
* C20 (proved): `C20_base64_round_trip` pq, `C20_base64_canonical` pq, `C20_estimate` pq, `C20_base64_rfc4648` pq
* C21 (proved): `C21_base64_fws` p, `C21_base64_encoded` pq, `C21_qp_fws` pcq, `C21_qp_encoded` pcq
* C22 (partial): `C22_tag_list_exact` pcq, `C22_duplicate_reported` pcq, `C22_syntax_reported` pcq, `C22_unambiguous` pcq, `C22_rfc_sound_partial` pcq, `C22_rfc_complete_partial` pcq, `C22_violation` pq, `C22_rfc_exactly` pcq
* C23 (proved): `C23_field_name_exact` pq, `C23_field_body_exact` pcq, `C23_folds_only` pcq, `C23_header_fields_from_vec` pcq
* C24 (proved): `C24_block_round_trip` pcq, `C24_block_round_trip_lf` pcq, `C24_parsed_block` pcq
* C25 (proved): `C25_domain_eq` pcq, `C25_domain_equivalence` pcq, `C25_domain_hash` pcq, `C25_field_name_eq` pcq, `C25_field_name_equivalence` pcq, `C25_field_name_hash` pcq
* C26 (proved): `C26_subdomain_exact` pcq, `C26_no_panic` pcq, `C26_reflexive` pcq, `C26_transitive` pcq
* C27 (proved): `C27_domain_exact` pcq, `C27_selector_exact` pcq, `C27_domain_is_selector` pcq
* C28 (proved): `C28_identity_exact` pcq, `C28_print_parsed` pcq, `C28_parse_printed` pcq, `C28_text_determines` pcq
* C29 (proved): `C29_invariants` pcq
* C30 (proved): `C30_parse_exact` pcq, `C30_order_irrelevant` pcq, `C30_reordering` pcq, `C30_defaults` pcq
* C31 (proved): `C31_salvage` pcq, `C31_no_tag_list` pcq, `C31_total` pcq
* C32 (partial): `C32_numeric_exact` pq, `C32_numeric_partial` pq, `C32_tags` pcq, `C32_violation` pcq
* C33 (proved): `C33_parse_exact` pcq, `C33_total` pq, `C33_rules` pcq, `C33_defaults` pcq, `C33_testing` pcq, `C33_reordering` pcq
* C34 (proved): `C34_accepts` pcq, `C34_first_error` pcq, `C34_no_panic` pcq, `C34_prepared` pq
* C35 (proved): `C35_results` pcq, `C35_cursor` pq, `C35_ed25519` pcq
* C36 (proved): `C36_reflects` pcq, `C36_fields` pcq
* C37 (partial): `C37_violation_names` pcq, `C37_parses_exactly` pcq, `C37_parses_partial` pcq, `C37_violation_query` pcq, `C37_violation_equals` pcq, `C37_violation_bar` pcq, `C37_violation_time` pcq, `C37_violation_local` pcq
* C38 (proved): `C38_verifier_exists` pcq, `C38_one_result_each` pcq
* C39 (proved): `C39_independent` pcq
* C40 (proved): `C40_success_complete` pcq, `C40_success_sound` pcq
* C41 (proved): `C41_records_tried` pcq
* C42 (proved): `C42_all_covered` pcq, `C42_added_field` pcq
* C43 (proved): `C43_expired` pcq, `C43_future` pcq, `C43_no_success` pcq
* C44 (partial): `C44_reported_small` pcq, `C44_violation` pcq, `C44_key_size_partial` pcq
* C45 (proved): `C45_forbidden` pcq, `C45_insufficient` pcq, `C45_rest_irrelevant` pcq
* C46 (proved): `C46_pass` p, `C46_temperror` p, `C46_policy` pq, `C46_fail` p, `C46_never_none` p
* C47 (partial): `C47_violation` pcq, `C47_delay_ignored` pcq, `C47_resolver_timeout_partial` pcq
* C48 (proved): `C48_queries` pcq
* C49 (partial): `C49_one_line` pcq, `C49_bound` pcq, `C49_line_width_partial` pcq, `C49_default_order` pcq, `C49_violation` pcq
* C50 (proved): `C50_no_panic` pcq
* C51 (proved): `C51_signing_algorithm_round_trip` -, `C51_signing_algorithm_exact` pcq, `C51_signing_algorithm_parts` p, `C51_canon_algorithm_exact` pcq, `C51_canon_algorithm_round_trip` -, `C51_canonicalization_round_trip` p, `C51_canonicalization_exact` pcq
* C52 (proved): `C52_no_sha1_signature` pcq, `C52_no_sha1_record` pcq, `C52_no_success` pcq, `C52_policy` pcq
* C53 (proved): `C53_tampering` pcq
* C54 (proved): `C54_first_defect` pcq, `C54_error_exact` pcq, `C54_reported` pcq
* C55 (proved): `C55_first_defect` pcq, `C55_reported` pcq
* C56 (proved): `C56_same_signature` pcq, `C56_iff` pcq, `C56_leading` pcq
* C57 (proved): `C57_canonical` pcq
* C58 (proved): `C58_monotone` pcq
* C59 (proved): `C59_interval` pcq, `C59_expired_for_good` pcq
* C60 (proved): `C60_independent` pcq, `C60_alone` pcq
* C61 (proved): `C61_signer` pcq, `C61_verifier` pcq
* C62 (partial): `C62_exactly` pcq, `C62_together_partial` pcq, `C62_same_data_exactly` pcq, `C62_oversigned` pcq
* C63 (partial): `C63_invariants` pcq, `C63_expiration_iff` pcq, `C63_expiration_partial` pcq, `C63_violation` pcq
* C64 (proved): `C64_tags` pcq
* C65 (partial): `C65_ascii_iff` pcq, `C65_ascii_partial` pcq, `C65_violation` pcq
* C66 (proved): `C66_body_streaming` pq, `C66_body` pq, `C66_field` pcq, `C66_headers` pcq
* C67 (partial): `C67_bounded` pcq, `C67_once_partial` pcq, `C67_once_exactly` pcq, `C67_three_records` pcq, `C67_violation` pcq
* C68 (proved): `C68_decode` pcq, `C68_decode_total` pcq, `C68_section` pcq, `C68_section_total` pq
* C69 (proved): `C69_neutral` pq, `C69_permerror` pq, `C69_neutral_run` pcq, `C69_permerror_run` pcq
* C70 (proved): `C70_one_record_enough` pcq
* C71 (proved): `C71_indentation` pcq
* C72 (proved): `C72_relevant_parts` pcq
* C73 (proved): `C73_loaded` pq, `C73_error` pcq
* C74 (proved): `C74_unusable` -, `C74_absent` p, `C74_failure` p, `C74_records` pq, `C74_delay` -, `C74_no_key` pcq, `C74_bad_name` pcq
* C75 (proved): `C75_unsigned_fields` pcq
* C76 (proved): `C76_slice_to` pcq, `C76_slice_from` pcq, `C76_slice_range` pcq, `C76_drain` pcq, `C76_bytes_to` pq, `C76_bytes_from` pq, `C76_subtraction` pcq, `C76_to_byte` pq, `C76_tag_list` pcq, `C76_decode` pcq, `C76_decode_section` pq, `C76_encode` pcq, `C76_lines` pq, `C76_original` pcq, `C76_chunks` pcq
* C77 (proved): `C77_same_record` pcq, `C77_line_break` pcq, `C77_exactly` pcq, `C77_similar` pcq, `C77_same_result` pcq, `C77_exception` pq
* C78 (partial): `C78_auto_verifies_partial` pcq, `C78_default_signs` pcq
* C79 (partial): `C79_sign_then_verify_partial` pcq, `C79_signs` pcq, `C79_empty_line` pcq, `C79_crlf` pcq
* C80 (proved): `C80_signature` pcq, `C80_record` pcq, `C80_record_from_dns` pcq
* C81 (proved): `C81_temperror` pcq
* C82 (proved): `C82_exactly` pcq, `C82_run` pcq
* C83 (proved): `C83_read_back` pcq, `C83_unambiguous` pcq, `C83_no_control` pcq, `C83_plain` pcq, `C83_base64` pq
* C84 (proved): `C84_verification` pq, `C84_source_needed` -, `C84_signing` pq, `C84_results` pq
* C85 (proved): `C85_printed_record` pcq, `C85_reprint` pcq
* C86 (proved): `C86_reason` pcq
* C87 (proved): `C87_default_success` pcq, `C87_default_ten` pcq, `C87_default_objects` pcq, `C87_default_tolerates` pcq, `C87_default_request` pcq, `C87_default_unsigned` pcq
* C88 (proved): `C88_verification` pcq, `C88_signing` pcq
* C89 (proved): `C89_continued` pcq, `C89_accepted` pcq, `C89_refused` pcq, `C89_detected` pcq
* C90 (proved): `C90_canonical_iff` pcq, `C90_regular` pcq, `C90_verdict` pcq, `C90_success_iff` pcq, `C90_irregular` pcq
* C91 (partial): `C91_form` pcq, `C91_length_partial` pcq, `C91_violation` pcq
* C92 (proved): `C92_values` pcq, `C92_determined` pcq, `C92_default_unicode` pcq
* C93 (proved): `C93_layout` pcq, `C93_determined` pcq, `C93_one_line` pcq
* C94 (proved): `C94_canonical` pcq
* C95 (partial): `C95_exactly` pcq, `C95_hops_partial` pcq
* C96 (partial): `C96_waiting_partial` pcq, `C96_longest` pcq, `C96_concurrent_iff` pcq, `C96_violation` pcq
* C97 (proved): `C97_own_content` pcq
* C98 (proved): `C98_every_signature` pcq, `C98_what_is_signed` pcq, `C98_authentic` pcq
* C99 (proved): `C99_answers` pcq, `C99_nothing` pcq, `C99_constant` pcq
* C100 (proved): `C100_reads_rfc` pcq, `C100_unambiguous` pcq, `C100_limits_needed` pcq
* C101 (proved): `C101_reads_rfc` pcq, `C101_read_exactly` pcq, `C101_useless` pcq
* C102 (partial): `C102_folding_exactly` pcq, `C102_read_exactly` pcq, `C102_produced_exactly` pcq, `C102_produced_partial` pcq, `C102_violation` pcq
* C103 (proved): `C103_valid_accepted` pcq, `C103_accepted_valid` pcq, `C103_success_iff` pcq
* C104 (proved): `C104_signed_valid` pcq
* C105 (proved): `C105_reads_rfc` pcq, `C105_read_exactly` pcq, `C105_extends` pcq, `C105_produced_exactly` pcq, `C105_produced_plain` pcq, `C105_folding_exactly` pcq
* C106 (proved): `C106_extends` pcq, `C106_valid_accepted` pcq, `C106_accepted_valid` pcq, `C106_success_iff` pcq, `C106_signed_valid` pcq
* C107 (proved): `C107_name_exact` pcq, `C107_value_exact` pcq, `C107_header_exact` pcq, `C107_header_read` pcq, `C107_read_header` pcq, `C107_unambiguous` pcq, `C107_produced` pcq
* C108 (proved): `C108_signature` pcq, `C108_record` pcq, `C108_names` pq, `C108_canonicalize_headers` pcq, `C108_canonicalize_header` pcq, `C108_verify` pcq, `C108_sign` pcq, `C108_verify_no_panic` pcq, `C108_sign_no_panic` pcq
* C109 (proved): `C109_turned_off` pcq, `C109_no_policy` pcq, `C109_only_policy` pcq, `C109_key_size_hidden` pcq
* C110 (partial): `C110_chunk_partial` pq, `C110_finish_partial` pq, `C110_whole_body` p, `C110_violation` pq
* C111 (proved): `C111_same` pcq, `C111_checks` pcq, `C111_check_bound` pcq, `C111_parsed` pcq
* C112 (partial): `C112_results_partial` pcq, `C112_signer_partial` pcq, `C112_verifier_partial` pcq, `C112_checked` pcq, `C112_panic_violation` pq, `C112_length_violation` pq, `C112_lines_violation` pq, `C112_lines_different` pq, `C112_verified_violation` pq
* C113 (partial): `C113_same` -, `C113_exact` pcq, `C113_bound_partial` pq, `C113_cheap` pcq, `C113_worst` pcq, `C113_repeated` pcq, `C113_violation` pcq, `C113_chosen` pcq, `C113_all_signed` pcq, `C113_violation_signer` pcq, `C113_copies_same` p, `C113_copies_exact` pcq, `C113_copies_bound_partial` pcq, `C113_copies_violation` pcq, `C113_written` pcq, `C113_violation_verifier` pcq
* C114 (proved): `C114_same` p, `C114_chunk` pcq, `C114_end` pcq, `C114_bound` p, `C114_done` pcq, `C114_verifier` pcq, `C114_unverified` pcq
* C115 (proved): `C115_same` pcq, `C115_tag_list` pcq, `C115_tag_list_all` pcq, `C115_tags_fit` pcq, `C115_quoted_printable` pcq, `C115_quoted_printable_all` pcq, `C115_original` pcq
* C116 (proved): `C116_relayed` pcq, `C116_not_created` pcq, `C116_pushed_out` pcq, `C116_bodies` pcq, `C116_headers` pcq, `C116_signed` pcq
