{"id": "C01", "title": "Body canonicalization ignores chunk boundaries", "statement": "Feeding a message body to the body canonicalizer in any sequence of chunks and then finishing yields exactly the same bytes as feeding the whole body at once.", "quantifier": "for all bodies, all ways of cutting a body into chunks (including empty chunks), both algorithms", "why_tests_cant": "The canonicalizer is a state machine that remembers pending CR, whitespace and empty lines across chunk borders; tests only try a few splits.", "anchors": ["src/canonicalize.rs: BodyCanonicalizer::canonicalize_chunk, finish", "src/signer/mod.rs: Signer::process_body_chunk", "src/verifier/mod.rs: Verifier::process_body_chunk"]}
{"id": "C02", "title": "Simple body canonicalization follows RFC 6376 section 3.4.3", "statement": "The simple canonical form of a body is: its lines unchanged, a final CRLF added if missing, all empty lines at the end removed, and a body with nothing left is a single CRLF.", "quantifier": "for all byte strings", "why_tests_cant": "The space of bodies is infinite, and the interesting ones (only empty lines, stray CR or LF, CR at the very end) are the ones tests forget.", "anchors": ["src/canonicalize.rs: canon_chunk_simple, finish, flush_empty_lines"]}
{"id": "C03", "title": "Relaxed body canonicalization follows RFC 6376 section 3.4.4", "statement": "The relaxed canonical form of a body is: on every line whitespace runs reduced to one SP and trailing whitespace removed, all empty lines at the end removed, a final CRLF added if the body is not empty.", "quantifier": "for all byte strings", "why_tests_cant": "Whitespace, CR and LF can interleave arbitrarily and across chunks; samples do not cover the product of states.", "anchors": ["src/canonicalize.rs: canon_chunk_relaxed, finish, flush_empty_lines"]}
{"id": "C04", "title": "Body canonicalization is idempotent", "statement": "Canonicalizing an already canonicalized body with the same algorithm leaves it unchanged.", "quantifier": "for all byte strings, both algorithms", "why_tests_cant": "A universally quantified equation over all bodies; a counterexample needs a particular combination of trailing whitespace and empty lines.", "anchors": ["src/canonicalize.rs: BodyCanonicalizer"]}
{"id": "C05", "title": "Body hash results are exactly the specified ones", "statement": "For every registered combination of length limit, hash algorithm and canonicalization, the body hash result after any sequence of chunks is: with no limit, the hash and length of the whole canonicalized body; with limit n, an insufficient-input error if the canonicalized body is shorter than n, an input-truncated error if it is longer than n and partial hashing is forbidden, otherwise the hash of its first n bytes and n.", "quantifier": "for all sets of registrations, all iteration orders of the internal map, all chunk sequences, all limits, both settings of the flag", "why_tests_cant": "Several hashers share two lazily driven canonicalizers and are skipped individually once satisfied; the interaction depends on all registrations and chunk sizes together.", "anchors": ["src/message_hash.rs: BodyHasherBuilder, BodyHasher::hash_chunk, finish, BodyHashResults::get", "src/crypto/hash.rs: CountingHasher"]}
{"id": "C06", "title": "A body hasher that says Done is done", "statement": "Once processing a body chunk has returned Done, feeding any further chunks keeps returning Done and does not change any body hash result, so a client may stop early.", "quantifier": "for all registrations, all chunk histories, all continuations", "why_tests_cant": "Quantifies over all possible futures of the stream.", "anchors": ["src/message_hash.rs: BodyHasherStance, BodyHasher::hash_chunk", "src/signer/mod.rs: Signer::process_body_chunk", "src/verifier/mod.rs: Verifier::process_body_chunk"]}
{"id": "C07", "title": "Relaxed header canonicalization follows RFC 6376 section 3.4.2", "statement": "The relaxed canonical form of a header field is the lower-cased name, a colon, and the value unfolded, with whitespace runs reduced to one SP and no whitespace at either end.", "quantifier": "for all valid header field names and values", "why_tests_cant": "All foldings and whitespace mixtures of all values; tests show single strings.", "anchors": ["src/canonicalize.rs: canonicalize_header, canonicalize_header_relaxed"]}
{"id": "C08", "title": "Relaxed header canonicalization does not see refolding", "statement": "Two valid header field values that consist of the same words separated by (possibly different) non-empty whitespace or folds have the same relaxed canonical form; applying the form twice changes nothing; the form contains no CR or LF, and distinct word sequences have distinct forms.", "quantifier": "for all pairs of valid header values", "why_tests_cant": "A relational property over pairs of inputs.", "anchors": ["src/canonicalize.rs: canonicalize_header_relaxed"]}
{"id": "C09", "title": "Signed header instances are chosen from the bottom up", "statement": "For an h= list, the k-th mention of a name selects the k-th instance of that header field counted from the bottom of the header (names compared ignoring case), contributes nothing if there are fewer instances, and the canonicalized header data is the concatenation of the selected fields in h= order, each followed by CRLF.", "quantifier": "for all headers and all h= lists", "why_tests_cant": "The interplay of repeated names, repeated instances and letter case is combinatorial.", "anchors": ["src/canonicalize.rs: canonicalize_headers"]}
{"id": "C10", "title": "Unsigned header fields do not influence the signed data", "statement": "Adding, removing or reordering header fields whose names are not in h= leaves the canonicalized header data unchanged, and so does putting a further field of a listed name on top of the header as long as the name is listed no more often than it already occurs.", "quantifier": "for all headers, h= lists and inserted fields", "why_tests_cant": "Relational and unbounded in the number and position of inserted fields.", "anchors": ["src/canonicalize.rs: canonicalize_headers", "src/message_hash.rs: compute_data_hash"]}
{"id": "C11", "title": "Oversigned header fields cannot be added", "statement": "If h= mentions a name more often than it occurs, then adding another field of that name anywhere in the header changes the canonicalized header data.", "quantifier": "for all headers, h= lists, insertion positions and inserted fields", "why_tests_cant": "A security claim about every possible added field.", "anchors": ["src/canonicalize.rs: canonicalize_headers"]}
{"id": "C12", "title": "The data that is hashed determines the signed header fields", "statement": "If two computations of the header hash input with the same canonicalization yield the same bytes, then the sequences of selected header fields (in canonical form, for simple canonicalization literally) and the DKIM-Signature field are the same: no two different signed contents collide before hashing.", "quantifier": "for all pairs of headers, h= lists and signature fields", "why_tests_cant": "Injectivity over all pairs of messages cannot be sampled.", "anchors": ["src/canonicalize.rs: canonicalize_headers, canonicalize_header", "src/message_hash.rs: compute_data_hash"]}
{"id": "C13", "title": "Only the b= value is removed before verifying", "statement": "Before hashing, the verifier deletes from the DKIM-Signature value exactly the text between the equals sign of the b= tag and the following semicolon (or the end), and keeps every other character; two values that agree after the deletion differ at most in their b= values.", "quantifier": "for all DKIM-Signature values that are well-formed tag lists", "why_tests_cant": "Every arrangement of tags and whitespace; a slip here breaks interoperability or authenticates altered tags.", "anchors": ["src/verifier/verify.rs: make_original_dkim_sig", "src/tag_list.rs: strip_tag_name_and_equals"]}
{"id": "C14", "title": "Verifier reconstructs the header value the signer hashed", "statement": "For every signature produced by the signer, deleting the b= value from the final header value, as the verifier does, yields the very string that the signer hashed.", "quantifier": "for all accepted signing requests, messages, output formats (any line width, indentation, tag order) and signature bytes", "why_tests_cant": "Depends on the formatter's insertion index, line folding, tag ordering by an arbitrary comparator and the parser together.", "anchors": ["src/signer/format.rs: format_without_signature, insert_signature_data", "src/signer/sign.rs: produce_signature", "src/verifier/verify.rs: make_original_dkim_sig"]}
{"id": "C15", "title": "A generated signature header parses back to the generated signature", "statement": "The header value produced by the signer parses as a DKIM signature whose data equal the signature data returned alongside it (domain and selector up to IDNA-equivalent spelling).", "quantifier": "for all accepted signing requests and messages, all output formats", "why_tests_cant": "Round trip through formatter, folding, Quoted-Printable, Base64 and the parser for every request.", "anchors": ["src/signer/sign.rs: perform_signing", "src/signer/format.rs", "src/signature.rs: DkimSignature::from_str"]}
{"id": "C16", "title": "Signing then verifying succeeds", "statement": "A message signed by the signer, with the resulting header field put on top and otherwise unmodified, is verified with status Success for that signature, when the DNS returns a usable key record for the signing key and the verifier's policy accepts the signature.", "quantifier": "for all messages, accepted requests, body chunkings on both sides, output formats, keys and record answers satisfying the stated conditions", "why_tests_cant": "The end-to-end property quantifies over everything at once.", "anchors": ["src/signer/mod.rs: Signer", "src/verifier/mod.rs: Verifier"]}
{"id": "C17", "title": "Signing output is always a well-formed header field", "statement": "Converting a signing output to a header field never panics, and the header value consists of properly folded lines without bare CR, LF or other control characters, so no header injection is possible.", "quantifier": "for all accepted requests and messages", "why_tests_cant": "The documentation promises this for every output; it depends on every formatted component.", "anchors": ["src/signer/mod.rs: SigningOutput::to_header_field", "src/header.rs: FieldName::new, FieldBody::new", "src/signer/format.rs"]}
{"id": "C18", "title": "Quoted-Printable decoding inverts encoding", "statement": "Decoding the DKIM-Quoted-Printable encoding of any byte string, with or without ASCII-only mode and with or without an extra character to encode, gives back the byte string.", "quantifier": "for all byte strings (also invalid UTF-8), both modes, every extra character", "why_tests_cant": "All byte strings; partial UTF-8 sequences are the hard case.", "anchors": ["src/quoted_printable.rs: encode, encode_ascii_only, decode", "src/util.rs: next_utf8_chunk"]}
{"id": "C19", "title": "Quoted-Printable output is safe in a tag value", "statement": "The encoding contains no semicolon, whitespace or control character, does not contain the extra character, uses the equals sign only to start an uppercase hex pair, and is pure ASCII in ASCII-only mode.", "quantifier": "for all byte strings and options", "why_tests_cant": "A claim about every output character of every input.", "anchors": ["src/quoted_printable.rs: encode_internal, is_dkim_safe_char"]}
{"id": "C20", "title": "Base64 decoding is the exact inverse of encoding", "statement": "Decoding the Base64 encoding of any byte string gives it back, and a string is accepted by decoding only if it is the encoding of the result; the encoding of n bytes has the length the signer estimates.", "quantifier": "for all byte strings and all strings", "why_tests_cant": "Round trip and canonicity for all lengths and bit patterns.", "anchors": ["src/util.rs: encode_base64, decode_base64", "src/signer/sign.rs: estimate_b_tag_length"]}
{"id": "C21", "title": "Folding whitespace inside encoded tag values is harmless", "statement": "Inserting folding whitespace between characters of a Base64 value, or single folding whitespace between characters of a Quoted-Printable value (even inside a hex pair), does not change what the tag value decodes to.", "quantifier": "for all values and all insertion places", "why_tests_cant": "All subsets of positions; splitting inside an escape is easily missed.", "anchors": ["src/tag_list.rs: parse_base64_value, parse_quoted_printable_value", "src/quoted_printable.rs: decode, strip_hex_octet", "src/signer/format.rs: format_chunks_into_string"]}
{"id": "C22", "title": "The tag-list parser accepts exactly the grammar", "statement": "Parsing a tag list succeeds with a given list of names and values exactly if the text is generated by the RFC 6376 section 3.2 grammar with these names and values and no name occurs twice; a grammatical list with a repeated name is reported as duplicate.", "quantifier": "for all strings", "why_tests_cant": "Soundness and completeness against a grammar are statements about all strings.", "anchors": ["src/tag_list.rs: TagList::from_str, strip_tag_list, strip_tag_spec, strip_tag_value", "src/parse.rs: strip_fws"]}
{"id": "C23", "title": "Header field names and values are validated exactly", "statement": "A field name is accepted exactly if it is a non-empty string of printable ASCII characters other than colon. A field value is accepted exactly if it contains no control character except TAB and except CR LF pairs that are followed by a folded, non-blank continuation.", "quantifier": "for all strings and byte strings", "why_tests_cant": "An if-and-only-if over all inputs; one accepted bare LF would allow header injection.", "anchors": ["src/header.rs: FieldName::new, FieldBody::new, split_crlf"]}
{"id": "C24", "title": "Header blocks round-trip through parsing", "statement": "Writing header fields as name, colon, value, line break and parsing the block gives back the same header fields, with CRLF line breaks as well as with LF line breaks (then also inside folded values).", "quantifier": "for all non-empty lists of valid header fields with UTF-8 values", "why_tests_cant": "All headers with all foldings.", "anchors": ["src/header.rs: HeaderFields::from_str, split_header_field, is_continuation_line"]}
{"id": "C25", "title": "Name equality is a consistent equivalence", "statement": "Equality of header field names, of domain names and of selectors ignores ASCII letter case and nothing else, is an equivalence relation, and equal values hash equally.", "quantifier": "for all names", "why_tests_cant": "Laws over all pairs and triples; violation silently breaks hash sets.", "anchors": ["src/header.rs: FieldName PartialEq, Hash", "src/signature.rs: DomainName, Selector PartialEq, Hash"]}
{"id": "C26", "title": "Subdomain test respects label boundaries", "statement": "A domain is reported equal to or a subdomain of another exactly if, in ASCII form and ignoring case, its labels end with all the labels of the other; in particular notexample.com is not under example.com. The relation is reflexive and transitive.", "quantifier": "for all valid domain names (assuming the IDNA conversion laws)", "why_tests_cant": "A security-relevant suffix comparison over all pairs of domains.", "anchors": ["src/signature.rs: DomainName::eq_or_subdomain_of"]}
{"id": "C27", "title": "Domain names and selectors are validated exactly", "statement": "A domain name is accepted exactly if IDNA conversion succeeds both ways and its ASCII form has 1 to 253 characters consisting of dot-separated labels of 1 to 63 letters, digits, hyphens and underscores not starting or ending with a hyphen, with the last label not all digits (this last condition is not applied to selectors).", "quantifier": "for all strings (IDNA conversion as a parameter)", "why_tests_cant": "Exact acceptance over all strings.", "anchors": ["src/signature.rs: is_valid_domain_string, is_valid_dns_name, is_label"]}
{"id": "C28", "title": "Identities parse and print consistently", "statement": "An identity is accepted exactly if it is an optional local part (dot-string or quoted-string of at most 64 bytes), an at sign and a valid domain; printing an accepted identity gives back the text, and parsing a printed identity gives back the identity.", "quantifier": "for all strings", "why_tests_cant": "Grammar equivalence for all strings, including escapes and extra at signs.", "anchors": ["src/signature.rs: Identity::new, Display, is_local_part, is_quoted_string, is_dot_string"]}
{"id": "C29", "title": "Parsed signatures satisfy the DKIM invariants", "statement": "If a DKIM-Signature value parses, then v=1, a=, b=, bh=, d=, h= and s= were present, b and bh are not empty, h contains From and no name with a semicolon, the i= domain is the d= domain or below it, and the expiration is after the timestamp when both are given.", "quantifier": "for all strings", "why_tests_cant": "All inputs, including adversarial ones.", "anchors": ["src/signature.rs: DkimSignature::from_str, from_tag_list_internal"]}
{"id": "C30", "title": "Signature parsing depends only on the tags, not on their order", "statement": "Reordering the tags of a DKIM-Signature value does not change whether it parses nor any recognised field of the result; absent optional tags get their documented defaults; unrecognised tags are kept as extension tags in order and have no other effect.", "quantifier": "for all tag lists and all permutations", "why_tests_cant": "All permutations of all tag lists.", "anchors": ["src/signature.rs: from_tag_list_internal"]}
{"id": "C31", "title": "Failed signature parsing salvages the raw tags", "statement": "When a well-formed tag list is not a usable signature, the error carries exactly the raw a=, b=, d=, i= and s= values present in it; when the text is not a tag list, the error carries none.", "quantifier": "for all strings", "why_tests_cant": "All failing inputs.", "anchors": ["src/signature.rs: DkimSignature::from_tag_list, DkimSignatureError"]}
{"id": "C32", "title": "Numeric tags accept exactly decimal numbers that fit", "statement": "A value of l=, t= or x= is accepted exactly if it is a non-empty string of digits denoting a number below 2^64, and it denotes that number.", "quantifier": "for all strings", "why_tests_cant": "Exact acceptance over all strings; an unexpected leniency is not visible in sample inputs.", "anchors": ["src/signature.rs: from_tag_list_internal (l, t, x tags)"]}
{"id": "C33", "title": "Parsed key records satisfy the key record rules", "statement": "If a key record parses, then p= was present, v= (if present) was first and DKIM1, the hash algorithm and service type lists are not empty and contain only supported values named in the record, the key type is rsa unless k= says ed25519, and defaults apply for absent tags. Reordering tags other than v= does not matter.", "quantifier": "for all strings", "why_tests_cant": "All records, including adversarial ones.", "anchors": ["src/record.rs: DkimKeyRecord::from_str, from_tag_list, is_testing"]}
{"id": "C34", "title": "Signing preparation accepts exactly the valid request lists", "statement": "Preparing to sign succeeds exactly if the header has a From field, there are between one and ten requests and each request is valid; otherwise the reported error is that of the first violated rule in the documented order (missing From first, then the requests in order).", "quantifier": "for all headers and request lists", "why_tests_cant": "All request lists with all combinations of faults.", "anchors": ["src/signer/mod.rs: Signer::prepare_signing, validate_request"]}
{"id": "C35", "title": "Signing answers every request and never panics", "statement": "After successful preparation, signing returns exactly one result per request in request order, whatever body was fed, without any internal assertion failing; the only errors are insufficient body content for an exact length and failure of the signing primitive.", "quantifier": "for all prepared signers, bodies and chunkings", "why_tests_cant": "The asserts and expects in the signing path guard conditions established far away.", "anchors": ["src/signer/mod.rs: Signer::sign", "src/signer/sign.rs: perform_signing, produce_signature"]}
{"id": "C36", "title": "The signature data reflect the request", "statement": "The signature data returned for a request carry the requested algorithm, canonicalization, domain, selector, identity and extension tags, l= equal to the requested or actual body length or absent, t= and x= as requested, h= equal to the manual list or to all default header fields present from bottom to top, bh= equal to the hash of the canonicalized (limited) body, and z= listing exactly the signed header fields when requested.", "quantifier": "for all accepted requests and messages", "why_tests_cant": "All requests; each field may be dropped or mixed up independently.", "anchors": ["src/signer/sign.rs: perform_signing, select_signed_headers, prepare_copied_headers", "src/signer/mod.rs: select_headers, default_signed_headers"]}
{"id": "C37", "title": "Every accepted request yields a signature the library itself accepts", "statement": "For every request accepted by the signer, the produced header value parses as a DKIM signature.", "quantifier": "for all accepted requests and messages", "why_tests_cant": "Rare combinations (odd extension tags, odd header names in z=, extreme timestamps) are outside any test suite.", "anchors": ["src/signer/mod.rs: validate_request", "src/signer/format.rs: is_output_tag, format_tag_z", "src/signer/sign.rs: perform_signing"]}
{"id": "C38", "title": "One result per DKIM-Signature field, in order, up to the limit", "statement": "The verifier yields a verifier object exactly if the header has a DKIM-Signature field (and the limit is not zero), and then exactly one result for each of the first max_signatures such fields from the top, in header order, each with the index of its field, so indexes are unique and results never empty.", "quantifier": "for all headers, configurations, resolvers and bodies", "why_tests_cant": "All headers; counting and indexing errors show only in particular arrangements.", "anchors": ["src/verifier/header.rs: HeaderVerifier::find_signatures, verify_all", "src/verifier/mod.rs: Verifier::verify_header, finish"]}
{"id": "C39", "title": "Each signature is judged on its own", "statement": "The result for a DKIM-Signature field depends only on the header, the body, the configuration and the DNS answer for its own domain and selector: it is independent of the other signatures' outcomes, of the order in which the queries are answered and of sharing parsed key records between signatures.", "quantifier": "for all headers, configurations, DNS contents and all iteration orders of the internal maps", "why_tests_cant": "Quantifies over all interleavings and all other signatures.", "anchors": ["src/verifier/header.rs: verify_all, verify_task, CachedDkimKeyRecord", "src/verifier/query.rs: QueriesBuilder, Queries::spawn"]}
{"id": "C40", "title": "Success means everything was checked", "statement": "If a result has status Success, then the field parsed as a signature, passed every configured policy check, a key record tried for it parsed, has the right key type and allows the hash algorithm, is not revoked and permits the identity, its key is large enough, the cryptographic verification of the header hash succeeded with that key, and the body hash in the signature equals the hash of the canonicalized (limited) body.", "quantifier": "for all messages, configurations, DNS contents and cryptographic primitives", "why_tests_cant": "The soundness statement of a verifier: absence of any bypass.", "anchors": ["src/verifier/mod.rs: Verifier::finish, verify_body_hash", "src/verifier/header.rs: validate_signature, verify_task, validate_key_record, read_verifying_key, validate_verifying_key", "src/verifier/verify.rs: perform_verification"]}
{"id": "C41", "title": "All usable key records are tried", "statement": "Of the TXT records returned, the first two and the last are tried in order; the signature's header verification succeeds exactly if one of these verifies it, the reported key record is the first one that verifies, and otherwise the failure of the last tried record is reported.", "quantifier": "for all answers with any number of records", "why_tests_cant": "All sequences of good and bad records.", "anchors": ["src/verifier/query.rs: look_up_records", "src/verifier/header.rs: verify_task"]}
{"id": "C42", "title": "Forbidden-to-be-unsigned headers are completely covered", "statement": "If a signature verifies successfully and the configuration lists a header name as forbidden to be unsigned (by default From), then every field of that name in the message is part of the data that was verified; in particular an added second From field makes the signature fail.", "quantifier": "for all messages, signatures and configurations", "why_tests_cant": "The security property behind the policy, for every message.", "anchors": ["src/verifier/header.rs: validate_signed_headers", "src/canonicalize.rs: canonicalize_headers", "src/verifier/mod.rs: Config::default"]}
{"id": "C43", "title": "Time checks are exact", "statement": "Unless allowed by configuration, a signature is rejected as expired exactly if the current time is at or after expiration plus tolerance, and as from the future exactly if its timestamp is later than current time plus tolerance, also for extreme values.", "quantifier": "for all 64-bit times, tolerances and configurations", "why_tests_cant": "Saturating arithmetic at the extremes of 64-bit values.", "anchors": ["src/verifier/header.rs: validate_signature", "src/verifier/mod.rs: Config::current_timestamp"]}
{"id": "C44", "title": "Keys smaller than the limits never verify", "statement": "A signature never verifies with an RSA key whose modulus has fewer bits than 1024 (512 with feature pre-rfc8301) or than the configured minimum.", "quantifier": "for all RSA moduli and configurations", "why_tests_cant": "All key sizes, including ones not a multiple of eight.", "anchors": ["src/crypto/rsa.rs: get_public_key_size, MIN_KEY_BITS", "src/crypto/mod.rs: VerifyingKey::key_size, validate_min_key_size", "src/verifier/header.rs: read_verifying_key, validate_verifying_key"]}
{"id": "C45", "title": "Unsigned body content is reported when forbidden", "statement": "With forbid_unsigned_content set, a signature with an l= smaller than the canonicalized body never succeeds and, if otherwise verified, fails with the unsigned-content policy error; without the flag, content beyond l= has no influence on the result; an l= larger than the canonicalized body always fails with insufficient content.", "quantifier": "for all bodies, limits and chunkings", "why_tests_cant": "All combinations of limit, body length and chunking.", "anchors": ["src/verifier/mod.rs: verify_body_hash, Config::forbid_unsigned_content", "src/message_hash.rs: BodyHasher"]}
{"id": "C46", "title": "DKIM result mapping is total and faithful", "statement": "The RFC 8601 result is pass exactly for Success, temperror exactly for timeouts and lookup failures, policy exactly for policy errors, fail exactly for cryptographic failure or body hash mismatch; none is never returned.", "quantifier": "for all verification statuses", "why_tests_cant": "Small but must hold for every combination of nested error kinds.", "anchors": ["src/verifier/mod.rs: VerificationStatus::to_dkim_result"]}
{"id": "C47", "title": "Lookup timeout is enforced", "statement": "When a key record lookup takes longer than the configured lookup_timeout, the signature evaluation fails with a timeout (temporary) error.", "quantifier": "for all resolvers, delays and configurations", "why_tests_cant": "Timing behaviour for all delays; the test module is disabled in this repository.", "anchors": ["src/verifier/mod.rs: Config::lookup_timeout", "src/verifier/query.rs: spawn_all"]}
{"id": "C48", "title": "DNS queries are exactly the needed ones", "statement": "For every distinct pair of domain and selector (in ASCII form) among the signatures that passed the initial checks exactly one TXT query is made, for selector._domainkey.domain with a trailing dot, and no other query is made.", "quantifier": "for all headers and configurations", "why_tests_cant": "All multisets of signatures.", "anchors": ["src/verifier/query.rs: add_lookup, spawn_all, look_up_records"]}
{"id": "C49", "title": "Folded output respects the line width", "statement": "In the produced header, every line is at most the configured line width plus one character long, unless a single unbreakable item together with the indentation is itself longer.", "quantifier": "for all requests, widths and indentations", "why_tests_cant": "Cursor arithmetic over all lengths of all items.", "anchors": ["src/signer/format.rs: format_without_signature, advance_i, advance_i_initial, format_chunks_into_string, format_tag_name_b, insert_signature_data"]}
{"id": "C50", "title": "Internal panics are unreachable in verification", "statement": "Verifying never panics: every accepted task ends as failed or successful, body hash results exist for all successful ones, length conversions cannot overflow, and the body canonicalizer never reaches its unreachable states.", "quantifier": "for all messages, configurations, DNS contents and bodies", "why_tests_cant": "Unreachability is a statement about all executions.", "anchors": ["src/verifier/mod.rs: verify_header, finish, verify_body_hash", "src/message_hash.rs: body_hasher_key", "src/canonicalize.rs: unreachable!()", "src/crypto/hash.rs: CountingHasher::update assert"]}
{"id": "C51", "title": "Algorithm and canonicalization names round-trip", "statement": "Parsing the canonical name of a signing algorithm, canonicalization algorithm or canonicalization pair gives back the value, parsing ignores letter case and accepts nothing else (a single canonicalization name means that header algorithm with simple body).", "quantifier": "for all values and all strings", "why_tests_cant": "Exact acceptance over all strings.", "anchors": ["src/signature.rs: SigningAlgorithm, CanonicalizationAlgorithm, Canonicalization"]}
{"id": "C52", "title": "SHA-1 is unusable unless enabled twice", "statement": "Without feature pre-rfc8301 no signature with SHA-1 ever parses as usable and no key record enables it; with the feature, signatures using SHA-1 still fail with a policy error unless the configuration allows SHA-1.", "quantifier": "for all messages and configurations, both build variants", "why_tests_cant": "Absence of any path to acceptance.", "anchors": ["src/signature.rs: SigningAlgorithm::from_str, from_tag_list_internal", "src/record.rs: from_tag_list", "src/verifier/header.rs: validate_signature"]}
{"id": "C53", "title": "Tampering invalidates unless hashes collide", "statement": "If a verified message is changed in a signed header field's canonical form, in the tags of the signature other than b=, or in the canonicalized (limited) body, and the signature still succeeds with the same b= value and key, then either two different inputs of the hash function with equal output have been exhibited or the signature primitive accepted the same signature for a different hash.", "quantifier": "for all pairs of messages", "why_tests_cant": "A reduction argument over all pairs of messages.", "anchors": ["src/verifier/verify.rs: perform_verification", "src/verifier/mod.rs: verify_body_hash", "src/message_hash.rs"]}
{"id": "C54", "title": "The error for an unusable signature names its first defect", "statement": "When a text does not parse as a DKIM signature, the reported error kind is that of the first defect: a malformed tag list; else the first tag (in order of appearance) whose value is not acceptable, with the kind belonging to that tag and defect; else the first missing required tag in the order v, a, b, bh, d, h, s; else an i= domain outside d=; else an expiration not after the timestamp.", "quantifier": "for all texts, IDNA implementations and feature settings", "why_tests_cant": "All orders of tags combined with all defects are infinitely many; tests check one defect at a time.", "anchors": ["src/signature.rs: DkimSignature::from_tag_list_internal", "src/signature.rs: DkimSignature::from_str"]}
{"id": "C55", "title": "The error for an unusable key record names its first defect", "statement": "When a text does not parse as a key record, the reported error kind is that of the first defect: a malformed tag list; else the first tag in order of appearance that is a misplaced or wrong version tag or has an unacceptable value; else the missing p= tag.", "quantifier": "for all texts and feature settings", "why_tests_cant": "As for C54.", "anchors": ["src/record.rs: DkimKeyRecord::from_tag_list", "src/record.rs: DkimKeyRecord::from_str"]}
{"id": "C56", "title": "Reading a signature does not depend on folding", "statement": "If two texts have the same words, separated by possibly different folding whitespace, then one is a DKIM signature exactly if the other is, and both denote the same signature (extension tag values up to the same refolding).", "quantifier": "for all pairs of texts", "why_tests_cant": "Whitespace may be changed at any number of places in any text.", "anchors": ["src/tag_list.rs: TagList::from_str", "src/signature.rs: DkimSignature::from_tag_list_internal", "src/quoted_printable.rs: decode", "src/parse.rs"]}
{"id": "C57", "title": "Verification sees only canonical content", "statement": "The verification result for a DKIM-Signature field is the same for two messages if the field, its position and the occurrences of the configured header names are the same, the selected header fields have the same canonical forms and the bodies have the same canonical form.", "quantifier": "for all pairs of messages, configurations, resolvers and clocks", "why_tests_cant": "Quantifies over all pairs of messages and all combinations of other signatures.", "anchors": ["src/verifier/mod.rs: Verifier", "src/verifier/header.rs: verify_all, verify_task", "src/message_hash.rs"]}
{"id": "C58", "title": "A stricter configuration never accepts more", "statement": "If a signature has status Success under a configuration, it also has status Success under every configuration that is nowhere stricter (fewer required headers, fewer headers forbidden to be unsigned, smaller minimum key size, larger tolerance, more allowances, and at least as many signatures evaluated).", "quantifier": "for all messages, resolvers, clocks and pairs of configurations", "why_tests_cant": "Monotonicity over all pairs of configurations.", "anchors": ["src/verifier/mod.rs: Config", "src/verifier/header.rs: verify_all, verify_task", "src/verifier/header.rs: validate_signature"]}
{"id": "C59", "title": "Validity in time is an interval", "statement": "With everything else equal, the times at which a signature is accepted form an interval: if it has status Success at two times then also at every time in between; and once it is rejected as expired it is not accepted at any later time.", "quantifier": "for all messages, configurations, resolvers and times", "why_tests_cant": "Quantifies over all triples of times.", "anchors": ["src/verifier/header.rs: validate_signature", "src/verifier/mod.rs: Config"]}
{"id": "C60", "title": "Signing requests do not influence each other", "statement": "The result for a request depends only on the header, the body, the time at which it is evaluated and the request itself, not on the other requests, their number, order or errors.", "quantifier": "for all headers, bodies, chunkings and request lists", "why_tests_cant": "Body hashes are shared between requests by way of a hash set; interference could only show for particular combinations.", "anchors": ["src/signer/mod.rs: Signer::sign", "src/message_hash.rs"]}
{"id": "C61", "title": "Signing and verifying may stop when done", "statement": "Once Signer::process_body_chunk or Verifier::process_body_chunk has returned Done, leaving out all further chunks does not change the results.", "quantifier": "for all messages, requests, configurations and chunkings", "why_tests_cant": "Whether Done is returned too early depends on all requests or signatures together.", "anchors": ["src/signer/mod.rs: Signer::process_body_chunk", "src/verifier/mod.rs: Verifier::process_body_chunk"]}
{"id": "C62", "title": "All signatures of a signing run verify together", "statement": "If all requests of a signing run succeed and all resulting fields are put on top of the message (in any order), then each of them is verified with status Success, under the conditions of C16 for each request and if the limit on the number of signatures allows.", "quantifier": "for all messages, request lists and orders", "why_tests_cant": "Quantifies over all request lists; the added fields change the header that the other signatures see.", "anchors": ["src/signer/mod.rs: Signer::sign", "src/verifier/mod.rs: Verifier"]}
{"id": "C63", "title": "Produced signature data satisfy the DKIM invariants", "statement": "For every successful signing result: the signed headers are valid names without semicolon and include From, the identity is under the signing domain, the signature and body hash are not empty, the body length is at most the length of the canonicalized body, and the expiration, if any, is after the timestamp.", "quantifier": "for all headers, bodies, requests and clocks", "why_tests_cant": "Quantifies over all requests.", "anchors": ["src/signer/mod.rs: Signer::sign", "src/signer/mod.rs: validate_request"]}
{"id": "C64", "title": "Tags appear in the requested order", "statement": "The tags of the produced header value are exactly v, d, s, a, h, bh, b, those of i, c, l, t, x, z that apply, and the extension tags, each once; without a custom comparator they come in the documented default order with the extension tags last in request order, and with a comparator in the order in which it sorts this list.", "quantifier": "for all requests", "why_tests_cant": "Quantifies over all requests and comparators.", "anchors": ["src/signer/format.rs: compute_tag_names", "src/signer/format.rs: format_without_signature"]}
{"id": "C65", "title": "ASCII-only output is ASCII", "statement": "With ascii_only set, the produced header value contains only ASCII characters.", "quantifier": "for all accepted requests with ascii_only and all messages", "why_tests_cant": "Quantifies over all domains, identities, header values and extension tags.", "anchors": ["src/signer/format.rs", "src/signer/mod.rs: OutputFormat::ascii_only", "src/quoted_printable.rs: encode_ascii_only"]}
{"id": "C66", "title": "Canonicalization does not amplify", "statement": "The canonical form of a body is at most two bytes longer than the body; the relaxed canonical form of a header field is never longer than the field; and the canonicalized header data is never longer than all the fields of the header together with a colon and CRLF each.", "quantifier": "for all bodies and headers, h= lists of any length", "why_tests_cant": "Size bounds over all inputs; an amplification would be a denial-of-service risk.", "anchors": ["src/canonicalize.rs", "src/message_hash.rs"]}
{"id": "C67", "title": "Verification work is bounded", "statement": "In every verification run the number of results is at most max_signatures, the number of DNS queries is at most the number of results, each name is queried at most once, and at most three key records of each answer can influence the results.", "quantifier": "for all headers, bodies, resolvers and configurations", "why_tests_cant": "Bounds over all inputs, including hostile ones.", "anchors": ["src/verifier/header.rs: find_signatures", "src/verifier/query.rs: spawn_all", "src/verifier/verify.rs"]}
{"id": "C68", "title": "The Quoted-Printable decoder accepts exactly its grammar", "statement": "Decoding succeeds with given bytes exactly if the text, after removal of folding whitespace, is a sequence of printable characters other than semicolon and equals sign, each standing for its UTF-8 encoding, and of equals signs followed by two hexadecimal digits, and whitespace occurs only as folding whitespace.", "quantifier": "for all texts", "why_tests_cant": "Quantifies over all texts.", "anchors": ["src/quoted_printable.rs: decode", "src/quoted_printable.rs: decode_qp_section"]}
{"id": "C69", "title": "Neutral and permerror are reported exactly for their causes", "statement": "The RFC 8601 result is neutral exactly if the signature text or the decisive key record text cannot be interpreted (not UTF-8, not a tag list, an unreadable or unsupported value, a body length that does not fit the machine), and permerror exactly if they can be interpreted but rule out a valid signature: a required tag is missing or empty, the algorithm is historic, From is not signed, the identity is outside the domain, the signature expires before it is made, no key is found, the key name is invalid, the key is of the wrong type, revoked, unreadable, too short, not for this hash or not for subdomains, or the body is shorter than the signed length.", "quantifier": "for all verification results", "why_tests_cant": "It is a decision table over about fifty nested error values, including those that tests rarely produce.", "anchors": ["src/verifier/mod.rs: VerificationStatus::to_dkim_result"]}
{"id": "C70", "title": "One usable key record among those tried is enough", "statement": "If a signature verifies with a key record, then it also verifies with any DNS answer in which that record stands first, second or last, whatever the other records are.", "quantifier": "for all answers", "why_tests_cant": "Quantifies over all lists of records, including malformed ones.", "anchors": ["src/verifier/header.rs: verify_all, verify_task", "src/verifier/query.rs"]}
{"id": "C71", "title": "Continuation lines are indented as configured", "statement": "The produced header value consists of lines separated by CRLF, and every line after the first, except for those inside extension tag values, starts with the configured indentation followed by a character that is not whitespace.", "quantifier": "for all requests", "why_tests_cant": "Quantifies over all requests and widths.", "anchors": ["src/signer/format.rs"]}
{"id": "C72", "title": "Only the relevant parts of a key record matter", "statement": "Two key records with the same key type, key data, hash algorithms and restriction to the exact domain lead to the same verification status; in particular the testing flag, notes, service types and unknown tags have no influence on it.", "quantifier": "for all messages and pairs of key records", "why_tests_cant": "Quantifies over all pairs of records.", "anchors": ["src/verifier/verify.rs: verify_signature", "src/record.rs"]}
{"id": "C73", "title": "Private keys are loaded exactly from PKCS #8 documents", "statement": "Loading a signing key succeeds exactly if the text is a PEM document labelled as private key whose content is private key info that can be read as RSA key, or else as Ed25519 key; otherwise the error names the first step that failed.", "quantifier": "for all texts and all behaviours of the decoding crates", "why_tests_cant": "Decision logic over all outcomes of the steps.", "anchors": ["src/crypto/mod.rs: SigningKey::from_pkcs8_pem"]}
{"id": "C74", "title": "The resolver adapter passes on answers faithfully", "statement": "The adapter for the DNS resolver reports an unusable name as invalid input, absence of records as not found (so that the verifier reports that no key was found), any other failure as itself, and otherwise the records, each with its character-strings concatenated, in order.", "quantifier": "for all answers of the resolver", "why_tests_cant": "Decision logic over all answers.", "anchors": ["src/verifier/lookup/hickory_resolver.rs"]}
{"id": "C75", "title": "Without changes to signed content, other signatures and unsigned fields do not matter", "statement": "A signature that has status Success keeps it when header fields not listed in h= and not forbidden to be unsigned are added, removed or changed (within the signature limit), whatever they contain, and when fields with different names change places.", "quantifier": "for all messages and changes", "why_tests_cant": "Quantifies over all additions, among them malformed signatures.", "anchors": ["src/verifier/mod.rs", "src/message_hash.rs"]}
{"id": "C76", "title": "Cutting text at byte offsets never panics", "statement": "Wherever the code cuts a string or byte slice at a computed offset (tag list parsing, Quoted-Printable decoding and encoding, splitting of header field bodies into lines, removal of the b= value, folding of long values), the offset is in range and on a character boundary, no subtraction underflows and no conversion to a byte fails, whatever the input; and the result is the intended part of the text.", "quantifier": "for all strings and byte sequences", "why_tests_cant": "Offsets inside multi-byte characters depend on every combination of characters, whitespace and position in the input.", "anchors": ["src/parse.rs:19-22", "src/tag_list.rs:79-144", "src/quoted_printable.rs:48-232", "src/util.rs:118-134", "src/header.rs:191-206", "src/verifier/verify.rs:53-87", "src/signer/format.rs:490-530"]}
{"id": "C77", "title": "Reading a key record does not depend on folding", "statement": "If a text is a DKIM key record, then a text with the same words separated by possibly different folding whitespace (spaces, tabs, line breaks followed by whitespace) is a key record exactly if there is no line break in its notes (n=, which is a qp-section of RFC 2045, where line breaks are not allowed). In that case both records have the same hash algorithms, key type, key data, service types and flags, their notes and extension tag values differ at most in whitespace, and a verifier reaches the same result with either.", "quantifier": "for all texts of key records and all refoldings of them", "why_tests_cant": "Whitespace can be inserted, lengthened or broken at every position between words, in every combination of tags.", "anchors": ["src/record.rs:160-308", "src/tag_list.rs:79-215", "src/quoted_printable.rs:48-140", "src/parse.rs:14-60"]}
{"id": "C78", "title": "What is signed with the default header selection verifies", "statement": "A message signed with a request that leaves header selection and timestamp at their default (automatic, now), has no local part in the identity, no fixed body length, no extension tag q= and does not use SHA-1 is verified successfully in the default configuration when the signature is put on top (or below other added fields that are not signed by default, and below fewer than ten signatures), in the time from five minutes before signing to five minutes after expiration, if the key is published; the exceptions of C16 do not occur. A request with all settings at their default is accepted for every message with a From field, and signing fails only if the RSA primitive fails.", "quantifier": "for all messages, requests of this kind, chunkings, times and keys", "why_tests_cant": "Header fields, canonicalizations, formats, copied fields and chunkings can be combined without limit.", "anchors": ["src/signer/mod.rs:289-325", "src/signer/sign.rs:64-193", "src/verifier/mod.rs:602-720", "src/verifier/verify.rs:28-128"]}
{"id": "C79", "title": "The example programs work together", "statement": "The example program dkimsign signs every message that consists of valid header fields with LF line ends, one of them From, an empty line and any body (with valid arguments and key file; only the RSA primitive can fail); its output, put in front of the message, makes a message of which dkimverify reports that the first signature is verified, if the key is published. Both programs panic if the input has no empty line made of two LF, in particular for every message with CRLF line ends.", "quantifier": "for all texts on standard input, key files, arguments and times", "why_tests_cant": "Messages are arbitrary texts; line breaks are converted back and forth.", "anchors": ["examples/dkimsign.rs:34-84", "examples/dkimverify.rs:20-57", "src/header.rs:279-321"]}
{"id": "C80", "title": "A result shows the signature and the key record it is about", "statement": "A verification result contains a signature exactly if its header field is a well-formed signature, and then it is the one of that field. It contains a key record exactly if the status is success or an error about a key record that could be read or about the body; this key record is one of the first two or the last record of the DNS answer for the signature's name.", "quantifier": "for all messages, configurations, resolvers and times", "why_tests_cant": "All combinations of fields, records and defects would have to be tried.", "anchors": ["src/verifier/mod.rs:593-736", "src/verifier/verify.rs:28-128", "src/verifier/query.rs:36-170"]}
{"id": "C81", "title": "Temporary errors are exactly failed lookups", "statement": "The result of a signature is temperror exactly if the signature passes the checks made before the lookup and the lookup failed for a reason other than that the name does not exist or is invalid. Nothing in the message or in a key record leads to temperror.", "quantifier": "for all messages, configurations, resolvers and times", "why_tests_cant": "That no message and no record leads to temperror is a claim about all of them.", "anchors": ["src/verifier/mod.rs:203-274", "src/verifier/mod.rs:397-412", "src/verifier/query.rs:36-170"]}
{"id": "C82", "title": "The results are exactly the specified ones", "statement": "For each DKIM-Signature field that is evaluated there is exactly one result that the specification allows (the first failing check in the order of the specification decides), and the verifier produces this one, at the index of the field.", "quantifier": "for all messages, chunkings, configurations, resolvers and times", "why_tests_cant": "Agreement with a specification on all inputs cannot be tested.", "anchors": ["src/verifier/mod.rs:593-736", "src/verifier/header.rs:57-490", "src/verifier/verify.rs:28-128"]}
{"id": "C83", "title": "Debug output of byte strings is unambiguous", "statement": "The debug output of a byte string (header values, copied header values) never panics and reads back as the same bytes according to Rust's notation, whatever text follows it, so that different byte strings are never shown alike and content cannot fake the closing quote. It contains no control characters (given that the standard library takes none for printable), and printable text without quotes and backslashes is shown as it is. Key and signature data are shown as Base64, from which they can be recovered.", "quantifier": "for all byte strings and following texts", "why_tests_cant": "Ill-formed UTF-8 and escapes can be mixed in any way.", "anchors": ["src/util.rs:53-134", "src/header.rs:185-189"]}
{"id": "C84", "title": "Messages and result names identify what they stand for", "statement": "The message of a verification error together with the message of its source are the same for two errors exactly if these are the same error, apart from the raw tags salvaged from an unusable signature. Errors of signing requests, of signing and of reading key files have different messages. The names of results are those of RFC 8601.", "quantifier": "for all pairs of errors, for all results", "why_tests_cant": "Each pair of errors would have to be compared; salvaged data are arbitrary.", "anchors": ["src/verifier/mod.rs:319-396", "src/verifier/mod.rs:464-482", "src/signature.rs:698-777", "src/record.rs:112-130", "src/crypto/mod.rs:180-336", "src/signer/mod.rs:173-394"]}
{"id": "C85", "title": "Printed names make a key record that reads back", "statement": "A key record written with the names that the library prints for hash algorithms, key types, service types and flags, with Base64 key data and encoded notes, is read as the same record, for every record with non-empty lists, no SHA-1 unless enabled, and well-formed further tags with different names that are not the known ones. Every record that can be read is of this kind.", "quantifier": "for all key records and texts", "why_tests_cant": "Records have lists of any length, arbitrary notes and further tags.", "anchors": ["src/record.rs:40-89", "src/record.rs:160-308", "src/crypto/mod.rs:102-170"]}
{"id": "C86", "title": "A failure is only reported for a reason", "statement": "Whatever a failed verification result says is true: the reported signature error is a defect of the field; a policy error, an overflow, a missing or unusable answer, a wrong or revoked key, a disallowed hash, a domain mismatch, an invalid or small key, a failed signature check, missing, unsigned or altered content is reported only if the signature, the DNS answer, the reported key record or the body is indeed so.", "quantifier": "for all messages, chunkings, configurations, clocks, resolvers and results", "why_tests_cant": "There are more than twenty kinds of failure, and each depends on an arbitrary message, configuration and DNS answer.", "anchors": ["src/verifier/header.rs:89-490", "src/verifier/query.rs:36-170", "src/verifier/verify.rs:28-128", "src/verifier/mod.rs:337-412"]}
{"id": "C87", "title": "The default settings guarantee what they are meant to", "statement": "With the default configuration, a successful result means that every From field is part of the verified data, that the signature is not expired and not from the future by more than five minutes, does not use SHA-1 and is not by an RSA key of less than 1017 bits; there is one result for each of the first ten signatures, and nothing else is objected to by policy: not unsigned trailing content nor the choice of signed fields, nor times within five minutes, nor keys of 1024 bits or more. A signature made with the default request settings is in a field named DKIM-Signature with lines of at most 79 characters (except single items), relaxed/simple, over the whole body, with the current time as timestamp and an expiration five days later.", "quantifier": "for all messages, DNS contents, clocks, keys, domains and selectors", "why_tests_cant": "Guarantees of a configuration quantify over all messages; tests check only that some messages are accepted or rejected.", "anchors": ["src/verifier/mod.rs:150-168", "src/signer/mod.rs:289-325", "src/signer/mod.rs:191-232"]}
{"id": "C88", "title": "Hash map order and chunking do not influence results", "statement": "The results of verification and of signing do not depend on the iteration order of the hash map of lookups and of the hash set of body hasher keys, nor on the division of the body into chunks; the DNS names asked are the same up to their order.", "quantifier": "for all lawful iteration orders, messages, configurations, requests, resolvers and chunkings", "why_tests_cant": "Iteration order is randomised per process, so that a test run sees one order only.", "anchors": ["src/verifier/query.rs:33-90", "src/message_hash.rs:87-290", "src/verifier/header.rs:143-173", "src/signer/mod.rs:539-634"]}
{"id": "C89", "title": "Content appended to a message", "statement": "When something is appended to a body that ends with CRLF, the canonical form is continued, and it stays the same exactly if only blank lines are appended (empty lines for simple, lines of whitespace for relaxed, each ended with CRLF). A successful signature with l= goes on to succeed whatever is appended, unless unsigned content is forbidden; then it succeeds exactly if only blank lines are appended, and otherwise fails with the unsigned-content policy error. A successful signature without l= goes on to succeed if only blank lines are appended, and otherwise fails with a body hash mismatch, unless two different inputs with the same hash have been found.", "quantifier": "for all messages, chunkings, appended texts, configurations and DNS contents", "why_tests_cant": "The appended text is arbitrary and may interact with pending line ends of the canonicalizer.", "anchors": ["src/canonicalize.rs:125-356", "src/message_hash.rs:87-290", "src/verifier/mod.rs:666-704"]}
{"id": "C90", "title": "Body verdicts agree with RFC 6376 exactly for regular bodies", "statement": "Body canonicalization does what RFC 6376 says exactly if the body is regular: for simple, empty or not made of CRLFs only; for relaxed, without whitespace alone behind the last CRLF. Every body that ends with CRLF and is not made of CRLFs only is regular. For regular bodies, when everything about the header is in order, the status is that of RFC 6376: success exactly if the hash of the canonical form according to RFC 6376 (of its first l= bytes) is the one in the signature. For bodies that are not regular, messages signed according to RFC 6376 are rejected.", "quantifier": "for all messages, chunkings, signatures, configurations and DNS contents", "why_tests_cant": "Agreement with an independent specification on all bodies cannot be sampled; the deviations are at edges that tests of the library itself encode as correct.", "anchors": ["src/canonicalize.rs:125-356", "src/message_hash.rs:87-290", "src/verifier/mod.rs:666-704"]}
{"id": "C91", "title": "Names asked are well-formed DNS names", "statement": "Every name that the verifier asks the DNS for is absolute, consists of the labels of the selector, the label _domainkey and the labels of the domain in ASCII form, each of 1 to 63 letters, digits, hyphens and underscores, not starting or ending with a hyphen, the last one not all digits, and has at most 254 characters with the final dot.", "quantifier": "for all headers, configurations, resolvers and times", "why_tests_cant": "Names come from message text under the control of an attacker; tests use a few harmless names.", "anchors": ["src/verifier/query.rs:33-90", "src/signature.rs:60-283", "src/verifier/header.rs:143-173"]}
{"id": "C92", "title": "The tag values written are exactly those specified", "statement": "In the header value that signing produces, every tag has exactly the value that belongs to the signature of the output: v is 1; a the algorithm name; c the shortest name of the pair of algorithms; d and s the name in Unicode form or, with ascii_only, in ASCII form, but as given if it differs from this form only in letter case; i the local part in DKIM-Quoted-Printable, an at sign, and the domain in the same form; l, t and x decimal numbers; and, up to folding whitespace, h the signed names joined with colons, b and bh Base64, and z the copied fields as name, colon and encoded value joined with bars. In DKIM-Quoted-Printable exactly the characters that need not be encoded are written as they are.", "quantifier": "for all headers, requests, bodies, chunkings and clocks, and all conforming IDNA conversions", "why_tests_cant": "Reading the value back with the parser does not tell apart the forms of a name or unnecessary encoding; the unit tests check a few outputs.", "anchors": ["src/signer/format.rs:80-462", "src/quoted_printable.rs:38-84", "src/signature.rs:95-104", "src/signature.rs:176-185"]}
{"id": "C93", "title": "The lines of the produced header are filled", "statement": "The produced header value is the text in which the words of the tags, in the order of the tags, are put into lines one after the other behind the name of the field and a colon: a word goes into the current line if it fits within the line width, else into a new line behind the indentation. Words are whole tags with semicolon; for h the names with colons; for b, bh and z the tag name with the first header name in z, then the single characters of the value, where b= and bh= need room for one more character, and bars and names in z, and the final semicolon needs no room. So a line is never broken where there was room, and the header has only one line if the line width is large enough. (Excepted: a custom order puts an extension tag with line breaks in its value before b, see C49.)", "quantifier": "for all requests, widths, indentations, headers, bodies, chunkings and clocks", "why_tests_cant": "The value of b is put in after the rest has been laid out with an estimated length, and cursor arithmetic goes over all lengths of all items; the tests check a few outputs.", "anchors": ["src/signer/format.rs:139-206", "src/signer/format.rs:302-561"]}
{"id": "C94", "title": "Signing sees only canonical content", "statement": "A signing request gets the same result for two messages at the same time if the same header names are to be signed, the header fields selected for these names have the same canonical forms, the bodies have the same canonical form and, if header fields are copied into the signature, the same fields are copied. Nothing else of the message has an influence on the result.", "quantifier": "for all pairs of messages, request lists, positions of the request, chunkings and clocks", "why_tests_cant": "It is a relation between all pairs of messages; tests compare a few changed messages.", "anchors": ["src/signer/mod.rs:539-632", "src/signer/sign.rs:36-212", "src/message_hash.rs:32-75"]}
{"id": "C95", "title": "Signatures added on several hops verify together", "statement": "If a message was signed repeatedly on its way, each time with the resulting field put on top of the header as it then was, possibly with further fields added in between, then in one verification of the final message all of these signatures have status Success, under the conditions of C16 for each of them and as far as the limit on the number of signatures allows; also if a signature covers the signature fields below it.", "quantifier": "for all messages, numbers of hops, requests, added fields, chunkings and clocks", "why_tests_cant": "Unboundedly many hops, each seeing a header that contains the output of the earlier ones.", "anchors": ["src/signer/mod.rs:539-632", "src/verifier/mod.rs:602-735", "src/message_hash.rs:32-75"]}
{"id": "C96", "title": "Lookups are concurrent and waiting is bounded", "statement": "DNS requests for the key records of a message are made concurrently and each is given up after lookup_timeout: verification of the header ends, and does so when the longest of the lookups has been answered or given up. (The code violates this: it awaits the lookups one after the other and without limit; the exact waiting time, and the exact condition under which the property holds, are proved instead.)", "quantifier": "for all headers, configurations, resolvers and durations, including resolvers that never answer", "why_tests_cant": "Durations and numbers of lookups are unbounded, and waiting for ever cannot be observed by a test.", "anchors": ["README.md: Design objectives", "src/verifier/mod.rs: verify_header", "src/verifier/query.rs: spawn_all"]}
{"id": "C97", "title": "A signature protects its own content", "statement": "If two signatures with the same signature value are both verified successfully with the same public key, then they mean the same: same domain, selector, identity, algorithm, canonicalization, signed header names, body hash, body length, timestamp, expiration and copied header fields, and extension tags with the same names and values (up to whitespace with relaxed canonicalization). Otherwise two different inputs of the header hash with the same hash, or one signature value accepted for two hashes, have been exhibited.", "quantifier": "for all pairs of messages, configurations, times and DNS answers", "why_tests_cant": "Quantifies over all pairs of messages and all ways to rewrite a signature field.", "anchors": ["src/verifier/header.rs: verify", "src/message_hash.rs: compute_data_hash", "src/signature.rs: DkimSignature"]}
{"id": "C98", "title": "What verifies has been signed", "statement": "If a signature is verified successfully with a public key, then the owner of the key has made a signature with this library that means the same, for a message with the same signed header fields (in canonical form) and the same signed part of the body. Otherwise a collision of the hash function between this message and one the owner signed has been exhibited, or the key accepted a signature of a hash that the owner never signed (a forgery).", "quantifier": "for all messages, configurations, times, DNS answers, and all sets of signatures made by the owner (that the library can read, see C37)", "why_tests_cant": "Ranges over all messages an attacker might construct and all histories of signing.", "anchors": ["src/verifier/mod.rs: verify_header, finish", "src/signer/mod.rs: prepare_signing, sign", "src/message_hash.rs"]}
{"id": "C99", "title": "Each signature is judged by the answer to its own question", "statement": "Even if the DNS answers the same name differently at different times: there is one question for each pair of domain and selector, signatures with the same pair share one answer, and the result for each signature is the one specified for the answer that its own question received; an answer never influences a signature with another domain or selector. If a question is never answered, no later one is asked.", "quantifier": "for all messages, configurations, clocks, bodies, and all DNS behaviours that depend on the number of questions asked before", "why_tests_cant": "Quantifies over all histories of the DNS; tests use a resolver with fixed answers.", "anchors": ["src/verifier/query.rs: Queries::spawn, spawn_all", "src/verifier/header.rs: HeaderVerifier::verify_all", "src/verifier/lookup/mod.rs: LookupTxt"]}
{"id": "C100", "title": "Signatures in the grammar of the RFC are read as what they mean", "statement": "Every text that is generated by the ABNF of RFC 6376, section 3.5 (with the algorithms of RFC 8463) as the value of a DKIM-Signature header field, with any permitted folding whitespace, letter case, order of tags and encoded characters, is parsed successfully, and the parsed data are what the RFC says the text means. The only exceptions are domain names that do not fit into the DNS, end with a number or are not valid for IDNA, body lengths of 2^64 and more, names of copied header fields with an equals sign or bar (each shown to be needed), and repeated folding whitespace in an empty value (C22).", "quantifier": "for all texts generated by the grammar, all meanings, and all IDNA functions for which ASCII letter case does not matter", "why_tests_cant": "The grammar generates infinitely many texts; tests parse a few signatures as they are written by common software.", "anchors": ["src/signature.rs: DkimSignature::from_str, parse_tag_list, parse_*_tag functions", "src/tag_list.rs: TagList::from_str", "src/quoted_printable.rs: decode"]}
{"id": "C101", "title": "Key records in the grammar of the RFC are read as what they mean", "statement": "Every text that is generated by the ABNF of RFC 6376, section 3.6.1 (with the key type of RFC 8463) as a key record is parsed successfully, and the parsed data are what the RFC says the text means, with unknown hash algorithms, service types and flags ignored; except that it is refused exactly if no listed hash algorithm or no listed service type is known. Conversely, a text that the library reads is in the grammar with the same meaning exactly if the items of its lists are words of the RFC and its notes are in ASCII.", "quantifier": "for all texts generated by the grammar and all meanings", "why_tests_cant": "The grammar generates infinitely many texts; tests parse a few records.", "anchors": ["src/record.rs: DkimKeyRecord::from_str, from_tag_list", "src/tag_list.rs: TagList::from_str", "src/quoted_printable.rs: decode_qp_section"]}
{"id": "C102", "title": "Produced signatures are in the grammar of the RFC", "statement": "The header value that the signer produces with ASCII output is generated by the ABNF of RFC 6376, section 3.5, and its meaning there is the signature that the library reads from it, provided that the domain names are those of the RFC, the times have at most twelve digits, a requested extension tag q is according to the RFC, and the names of copied header fields have no equals sign or bar. (Violated by the library: the copied header fields in z= are folded inside encoded characters.) Generally, a text that the library reads is in the grammar of the RFC with the same meaning exactly if its domain names are those of the RFC, i=, z= and q= are encoded according to the RFC, and its numbers have no plus sign and not too many digits.", "quantifier": "for all header fields, bodies, requests, keys, clocks and formats with ASCII output; for all texts", "why_tests_cant": "Tests compare a few produced headers with expected texts, one of which even has an encoded character that is split; whether every output is in the grammar is not visible from them.", "anchors": ["src/signer/format.rs: format_without_signature, insert_signature, format_chunks_into_string", "src/quoted_printable.rs: encode", "src/signature.rs: DkimSignature::from_str"]}
{"id": "C103", "title": "What is valid according to RFC 6376 is accepted, and what is accepted is valid", "statement": "If a DKIM-Signature header field among those considered is a signature by the grammar of RFC 6376, the DNS has under its selector and domain a key record by the grammar that can be used for it, and the signature and the body hash verify as sections 3.7 and 6.1 say, then verification reports success for that field with exactly that signature; provided that the signature is within the limits of C100 and of the configured policy, the record is among the first two and the last of the answers, and the body is regular (C90). Conversely, if success is reported, the policy is met, and the signature is valid according to RFC 6376 in this sense, provided that the texts of signature and record are in the grammar where the library is more liberal (C101, C102), the names are in ASCII, and the body is regular.", "quantifier": "for all messages, bodies and chunkings, DNS contents, configurations, clocks, and cryptographic, hash and IDNA functions", "why_tests_cant": "Tests verify a handful of messages with one key record each; agreement of the whole verifier with the standard is about all messages and all answers.", "anchors": ["src/verifier/mod.rs: Verifier::verify_header, finish", "src/verifier/verify.rs", "src/verifier/header.rs", "src/signature.rs: DkimSignature::from_str", "src/record.rs: DkimKeyRecord::from_str", "src/canonicalize.rs"]}
{"id": "C104", "title": "What is signed is valid according to RFC 6376", "statement": "The field that the signer produces with ASCII output, put on top of the message, possibly below further added fields of which no more are signed than there were, is a signature that is valid according to RFC 6376 in the sense of C103, for every DNS answer that contains a key record by the grammar of the RFC that can be used for the signature and holds the public key for the signing key; also if the record is one that this library would not read or not try. The domain names have to be names by the RFC in the form in which they are written, the times have at most twelve digits, the library can read the signature (C37), copied header fields are not folded inside encoded characters (C102), and the body is regular (C90).", "quantifier": "for all messages, requests, keys, clocks, formats, added fields, DNS contents, and cryptographic, hash and IDNA functions", "why_tests_cant": "Tests verify produced signatures with the same library; that every other verifier that follows the standard accepts all of them is not visible from that.", "anchors": ["src/signer/mod.rs: Signer::sign", "src/signer/sign.rs", "src/signer/format.rs"]}
{"id": "C105", "title": "Signatures in internationalized messages are those of RFC 8616", "statement": "RFC 8616 extends the grammar of RFC 6376: domain names may have U-labels, local-parts and encoded texts may have characters outside of ASCII. Every header value that is a signature by this grammar and is within the limits (as C100) is read, with the content that the RFCs give it. A header value that is read is in the grammar exactly if its domain names, its encoded texts, the methods in q= and its numbers are written as the RFCs say. Every signature of RFC 6376 alone is one of the extended grammar, with the same content. A header value that is produced, whatever the format, is in the grammar, with what the library reads from it as its content, exactly if z= is (so always without copied header fields), provided that the names in it are domain names by the RFCs, and the times have at most twelve digits.", "quantifier": "for all header values, messages, requests and formats, and IDNA functions", "why_tests_cant": "Tests have two or three internationalized signatures; the grammar describes infinitely many texts, in which encoded and other characters, U-labels and A-labels are mixed.", "anchors": ["src/signature.rs: DkimSignature::from_tag_list, DomainName, Selector, Identity", "src/parse.rs", "src/quoted_printable.rs", "src/signer/format.rs"]}
{"id": "C106", "title": "Validity according to RFC 8616 and acceptance agree, and what is signed is valid", "statement": "As C103 and C104, without any assumption that names are in ASCII: a signature that is valid according to RFC 6376 and RFC 8616 (the key is looked up and names are compared with A-labels; the header is hashed with the names as they are written) is accepted, if it is within the limits of C105 and of the policy and the body is regular; an accepted signature is within the policy, and is valid in this sense if the texts of the signature and of the record are in the grammar; and the field that the signer produces, whatever the format, is a valid signature for every DNS answer with a usable key record for the signing key. With names in ASCII, what is valid by RFC 6376 alone is valid.", "quantifier": "for all messages, requests, bodies and chunkings, DNS contents, configurations, clocks, formats, and cryptographic, hash and IDNA functions", "why_tests_cant": "Which form of a name is looked up, compared and hashed shows only where the forms differ; tests have a few such names.", "anchors": ["src/verifier/mod.rs: Verifier::verify_header, finish", "src/verifier/header.rs", "src/verifier/query.rs", "src/signer/mod.rs: Signer::sign", "src/signer/format.rs"]}
{"id": "C107", "title": "Header fields are exactly those of RFC 5322 (with RFC 6532)", "statement": "The accepted field names are exactly the field names of RFC 5322, and the accepted values that are text are exactly its unstructured values (with characters outside of ASCII as in RFC 6532). Of the texts whose lines end with CRLF, those that are read as a header are exactly the headers of this grammar, and what is read is the names and values of their fields; each is also read if its line ends are LF. Whatever is read, with any line ends, is a header of the grammar when written with CRLF. What the signer produces is a header field of the grammar, and gives a header with one more field if put on top of one.", "quantifier": "for all names, values and header texts, and all signed messages", "why_tests_cant": "Tests have a few well-formed and malformed headers; that a grammar is accepted without exception in either direction is a statement about all texts.", "anchors": ["src/header.rs: FieldName::new, FieldBody::new, HeaderFields::new, FromStr for HeaderFields", "src/signer/mod.rs: SigningOutput::format_header, to_header_field"]}
{"id": "C108", "title": "No debug assertion fails", "statement": "A debug build computes the same as a release build: reading signatures, key records, domain names, selectors and identities, verifying the header of a message, and signing give the same results whether or not the debug assertions are checked, and signing and verifying never panic in a debug build. The only assertion that a caller can make fail is the documented demand of the public function for canonicalizing a single header field that the value be a header field value; it fails exactly for other values with relaxed canonicalization.", "quantifier": "for all texts, headers, resolver answers, configurations, and accepted signing requests", "why_tests_cant": "Assertions are checked in tests only on the inputs of the tests; that each condition follows from what the callers establish is a statement about all inputs.", "anchors": ["src/tag_list.rs: parse_colon_separated_value, parse_base64_value, parse_qp_section_value, parse_quoted_printable_value, parse_quoted_printable_header_field", "src/parse.rs: strip_suffix", "src/canonicalize.rs: canonicalize_header_relaxed", "src/signature.rs: is_label", "src/signer/format.rs: format_tag, format_tag_h, format_tag_z, insert_signature_data"]}
{"id": "C109", "title": "The verification policy only adds policy errors, and can be turned off", "statement": "Each policy error can be disabled by the setting that its documentation names: with that setting turned off it is not reported, whatever the other settings are; with all of them turned off the result policy is never reported. The settings other than the minimum key size do nothing but add policy errors: compared to a configuration that is nowhere stricter, each result is the same in all its parts, or it is a policy error.", "quantifier": "for all messages, chunkings, resolvers, clocks, configurations and pairs of configurations", "why_tests_cant": "Quantifies over all messages and all pairs of configurations; tests only see single settings for single messages.", "anchors": ["src/verifier/mod.rs:277-317 PolicyError", "src/verifier/mod.rs:46-137 Config", "src/verifier/header.rs validate_signature"]}
{"id": "C110", "title": "A body passes through memory in pieces", "statement": "Whatever was read before, the buffer that is produced for a chunk of the body is bounded in terms of the size of the chunk, so that a body can be processed without being in memory as a whole. This fails for runs of empty lines, which are counted while they are read and written out all at once by the next byte; it holds with two more bytes for each empty line at the end of what was read, for chunks and for the end of the body.", "quantifier": "for both canonicalizations, all bodies, and all ways of dividing them into chunks", "why_tests_cant": "A bound on all buffers is a statement about all bodies and all chunkings.", "anchors": ["src/canonicalize.rs: BodyCanonicalizer::canonicalize_chunk, finish, flush_empty_lines", "src/message_hash.rs: BodyHasher::hash_chunk, finish", "README.md:25,103"]}
{"id": "C111", "title": "Key records are parsed once, and signatures are checked only where nothing else is wrong", "statement": "Of the answer to each key lookup, at most the texts of the first two records and the last are parsed as key records, each at most once, even if several signatures use the key. A signature is checked with a public key only if it can be read and passes the checks that need no key, only with those key records whose own checks pass, in order, and not after a record has verified it. So there are at most three checks for each considered signature and three parsed records for each lookup.", "quantifier": "for all messages, resolvers, configurations and clocks", "why_tests_cant": "The number and order of the steps cannot be seen in the results, and the bound is on all messages.", "anchors": ["src/verifier/header.rs: CachedDkimKeyRecord::parse_and_cache, verify_task", "src/verifier/mod.rs: verify_header"]}
{"id": "C112", "title": "The counters of the body do not overflow", "statement": "The number of bytes that were hashed and the number of empty lines are counted with integers of the size of the machine. On every machine, with overflow checks or without, and for every body, fed in chunks of any sizes, hashing the body does not panic and gives the same results as with unlimited counters.", "quantifier": "for all machines (size of usize, overflow checks on or off), registered hash settings, and bodies in any chunks, also larger than the address space", "why_tests_cant": "A body that makes a counter overflow has at least 4 GiB on a machine of 32 bits, and is out of reach on one of 64 bits; that no smaller body does is a claim about all bodies.", "anchors": ["src/crypto/hash.rs: CountingHasher::update", "src/canonicalize.rs: BodyCanonicalizer::canon_chunk_simple, canon_chunk_relaxed", "src/message_hash.rs: BodyHasher::hash_chunk, finish"]}
{"id": "C113", "title": "Selecting the signed header fields takes work linear in the size of the message", "statement": "There is a constant, such that for every header and every list of names of signed fields, the number of header fields that canonicalize_headers looks at to select the signed ones is at most this constant times the size of the header and of the list; and likewise the number of names that prepare_copied_headers compares to copy the signed fields.", "quantifier": "for all headers of well-formed fields, lists of well-formed names, and canonicalization algorithms", "why_tests_cant": "A test measures the time for some messages. How the work grows, and which messages are the worst, is a claim about messages of all sizes.", "anchors": ["src/canonicalize.rs: canonicalize_headers", "src/message_hash.rs: compute_data_hash", "src/signer/sign.rs: prepare_copied_headers"]}
{"id": "C114", "title": "The canonicalized body is shared, and left out where it is not needed", "statement": "For any number of signatures and any chunks, each chunk of the body is canonicalized at most once with each algorithm, and exactly if a signature with this algorithm, verified so far, needs more content for its hash: it has no l=, or less than l= bytes were given so far, or content after l= has to be reported and none was seen. The same holds for the end of the body. After Done was reported, or if no signature is verified so far, nothing is canonicalized.", "quantifier": "for all sets of requested hashes, all messages and resolvers, and all sequences of chunks", "why_tests_cant": "How often a chunk is canonicalized is not visible in the results, and depends on the lengths of all signatures and of all chunks.", "anchors": ["src/message_hash.rs: BodyHasher::hash_chunk, BodyHasher::finish", "src/verifier/mod.rs: Verifier::verify_header", "README.md: Design objectives"]}
{"id": "C115", "title": "Reading a signature or key record takes work linear in its length", "statement": "The number of character tests made when a text is read as a tag list is at most 9 times its length plus 28, whether the text is a tag list or not; decoding Quoted-Printable text takes at most 7 times its length plus 6, and finding the value of b= in a signature at most 11 times its length plus 10. The names and values of a tag list are disjoint parts of the text, so that decoding all of them is linear, too. No character of a tag list or of Quoted-Printable text that is accepted is left untested.", "quantifier": "for all texts", "why_tests_cant": "A backtracking parser is quadratic only on particular inputs, such as long runs of whitespace, semicolons or line breaks; tests with ordinary signatures do not show it.", "anchors": ["src/parse.rs: strip_fws", "src/tag_list.rs: TagList::from_str, strip_tag_list, strip_tag_spec, strip_tag_value", "src/quoted_printable.rs: decode", "src/verifier/verify.rs: make_original_dkim_sig"]}
{"id": "C116", "title": "What relays do to a message does not invalidate a signature", "statement": "If the result for a signature is Success, then it is Success, too, with the same signature (up to the folding of extension tags), for the message as it arrives after any number of the following changes, made or undone in any order: adding a header field that is neither signed nor required to be signed completely; adding a header field on top, even if its name is signed, when there are already as many such fields as are signed; exchanging neighbouring header fields with different names, also the signature with the field below it; with relaxed header canonicalization, folding header fields differently, also the signature itself, and changing the case of their names; with relaxed body canonicalization, replacing a run of spaces and tabs with another, and adding spaces and tabs at the end of a line; adding the line break at the end of the body after a visible character, and blank lines after it. The only condition on the outcome is that the number of signatures above is less than the maximum. Nor do such changes make a signature succeed that did not succeed before. For bodies that end with CRLF, these changes are all that keep the canonical form; and for headers in which the names required to be signed completely are so, the changes of the header are all that keep the data that are signed. In particular, a message signed as in C16 and then relayed in this way verifies.", "quantifier": "for all messages, signatures, configurations, DNS answers, and all finite sequences of such changes", "why_tests_cant": "There are infinitely many sequences of changes, and their combinations meet at the boundaries of header fields, lines and chunks; a test has one changed message.", "anchors": ["src/canonicalize.rs: BodyCanonicalizer, canonicalize_headers, canonicalize_header_relaxed", "src/verifier.rs: Verifier::verify_header, body_chunk, finish", "src/verifier/verify.rs: make_original_dkim_sig", "src/tag_list.rs: TagList::from_str"]}
