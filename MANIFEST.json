{
 "claims": [
  {
   "property": "C01",
   "status": "proved",
   "theorems": [
    "Dkim.C01_chunk_independent",
    "Dkim.C01_chunks_as_whole"
   ],
   "note": "Canonical body depends only on the concatenation of the chunks, for both algorithms, any chunking."
  },
  {
   "property": "C02",
   "status": "partial",
   "theorems": [
    "Dkim.C02_simple_body_exact",
    "Dkim.C02_simple_body_partial",
    "Dkim.C02_violation",
    "Dkim.C02_rfc_iff"
   ],
   "note": "The code deviates from RFC 6376 exactly for bodies that consist only of CRLFs (C02_violation with a witness, C02_rfc_iff exact). Exact output for all bodies in C02_simple_body_exact; RFC equality whenever the body is empty or has a non-empty line in C02_simple_body_partial."
  },
  {
   "property": "C03",
   "status": "partial",
   "theorems": [
    "Dkim.C03_relaxed_body_exact",
    "Dkim.C03_relaxed_body_partial",
    "Dkim.C03_violation",
    "Dkim.C03_rfc_iff"
   ],
   "note": "The code deviates exactly for a final unterminated line of only whitespace (C03_violation, C03_rfc_iff exact). Exact output for all bodies in C03_relaxed_body_exact; RFC equality otherwise in C03_relaxed_body_partial."
  },
  {
   "property": "C04",
   "status": "partial",
   "theorems": [
    "Dkim.C04_simple_idempotent_iff",
    "Dkim.C04_relaxed_idempotent_iff",
    "Dkim.C04_idempotent_partial",
    "Dkim.C04_violation"
   ],
   "note": "Idempotence fails exactly on the bodies characterised by the iff theorems; proved everywhere else."
  },
  {
   "property": "C05",
   "status": "proved",
   "theorems": [
    "Dkim.C05_body_hash_results"
   ],
   "note": "Every requested key gets the hash of the RFC-prefix of the canonical body with the exact length, for any chunking, with the l= stances."
  },
  {
   "property": "C06",
   "status": "proved",
   "theorems": [
    "Dkim.C06_done_is_done",
    "Dkim.C06_stop_early"
   ],
   "note": "Stance Done implies no further chunk changes any result."
  },
  {
   "property": "C07",
   "status": "proved",
   "theorems": [
    "Dkim.C07_relaxed_header_steps",
    "Dkim.C07_relaxed_header_words",
    "Dkim.C07_simple_header"
   ],
   "note": "Relaxed header canonicalization equals the RFC 6376 3.4.2 steps for every name and every value in which CR and LF occur only in folds; simple leaves the field unchanged."
  },
  {
   "property": "C08",
   "status": "proved",
   "theorems": [
    "Dkim.C08_refolding_invisible",
    "Dkim.C08_every_value_has_words",
    "Dkim.C08_distinct_words_distinct_forms",
    "Dkim.C08_idempotent"
   ],
   "note": "Relaxed form depends exactly on the words of the value; distinct word lists give distinct forms; idempotent."
  },
  {
   "property": "C09",
   "status": "proved",
   "theorems": [
    "Dkim.C09_selected_from_bottom"
   ],
   "note": "Header selection equals the bottom-up counting specification, for all header lists and h= lists."
  },
  {
   "property": "C10",
   "status": "proved",
   "theorems": [
    "Dkim.C10_unlisted_fields",
    "Dkim.C10_field_on_top"
   ],
   "note": "Fields not named in h= have no influence; a field added on top of enough instances neither."
  },
  {
   "property": "C11",
   "status": "proved",
   "theorems": [
    "Dkim.C11_oversigned"
   ],
   "note": "A name listed more often than it occurs contributes nothing, and adding such a field changes the data exactly by that field."
  },
  {
   "property": "C12",
   "status": "proved",
   "theorems": [
    "Dkim.C12_hash_input_injective",
    "Dkim.C12_simple_literal"
   ],
   "note": "Equal hash inputs imply equal lists of selected canonical fields and equal signature header."
  },
  {
   "property": "C13",
   "status": "proved",
   "theorems": [
    "Dkim.C13_deletes_value",
    "Dkim.C13_without_b",
    "Dkim.C13_any_text",
    "Dkim.C13_injective"
   ],
   "note": "Removing the b= value deletes exactly the value of the one b tag and keeps every other character, for every tag list and (C13_any_text) every text; two texts with the same result differ only in b=."
  },
  {
   "property": "C14",
   "status": "proved",
   "theorems": [
    "Dkim.C14_reconstructed",
    "Dkim.C14_any_signature"
   ],
   "note": "For every successful result of a signing run, removing the b= value as the verifier does gives the string that was formatted, hashed and signed; also for arbitrary signature bytes inserted into arbitrary formatted data."
  },
  {
   "property": "C15",
   "status": "partial",
   "theorems": [
    "Dkim.C15_read_exactly",
    "Dkim.C15_round_trip_exactly",
    "Dkim.C15_round_trip_partial",
    "Dkim.C15_violation_query",
    "Dkim.C15_violation_name"
   ],
   "note": "The claim as stated is false: an extension tag q is dropped when read, copied names with = or | are read differently (C15_violation_*); see also C37. C15_round_trip_exactly shows that the data is read back if and only if none of the exceptions holds; C15_read_exactly says what is read in every case in which the header parses. Extension tags are compared up to order if a custom tag order is set. Domain names are read as they were written; that they stand for the names in the request is part of the condition (KeptNames)."
  },
  {
   "property": "C16",
   "status": "partial",
   "theorems": [
    "Dkim.C16_sign_verify_partial",
    "Dkim.C16_relayed_partial",
    "Dkim.C16_violation_oversigning",
    "Dkim.C16_same_data_exactly",
    "Dkim.C16_oversigned",
    "Dkim.C16_exactly",
    "Dkim.C16_on_top_exactly"
   ],
   "note": "Holds for every accepted request whose signature the library can read (conditions as in C37) and that does not list DKIM-Signature more often than it occurs; also with further fields on top, another chunking, and canonically equal changes on the way. Assumed: the published public key accepts the signatures of the signing key. C16_violation_oversigning: listing DKIM-Signature once too often gives a signature that the verifier rejects. The exception is exact: C16_same_data_exactly (the verifier hashes the signed header data if and only if DKIM-Signature is not listed more often than it occurs) and C16_oversigned. C16_exactly: whatever was done to the message after signing, the result is success if and only if the library can read the field, header data and body are as signed, and no forbidden content was added (assumed: no published key accepts the signature for other data, the hashes of the two bodies do not collide). C16_on_top_exactly: the same for the unchanged message."
  },
  {
   "property": "C17",
   "status": "proved",
   "theorems": [
    "Dkim.C17_well_formed",
    "Dkim.C17_no_injection"
   ],
   "note": "Every produced header field has a valid name and a value made of well-formed continuation lines; control characters are meant at byte level (C1 controls encoded in UTF-8 are not excluded by the code). The produced text on top of any header is read back as exactly one more field."
  },
  {
   "property": "C18",
   "status": "proved",
   "theorems": [
    "Dkim.C18_qp_round_trip",
    "Dkim.C18_qp_section_round_trip"
   ],
   "note": "Round trip through both decoders for all bytes, both modes, any extra character."
  },
  {
   "property": "C19",
   "status": "partial",
   "theorems": [
    "Dkim.C19_qp_tokens",
    "Dkim.C19_qp_safe_chars",
    "Dkim.C19_qp_equals",
    "Dkim.C19_extra_char_absent_partial",
    "Dkim.C19_violation",
    "Dkim.C19_extra_char_iff",
    "Dkim.C19_unicode_space",
    "Dkim.C19_qp_exact"
   ],
   "note": "Exact token description, safe characters and equals signs for all inputs. The claim that the extra character is absent is false exactly when that character is '=' or an upper case hex digit (C19_violation, C19_extra_char_iff). Whitespace and control characters are to be read as ASCII ones: C19_unicode_space shows that others are written literally outside ASCII-only mode."
  },
  {
   "property": "C20",
   "status": "proved",
   "theorems": [
    "Dkim.C20_base64_round_trip",
    "Dkim.C20_base64_canonical",
    "Dkim.C20_estimate",
    "Dkim.C20_base64_rfc4648"
   ],
   "note": "Encoding equals an RFC 4648 bit-level specification; decoding accepts exactly the encodings; estimated length exact. base64ct itself is external, modelled from RFC 4648."
  },
  {
   "property": "C21",
   "status": "proved",
   "theorems": [
    "Dkim.C21_base64_fws",
    "Dkim.C21_base64_encoded",
    "Dkim.C21_qp_fws",
    "Dkim.C21_qp_encoded"
   ],
   "note": "Any whitespace in Base64, single FWS between any characters in Quoted-Printable."
  },
  {
   "property": "C22",
   "status": "partial",
   "theorems": [
    "Dkim.C22_tag_list_exact",
    "Dkim.C22_duplicate_reported",
    "Dkim.C22_syntax_reported",
    "Dkim.C22_unambiguous",
    "Dkim.C22_rfc_sound_partial",
    "Dkim.C22_rfc_complete_partial",
    "Dkim.C22_violation",
    "Dkim.C22_rfc_exactly"
   ],
   "note": "C22_rfc_exactly: the parser accepts exactly what the literal RFC grammar generates with distinct names and in which at most one FWS is between an equals sign and the end of a tag. The literal grammar allows two FWS after an empty value, which the code rejects (C22_violation)."
  },
  {
   "property": "C23",
   "status": "proved",
   "theorems": [
    "Dkim.C23_field_name_exact",
    "Dkim.C23_field_body_exact",
    "Dkim.C23_folds_only",
    "Dkim.C23_header_fields_from_vec"
   ],
   "note": "Exact characterisation of accepted names, values and field lists."
  },
  {
   "property": "C24",
   "status": "proved",
   "theorems": [
    "Dkim.C24_block_round_trip",
    "Dkim.C24_block_round_trip_lf",
    "Dkim.C24_parsed_block"
   ],
   "note": "Parsing a written block gives back the fields, with CRLF and with LF line ends; every parsed block is the written form of its fields."
  },
  {
   "property": "C25",
   "status": "proved",
   "theorems": [
    "Dkim.C25_domain_eq",
    "Dkim.C25_domain_equivalence",
    "Dkim.C25_domain_hash",
    "Dkim.C25_field_name_eq",
    "Dkim.C25_field_name_equivalence",
    "Dkim.C25_field_name_hash"
   ],
   "note": "Field names, domain names and selectors: equality is agreement after ASCII lower-casing, an equivalence, and matches the hash key exactly."
  },
  {
   "property": "C26",
   "status": "proved",
   "theorems": [
    "Dkim.C26_subdomain_exact",
    "Dkim.C26_no_panic",
    "Dkim.C26_reflexive",
    "Dkim.C26_transitive"
   ],
   "note": "Exact label-suffix characterisation for valid domains (assumption: IDNA conversion ignores ASCII case, with an instance); reflexive, transitive, no panic without any assumption."
  },
  {
   "property": "C27",
   "status": "proved",
   "theorems": [
    "Dkim.C27_domain_exact",
    "Dkim.C27_selector_exact",
    "Dkim.C27_domain_is_selector"
   ],
   "note": "Exact characterisation for domains and selectors; IDNA conversion is a parameter."
  },
  {
   "property": "C28",
   "status": "proved",
   "theorems": [
    "Dkim.C28_identity_exact",
    "Dkim.C28_print_parsed",
    "Dkim.C28_parse_printed",
    "Dkim.C28_text_determines"
   ],
   "note": "Exact acceptance, and round trips in both directions."
  },
  {
   "property": "C29",
   "status": "proved",
   "theorems": [
    "Dkim.C29_invariants"
   ],
   "note": "All invariants of every parsed signature, for every text."
  },
  {
   "property": "C30",
   "status": "proved",
   "theorems": [
    "Dkim.C30_parse_exact",
    "Dkim.C30_order_irrelevant",
    "Dkim.C30_reordering",
    "Dkim.C30_defaults"
   ],
   "note": "Parsing is characterised exactly (iff) by the tag-by-tag specification SignatureOf; order irrelevance, defaults and extension tags follow."
  },
  {
   "property": "C31",
   "status": "proved",
   "theorems": [
    "Dkim.C31_salvage",
    "Dkim.C31_no_tag_list",
    "Dkim.C31_total"
   ],
   "note": "Errors carry exactly the raw a, b, d, i, s values; no text panics."
  },
  {
   "property": "C32",
   "status": "partial",
   "theorems": [
    "Dkim.C32_numeric_exact",
    "Dkim.C32_numeric_partial",
    "Dkim.C32_tags",
    "Dkim.C32_violation"
   ],
   "note": "The code accepts a leading plus sign in t=, l=, x= (violation proved). Exact acceptance in C32_numeric_exact; RFC reading for values without plus sign in C32_numeric_partial."
  },
  {
   "property": "C33",
   "status": "proved",
   "theorems": [
    "Dkim.C33_parse_exact",
    "Dkim.C33_total",
    "Dkim.C33_rules",
    "Dkim.C33_defaults",
    "Dkim.C33_testing",
    "Dkim.C33_reordering"
   ],
   "note": "Parsing is characterised exactly (iff) by RecordOf; rules, defaults, testing flag and reordering follow."
  },
  {
   "property": "C34",
   "status": "proved",
   "theorems": [
    "Dkim.C34_accepts",
    "Dkim.C34_first_error",
    "Dkim.C34_no_panic",
    "Dkim.C34_prepared"
   ],
   "note": "Preparation decides the rule list exactly; typing hypotheses state what Rust's types guarantee; ASCII-case law of idna assumed."
  },
  {
   "property": "C35",
   "status": "proved",
   "theorems": [
    "Dkim.C35_results",
    "Dkim.C35_cursor",
    "Dkim.C35_ed25519"
   ],
   "note": "Canonical bodies of 2^64 bytes or more are excluded (they cannot be held by the code's counters)."
  },
  {
   "property": "C36",
   "status": "proved",
   "theorems": [
    "Dkim.C36_reflects",
    "Dkim.C36_fields"
   ],
   "note": "Returned data equal the data determined by request, message and clock, spelled out field by field."
  },
  {
   "property": "C37",
   "status": "partial",
   "theorems": [
    "Dkim.C37_violation_names",
    "Dkim.C37_parses_exactly",
    "Dkim.C37_parses_partial",
    "Dkim.C37_violation_query",
    "Dkim.C37_violation_equals",
    "Dkim.C37_violation_bar",
    "Dkim.C37_violation_time",
    "Dkim.C37_violation_local"
   ],
   "note": "The claim as stated is false: it fails for an extension tag q without dns/txt, for copied header names that cannot be read back because of = or |, for timestamp 2^64-1 with expiration, for an invalid local part of the identity, and for domain names of which the converted form, which is written, is not valid (C37_violation_*; the last for a conversion that, like idna 0.4, decodes labels that encode nothing). C37_parses_exactly shows without further hypotheses that these are exactly the exceptions (if and only if)."
  },
  {
   "property": "C38",
   "status": "proved",
   "theorems": [
    "Dkim.C38_verifier_exists",
    "Dkim.C38_one_result_each"
   ],
   "note": "One result per recognised signature field, in header order, up to the configured maximum."
  },
  {
   "property": "C39",
   "status": "proved",
   "theorems": [
    "Dkim.C39_independent"
   ],
   "note": "Independence of the other signatures, of the order of the queries and of the sharing of parsed records."
  },
  {
   "property": "C40",
   "status": "proved",
   "theorems": [
    "Dkim.C40_success_complete",
    "Dkim.C40_success_sound"
   ],
   "note": "Succeeded lists all that was checked; derived from the refinement theorem verify_judged. C40_success_complete is the converse: whenever all of it holds, the status is Success."
  },
  {
   "property": "C41",
   "status": "proved",
   "theorems": [
    "Dkim.C41_records_tried"
   ],
   "note": "Exact description of the result in terms of the records that are tried."
  },
  {
   "property": "C42",
   "status": "proved",
   "theorems": [
    "Dkim.C42_all_covered",
    "Dkim.C42_added_field"
   ],
   "note": "Every field with a forbidden-unsigned name is among the selected fields of the hashed data; an added field makes the signature fail."
  },
  {
   "property": "C43",
   "status": "proved",
   "theorems": [
    "Dkim.C43_expired",
    "Dkim.C43_future",
    "Dkim.C43_no_success"
   ],
   "note": "Exact conditions in unbounded integers, for all 64-bit values."
  },
  {
   "property": "C44",
   "status": "partial",
   "theorems": [
    "Dkim.C44_reported_small",
    "Dkim.C44_violation",
    "Dkim.C44_key_size_partial"
   ],
   "note": "The library rounds the modulus size up to whole bytes: C44_violation shows success with a 1017-bit key at a limit of 1024. The partial theorem gives the exact bound that holds; C44_reported_small: only keys below the limit are reported as too small."
  },
  {
   "property": "C45",
   "status": "proved",
   "theorems": [
    "Dkim.C45_forbidden",
    "Dkim.C45_insufficient",
    "Dkim.C45_rest_irrelevant"
   ],
   "note": "Three theorems: forbidden, insufficient, and irrelevance of the rest."
  },
  {
   "property": "C46",
   "status": "proved",
   "theorems": [
    "Dkim.C46_pass",
    "Dkim.C46_temperror",
    "Dkim.C46_policy",
    "Dkim.C46_fail",
    "Dkim.C46_never_none"
   ],
   "note": "Exact classes of statuses for pass, temperror, policy and fail; none is never returned."
  },
  {
   "property": "C47",
   "status": "partial",
   "theorems": [
    "Dkim.C47_violation",
    "Dkim.C47_delay_ignored",
    "Dkim.C47_resolver_timeout_partial"
   ],
   "note": "The code that applied the lookup timeout is commented out: C47_delay_ignored proves that the delay and the configured timeout have no influence. What remains: a resolver that reports a timeout itself leads to Timeout/temperror."
  },
  {
   "property": "C48",
   "status": "proved",
   "theorems": [
    "Dkim.C48_queries"
   ],
   "note": "The list of asked names is duplicate-free and has exactly the needed names."
  },
  {
   "property": "C49",
   "status": "partial",
   "theorems": [
    "Dkim.C49_one_line",
    "Dkim.C49_bound",
    "Dkim.C49_line_width_partial",
    "Dkim.C49_default_order",
    "Dkim.C49_violation"
   ],
   "note": "Each line is at most the line width plus one, or is a single unbreakable item: proved without condition for the default order of tags (C49_default_order), and for every signed run in which no folded extension tag stands before b in the output. In every signed run at most one line can be too long, namely the line in which the value of b ends, and it is bounded by about twice the line width (C49_one_line, C49_bound). Without exception the claim is false: C49_violation shows a line of 168 characters at width 100 when a tag with a folded value is ordered before b."
  },
  {
   "property": "C50",
   "status": "proved",
   "theorems": [
    "Dkim.C50_no_panic"
   ],
   "note": "No panic for any input, under the laws of the environment; includes all stages."
  },
  {
   "property": "C51",
   "status": "proved",
   "theorems": [
    "Dkim.C51_signing_algorithm_round_trip",
    "Dkim.C51_signing_algorithm_exact",
    "Dkim.C51_signing_algorithm_parts",
    "Dkim.C51_canon_algorithm_exact",
    "Dkim.C51_canon_algorithm_round_trip",
    "Dkim.C51_canonicalization_round_trip",
    "Dkim.C51_canonicalization_exact"
   ],
   "note": "Exact acceptance up to letter case and round trips for signing algorithms, canonicalization algorithms and pairs."
  },
  {
   "property": "C52",
   "status": "proved",
   "theorems": [
    "Dkim.C52_no_sha1_signature",
    "Dkim.C52_no_sha1_record",
    "Dkim.C52_no_success",
    "Dkim.C52_policy"
   ],
   "note": "For both build variants (parameter E.pre)."
  },
  {
   "property": "C53",
   "status": "proved",
   "theorems": [
    "Dkim.C53_tampering"
   ],
   "note": "Two successful runs with the same signature value and key: nothing signed differs, or a hash collision (header input or body) or a double acceptance by the signature primitive is exhibited. No cryptographic assumption."
  },
  {
   "property": "C54",
   "status": "proved",
   "theorems": [
    "Dkim.C54_first_defect",
    "Dkim.C54_error_exact",
    "Dkim.C54_reported"
   ],
   "note": "Both directions, for texts and for runs of the verifier; the order of missing tags and cross checks included. C54_error_exact also fixes the salvaged tag values in the error."
  },
  {
   "property": "C55",
   "status": "proved",
   "theorems": [
    "Dkim.C55_first_defect",
    "Dkim.C55_reported"
   ],
   "note": "Both directions, for texts and for runs of the verifier."
  },
  {
   "property": "C56",
   "status": "proved",
   "theorems": [
    "Dkim.C56_same_signature",
    "Dkim.C56_iff",
    "Dkim.C56_leading"
   ],
   "note": "Needs the law BlankLaw of the idna crate: whitespace is kept by the conversion to ASCII."
  },
  {
   "property": "C57",
   "status": "proved",
   "theorems": [
    "Dkim.C57_canonical"
   ],
   "note": "The whole result is the same, not only the status."
  },
  {
   "property": "C58",
   "status": "proved",
   "theorems": [
    "Dkim.C58_monotone"
   ],
   "note": "NowhereStricter compares the configurations member by member."
  },
  {
   "property": "C59",
   "status": "proved",
   "theorems": [
    "Dkim.C59_interval",
    "Dkim.C59_expired_for_good"
   ],
   "note": "Both parts: interval, and expired for good."
  },
  {
   "property": "C60",
   "status": "proved",
   "theorems": [
    "Dkim.C60_independent",
    "Dkim.C60_alone"
   ],
   "note": "The results for one request depend only on that request."
  },
  {
   "property": "C61",
   "status": "proved",
   "theorems": [
    "Dkim.C61_signer",
    "Dkim.C61_verifier"
   ],
   "note": "Body bytes handed in after every hash has what it needs change nothing, for signer and verifier."
  },
  {
   "property": "C62",
   "status": "partial",
   "theorems": [
    "Dkim.C62_exactly",
    "Dkim.C62_together_partial",
    "Dkim.C62_same_data_exactly",
    "Dkim.C62_oversigned"
   ],
   "note": "From C16, with its conditions. The exception is exact: C62_same_data_exactly (with all fields on top, the verifier hashes the signed header data if and only if DKIM-Signature is not listed more often than it occurs) and C62_oversigned. C62_exactly: each result, exactly."
  },
  {
   "property": "C63",
   "status": "partial",
   "theorems": [
    "Dkim.C63_invariants",
    "Dkim.C63_expiration_iff",
    "Dkim.C63_expiration_partial",
    "Dkim.C63_violation"
   ],
   "note": "Violated for the greatest timestamp (C63_violation); expiration is later than the timestamp exactly when the timestamp is below 2^64-1 (C63_expiration_iff); all other invariants proved."
  },
  {
   "property": "C64",
   "status": "proved",
   "theorems": [
    "Dkim.C64_tags"
   ],
   "note": "The tags of a produced field are exactly the requested ones."
  },
  {
   "property": "C65",
   "status": "partial",
   "theorems": [
    "Dkim.C65_ascii_iff",
    "Dkim.C65_ascii_partial",
    "Dkim.C65_violation"
   ],
   "note": "Violated: C65_violation shows a non-ASCII extension tag value written as is with ascii_only set. C65_ascii_iff characterises exactly when the output is ASCII."
  },
  {
   "property": "C66",
   "status": "proved",
   "theorems": [
    "Dkim.C66_body_streaming",
    "Dkim.C66_body",
    "Dkim.C66_field",
    "Dkim.C66_headers"
   ],
   "note": "Canonical forms of bodies, header fields and headers are at most as long as the input plus the separators stated"
  },
  {
   "property": "C67",
   "status": "partial",
   "theorems": [
    "Dkim.C67_bounded",
    "Dkim.C67_once_partial",
    "Dkim.C67_once_exactly",
    "Dkim.C67_three_records",
    "Dkim.C67_violation"
   ],
   "note": "C67_bounded and C67_three_records hold in general. That each name is queried at most once fails (C67_violation: different pairs of domain and selector can give the same name, because the selector may contain the label _domainkey); C67_once_exactly says exactly when; it holds if no selector contains that label after another (C67_once_partial)."
  },
  {
   "property": "C68",
   "status": "proved",
   "theorems": [
    "Dkim.C68_decode",
    "Dkim.C68_decode_total",
    "Dkim.C68_section",
    "Dkim.C68_section_total"
   ],
   "note": "Both directions, against an inductive grammar of encoded text"
  },
  {
   "property": "C69",
   "status": "proved",
   "theorems": [
    "Dkim.C69_neutral",
    "Dkim.C69_permerror",
    "Dkim.C69_neutral_run",
    "Dkim.C69_permerror_run"
   ],
   "note": "Decision logic over all error kinds; C69_neutral_run and C69_permerror_run state it for verification runs."
  },
  {
   "property": "C70",
   "status": "proved",
   "theorems": [
    "Dkim.C70_one_record_enough"
   ],
   "note": "For any answer in which the record is first, second or last."
  },
  {
   "property": "C71",
   "status": "proved",
   "theorems": [
    "Dkim.C71_indentation"
   ],
   "note": "Lines inside extension tag values, which the user supplies, are excepted by the statement"
  },
  {
   "property": "C72",
   "status": "proved",
   "theorems": [
    "Dkim.C72_relevant_parts"
   ],
   "note": "Statuses are equal up to the parsed record that is shown in the result."
  },
  {
   "property": "C73",
   "status": "proved",
   "theorems": [
    "Dkim.C73_loaded",
    "Dkim.C73_error"
   ],
   "note": "PEM and key readers of the pkcs8, rsa and ed25519-dalek crates are parameters without laws"
  },
  {
   "property": "C74",
   "status": "proved",
   "theorems": [
    "Dkim.C74_unusable",
    "Dkim.C74_absent",
    "Dkim.C74_failure",
    "Dkim.C74_records",
    "Dkim.C74_delay",
    "Dkim.C74_no_key",
    "Dkim.C74_bad_name"
   ],
   "note": "The resolver is a parameter without laws"
  },
  {
   "property": "C75",
   "status": "proved",
   "theorems": [
    "Dkim.C75_unsigned_fields"
   ],
   "note": "Stated through the occurrences of each relevant name; covers adding, removing, changing and reordering."
  },
  {
   "property": "C76",
   "status": "proved",
   "theorems": [
    "Dkim.C76_slice_to",
    "Dkim.C76_slice_from",
    "Dkim.C76_slice_range",
    "Dkim.C76_drain",
    "Dkim.C76_bytes_to",
    "Dkim.C76_bytes_from",
    "Dkim.C76_subtraction",
    "Dkim.C76_to_byte",
    "Dkim.C76_tag_list",
    "Dkim.C76_decode",
    "Dkim.C76_decode_section",
    "Dkim.C76_encode",
    "Dkim.C76_lines",
    "Dkim.C76_original",
    "Dkim.C76_chunks"
   ],
   "note": "C76_slice_to and C76_slice_from fix the meaning of a cut; the others show that the functions with byte offsets (Model/Slices) never panic and agree with the model used elsewhere. Other offsets (domain suffix, insertion of the signature, partial hashing) are explicit in the main model already."
  },
  {
   "property": "C77",
   "status": "proved",
   "theorems": [
    "Dkim.C77_same_record",
    "Dkim.C77_line_break",
    "Dkim.C77_exactly",
    "Dkim.C77_similar",
    "Dkim.C77_same_result",
    "Dkim.C77_exception"
   ],
   "note": "With the exact exception (line break in the notes) as part of the claim; C77_same_result combines it with C72 for whole verification runs."
  },
  {
   "property": "C78",
   "status": "partial",
   "theorems": [
    "Dkim.C78_auto_verifies_partial",
    "Dkim.C78_default_signs"
   ],
   "note": "Special case of C16 without its exceptions: automatic header selection, no local part, no q= extension tag, timestamp now. Missing: names that stand for another name (or none) when converted, which the signer accepts (KeptNames, see C37_violation_names); met by every name that is given in the form that is written."
  },
  {
   "property": "C79",
   "status": "partial",
   "theorems": [
    "Dkim.C79_sign_then_verify_partial",
    "Dkim.C79_signs",
    "Dkim.C79_empty_line",
    "Dkim.C79_crlf"
   ],
   "note": "Model of the example programs; external libraries (PKCS #8, DNS, crypto) as parameters. C79_signs, C79_empty_line and C79_crlf are complete; missing in C79_sign_then_verify_partial: domains and selectors that stand for another name (or none) when converted (KeptName, see C37_violation_names)."
  },
  {
   "property": "C80",
   "status": "proved",
   "theorems": [
    "Dkim.C80_signature",
    "Dkim.C80_record",
    "Dkim.C80_record_from_dns"
   ],
   "note": "Signature shown iff the field is one, key record shown iff the status is about a readable record or the body."
  },
  {
   "property": "C81",
   "status": "proved",
   "theorems": [
    "Dkim.C81_temperror"
   ],
   "note": "Exact condition."
  },
  {
   "property": "C82",
   "status": "proved",
   "theorems": [
    "Dkim.C82_exactly",
    "Dkim.C82_run"
   ],
   "note": "The specification Judged is in Verif/Spec/Verifier.lean."
  },
  {
   "property": "C83",
   "status": "proved",
   "theorems": [
    "Dkim.C83_read_back",
    "Dkim.C83_unambiguous",
    "Dkim.C83_no_control",
    "Dkim.C83_plain",
    "Dkim.C83_base64"
   ],
   "note": "The Unicode tables of the standard library are parameters; C83_no_control assumes that no control character is printable."
  },
  {
   "property": "C84",
   "status": "proved",
   "theorems": [
    "Dkim.C84_verification",
    "Dkim.C84_source_needed",
    "Dkim.C84_signing",
    "Dkim.C84_results"
   ],
   "note": "Complete enumeration of finite types, arbitrary salvaged tags."
  },
  {
   "property": "C85",
   "status": "proved",
   "theorems": [
    "Dkim.C85_printed_record",
    "Dkim.C85_reprint"
   ],
   "note": "Assumes that from_utf8_lossy keeps well-formed text."
  },
  {
   "property": "C86",
   "status": "proved",
   "theorems": [
    "Dkim.C86_reason"
   ],
   "note": "Reason in Verif/Spec/Reasons.lean says for each kind of failure what must be the case."
  },
  {
   "property": "C87",
   "status": "proved",
   "theorems": [
    "Dkim.C87_default_success",
    "Dkim.C87_default_ten",
    "Dkim.C87_default_objects",
    "Dkim.C87_default_tolerates",
    "Dkim.C87_default_request",
    "Dkim.C87_default_unsigned"
   ],
   "note": "The default values are part of the statements only by what they guarantee."
  },
  {
   "property": "C88",
   "status": "proved",
   "theorems": [
    "Dkim.C88_verification",
    "Dkim.C88_signing"
   ],
   "note": "Env.iterating is the environment with other iteration orders; both runs may use different ones."
  },
  {
   "property": "C89",
   "status": "proved",
   "theorems": [
    "Dkim.C89_continued",
    "Dkim.C89_accepted",
    "Dkim.C89_refused",
    "Dkim.C89_detected"
   ],
   "note": "The body must end with CRLF; no assumption on the hash function (a collision is exhibited otherwise)."
  },
  {
   "property": "C90",
   "status": "proved",
   "theorems": [
    "Dkim.C90_canonical_iff",
    "Dkim.C90_regular",
    "Dkim.C90_verdict",
    "Dkim.C90_success_iff",
    "Dkim.C90_irregular"
   ],
   "note": "The deviations of C02 and C03 lifted to verdicts; C90_irregular has witnesses that messages signed according to RFC 6376 are rejected."
  },
  {
   "property": "C91",
   "status": "partial",
   "theorems": [
    "Dkim.C91_form",
    "Dkim.C91_length_partial",
    "Dkim.C91_violation"
   ],
   "note": "C91_form holds in general (with at most 519 characters). The limit of 254 characters fails because selector and domain are only limited separately (C91_violation); it holds exactly if both have at most 241 characters together (C91_length_partial)."
  },
  {
   "property": "C92",
   "status": "proved",
   "theorems": [
    "Dkim.C92_values",
    "Dkim.C92_determined",
    "Dkim.C92_default_unicode"
   ],
   "note": "every tag value of every produced header, for arbitrary conforming IDNA conversion"
  },
  {
   "property": "C93",
   "status": "proved",
   "theorems": [
    "Dkim.C93_layout",
    "Dkim.C93_determined",
    "Dkim.C93_one_line"
   ],
   "note": "The whole text of every produced header value is determined by the tags in order, line width, indentation and field name. The exception named in the statement is that of C49 (C49_violation)."
  },
  {
   "property": "C94",
   "status": "proved",
   "theorems": [
    "Dkim.C94_canonical"
   ],
   "note": "The names signed, canonical forms of the selected fields, canonical body and copied fields determine the result."
  },
  {
   "property": "C95",
   "status": "partial",
   "theorems": [
    "Dkim.C95_exactly",
    "Dkim.C95_hops_partial"
   ],
   "note": "From C16, with its conditions for each signature. C95_exactly: each result, exactly (assumed: no published key accepts the signature for other data)."
  },
  {
   "property": "C96",
   "status": "partial",
   "theorems": [
    "Dkim.C96_waiting_partial",
    "Dkim.C96_longest",
    "Dkim.C96_concurrent_iff",
    "Dkim.C96_violation"
   ],
   "note": "Violated (C96_violation). Proved instead: the exact waiting time and result, waiting for ever included (C96_waiting_partial), its bounds (C96_longest), and the exact condition under which the promised behaviour is there (C96_concurrent_iff)."
  },
  {
   "property": "C97",
   "status": "proved",
   "theorems": [
    "Dkim.C97_own_content"
   ],
   "note": "Needs the law BlankLaw of the idna crate. No cryptographic assumption: the exceptional cases name the colliding inputs."
  },
  {
   "property": "C98",
   "status": "proved",
   "theorems": [
    "Dkim.C98_every_signature",
    "Dkim.C98_what_is_signed",
    "Dkim.C98_authentic"
   ],
   "note": "Signatures made are those of requests whose signatures can be read (C37; C98_every_signature). No cryptographic assumption: collision and forgery are explicit cases with the inputs named."
  },
  {
   "property": "C99",
   "status": "proved",
   "theorems": [
    "Dkim.C99_answers",
    "Dkim.C99_nothing",
    "Dkim.C99_constant"
   ],
   "note": "For every DNS whose answers depend on the number of questions before; C99_constant: a fixed resolver is a special case."
  },
  {
   "property": "C100",
   "status": "proved",
   "theorems": [
    "Dkim.C100_reads_rfc",
    "Dkim.C100_unambiguous",
    "Dkim.C100_limits_needed"
   ],
   "note": "Grammar in Spec/Rfc, from RFC 6376 section 3.5. The exceptions in the statement are the hypotheses Rfc.Limits and SingleFws; C100_limits_needed shows by concrete texts that the limits on l=, d= and z= are needed."
  },
  {
   "property": "C101",
   "status": "proved",
   "theorems": [
    "Dkim.C101_reads_rfc",
    "Dkim.C101_read_exactly",
    "Dkim.C101_useless"
   ],
   "note": "Grammar in Spec/Rfc, from RFC 6376 section 3.6.1. C101_useless is the exact condition under which a record in the grammar is refused; C101_read_exactly is the converse."
  },
  {
   "property": "C102",
   "status": "partial",
   "theorems": [
    "Dkim.C102_folding_exactly",
    "Dkim.C102_read_exactly",
    "Dkim.C102_produced_exactly",
    "Dkim.C102_produced_partial",
    "Dkim.C102_violation"
   ],
   "note": "Proved for the tags with z= unfolded, and in full for requests without copied header fields; in general the output is in the grammar exactly if no encoded octet in z= is split by a line break (C102_folding_exactly). Missing: z= is folded inside encoded octets (C102_violation)."
  },
  {
   "property": "C103",
   "status": "proved",
   "theorems": [
    "Dkim.C103_valid_accepted",
    "Dkim.C103_accepted_valid",
    "Dkim.C103_success_iff"
   ],
   "note": "One theorem for each direction, with the exceptions written out: the limits of C100, at most three key records are tried, the policy, and irregular bodies (C90, C02 to C04); and both together for a field in the grammar (C103_success_iff). The second direction asks of the texts only what the library does not check itself; the example is a signature with l=, t= and x=."
  },
  {
   "property": "C104",
   "status": "proved",
   "theorems": [
    "Dkim.C104_signed_valid"
   ],
   "note": "Validity is Spec.Rfc.Valid, which does not mention the library. The exceptions are those of C16, C37, C90 and C102: with copied header fields, z= must not be folded inside an encoded character."
  },
  {
   "property": "C105",
   "status": "proved",
   "theorems": [
    "Dkim.C105_reads_rfc",
    "Dkim.C105_read_exactly",
    "Dkim.C105_extends",
    "Dkim.C105_produced_exactly",
    "Dkim.C105_produced_plain",
    "Dkim.C105_folding_exactly"
   ],
   "note": "Both directions for texts, for any IDNA functions that ignore letter case; produced values are in the grammar exactly if z= is (C105_produced_exactly), that is, if no encoded octet in it is split by a line break (C105_folding_exactly; the code may do so, C102_violation), and always without copies (C105_produced_plain). The examples have a U-label in d=, an A-label in i=, and literal and encoded characters in i= and z=."
  },
  {
   "property": "C106",
   "status": "proved",
   "theorems": [
    "Dkim.C106_extends",
    "Dkim.C106_valid_accepted",
    "Dkim.C106_accepted_valid",
    "Dkim.C106_success_iff",
    "Dkim.C106_signed_valid"
   ],
   "note": "As C103 and C104 without the assumption that names are in ASCII. The example signs for a domain with a U-label, with an identity given with the A-label, and verifies with a key record with t=s."
  },
  {
   "property": "C107",
   "status": "proved",
   "theorems": [
    "Dkim.C107_name_exact",
    "Dkim.C107_value_exact",
    "Dkim.C107_header_exact",
    "Dkim.C107_header_read",
    "Dkim.C107_read_header",
    "Dkim.C107_unambiguous",
    "Dkim.C107_produced"
   ],
   "note": "The grammar is in Spec/Rfc5322.lean. Obsolete syntax and the grammars of particular fields are not part of it. Values that are not UTF-8 are outside of RFC 6532 and are covered by C23."
  },
  {
   "property": "C108",
   "status": "proved",
   "theorems": [
    "Dkim.C108_signature",
    "Dkim.C108_record",
    "Dkim.C108_names",
    "Dkim.C108_canonicalize_headers",
    "Dkim.C108_canonicalize_header",
    "Dkim.C108_verify",
    "Dkim.C108_sign",
    "Dkim.C108_verify_no_panic",
    "Dkim.C108_sign_no_panic"
   ],
   "note": "A debug build also checks arithmetic for overflow; subtractions and conversions that could fail are explicit in the model anyway (C76, C50)."
  },
  {
   "property": "C109",
   "status": "proved",
   "theorems": [
    "Dkim.C109_turned_off",
    "Dkim.C109_no_policy",
    "Dkim.C109_only_policy",
    "Dkim.C109_key_size_hidden"
   ],
   "note": "C109_key_size_hidden shows that the minimum key size has to be excluded from the second part."
  },
  {
   "property": "C110",
   "status": "partial",
   "theorems": [
    "Dkim.C110_chunk_partial",
    "Dkim.C110_finish_partial",
    "Dkim.C110_whole_body",
    "Dkim.C110_violation"
   ],
   "note": "Violated by the code for runs of empty lines (C110_violation, C110_whole_body). The bound that holds, with two bytes for each empty line at the end of what was read, is proved for chunks and for the end."
  },
  {
   "property": "C111",
   "status": "proved",
   "theorems": [
    "Dkim.C111_same",
    "Dkim.C111_checks",
    "Dkim.C111_check_bound",
    "Dkim.C111_parsed"
   ],
   "note": "The steps are recorded in Model/Work, shown to give the same results as the plain model."
  },
  {
   "property": "C112",
   "status": "partial",
   "theorems": [
    "Dkim.C112_results_partial",
    "Dkim.C112_signer_partial",
    "Dkim.C112_verifier_partial",
    "Dkim.C112_checked",
    "Dkim.C112_panic_violation",
    "Dkim.C112_length_violation",
    "Dkim.C112_lines_violation",
    "Dkim.C112_lines_different",
    "Dkim.C112_verified_violation"
   ],
   "note": "Violated for bodies larger than the address space (finding 22 in DESIGN.md): panic with overflow checks, wrong results without. Proved for all bodies at least two bytes smaller, and with overflow checks for all bodies up to a panic."
  },
  {
   "property": "C113",
   "status": "partial",
   "theorems": [
    "Dkim.C113_same",
    "Dkim.C113_exact",
    "Dkim.C113_bound_partial",
    "Dkim.C113_cheap",
    "Dkim.C113_worst",
    "Dkim.C113_repeated",
    "Dkim.C113_violation",
    "Dkim.C113_chosen",
    "Dkim.C113_all_signed",
    "Dkim.C113_violation_signer",
    "Dkim.C113_copies_same",
    "Dkim.C113_copies_exact",
    "Dkim.C113_copies_bound_partial",
    "Dkim.C113_copies_violation",
    "Dkim.C113_written",
    "Dkim.C113_violation_verifier"
   ],
   "note": "Violated, for the verifier (C113_violation_verifier) and for the signer with its default selection (C113_violation_signer, C113_copies_violation): the header is searched anew for each name, so the number of header fields looked at grows with the product of the numbers of fields and names (C113_worst, C113_repeated, C113_all_signed). C113_exact, C113_chosen, C113_copies_exact: the exact numbers; C113_bound_partial, C113_copies_bound_partial: the product is an upper bound. Missing: a linear bound, which does not exist."
  },
  {
   "property": "C114",
   "status": "proved",
   "theorems": [
    "Dkim.C114_same",
    "Dkim.C114_chunk",
    "Dkim.C114_end",
    "Dkim.C114_bound",
    "Dkim.C114_done",
    "Dkim.C114_verifier",
    "Dkim.C114_unverified"
   ],
   "note": "The calls are counted in Model/Sharing; C114_same relates it to the other models, for all states."
  },
  {
   "property": "C115",
   "status": "proved",
   "theorems": [
    "Dkim.C115_same",
    "Dkim.C115_tag_list",
    "Dkim.C115_tag_list_all",
    "Dkim.C115_tags_fit",
    "Dkim.C115_quoted_printable",
    "Dkim.C115_quoted_printable_all",
    "Dkim.C115_original"
   ],
   "note": "The number of character tests in release builds; hashing of the names for the search for duplicates is not counted, and slices are views of the text. C115_same: the counted functions are those of the other properties. C115_tag_list, C115_quoted_printable and C115_original are the linear bounds, C115_tags_fit bounds the work on the values."
  },
  {
   "property": "C116",
   "status": "proved",
   "theorems": [
    "Dkim.C116_relayed",
    "Dkim.C116_not_created",
    "Dkim.C116_pushed_out",
    "Dkim.C116_bodies",
    "Dkim.C116_headers",
    "Dkim.C116_signed"
   ],
   "note": "The changes are defined in Spec/Relay.lean, independent of the model; the theorem is about complete runs of the verifier on the two messages, with any chunks. It rests on the laws of the IDNA conversion (Lawful, BlankLaw). C116_not_created is the converse; C116_signed has the conditions of C16_sign_verify_partial."
  }
 ]
}