{
 "claims": [
  {
   "property": "C01",
   "status": "proved",
   "theorems": [
    "Verif.Props.C01_varint_roundtrip"
   ],
   "note": "Full statement, for every uint64 and every trailing bytes."
  },
  {
   "property": "C02",
   "status": "proved",
   "theorems": [
    "Verif.Props.C02_varint_length",
    "Verif.Props.C02_varint_shortest",
    "Verif.Props.C02_varint_prefix_free"
   ],
   "note": "Length, minimality among all decodable strings, prefix-freeness."
  },
  {
   "property": "C03",
   "status": "proved",
   "theorems": [
    "Verif.Props.C03_varint_panic_iff",
    "Verif.Props.C03_varint_size",
    "Verif.Props.C03_varint_local",
    "Verif.Props.C03_varint_value"
   ],
   "note": "Exact panic domain with capacity; locality."
  },
  {
   "property": "C04",
   "status": "proved",
   "theorems": [
    "Verif.Props.C04_reverseBytes",
    "Verif.Props.C04_reverseBytes_involutive",
    "Verif.Props.C04_reverseHex_encode",
    "Verif.Props.C04_reverseHex_groups",
    "Verif.Props.C04_reverseHex_involutive",
    "Verif.Props.C04_reverseHex_odd"
   ],
   "note": "Reversal, involution, effect on hex encodings, odd length."
  },
  {
   "property": "C05",
   "status": "proved",
   "theorems": [
    "Verif.Props.C05_equals_iff",
    "Verif.Props.C05_sort_perm",
    "Verif.Props.C05_sort_sorted",
    "Verif.Props.C05_sort_canonical"
   ],
   "note": "Equality decision; sorted permutation; canonical result."
  },
  {
   "property": "C06",
   "status": "proved",
   "theorems": [
    "Verif.Props.C06_littleEndian",
    "Verif.Props.C06_decode32",
    "Verif.Props.C06_decode32_long",
    "Verif.Props.C06_decode32_violation",
    "Verif.Props.C06_decode32_violation_witness"
   ],
   "note": "Every outcome of both helpers; the ideal fails for short hex strings (C06_decode32_violation)."
  },
  {
   "property": "C07",
   "status": "proved",
   "theorems": [
    "Verif.Props.C07_roundtrip_on_domain",
    "Verif.Props.C07_roundtrip_iff",
    "Verif.Props.C07_violation_witness",
    "Verif.Props.C07_empty_part"
   ],
   "note": "Exact domain (C07_roundtrip_iff), counterexample to the ideal (C07_violation_witness), empty parts (C07_empty_part)."
  },
  {
   "property": "C08",
   "status": "proved",
   "theorems": [
    "Verif.Props.C08_prefix_domain",
    "Verif.Props.C08_prefix_form",
    "Verif.Props.C08_prefix_shortest",
    "Verif.Props.C08_encodeParts"
   ],
   "note": "Domain, exact form, minimality, EncodeParts."
  },
  {
   "property": "C09",
   "status": "proved",
   "theorems": [
    "Verif.Props.C09_decode_sound",
    "Verif.Props.C09_decode_truncated",
    "Verif.Props.C09_decode_complete",
    "Verif.Props.C09_tokens_unique"
   ],
   "note": "Soundness, completeness, uniqueness of tokenisation, shape of errors."
  },
  {
   "property": "C10",
   "status": "proved",
   "theorems": [
    "Verif.Props.C10_no_panic_on_domain",
    "Verif.Props.C10_panic_iff",
    "Verif.Props.C10_violation_witness"
   ],
   "note": "Exact panic domain (C10_panic_iff), witness that it is not empty."
  },
  {
   "property": "C11",
   "status": "proved",
   "theorems": [
    "Verif.Props.C11_append_fails_iff",
    "Verif.Props.C11_append_sequence",
    "Verif.Props.C11_append_effect"
   ],
   "note": "Every sequence of appends of any data; exact decode result or panic."
  },
  {
   "property": "C12",
   "status": "proved",
   "theorems": [
    "Verif.Props.C12_asm_roundtrip_iff",
    "Verif.Props.C12_asm_roundtrip_on_domain",
    "Verif.Props.C12_violation_witness",
    "Verif.Props.C12_toASM_total"
   ],
   "note": "Exact round-trip domain (C12_asm_roundtrip_iff), witnesses outside it."
  },
  {
   "property": "C13",
   "status": "proved",
   "theorems": [
    "Verif.Props.C13_opcode_tables"
   ],
   "note": "All 256 byte values and all entries of both tables."
  },
  {
   "property": "C14",
   "status": "proved",
   "theorems": [
    "Verif.Props.C14_p2pkh_form",
    "Verif.Props.C14_isP2PKH_iff",
    "Verif.Props.C14_getPublicKeyHash",
    "Verif.Props.C14_p2pkh_roundtrip",
    "Verif.Props.C14_fromPubKeyHashStr",
    "Verif.Props.C14_fromPubKeyStr"
   ],
   "note": "Full statement."
  },
  {
   "property": "C15",
   "status": "proved",
   "theorems": [
    "Verif.Props.C15_isP2SH_iff",
    "Verif.Props.C15_scriptPubKey"
   ],
   "note": "Full statement."
  },
  {
   "property": "C16",
   "status": "proved",
   "theorems": [
    "Verif.Props.C16_isP2PK_iff",
    "Verif.Props.C16_isP2PK_on_domain",
    "Verif.Props.C16_isP2PK_complete",
    "Verif.Props.C16_violation_witness"
   ],
   "note": "Exact accepted set, completeness for real P2PK scripts, witness of the extra ones."
  },
  {
   "property": "C17",
   "status": "proved",
   "theorems": [
    "Verif.Props.C17_isMultisigOut_iff",
    "Verif.Props.C17_isMultisigOut_on_domain",
    "Verif.Props.C17_violation_witness"
   ],
   "note": "Exact accepted set, the shape on well-typed scripts, witness of the extra ones."
  },
  {
   "property": "C18",
   "status": "proved",
   "theorems": [
    "Verif.Props.C18_isData_iff"
   ],
   "note": "Full statement."
  },
  {
   "property": "C19",
   "status": "proved",
   "theorems": [
    "Verif.Props.C19_exclusive",
    "Verif.Props.C19_violation_witness",
    "Verif.Props.C19_overlap_iff"
   ],
   "note": "All ten pairs; the overlap is characterised exactly (C19_overlap_iff)."
  },
  {
   "property": "C20",
   "status": "proved",
   "theorems": [
    "Verif.Props.C20_panic_domains",
    "Verif.Props.C20_no_panic_on_domain",
    "Verif.Props.C20_violation_witness"
   ],
   "note": "Exact panic domains of all functions, witnesses, and a simple sufficient condition for no panic."
  },
  {
   "property": "C21",
   "status": "proved",
   "theorems": [
    "Verif.Props.C21_opReturn",
    "Verif.Props.C21_opReturn_decodes",
    "Verif.Props.C21_hashPuzzle",
    "Verif.Props.C21_hashPuzzle_domain",
    "Verif.Props.C21_p2pkh_outputs"
   ],
   "note": "Exact script layout and domains of OP_RETURN, hash-puzzle and P2PKH outputs; exact decoding result."
  },
  {
   "property": "C22",
   "status": "proved",
   "theorems": [
    "Verif.Props.C22_address_roundtrip",
    "Verif.Props.C22_address_injective",
    "Verif.Props.C22_address_text"
   ],
   "note": "Round trip, injectivity, text."
  },
  {
   "property": "C23",
   "status": "proved",
   "theorems": [
    "Verif.Props.C23_generated_valid"
   ],
   "note": "Full statement for all three constructors."
  },
  {
   "property": "C24",
   "status": "proved",
   "theorems": [
    "Verif.Props.C24_validate_iff",
    "Verif.Props.C24_canonical_up_to_ones",
    "Verif.Props.C24_violation"
   ],
   "note": "Exact acceptance, no panic, canonical up to leading ones; deviation shown for every mainnet address (C24_violation)."
  },
  {
   "property": "C25",
   "status": "proved",
   "theorems": [
    "Verif.Props.C25_newFromString_iff",
    "Verif.Props.C25_newFromString_agrees",
    "Verif.Props.C25_violation"
   ],
   "note": "Exact acceptance set; deviation shown for every wrong checksum (C25_violation)."
  },
  {
   "property": "C26",
   "status": "proved",
   "theorems": [
    "Verif.Props.C26_first_character"
   ],
   "note": "Full statement."
  },
  {
   "property": "C27",
   "status": "proved",
   "theorems": [
    "Verif.Props.C27_constructors_agree",
    "Verif.Props.C27_payTo"
   ],
   "note": "Full statement."
  },
  {
   "property": "C28",
   "status": "proved",
   "theorems": [
    "Verif.Props.C28_roundtrip_iff",
    "Verif.Props.C28_roundtrip_on_domain",
    "Verif.Props.C28_violation"
   ],
   "note": "Exact round-trip domain; witnesses outside it."
  },
  {
   "property": "C29",
   "status": "proved",
   "theorems": [
    "Verif.Props.C29_decode_sound",
    "Verif.Props.C29_panic_iff",
    "Verif.Props.C29_no_panic_on_domain",
    "Verif.Props.C29_violation_witness"
   ],
   "note": "Soundness and exact panic domain."
  },
  {
   "property": "C30",
   "status": "proved",
   "theorems": [
    "Verif.Props.C30_order_independent",
    "Verif.Props.C30_repeatable",
    "Verif.Props.C30_histories"
   ],
   "note": "Full statement, also across histories of AddPublicKey and queries."
  },
  {
   "property": "C31",
   "status": "proved",
   "theorems": [
    "Verif.Props.C31_new",
    "Verif.Props.C31_structure",
    "Verif.Props.C31_boundary",
    "Verif.Props.C31_addPublicKey"
   ],
   "note": "Full statement for 1 <= n <= 16."
  },
  {
   "property": "C32",
   "status": "proved",
   "theorems": [
    "Verif.Props.C32_electrum_iff",
    "Verif.Props.C32_panic_iff",
    "Verif.Props.C32_violation_witness"
   ],
   "note": "Exact success set, exact panic domain (for a key library that does not panic), witnesses."
  },
  {
   "property": "C33",
   "status": "proved",
   "theorems": [
    "Verif.Props.C33_parse_serialise",
    "Verif.Props.C33_parse_serialise_string"
   ],
   "note": "Full statement, for byte and hex forms, any spare capacity after the slice."
  },
  {
   "property": "C34",
   "status": "proved",
   "theorems": [
    "Verif.Props.C34_serialise_parse",
    "Verif.Props.C34_nonminimal_witness"
   ],
   "note": "Re-serialisation gives the bytes back exactly when the counts are minimally encoded; a non-minimal transaction is shown to change (C34_nonminimal_witness)."
  },
  {
   "property": "C35",
   "status": "proved",
   "theorems": [
    "Verif.Props.C35_accepts_iff",
    "Verif.Props.C35_no_overread",
    "Verif.Props.C35_prefix_free",
    "Verif.Props.C35_min_size"
   ],
   "note": "The accepted strings are exactly those of the grammar in Spec/TxFormat; nothing outside the slice influences the result; the code is prefix-free."
  },
  {
   "property": "C36",
   "status": "proved",
   "theorems": [
    "Verif.Props.C36_input_panic_iff",
    "Verif.Props.C36_output_panic_iff",
    "Verif.Props.C36_no_panic_complete_body",
    "Verif.Props.C36_short_error",
    "Verif.Props.C36_violation_witness",
    "Verif.Props.C36_transaction_panic_iff"
   ],
   "note": "Exact panic domains of all three parsers, for slices below 2^62 bytes (every slice a Go program can hold)."
  },
  {
   "property": "C37",
   "status": "proved",
   "theorems": [
    "Verif.Props.C37_input_codec",
    "Verif.Props.C37_output_codec",
    "Verif.Props.C37_parsers_iff",
    "Verif.Props.C37_forms"
   ],
   "note": "Full statement, both directions."
  },
  {
   "property": "C38",
   "status": "proved",
   "theorems": [
    "Verif.Props.C38_txid_form",
    "Verif.Props.C38_txid_ignores",
    "Verif.Props.C38_txid_commits",
    "Verif.Props.C38_serialise_injective"
   ],
   "note": "Full statement; the collision alternative is the explicit pair of serialisations."
  },
  {
   "property": "C39",
   "status": "proved",
   "theorems": [
    "Verif.Props.C39_isCoinbase_iff",
    "Verif.Props.C39_isCoinbase_on_domain",
    "Verif.Props.C39_violation"
   ],
   "note": "Exact set; the ideal fails for every final input with zero txid (C39_violation)."
  },
  {
   "property": "C40",
   "status": "proved",
   "theorems": [
    "Verif.Props.C40_total"
   ],
   "note": "Sum modulo 2^64, exact below 2^64, order independence."
  },
  {
   "property": "C41",
   "status": "proved",
   "theorems": [
    "Verif.Props.C41_call",
    "Verif.Props.C41_history_from",
    "Verif.Props.C41_history"
   ],
   "note": "Every finite call history."
  },
  {
   "property": "C42",
   "status": "proved",
   "theorems": [
    "Verif.Props.C42_cleared_on_domain",
    "Verif.Props.C42_cleared_exact",
    "Verif.Props.C42_violation"
   ],
   "note": "Exact result for every call; the ideal fails for every index in range (C42_violation)."
  },
  {
   "property": "C43",
   "status": "proved",
   "theorems": [
    "Verif.Props.C43_digest"
   ],
   "note": "Every transaction whose in-memory sizes are below 2^64, every index and flag byte, against a separately written preimage."
  },
  {
   "property": "C44",
   "status": "proved",
   "theorems": [
    "Verif.Props.C44_depends_only",
    "Verif.Props.C44_unlocking",
    "Verif.Props.C44_other_inputs",
    "Verif.Props.C44_outputs",
    "Verif.Props.C44_sequences"
   ],
   "note": "Full statement."
  },
  {
   "property": "C45",
   "status": "proved",
   "theorems": [
    "Verif.Props.C45_binds",
    "Verif.Props.C45_violated"
   ],
   "note": "Any two transactions, indices, flags; the alternative is an explicit collision (or a zero digest) among the strings hashed. C45_violated: two transactions, one with ids of 62 and 66 digits, with the same preimage."
  },
  {
   "property": "C46",
   "status": "proved",
   "theorems": [
    "Verif.Props.C46_outcome",
    "Verif.Props.C46_errors_on_domain",
    "Verif.Props.C46_violation",
    "Verif.Props.C46_every"
   ],
   "note": "Exact outcome for every index; C46_every has no bound on the size of the transaction."
  },
  {
   "property": "C47",
   "status": "proved",
   "theorems": [
    "Verif.Props.C47_sign_ok",
    "Verif.Props.C47_verifies",
    "Verif.Props.C47_domain",
    "Verif.Props.C47_method"
   ],
   "note": "Success form, verification for the resulting transaction (abstract verification relation), success domain, unchanged on error."
  },
  {
   "property": "C48",
   "status": "proved",
   "theorems": [
    "Verif.Props.C48_signAuto",
    "Verif.Props.C48_order",
    "Verif.Props.C48_again",
    "Verif.Props.C48_panic_iff",
    "Verif.Props.C48_violation_witness"
   ],
   "note": "Selection, effect, order independence, idempotence, exact panic domain; witness that non-P2PKH scripts are selected."
  },
  {
   "property": "C49",
   "status": "proved",
   "theorems": [
    "Verif.Props.C49_history",
    "Verif.Props.C49_signature_stays",
    "Verif.Props.C49_locality",
    "Verif.Props.C49_apply",
    "Verif.Props.C49_violation"
   ],
   "note": "Every finite history; exact outcome of ApplyUnlockingScript."
  },
  {
   "property": "C50",
   "status": "proved",
   "theorems": [
    "Verif.Props.C50_unlocking",
    "Verif.Props.C50_injective"
   ],
   "note": "Full statement for signatures and keys up to 65531 bytes."
  },
  {
   "property": "C51",
   "status": "proved",
   "theorems": [
    "Verif.Props.C51_root",
    "Verif.Props.C51_root_any_coinbase"
   ],
   "note": "Every non-empty list of hex txids, also with the coinbase hash supplied later."
  },
  {
   "property": "C52",
   "status": "proved",
   "theorems": [
    "Verif.Props.C52_independent",
    "Verif.Props.C52_count"
   ],
   "note": "Full statement."
  },
  {
   "property": "C53",
   "status": "proved",
   "theorems": [
    "Verif.Props.C53_complete",
    "Verif.Props.C53_path_exists",
    "Verif.Props.C53_coinbase"
   ],
   "note": "Every list and position; paths exist; the branches of GetMerkleBranches are the path of position 0."
  },
  {
   "property": "C54",
   "status": "proved",
   "theorems": [
    "Verif.Props.C54_sound"
   ],
   "note": "32-byte txids and branches; explicit collision alternative."
  },
  {
   "property": "C55",
   "status": "proved",
   "theorems": [
    "Verif.Props.C55_error_iff",
    "Verif.Props.C55_range_on_domain",
    "Verif.Props.C55_violation"
   ],
   "note": "Exact error domain, never a panic, negative indices as residues."
  },
  {
   "property": "C56",
   "status": "proved",
   "theorems": [
    "Verif.Props.C56_target",
    "Verif.Props.C56_target_failures",
    "Verif.Props.C56_string",
    "Verif.Props.C56_string_outcomes",
    "Verif.Props.C56_violation_large",
    "Verif.Props.C56_violation_sign",
    "Verif.Props.C56_fits"
   ],
   "note": "Value and exact failure domain of both functions, witnesses of the deviations."
  },
  {
   "property": "C57",
   "status": "proved",
   "theorems": [
    "Verif.Props.C57_correctly_rounded",
    "Verif.Props.C57_outcomes",
    "Verif.Props.C57_antitone",
    "Verif.Props.C57_code_target_iff",
    "Verif.Props.C57_violation"
   ],
   "note": "Exact IEEE double rounding for every string; exact condition under which the code uses the expanded target."
  },
  {
   "property": "C58",
   "status": "proved",
   "theorems": [
    "Verif.Props.C58_layout",
    "Verif.Props.C58_injective",
    "Verif.Props.C58_unchecked"
   ],
   "note": "Full statement; outside the stated field sizes nothing is checked (C58_unchecked)."
  },
  {
   "property": "C59",
   "status": "proved",
   "theorems": [
    "Verif.Props.C59_coinbase",
    "Verif.Props.C59_failures",
    "Verif.Props.C59_height",
    "Verif.Props.C59_height_truncated"
   ],
   "note": "Full statement; heights of 2^24 and more are truncated (C59_height_truncated)."
  },
  {
   "property": "C60",
   "status": "proved",
   "theorems": [
    "Verif.Props.C60_script",
    "Verif.Props.C60_announced"
   ],
   "note": "Full statement."
  },
  {
   "property": "C61",
   "status": "proved",
   "theorems": [
    "Verif.Props.C61_roundtrip",
    "Verif.Props.C61_failures"
   ],
   "note": "Every cipher function, IV and text; round-trip failures exactly for other block sizes."
  },
  {
   "property": "C62",
   "status": "proved",
   "theorems": [
    "Verif.Props.C62_total",
    "Verif.Props.C62_violation",
    "Verif.Props.C62_memory",
    "Verif.Props.C62_memory_exact"
   ],
   "note": "Exact effect on the result and on all memory (C62_memory_exact)."
  },
  {
   "property": "C63",
   "status": "proved",
   "theorems": [
    "Verif.Props.C63_hashes"
   ],
   "note": "Composition and sizes for arbitrary SHA-256/RIPEMD-160 functions with the right output sizes."
  },
  {
   "property": "C64",
   "status": "proved",
   "theorems": [
    "Verif.Props.C64_parse_refines",
    "Verif.Props.C64_append_exact",
    "Verif.Props.C64_small_or_last",
    "Verif.Props.C64_earlier_unchanged",
    "Verif.Props.C64_created_independent",
    "Verif.Props.C64_violation"
   ],
   "note": "Exact effect of every append in the heap model, the three independence consequences, and a witness against the ideal."
  },
  {
   "property": "C65",
   "status": "proved",
   "theorems": [
    "Verif.Props.C65_header",
    "Verif.Props.C65_coinbase",
    "Verif.Props.C65_merkle_exact",
    "Verif.Props.C65_merkle_unchanged",
    "Verif.Props.C65_violation"
   ],
   "note": "Exact effect of all three builders on memory, and a witness against the ideal."
  },
  {
   "property": "C66",
   "status": "proved",
   "theorems": [
    "Verif.Props.C66_display",
    "Verif.Props.C66_monotone"
   ],
   "note": "The full printed string for every non-negative finite float64: unit, correct rounding to hundredths, monotone inside a unit."
  },
  {
   "property": "C67",
   "status": "proved",
   "theorems": [
    "Verif.Props.C67_root_binds",
    "Verif.Props.C67_duplicate_last"
   ],
   "note": "Full statement, including the duplicated-last-txid root."
  },
  {
   "property": "C68",
   "status": "proved",
   "theorems": [
    "Verif.Props.C68_panic",
    "Verif.Props.C68_value",
    "Verif.Props.C68_monotone"
   ],
   "note": "Full statement with an exact model of binary64 (Model/Double.lean); beyond 10^300 s the quotient may be subnormal, see C91_quotient."
  },
  {
   "property": "C69",
   "status": "proved",
   "theorems": [
    "Verif.Props.C69_buffer_shared",
    "Verif.Props.C69_fields_kept"
   ],
   "note": "Full statement in the heap model."
  },
  {
   "property": "C70",
   "status": "proved",
   "theorems": [
    "Verif.Props.C70_signed_accepted",
    "Verif.Props.C70_accepted_after_parse"
   ],
   "note": "Stack-machine specification of script evaluation (Spec/Interp.lean); signing with any list of keys; acceptance after serialisation and parsing."
  },
  {
   "property": "C71",
   "status": "proved",
   "theorems": [
    "Verif.Props.C71_pay_then_spend"
   ],
   "note": "PayTo, From, SignAuto composed; outpoint and acceptance of the new input."
  },
  {
   "property": "C72",
   "status": "proved",
   "theorems": [
    "Verif.Props.C72_text",
    "Verif.Props.C72_commits",
    "Verif.Props.C72_violation"
   ],
   "note": "Exact text, first character and length; commitment with explicit collision; refusal by the rest of the library."
  },
  {
   "property": "C73",
   "status": "proved",
   "theorems": [
    "Verif.Props.C73_roundtrip",
    "Verif.Props.C73_parse_iff",
    "Verif.Props.C73_handover"
   ],
   "note": "Exact acceptance and round trips."
  },
  {
   "property": "C74",
   "status": "proved",
   "theorems": [
    "Verif.Props.C74_input_text",
    "Verif.Props.C74_output_text",
    "Verif.Props.C74_faithful",
    "Verif.Props.C74_violation"
   ],
   "note": "Exact text, panic domain, injectivity, and the txid deviation."
  },
  {
   "property": "C75",
   "status": "proved",
   "theorems": [
    "Verif.Props.C75_header_of_block",
    "Verif.Props.C75_header_commits"
   ],
   "note": "Forward composition and commitment with explicit collision."
  },
  {
   "property": "C76",
   "status": "proved",
   "theorems": [
    "Verif.Obj.C76_reads"
   ],
   "note": "Store of objects with explicit pointers (Model/Objects.lean); every reading method agrees with the value-level model on what the pointers show."
  },
  {
   "property": "C77",
   "status": "proved",
   "theorems": [
    "Verif.Obj.C77_history",
    "Verif.Obj.C77_others",
    "Verif.Obj.C77_sign"
   ],
   "note": "Simulation of the value-level model by the store, by induction over histories; separation invariant."
  },
  {
   "property": "C78",
   "status": "proved",
   "theorems": [
    "Verif.Obj.C78_apply",
    "Verif.Obj.C78_apply_only",
    "Verif.Obj.C78_sign",
    "Verif.Obj.C78_shared_violated"
   ],
   "note": "Exact effect on every transaction of the store; violation of independence for every shared input."
  },
  {
   "property": "C79",
   "status": "proved",
   "theorems": [
    "Verif.Obj.C79_shows",
    "Verif.Obj.C79_toBytes",
    "Verif.Obj.C79_apply",
    "Verif.Obj.C79_others",
    "Verif.Obj.C79_signAuto",
    "Verif.Obj.C79_digest"
   ],
   "note": "Exact panic and error domains for nil pointers."
  },
  {
   "property": "C80",
   "status": "proved",
   "theorems": [
    "Verif.Obj.C80_sign",
    "Verif.Obj.C80_signAuto",
    "Verif.Obj.C80_flag"
   ],
   "note": "Any implementation of Signer; flag stored back."
  },
  {
   "property": "C81",
   "status": "proved",
   "theorems": [
    "Verif.Obj.C81_inputs",
    "Verif.Obj.C81_outputs",
    "Verif.Obj.C81_sign_violated"
   ],
   "note": "Exact outcome by capacity; violation through Sign."
  },
  {
   "property": "C82",
   "status": "proved",
   "theorems": [
    "Verif.Props.C82_values",
    "Verif.Props.C82_view",
    "Verif.Props.C82_overwrite",
    "Verif.Props.C82_append",
    "Verif.Props.C82_public_key_hash_value",
    "Verif.Props.C82_public_key_hash_shared"
   ],
   "note": "Heap-level model of DecodeParts and GetPublicKeyHash; refinement of the value-level decoder; exact effect of later writes and appends."
  },
  {
   "property": "C83",
   "status": "proved",
   "theorems": [
    "Verif.Props.C83_p2pkh_iff",
    "Verif.Props.C83_undefined_flag"
   ],
   "note": "Exact set of accepted inputs under the separate evaluator; unacceptable flags."
  },
  {
   "property": "C84",
   "status": "proved",
   "theorems": [
    "Verif.Props.C84_hashPuzzle_iff"
   ],
   "note": "Exact set of accepted inputs under the separate evaluator."
  },
  {
   "property": "C85",
   "status": "proved",
   "theorems": [
    "Verif.Props.C85_data_unspendable",
    "Verif.Props.C85_bare_return_spendable"
   ],
   "note": "No accepted input exists; bare OP_RETURN is spendable."
  },
  {
   "property": "C86",
   "status": "proved",
   "theorems": [
    "Verif.Props.C86_redeem_iff",
    "Verif.Props.C86_p2sh_accepts",
    "Verif.Props.C86_p2sh_only",
    "Verif.Props.C86_too_many_required",
    "Verif.Props.C86_no_keys"
   ],
   "note": "Exact set of accepted inputs, directly and through the hash (a collision disjunct names the other script); unspendable cases."
  },
  {
   "property": "C87",
   "status": "proved",
   "theorems": [
    "Verif.Conc.C87_panic_own",
    "Verif.Conc.C87_returned_not_panic",
    "Verif.Conc.C87_returns_or_panics",
    "Verif.Conc.C87_panics",
    "Verif.Conc.C87_panic_iff",
    "Verif.Conc.C87_always",
    "Verif.Conc.C87_finished",
    "Verif.Conc.C87_deterministic",
    "Verif.Conc.C87_sequential",
    "Verif.Conc.C87_no_panic",
    "Verif.Conc.C87_finishes"
   ],
   "note": "Step machine over the source-level accesses (Model/Concurrent.lean), schedule = any list of goroutine numbers; invariant by induction over schedules; progress measure; panics of the program are exactly those of the calls made alone (C87_panic_iff); equality with the function-level model for every permutation."
  },
  {
   "property": "C88",
   "status": "proved",
   "theorems": [
    "Verif.Conc.C88_race_free",
    "Verif.Conc.C88_races",
    "Verif.Conc.C88_method_violated",
    "Verif.Conc.C88_writes_recorded",
    "Verif.Conc.C88_reads_recorded"
   ],
   "note": "Exact characterisation over the access log, which is proved to record every write a step makes and every read it depends on. Violation: Transaction.Sign."
  },
  {
   "property": "C89",
   "status": "proved",
   "theorems": [
    "Verif.Conc.C89_sign_linearizable",
    "Verif.Conc.C89_auto_violated"
   ],
   "note": "Permutation built from the last writers; SignAuto counterexample."
  },
  {
   "property": "C90",
   "status": "proved",
   "theorems": [
    "Verif.Props.C90_special",
    "Verif.Props.C90_negative",
    "Verif.Props.C90_sign_violated",
    "Verif.Props.C90_wellformed"
   ],
   "note": "All of float64 (signed zeros, subnormals, infinities, NaN); text of %.2f as fmt prints it. Violation of sign symmetry for every value from 1000 on."
  },
  {
   "property": "C91",
   "status": "proved",
   "theorems": [
    "Verif.Props.C91_special",
    "Verif.Props.C91_quotient",
    "Verif.Props.C91_sign"
   ],
   "note": "IEEE division in full; rounding proved to be nearest-even among all float64 magnitudes including subnormals (rnd64_roundsTo)."
  },
  {
   "property": "C92",
   "status": "proved",
   "theorems": [
    "Verif.Props.C92_writes_recorded",
    "Verif.Props.C92_reads_recorded",
    "Verif.Props.C92_insertion_sorts",
    "Verif.Props.C92_insertion_leaves_sorted",
    "Verif.Props.C92_after_first",
    "Verif.Props.C92_sorted",
    "Verif.Props.C92_members",
    "Verif.Props.C92_lost_key",
    "Verif.Props.C92_races",
    "Verif.Props.C92_panic_iff",
    "Verif.Props.C92_no_panic",
    "Verif.Props.C92_insertion_inside",
    "Verif.Props.C92_returns"
   ],
   "note": "Stated for every sorting algorithm over sort.Interface; Go insertion sort proved to be one. C92_panic_iff and C92_no_panic are for every algorithm; C92_returns is for the insertion sort. Reading or writing one slice element is one step. C92_lost_key and C92_races record the violation. C92_reads_recorded and C92_writes_recorded show that the record of accesses on which the race theorems speak misses none."
  },
  {
   "property": "C93",
   "status": "proved",
   "theorems": [
    "Verif.Props.C93_history",
    "Verif.Props.C93_counts",
    "Verif.Props.C93_copy_get",
    "Verif.Props.C93_copy_add_add",
    "Verif.Props.C93_copy_add_get",
    "Verif.Props.C93_foreign_key",
    "Verif.Props.C93_full",
    "Verif.Props.C93_history_violated"
   ],
   "note": "Key arrays and slice headers explicit, any growth policy. C93_copy_add_add, C93_copy_add_get, C93_foreign_key, C93_history_violated record the violations."
  },
  {
   "property": "C94",
   "status": "proved",
   "theorems": [
    "Verif.Props.C94_text",
    "Verif.Props.C94_refused_iff",
    "Verif.Props.C94_injective",
    "Verif.Props.C94_negative_violated"
   ],
   "note": "Text stated with its own specification (bip276Text); found missing by seeded bug a9. C94_negative_violated records the violation."
  },
  {
   "property": "C95",
   "status": "proved",
   "theorems": [
    "Verif.Props.C95_toASM",
    "Verif.Props.C95_toASM_words",
    "Verif.Props.C95_toASM_fails",
    "Verif.Props.C95_words",
    "Verif.Props.C95_fromASM",
    "Verif.Props.C95_text_roundtrip"
   ],
   "note": "Words given by Spec/Asm.lean (wordFor, ReadsAs), independent of the model."
  },
  {
   "property": "C96",
   "status": "proved",
   "theorems": [
    "Verif.Props.C96_getPublicKeyHash",
    "Verif.Props.C96_not_p2pkh",
    "Verif.Props.C96_templates_total"
   ],
   "note": "C96_not_p2pkh records the deviation; C96_templates_total discharges the one place where the model used total indexing."
  },
  {
   "property": "C97",
   "status": "proved",
   "theorems": [
    "Verif.Props.C97_encrypt",
    "Verif.Props.C97_decrypt",
    "Verif.Props.C97_forgery"
   ],
   "note": "CFB and base64 stated position by position and character by character in Spec/Cipher.lean. The block cipher is a parameter. C97_forgery records the deviation."
  },
  {
   "property": "C98",
   "status": "proved",
   "theorems": [
    "Verif.Props.C98_bytes",
    "Verif.Props.C98_recognised",
    "Verif.Props.C98_seventeen",
    "Verif.Props.C98_twentysix"
   ],
   "note": "C98_seventeen, C98_twentysix record the deviation, using the separate script evaluator of Spec/Interp.lean."
  },
  {
   "property": "C99",
   "status": "proved",
   "theorems": [
    "Verif.Props.C99_withChecksum",
    "Verif.Props.C99_fromHash",
    "Verif.Props.C99_wrong_length",
    "Verif.Props.C99_fromKeyString",
    "Verif.Props.C99_fromKey"
   ],
   "note": "C99_wrong_length records the deviation. Public keys enter as their compressed serialisation (curve arithmetic is not modelled)."
  },
  {
   "property": "C100",
   "status": "proved",
   "theorems": [
    "Verif.Props.C100_decode_iff",
    "Verif.Props.C100_validate",
    "Verif.Props.C100_other_prefix"
   ],
   "note": "ReadsAsBip276 is stated without the matcher of the model. C100_other_prefix records the deviation."
  },
  {
   "property": "C101",
   "status": "proved",
   "theorems": [
    "Verif.Props.C101_layout",
    "Verif.Props.C101_size",
    "Verif.Props.C101_reparse_iff",
    "Verif.Props.C101_malformed"
   ],
   "note": "LooseTx and HexStart (Spec/TxBytes.lean) do not use the model. hexStart_iff also justifies the use of the lenient hex decoder in other specifications. C101_malformed records the deviation."
  },
  {
   "property": "C102",
   "status": "proved",
   "theorems": [
    "Verif.Props.C102_concat",
    "Verif.Props.C102_iff",
    "Verif.Props.C102_redirect"
   ],
   "note": "C102_redirect records the deviation."
  },
  {
   "property": "C103",
   "status": "proved",
   "theorems": [
    "Verif.Props.C103_root",
    "Verif.Props.C103_total",
    "Verif.Props.C103_not_reported"
   ],
   "note": "C103_not_reported records the deviation."
  },
  {
   "property": "C104",
   "status": "proved",
   "theorems": [
    "Verif.Props.C104_tx",
    "Verif.Props.C104_cleared",
    "Verif.Props.C104_input",
    "Verif.Props.C104_output",
    "Verif.Props.C104_sighash",
    "Verif.Props.C104_encode",
    "Verif.Props.C104_reverse",
    "Verif.Props.C104_use",
    "Verif.Props.C104_kept",
    "Verif.Props.C104_again",
    "Verif.Props.C104_from_bytes_shared",
    "Verif.Props.C104_parsed"
   ],
   "note": "Heap-level models of every serialiser (Model/HeapSerial) refine the value-level ones and return fresh memory; C104_use/C104_kept/C104_again give the consequences for every later use; C104_from_bytes_shared states that script.NewFromBytes aliases its argument."
  },
  {
   "property": "C105",
   "status": "proved",
   "theorems": [
    "Verif.Props.C105_always",
    "Verif.Props.C105_outcomes",
    "Verif.Props.C105_lost",
    "Verif.Props.C105_single",
    "Verif.Props.C105_one_after_other",
    "Verif.Props.C105_finishes",
    "Verif.Props.C105_races",
    "Verif.Props.C105_race_free",
    "Verif.Props.C105_alone",
    "Verif.Props.C105_writes_recorded",
    "Verif.Props.C105_reads_recorded"
   ],
   "note": "C105_outcomes characterises the reachable final contents exactly (soundness by an invariant over all schedules, completeness by constructing a schedule); C105_always covers every intermediate moment; C105_lost is the violation of the natural expectation that every added element is kept; C105_alone ties the steps to the object model. Sequentially consistent interleaving; headers are loaded and stored in one step. C105_reads_recorded and C105_writes_recorded show that the record of accesses on which the race theorems speak misses none."
  },
  {
   "property": "C106",
   "status": "proved",
   "theorems": [
    "Verif.Props.C106_harmless",
    "Verif.Props.C106_bytes",
    "Verif.Props.C106_whole",
    "Verif.Props.C106_snapshot",
    "Verif.Props.C106_finishes",
    "Verif.Props.C106_readers_only_read",
    "Verif.Props.C106_reads_recorded",
    "Verif.Props.C106_races",
    "Verif.Props.C106_torn_violated",
    "Verif.Props.C106_other_violated",
    "Verif.Props.C106_never_violated"
   ],
   "note": "C106_bytes holds for every schedule; C106_whole adds the hypothesis that no input can have two scripts; C106_torn_violated, C106_other_violated (signed anew while read) and C106_never_violated (a state that never was) are violations of the natural expectation, with witnesses. Sequentially consistent interleaving; the struct is read in one step at the beginning and one at the end (the signers only overwrite it with itself)."
  },
  {
   "property": "C107",
   "status": "proved",
   "theorems": [
    "Verif.Props.C107_parse_model",
    "Verif.Props.C107_parse_bound",
    "Verif.Props.C107_parse_success",
    "Verif.Props.C107_decode_model",
    "Verif.Props.C107_decode",
    "Verif.Props.C107_merkle_model",
    "Verif.Props.C107_merkle"
   ],
   "note": "Counts are of loop iterations and calls, on counted copies of the functions that the *_model theorems prove equal to the functions modelled elsewhere. The work inside an iteration (copying a script, hashing) is not counted."
  },
  {
   "property": "C108",
   "status": "proved",
   "theorems": [
    "Verif.Props.C108_digest_model",
    "Verif.Props.C108_sign_model",
    "Verif.Props.C108_auto_model",
    "Verif.Props.C108_digest",
    "Verif.Props.C108_digest_none",
    "Verif.Props.C108_sign",
    "Verif.Props.C108_auto",
    "Verif.Props.C108_upper",
    "Verif.Props.C108_repeated",
    "Verif.Props.C108_quadratic"
   ],
   "note": "Counts are of bytes given to Sha256d. C108_quadratic is the deviation from the linear cost the digest was designed for (the inner hashes can be kept); the bounds hold for every flag, C108_repeated and C108_quadratic for flags without ANYONECANPAY, NONE, SINGLE. Inputs need 64-digit txids for the numeric bounds."
  },
  {
   "property": "C109",
   "status": "proved",
   "theorems": [
    "Verif.Props.C109_scripts",
    "Verif.Props.C109_outputs",
    "Verif.Props.C109_others",
    "Verif.Props.C109_addPublicKey",
    "Verif.Props.C109_hex",
    "Verif.Props.C109_validate",
    "Verif.Props.C109_exact"
   ],
   "note": "The exact panic domains of the remaining functions are C03 (DecodeVarInt), C10 (DecodeParts), C20 (script inspection), C29 (DecodeBIP276), C32 (Electrum scripts), C36 (transaction parsing), C46 (signature hash), C48 (SignAuto), C56, C57 (targets, difficulty), C68 (hash rate)."
  },
  {
   "property": "C110",
   "status": "proved",
   "theorems": [
    "Verif.Props.C110_parsed",
    "Verif.Props.C110_hash",
    "Verif.Props.C110_party",
    "Verif.Props.C110_relay",
    "Verif.Props.C110_silent_violated"
   ],
   "note": "(a) is proved as the code has it; C110_silent_violated is the witness that SignAuto on a parsed copy silently does not sign what it signs in memory. For (b)-(d) the receiver is trusted to put back the right previous outputs (C45: a wrong script or amount changes the hash)."
  },
  {
   "property": "C111",
   "status": "proved",
   "theorems": [
    "Verif.Props.C111_height",
    "Verif.Props.C111_violated"
   ],
   "note": "The stated range is exact. Deviation: GetCoinbaseParts writes three height bytes for every height, so on a test chain (heights below 32768) and from height 8388608 on its coinbases are invalid."
  },
  {
   "property": "C112",
   "status": "proved",
   "theorems": [
    "Verif.Props.C112_apply",
    "Verif.Props.C112_sign",
    "Verif.Props.C112_child",
    "Verif.Props.C112_third_party"
   ],
   "note": "Up to collisions of double SHA256, which are exhibited in the statement. (d) is about script evaluation as in Spec/Interp (consensus, without the policy rule that the stack must be clean)."
  },
  {
   "property": "C113",
   "status": "proved",
   "theorems": [
    "Verif.Props.C113_script",
    "Verif.Props.C113_redeem",
    "Verif.Props.C113_sign",
    "Verif.Props.C113_transaction",
    "Verif.Props.C113_history",
    "Verif.Props.C113_script_history",
    "Verif.Props.C113_auto_model",
    "Verif.Props.C113_auto_panic",
    "Verif.Props.C113_repair",
    "Verif.Props.C113_auto_violated",
    "Verif.Props.C113_signer_violated"
   ],
   "note": "Model/Stateful writes the methods statement by statement over a state that survives errors and panics. Deviations: SignAuto panics half way and leaves a half signed transaction; Sign stores the default flag in the signer before it fails."
  },
  {
   "property": "C114",
   "status": "proved",
   "theorems": [
    "Verif.Props.C114_sign",
    "Verif.Props.C114_auto",
    "Verif.Props.C114_payment"
   ],
   "note": "From the exact size of a transaction (C101), C48 and C41. What ECDSA signatures look like is a hypothesis (their lengths lie between lo and hi)."
  },
  {
   "property": "C115",
   "status": "proved",
   "theorems": [
    "Verif.Props.C115_payment",
    "Verif.Props.C115_wallet",
    "Verif.Props.C115_violated"
   ],
   "note": "Spec/Ledger is the node: unspent outputs, the checks on the wire form, the unspent outputs afterwards; coinbase maturity and time locks are not in it. C115_payment is an equivalence; C115_wallet is the induction over histories. Deviation (C115_violated): double use of an output, overspending, no outputs and no inputs are all built and signed without an error."
  },
  {
   "property": "C116",
   "status": "proved",
   "theorems": [
    "Verif.Props.C116_block",
    "Verif.Props.C116_wallet",
    "Verif.Props.C116_violated"
   ],
   "note": "Spec/Chain is the node: header, proof of work, Merkle root, coinbase with height and reward, transactions in order (Spec/Ledger), the unspent outputs afterwards. C116_block is an equivalence. How bits and subsidy come about and coinbase maturity are not in the specification. C116_violated records the deviation."
  },
  {
   "property": "C117",
   "status": "proved",
   "theorems": [
    "Verif.Props.C117_sign_asks",
    "Verif.Props.C117_signAuto_asks",
    "Verif.Props.C117_accepted",
    "Verif.Props.C117_step",
    "Verif.Props.C117_history",
    "Verif.Props.C117_wallet",
    "Verif.Props.C117_none"
   ],
   "note": "The signature scheme is ideal: OnlySigned says that only digests the signer was asked for verify; C117_sign_asks and C117_signAuto_asks prove which those are. Hash functions are arbitrary; collisions are explicit disjuncts over the strings at hand (a bare existence claim would be trivially true). Ledger and node as in C115."
  },
  {
   "property": "C118",
   "status": "proved",
   "theorems": [
    "Verif.Props.C118_writes_recorded",
    "Verif.Props.C118_reads_recorded",
    "Verif.Props.C118_always",
    "Verif.Props.C118_finished",
    "Verif.Props.C118_memory",
    "Verif.Props.C118_opcodes",
    "Verif.Props.C118_undisturbed",
    "Verif.Props.C118_in_turn",
    "Verif.Props.C118_in_turn_calls",
    "Verif.Props.C118_finishes",
    "Verif.Props.C118_races",
    "Verif.Props.C118_race_free",
    "Verif.Props.C118_torn",
    "Verif.Props.C118_undecodable"
   ],
   "note": "Bytes are moved one at a time, lowest first: the finest interleaving, so that the statements for all schedules cover coarser ones; C118_torn and C118_undecodable are about the finest one. Sequentially consistent. C118_undisturbed ties the steps to the memory model of C65. C118_reads_recorded and C118_writes_recorded show that the record of accesses on which the race theorems speak misses none."
  },
  {
   "property": "C119",
   "status": "proved",
   "theorems": [
    "Verif.Props.C119_reads_recorded",
    "Verif.Props.C119_any",
    "Verif.Props.C119_orderly",
    "Verif.Props.C119_whole",
    "Verif.Props.C119_grows",
    "Verif.Props.C119_output",
    "Verif.Props.C119_output_serial",
    "Verif.Props.C119_output_parsed",
    "Verif.Props.C119_pkh",
    "Verif.Props.C119_finishes",
    "Verif.Props.C119_races",
    "Verif.Props.C119_output_violated"
   ],
   "note": "A reading call is modelled as reading every byte once, in order; the functions of the bytes read are those of the other claims. C119_pkh speaks of four moments of the schedule instead of single steps. Sequentially consistent. The result for ToBytes is a negation with a witness, C119_output_violated, beside the exact statement C119_output. C119_reads_recorded show that the record of accesses on which the race theorems speak misses none."
  },
  {
   "property": "C120",
   "status": "proved",
   "theorems": [
    "Verif.Props.C120_owns",
    "Verif.Props.C120_seen",
    "Verif.Props.C120_pay",
    "Verif.Props.C120_wallet",
    "Verif.Props.C120_transfer",
    "Verif.Props.C120_start",
    "Verif.Props.C120_restore",
    "Verif.Props.C120_block",
    "Verif.Props.C120_chain"
   ],
   "note": "The wallet is a small program on top of the library (walletStep in Props/Ledger), not part of it; the node is the specification of C115 and C116. Outputs the keys could spend but which are no P2PKH script of a key (P2PK, multisig, a longer push) are not the wallet's: the balance is over P2PKH outputs. Reorganisations and coinbase maturity are not covered."
  },
  {
   "property": "C121",
   "status": "proved",
   "theorems": [
    "Verif.Props.C121_joint",
    "Verif.Props.C121_order"
   ],
   "note": "The node is the specification of C115; the relay is that of C110 (each party puts the previous outputs back by assignment). Hypothesis hcap (no transaction on the way has 2^62 bytes or more) is the size bound of the parser's model. C121_order is for any transaction, not only for payments."
  },
  {
   "property": "C122",
   "status": "proved",
   "theorems": [
    "Verif.Props.C122_writes_recorded",
    "Verif.Props.C122_reads_recorded",
    "Verif.Props.C122_toBytes_alone",
    "Verif.Props.C122_counts_alone",
    "Verif.Props.C122_coinbase_alone",
    "Verif.Props.C122_digest_alone",
    "Verif.Props.C122_sign_alone",
    "Verif.Props.C122_always",
    "Verif.Props.C122_any",
    "Verif.Props.C122_crash",
    "Verif.Props.C122_orderly",
    "Verif.Props.C122_orderly_crash",
    "Verif.Props.C122_values",
    "Verif.Props.C122_grows",
    "Verif.Props.C122_undisturbed",
    "Verif.Props.C122_uninterrupted",
    "Verif.Props.C122_finishes",
    "Verif.Props.C122_no_trace",
    "Verif.Props.C122_race_only",
    "Verif.Props.C122_race",
    "Verif.Props.C122_one_writer",
    "Verif.Props.C122_now",
    "Verif.Props.C122_counts",
    "Verif.Props.C122_coinbase",
    "Verif.Props.C122_digest",
    "Verif.Props.C122_toBytes",
    "Verif.Props.C122_safe",
    "Verif.Props.C122_looks",
    "Verif.Props.C122_only_looks",
    "Verif.Props.C122_toBytes_violated",
    "Verif.Props.C122_digest_violated",
    "Verif.Props.C122_single_crash"
   ],
   "note": "A call is the program of its evaluations of bt.Inputs and bt.Outputs; the _alone theorems tie each program to the function of the sequential model. Sequentially consistent, a slice header in one step (as C105). C122_toBytes_violated, C122_digest_violated and C122_single_crash are concrete witnesses of the deviations. C122_reads_recorded and C122_writes_recorded show that the record of accesses on which the race theorems speak misses none."
  },
  {
   "property": "C123",
   "status": "proved",
   "theorems": [
    "Verif.Props.C123_lost",
    "Verif.Props.C123_sign",
    "Verif.Props.C123_signAuto",
    "Verif.Props.C123_kept",
    "Verif.Props.C123_through_signer",
    "Verif.Props.C123_signAuto_alone"
   ],
   "note": "The unlocking script that Sign leaves in the input is not part of this model (C87 to C89 and C106 have goroutines that sign inputs); the result of a program is the digest it signs, and C123_signAuto_alone ties these to the scripts of the sequential SignAuto. C123_lost is for every transaction and every list of additions."
  },
  {
   "property": "C124",
   "status": "proved",
   "theorems": [
    "Verif.Props.C124_writes_recorded",
    "Verif.Props.C124_reads_recorded",
    "Verif.Props.C124_lost",
    "Verif.Props.C124_miscount",
    "Verif.Props.C124_miscount_nobody",
    "Verif.Props.C124_members",
    "Verif.Props.C124_add_returns",
    "Verif.Props.C124_call_returns",
    "Verif.Props.C124_in_turn",
    "Verif.Props.C124_races",
    "Verif.Props.C124_race_free",
    "Verif.Props.C124_panic_iff"
   ],
   "note": "GetRedeemScript step by step: the three evaluations of rs.PublicKeys, each access of the sort (any algorithm, as C92), the store of the header, each key of the loop. Sequentially consistent, a slice header and an element in one step (as C92, C105). C124_lost and C124_miscount are for every redeem script, every list of additions and every correct sort. C124_reads_recorded and C124_writes_recorded show that the record of accesses on which the race theorems speak misses none."
  },
  {
   "property": "C125",
   "status": "proved",
   "theorems": [
    "Verif.Props.C125_member",
    "Verif.Props.C125_header",
    "Verif.Props.C125_inner_node",
    "Verif.Props.C125_half_transaction",
    "Verif.Props.C125_position_behind"
   ],
   "note": "Soundness with the explicit collision alternative (an injective 32-byte hash does not exist, so no such hypothesis is used); the deviations are for every proof, every 64-byte transaction and every odd list. exTx64 is a 64-byte transaction that the library parses."
  },
  {
   "property": "C126",
   "status": "proved",
   "theorems": [
    "Verif.Props.C126_always",
    "Verif.Props.C126_returned",
    "Verif.Props.C126_short",
    "Verif.Props.C126_finishes",
    "Verif.Props.C126_undisturbed",
    "Verif.Props.C126_in_turn",
    "Verif.Props.C126_restored",
    "Verif.Props.C126_blends",
    "Verif.Props.C126_races",
    "Verif.Props.C126_race_free",
    "Verif.Props.C126_violated",
    "Verif.Props.C126_writes_recorded",
    "Verif.Props.C126_reads_recorded"
   ],
   "note": "Model/ConcDecrypt steps byte by byte through XORKeyStream and string(text). C126_undisturbed ties the steps to the functional model of Decrypt; C126_blends is an equivalence; C126_violated records the deviation. Sequentially consistent, finest interleaving (bytes); for bodies of more than one block nothing is claimed of the later blocks but their length. C126_reads_recorded and C126_writes_recorded show that the record of accesses on which the race theorems speak misses none."
  },
  {
   "property": "C127",
   "status": "proved",
   "theorems": [
    "Verif.Props.C127_writes_recorded",
    "Verif.Props.C127_reads_recorded",
    "Verif.Props.C127_returned",
    "Verif.Props.C127_array",
    "Verif.Props.C127_finishes",
    "Verif.Props.C127_right",
    "Verif.Props.C127_no_room",
    "Verif.Props.C127_same",
    "Verif.Props.C127_returns_iff",
    "Verif.Props.C127_race_free",
    "Verif.Props.C127_races",
    "Verif.Props.C127_blends",
    "Verif.Props.C127_violated",
    "Verif.Props.C127_neighbour"
   ],
   "note": "Model/ConcMerkle steps byte by byte through append and Sha256d. C127_returns_iff is an equivalence (what can be returned); C127_violated and C127_neighbour record the deviation. Sequentially consistent, finest interleaving (bytes). C127_reads_recorded and C127_writes_recorded show that the record of accesses on which the race theorems speak misses none."
  },
  {
   "property": "C128",
   "status": "proved",
   "theorems": [
    "Verif.Props.C128_fee",
    "Verif.Props.C128_enough",
    "Verif.Props.C128_change"
   ],
   "note": "C128_fee is the two-sided bound on the size and the equivalence for the node; C128_enough the two consequences; C128_change the wallet with change. Signing is a parameter: signatures that verify, of lo to hi bytes."
  },
  {
   "property": "C129",
   "status": "proved",
   "theorems": [
    "Verif.Props.C129_distinct",
    "Verif.Props.C129_violated",
    "Verif.Props.C129_found",
    "Verif.Props.C129_stolen"
   ],
   "note": "C129_distinct is an equivalence up to an explicit collision on the two Merkle paths; C129_found an equivalence for every share; C129_violated and C129_stolen record the deviations."
  },
  {
   "property": "C130",
   "status": "proved",
   "theorems": [
    "Verif.Props.C130_reveals",
    "Verif.Props.C130_buys",
    "Verif.Props.C130_claim",
    "Verif.Props.C130_violated"
   ],
   "note": "C130_claim for the seller, C130_reveals and C130_buys for every accepted transaction; C130_violated is the deviation at the level of the node."
  },
  {
   "property": "C131",
   "status": "proved",
   "theorems": [
    "Verif.Props.C131_read",
    "Verif.Props.C131_publish",
    "Verif.Props.C131_violated"
   ],
   "note": "C131_publish for the publisher, C131_read for the reader of any transaction (exactly when it panics, exactly what it reads otherwise); C131_violated is the deviation at the level of the node."
  },
  {
   "property": "C132",
   "status": "proved",
   "theorems": [
    "Verif.Props.C132_collect",
    "Verif.Props.C132_safe"
   ],
   "note": "C132_collect for what the organiser makes of any contributions, C132_safe for the contributor (ideal signature scheme as in C117, collisions explicit)."
  },
  {
   "property": "C133",
   "status": "proved",
   "theorems": [
    "Verif.Props.C133_sign",
    "Verif.Props.C133_signAuto",
    "Verif.Props.C133_payment",
    "Verif.Props.C133_violated"
   ],
   "note": "C133_sign for one input, C133_signAuto for every input, C133_payment for payments; C133_violated: constants that never work."
  },
  {
   "property": "C134",
   "status": "proved",
   "theorems": [
    "Verif.Props.C134_take",
    "Verif.Props.C134_safe"
   ],
   "note": "C134_take for what the buyer makes of any offer, C134_safe for the seller (ideal signature scheme as in C117, collisions explicit)."
  },
  {
   "property": "C135",
   "status": "proved",
   "theorems": [
    "Verif.Props.C135_bound",
    "Verif.Props.C135_taken"
   ],
   "note": "C135_bound: what holds for all inputs (ideal signature scheme as in C117); C135_taken: the inputs without an output are signed and anyone can spend them."
  },
  {
   "property": "C136",
   "status": "proved",
   "theorems": [
    "Verif.Obj.C136_append",
    "Verif.Obj.C136_nil",
    "Verif.Obj.C136_read",
    "Verif.Obj.C136_texts",
    "Verif.Obj.C136_shared",
    "Verif.Obj.C136_history",
    "Verif.Obj.C136_shared_violated"
   ],
   "note": "Contents of script objects are values here: sharing of the bytes of two script objects (scripts of a parsed transaction) is C64, which is why NewFromBytes is not among the calls of C136_history. C136_shared is for every store, C136_history for every program that shares nothing, C136_shared_violated the witness that a field filled in from another transaction is shared."
  },
  {
   "property": "C137",
   "status": "proved",
   "theorems": [
    "Verif.Props.C137_pays_iff",
    "Verif.Props.C137_pays_or",
    "Verif.Props.C137_elsewhere",
    "Verif.Props.C137_tail",
    "Verif.Props.C137_careful",
    "Verif.Props.C137_never_refused",
    "Verif.Props.C137_violated",
    "Verif.Props.C137_affordable",
    "Verif.Props.C137_lost"
   ],
   "note": "C137_never_refused leaves out hashes whose first byte is 0, 1 or 255 (the change may then carry into the version byte); for these C137_elsewhere still holds. ValidateAddress may accept a typo if the checksum of the other hash happens to fit: this is a fact of the hash functions, which are arbitrary here."
  },
  {
   "property": "C138",
   "status": "proved",
   "theorems": [
    "Verif.Props.C138_accepts_iff",
    "Verif.Props.C138_locked",
    "Verif.Props.C138_violated",
    "Verif.Props.C138_not_before",
    "Verif.Props.C138_history"
   ],
   "note": "Sequence numbers as relative lock times play no part: the node of Spec/LockTime has only the absolute rule. In C138_not_before a signature with flag NONE or SINGLE, or with ANYONECANPAY, counts as locked by its own sequence number only."
  },
  {
   "property": "C139",
   "status": "proved",
   "theorems": [
    "Verif.Props.C139_outcome",
    "Verif.Props.C139_versions",
    "Verif.Props.C139_final",
    "Verif.Props.C139_third_party",
    "Verif.Props.C139_orphan",
    "Verif.Props.C139_again"
   ],
   "note": "A node here checks the consensus rules only: relay rules (clean stack, minimal pushes) would keep some versions from spreading, not from being accepted in a block."
  },
  {
   "property": "C140",
   "status": "proved",
   "theorems": [
    "Verif.Props.C140_request",
    "Verif.Props.C140_payment",
    "Verif.Props.C140_same_as_address",
    "Verif.Props.C140_payTo_violated",
    "Verif.Props.C140_changed",
    "Verif.Props.C140_typo",
    "Verif.Props.C140_typo_violated",
    "Verif.Props.C140_testnet_violated"
   ],
   "note": "Violated: PayTo is an error with every text of a request though ValidateAddress calls it valid; a wrong character that is no hex digit makes DecodeBIP276 and ValidateAddress panic; a request for the test network is never read as one."
  },
  {
   "property": "C141",
   "status": "proved",
   "theorems": [
    "Verif.Props.C141_accepted",
    "Verif.Props.C141_history",
    "Verif.Props.C141_same_payment",
    "Verif.Props.C141_few",
    "Verif.Props.C141_fund",
    "Verif.Props.C141_release",
    "Verif.Props.C141_order",
    "Verif.Props.C141_release_node"
   ],
   "note": "No P2SH: the redeem script is the locking script. An owner is known only by what the key has signed (OnlySigned); the order of the signatures is left to the users by the library."
  },
  {
   "property": "C142",
   "status": "proved",
   "theorems": [
    "Verif.Props.C142_history",
    "Verif.Props.C142_channel",
    "Verif.Props.C142_payer",
    "Verif.Props.C142_spend"
   ],
   "note": "An owner is known only by what the key has signed (OnlySigned). The flags of the owners are ones of type ALL without ANYONECANPAY. Finality as in C138."
  },
  {
   "property": "C143",
   "status": "proved",
   "theorems": [
    "Verif.Props.C143_sound",
    "Verif.Props.C143_document",
    "Verif.Props.C143_record",
    "Verif.Props.C143_levels_violated"
   ],
   "note": "Violated without the number of levels: MerkleRootFromBranches does not check it, so a transaction that is in no block passes below one of 64 bytes (witness)."
  },
  {
   "property": "C144",
   "status": "proved",
   "theorems": [
    "Verif.Props.C144_order",
    "Verif.Props.C144_conflict",
    "Verif.Props.C144_payments"
   ],
   "note": "The node model is that of C115."
  },
  {
   "property": "C145",
   "status": "proved",
   "theorems": [
    "Verif.Props.C145_notes",
    "Verif.Props.C145_safe",
    "Verif.Props.C145_forged_violated",
    "Verif.Props.C145_reveals_violated"
   ],
   "note": "C145_notes is the publisher and the reader with the key; C145_safe the reader of anything; C145_forged_violated and C145_reveals_violated are the deviations, for every note, not for one witness."
  }
 ]
}