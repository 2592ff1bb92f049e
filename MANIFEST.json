{
 "claims": [
  {
   "property": "C01",
   "status": "proved",
   "theorems": [
    "Typical.C01_varint_round_trip"
   ],
   "note": "For all UInt64 values and all trailing bytes."
  },
  {
   "property": "C02",
   "status": "proved",
   "theorems": [
    "Typical.C02_varint_layout",
    "Typical.C02_varint_length",
    "Typical.C02_varint_first_byte"
   ],
   "note": "Against an independent specification of the nine ranges (Spec/Varint)."
  },
  {
   "property": "C03",
   "status": "proved",
   "theorems": [
    "Typical.C03_varint_prefix_free",
    "Typical.C03_varint_injective",
    "Typical.C03_varint_canonical",
    "Typical.C03_varint_nine_byte_not_canonical"
   ],
   "note": "Prefix freedom, injectivity, canonicity up to 8 bytes, and the nine-byte counterexample."
  },
  {
   "property": "C04",
   "status": "proved",
   "theorems": [
    "Typical.C04_zigzag_closed_form",
    "Typical.C04_zigzag_decode_encode",
    "Typical.C04_zigzag_encode_decode"
   ],
   "note": "All Int64/UInt64."
  },
  {
   "property": "C05",
   "status": "proved",
   "theorems": [
    "Typical.C05_header_round_trip",
    "Typical.C05_header_size",
    "Typical.C05_header_layout",
    "Typical.C05_header_one_byte",
    "Typical.C05_max_index_tight"
   ],
   "note": "All indices up to 2^62-1, all sizes below 2^64."
  },
  {
   "property": "C06",
   "status": "proved",
   "theorems": [
    "Typical.C06_round_trip",
    "Typical.C06_round_trip_content",
    "Typical.C06_round_trip_same_content"
   ],
   "note": "All well-formed types and messages whose size fits the memory limit; content is compared through an independent view."
  },
  {
   "property": "C07",
   "status": "proved",
   "theorems": [
    "Typical.C07_size_exact"
   ],
   "note": "size() = number of bytes, serialise never panics."
  },
  {
   "property": "C08",
   "status": "proved",
   "theorems": [
    "Typical.C08_injective",
    "Typical.C08_no_default"
   ],
   "note": "Equal bytes imply equal reader-side view; presence is never confused with a default."
  },
  {
   "property": "C09",
   "status": "proved",
   "theorems": [
    "Typical.C09_unknown_field_ignored",
    "Typical.C09_unknown_field_in_message"
   ],
   "note": "Any position in the input (arbitrary raw tail) and within messages."
  },
  {
   "property": "C10",
   "status": "proved",
   "theorems": [
    "Typical.C10_order_irrelevant",
    "Typical.C10_permutation"
   ],
   "note": "Any permutation of wire fields with distinct indices."
  },
  {
   "property": "C11",
   "status": "proved",
   "theorems": [
    "Typical.C11_required_field_present",
    "Typical.C11_missing_required_invalid"
   ],
   "note": "Raw bytes: success implies a header with the index was met."
  },
  {
   "property": "C12",
   "status": "partial",
   "theorems": [
    "Typical.C12_loops_terminate",
    "Typical.C12_hang_witness",
    "Typical.C12_terminates_partial",
    "Typical.C12_terminates_on_fields"
   ],
   "note": "The English claim is false of the code (hang witness proved); the partial theorem gives termination unless a truncated unknown field is met."
  },
  {
   "property": "C13",
   "status": "partial",
   "theorems": [
    "Typical.C13_panic_witness",
    "Typical.C13_no_panic_partial",
    "Typical.C13_no_panic_without_buffers",
    "Typical.C13_no_panic_unlimited",
    "Typical.C13_failures"
   ],
   "note": "The English claim is false of the code (panic witness proved); the partial theorem excludes panics when every claimed size is allocatable."
  },
  {
   "property": "C14",
   "status": "proved",
   "theorems": [
    "Typical.C14_first_recognised",
    "Typical.C14_optional_fallback"
   ],
   "note": ""
  },
  {
   "property": "C15",
   "status": "proved",
   "theorems": [
    "Typical.C15_recognised_field_present",
    "Typical.C15_no_recognised_field"
   ],
   "note": ""
  },
  {
   "property": "C16",
   "status": "proved",
   "theorems": [
    "Typical.C16_compatible_readers"
   ],
   "note": ""
  },
  {
   "property": "C17",
   "status": "proved",
   "theorems": [
    "Typical.C17_single_change_safe",
    "Typical.C17_compatible_safe"
   ],
   "note": ""
  },
  {
   "property": "C18",
   "status": "proved",
   "theorems": [
    "Typical.C18_reflexive",
    "Typical.C18_symmetric",
    "Typical.C18_changes_symmetric",
    "Typical.C18_changes_compatible",
    "Typical.C18_not_transitive",
    "Typical.C18_schemas_reflexive",
    "Typical.C18_schemas_symmetric"
   ],
   "note": ""
  },
  {
   "property": "C19",
   "status": "proved",
   "theorems": [
    "Typical.C19_missing_required",
    "Typical.C19_add_required",
    "Typical.C19_optional_to_required",
    "Typical.C19_no_recognised",
    "Typical.C19_drop_required_choice_field",
    "Typical.C19_required_to_optional_choice_field"
   ],
   "note": ""
  },
  {
   "property": "C20",
   "status": "proved",
   "theorems": [
    "Typical.C20_any_migration"
   ],
   "note": ""
  },
  {
   "property": "C21",
   "status": "proved",
   "theorems": [
    "Typical.C21_u64_field_size",
    "Typical.C21_s64_field_size",
    "Typical.C21_f64_bool_field_size",
    "Typical.C21_element_size",
    "Typical.C21_enum_one_byte"
   ],
   "note": ""
  },
  {
   "property": "C22",
   "status": "proved",
   "theorems": [
    "Typical.C22_into_agrees"
   ],
   "note": ""
  },
  {
   "property": "C23",
   "status": "proved",
   "theorems": [
    "Typical.C23_memory_bound",
    "Typical.C23_memory_multiple",
    "Typical.C23_reservation_unbounded",
    "Typical.C23_units_unbounded"
   ],
   "note": "Size of the decoded content; spare capacity reserved by with_capacity-style calls is excluded (C23_reservation_unbounded shows it cannot be bounded), and [Unit] is zero-sized (C23_units_unbounded)."
  },
  {
   "property": "C24",
   "status": "proved",
   "theorems": [
    "Typical.C24_same_bytes",
    "Typical.C24_same_size"
   ],
   "note": "The order of the 'in' tests in choices is a separate model."
  },
  {
   "property": "C25",
   "status": "proved",
   "theorems": [
    "Typical.C25_round_trip",
    "Typical.C25_compatible_readers",
    "Typical.C25_single_change",
    "Typical.C25_bom_witness"
   ],
   "note": "For contents JavaScript can represent (no string beginning with a byte order mark, no 2^32 Units); C25_bom_witness shows the former is necessary."
  },
  {
   "property": "C26",
   "status": "partial",
   "theorems": [
    "Typical.C26_agree_partial",
    "Typical.C26_repeated_field_witness",
    "Typical.C26_truncated_field_witness",
    "Typical.C26_truncated_unknown_witness",
    "Typical.C26_invalid_utf8_witness"
   ],
   "note": "False as stated; agreement is proved for laid out contents without repeated struct fields, and witnesses show where the decoders differ."
  },
  {
   "property": "C27",
   "status": "partial",
   "theorems": [
    "Typical.C27_overread_witness",
    "Typical.C27_inside_partial",
    "Typical.C27_messages"
   ],
   "note": "False as stated (C27_overread_witness); proved for all inputs which are accepted on their own."
  },
  {
   "property": "C28",
   "status": "proved",
   "theorems": [
    "Typical.C28_accepts_exactly_well_formed",
    "Typical.C28_returns"
   ],
   "note": "For all sets of loaded schemas, against an independent specification of well-formedness."
  },
  {
   "property": "C29",
   "status": "proved",
   "theorems": [
    "Typical.C29_sound",
    "Typical.C29_complete"
   ],
   "note": "Reports exactly the cycles, always terminates (no fuel needed beyond the number of types)."
  },
  {
   "property": "C30",
   "status": "proved",
   "theorems": [
    "Typical.C30_wire_type",
    "Typical.C30_codec"
   ],
   "note": ""
  },
  {
   "property": "C31",
   "status": "proved",
   "theorems": [
    "Typical.C31_names_do_not_matter",
    "Typical.C31_renaming"
   ],
   "note": ""
  },
  {
   "property": "C32",
   "status": "proved",
   "theorems": [
    "Typical.C32_no_gaps",
    "Typical.C32_sparse_witness"
   ],
   "note": "The README's statement about sparse indices is contradicted by the code (witness); the actual guarantee is proved."
  },
  {
   "property": "C33",
   "status": "proved",
   "theorems": [
    "Typical.C33_lexical_grammar",
    "Typical.C33_tiles",
    "Typical.C33_errors",
    "Typical.C33_unambiguous"
   ],
   "note": "The lexical grammar is specified independently (Spec/Tokens.lean); for every Unicode table which agrees with ASCII."
  },
  {
   "property": "C34",
   "status": "proved",
   "theorems": [
    "Typical.C34_print",
    "Typical.C34_any_white_space"
   ],
   "note": ""
  },
  {
   "property": "C35",
   "status": "partial",
   "theorems": [
    "Typical.C35_returns_partial",
    "Typical.C35_panics",
    "Typical.C35_panic_witness"
   ],
   "note": "False as stated: every nonempty file which parses, followed by a comment, panics (C35_panics). C35_returns_partial shows that there are no other panics than with a comment at the end."
  },
  {
   "property": "C36",
   "status": "proved",
   "theorems": [
    "Typical.C36_format_preserves",
    "Typical.C36_format_preserves_all",
    "Typical.C36_names",
    "Typical.C36_type_names",
    "Typical.C36_fill",
    "Typical.C36_keyword_witness",
    "Typical.C36_type_witness",
    "Typical.C36_digit_witness"
   ],
   "note": "textwrap::fill is a parameter; the exceptions named in the statement are shown to be necessary by witnesses."
  },
  {
   "property": "C37",
   "status": "proved",
   "theorems": [
    "Typical.C37_idempotent",
    "Typical.C37_type_names",
    "Typical.C37_idempotent_kept"
   ],
   "note": "textwrap::fill is a parameter, with the stated condition."
  },
  {
   "property": "C38",
   "status": "proved",
   "theorems": [
    "Typical.C38_words",
    "Typical.C38_same_iff",
    "Typical.C38_snake_round_trip",
    "Typical.C38_pascal_round_trip",
    "Typical.C38_camel_round_trip",
    "Typical.C38_generated_names_distinct",
    "Typical.C38_type_names_distinct",
    "Typical.C38_digit_witness"
   ],
   "note": "Words, equality and case conversions; conversions for ASCII names, for every Unicode table which agrees with ASCII. The digit condition is necessary (C38_digit_witness)."
  },
  {
   "property": "C39",
   "status": "proved",
   "theorems": [
    "Typical.C39_resolves",
    "Typical.C39_fewest_supers"
   ],
   "note": ""
  },
  {
   "property": "C40",
   "status": "proved",
   "theorems": [
    "Typical.C40_namespace",
    "Typical.C40_import_target",
    "Typical.C40_read",
    "Typical.C40_environment",
    "Typical.C40_loaded",
    "Typical.C40_all_reachable",
    "Typical.C40_terminates",
    "Typical.C40_fuel",
    "Typical.C40_succeeds",
    "Typical.C40_success_means",
    "Typical.C40_establishes_loaded",
    "Typical.C40_denoted_file",
    "Typical.C40_link_witness",
    "Typical.C40_panic_witness"
   ],
   "note": "For all file systems; the exact set of files for distinct namespaces (see C41), and for files given by the user which are not links to other directories (both conditions shown necessary)."
  },
  {
   "property": "C41",
   "status": "partial",
   "theorems": [
    "Typical.C41_never_reported",
    "Typical.C41_dropped_witness"
   ],
   "note": "False as stated: no run ever reports a conflict (C41_never_reported), and a file can be dropped silently (C41_dropped_witness). C40_all_reachable is the positive part."
  },
  {
   "property": "C42",
   "status": "proved",
   "theorems": [
    "Typical.C42_check",
    "Typical.C42_writes",
    "Typical.C42_run",
    "Typical.C42_load_failure",
    "Typical.C42_then_check"
   ],
   "note": ""
  },
  {
   "property": "C43",
   "status": "proved",
   "theorems": [
    "Typical.C43_each_declaration_once",
    "Typical.C43_lookup"
   ],
   "note": ""
  },
  {
   "property": "C44",
   "status": "proved",
   "theorems": [
    "Typical.C44_nothing_unless_valid",
    "Typical.C44_only_outputs",
    "Typical.C44_success",
    "Typical.C44_run",
    "Typical.C44_panics"
   ],
   "note": "The texts of the generated code are parameters here."
  },
  {
   "property": "C45",
   "status": "proved",
   "theorems": [
    "Typical.C45_documented_format"
   ],
   "note": "The bytes are those of the README's format, specified independently as wire trees."
  },
  {
   "property": "C46",
   "status": "proved",
   "theorems": [
    "Typical.C46_terminates"
   ],
   "note": ""
  },
  {
   "property": "C47",
   "status": "partial",
   "theorems": [
    "Typical.C47_resolves_iff_partial",
    "Typical.C47_shadowing_witness",
    "Typical.C47_type_named_like_file_witness"
   ],
   "note": "False as stated (two witnesses); C47_resolves_iff_partial gives the exact condition under which a reference resolves to its target."
  },
  {
   "property": "C48",
   "status": "proved",
   "theorems": [
    "Typical.C48_grammar",
    "Typical.C48_unambiguous",
    "Typical.C48_rejects"
   ],
   "note": ""
  },
  {
   "property": "C49",
   "status": "proved",
   "theorems": [
    "Typical.C49_listing",
    "Typical.C49_tokenizer_errors",
    "Typical.C49_parser_errors",
    "Typical.C49_schema_ranges",
    "Typical.C49_ascii_aligned",
    "Typical.C49_panic_witness",
    "Typical.C49_misaligned_witness",
    "Typical.C49_nothing_shown_witness"
   ],
   "note": "Ranges of the tokenizer, the parser and parsed schemas (those are the ones the loader and validator list); colours are a parameter."
  },
  {
   "property": "C50",
   "status": "proved",
   "theorems": [
    "Typical.C50_merge"
   ],
   "note": ""
  },
  {
   "property": "C51",
   "status": "partial",
   "theorems": [
    "Typical.C51_dispatch_iff_partial",
    "Typical.C51_dispatch_partial",
    "Typical.C51_inherited_witness"
   ],
   "note": "False as stated (C51_inherited_witness); C51_dispatch_iff_partial is the exact condition."
  },
  {
   "property": "C52",
   "status": "partial",
   "theorems": [
    "Typical.C52_rust_fields_partial",
    "Typical.C52_rust_variants_partial",
    "Typical.C52_rust_types",
    "Typical.C52_rust_locals_partial",
    "Typical.C52_rust_witness",
    "Typical.C52_typescript"
   ],
   "note": "False as stated for Rust (C52_rust_witness); the theorems give the exact conditions. Non-ASCII names are not covered."
  },
  {
   "property": "C53",
   "status": "partial",
   "theorems": [
    "Typical.C53_builtins_partial",
    "Typical.C53_error_witness"
   ],
   "note": "False as stated (C53_error_witness); proved when no file or declaration has the name of a built-in object."
  },
  {
   "property": "C54",
   "status": "proved",
   "theorems": [
    "Typical.C54_chunks",
    "Typical.C54_schedules",
    "Typical.C54_round_trip"
   ],
   "note": "Readers are schedules of finitely many calls (data, errors), with the standard library's read_exact, read_to_end, take, fill_buf and consume modelled."
  },
  {
   "property": "C55",
   "status": "partial",
   "theorems": [
    "Typical.C55_errors_partial",
    "Typical.C55_errors_example",
    "Typical.C55_interrupted",
    "Typical.C55_eof_witness",
    "Typical.C55_interrupted_witness"
   ],
   "note": "False as stated (C55_eof_witness, C55_interrupted_witness); C55_errors_partial covers every other kind of error, at every point of failure."
  },
  {
   "property": "C56",
   "status": "proved",
   "theorems": [
    "Typical.C56_writers",
    "Typical.C56_short_writes"
   ],
   "note": ""
  },
  {
   "property": "C57",
   "status": "proved",
   "theorems": [
    "Typical.C57_versions",
    "Typical.C57_versions_typescript",
    "Typical.C57_safe_edits"
   ],
   "note": ""
  },
  {
   "property": "C58",
   "status": "proved",
   "theorems": [
    "Typical.C58_generated_code"
   ],
   "note": "For messages within the memory limit and, for TypeScript readers, representable in JavaScript. The text of the generated code is not modelled (see DESIGN.md)."
  },
  {
   "property": "C59",
   "status": "proved",
   "theorems": [
    "Typical.C59_errors_exact",
    "Typical.C59_only_cycles",
    "Typical.C59_no_violation"
   ],
   "note": ""
  },
  {
   "property": "C60",
   "status": "proved",
   "theorems": [
    "Typical.C60_sound",
    "Typical.C60_errors_exact",
    "Typical.C60_not_a_file"
   ],
   "note": ""
  },
  {
   "property": "C61",
   "status": "proved",
   "theorems": [
    "Typical.C61_sufficient",
    "Typical.C61_weaker",
    "Typical.C61_necessary",
    "Typical.C61_unproductive",
    "Typical.C61_productive",
    "Typical.C61_rules_exact",
    "Typical.C61_canRead_witness",
    "Typical.C61_typescript"
   ],
   "note": "For message sizes within the memory limit. The exact condition for a struct read as a choice is weaker than that of C16 (C61_canRead_witness)."
  },
  {
   "property": "C62",
   "status": "proved",
   "theorems": [
    "Typical.C62_linear",
    "Typical.C62_schema_bound",
    "Typical.C62_value",
    "Typical.C62_unbounded",
    "Typical.C62_one_byte_per_call"
   ],
   "note": "Counts calls of generated functions, not bytes of stack; Rust only."
  },
  {
   "property": "C63",
   "status": "proved",
   "theorems": [
    "Typical.C63_truncated",
    "Typical.C63_same_type",
    "Typical.C63_undetected_witness"
   ],
   "note": "For message sizes within the memory limit. With unknown fields the deserialiser may not return (C12)."
  },
  {
   "property": "C64",
   "status": "partial",
   "theorems": [
    "Typical.C64_std_iff_partial",
    "Typical.C64_prelude",
    "Typical.C64_witness"
   ],
   "note": "False as stated: top-level files io.t/std.t and x/std.t beside x.t (C64_witness). C64_std_iff_partial is the exact condition; C64_prelude is unconditional."
  },
  {
   "property": "C65",
   "status": "partial",
   "theorems": [
    "Typical.C65_rust_items_partial",
    "Typical.C65_rust_fields",
    "Typical.C65_rust_variants_partial",
    "Typical.C65_ts_fields_partial",
    "Typical.C65_ts_types_partial",
    "Typical.C65_no_digit_words_partial",
    "Typical.C65_digit_witness"
   ],
   "note": "False as stated: v1 and v_1 (C65_digit_witness). The theorems give the exact condition for each kind of scope; C65_rust_fields is unconditional."
  },
  {
   "property": "C66",
   "status": "proved",
   "theorems": [
    "Typical.C66_struct",
    "Typical.C66_choice",
    "Typical.C66_accepted",
    "Typical.C66_undetected_witness"
   ],
   "note": "The message is given as an ArrayBuffer (a view of a larger buffer is C27); what JavaScript cannot represent is excluded (JsSafe)."
  },
  {
   "property": "C67",
   "status": "proved",
   "theorems": [
    "Typical.C67_names",
    "Typical.C67_unique",
    "Typical.C67_serialize",
    "Typical.C67_values"
   ],
   "note": "Names must not collide (Accepted.names; C67_names gives a sufficient condition, C65 the exact ones). The runtime functions at the top of the file are taken to have the meaning modelled in Varint.lean; the rest of the generated code is executed by an interpreter."
  },
  {
   "property": "C68",
   "status": "proved",
   "theorems": [
    "Typical.C68_deserialize"
   ],
   "note": "As C67. The outcome is compared with the model decoder, which C06-C23, C54, C61-C63 describe."
  },
  {
   "property": "C69",
   "status": "proved",
   "theorems": [
    "Typical.C69_into",
    "Typical.C69_round_trip"
   ],
   "note": "As C67."
  },
  {
   "property": "C70",
   "status": "proved",
   "theorems": [
    "Typical.C70_printed",
    "Typical.C70_traits",
    "Typical.C70_generate"
   ],
   "note": "As C67. The correspondence of printed text and syntax is by construction of the printer, which reproduces test_data/types.rs byte for byte."
  },
  {
   "property": "C71",
   "status": "proved",
   "theorems": [
    "Typical.C71_versions"
   ],
   "note": "As C67."
  },
  {
   "property": "C72",
   "status": "proved",
   "theorems": [
    "Typical.C72_names",
    "Typical.C72_unique",
    "Typical.C72_serialize",
    "Typical.C72_values",
    "Typical.C72_inherited"
   ],
   "note": "C72_values: which contents values can have (all messages, unless a field of a choice is named like an inherited property, C72_inherited). Names must not collide (TsAccepted.names; C72_names gives a sufficient condition, C47/C51/C53/C65 the exact ones). All functions at the top of the file are executed too; built-ins (DataView, TextEncoder, BigInt, ...) have the meaning in TsGen/Sem.lean."
  },
  {
   "property": "C73",
   "status": "proved",
   "theorems": [
    "Typical.C73_deserialize",
    "Typical.C73_accepts"
   ],
   "note": "As C72. The outcome is compared with the model decoder, which C24-C27, C46, C66 describe. The stack of the JavaScript engine is unlimited here; C77 is about its limit."
  },
  {
   "property": "C74",
   "status": "proved",
   "theorems": [
    "Typical.C74_round_trip",
    "Typical.C74_rust_to_typescript",
    "Typical.C74_typescript_to_rust"
   ],
   "note": "As C67 and C72. Contents must be JsSafe for TypeScript readers (C25)."
  },
  {
   "property": "C75",
   "status": "proved",
   "theorems": [
    "Typical.C75_versions"
   ],
   "note": "As C72."
  },
  {
   "property": "C76",
   "status": "proved",
   "theorems": [
    "Typical.C76_printed",
    "Typical.C76_generate"
   ],
   "note": "As C72. The correspondence of printed text and syntax is by construction of the printer, which reproduces test_data/types.ts byte for byte."
  },
  {
   "property": "C77",
   "status": "partial",
   "theorems": [
    "Typical.C77_unique",
    "Typical.C77_serialize",
    "Typical.C77_serialize_bytes",
    "Typical.C77_enough",
    "Typical.C77_no_throw",
    "Typical.C77_overflow_witness"
   ],
   "note": "False for deserialize: a struct's loop takes the RangeError of a stack overflow for the end of the input, so that an optional field can be lost silently (C77_overflow_witness). Proved: size and serialize (all schemas), deserialize never throws, and for each call a large enough stack makes no difference. Overflow is a RangeError (as in V8); built-ins are taken to need no stack."
  },
  {
   "property": "C78",
   "status": "proved",
   "theorems": [
    "Typical.C78_bounded",
    "Typical.C78_unbounded_witness"
   ],
   "note": "The part about optional fields is proved for one schema, for all stack sizes and costs of calls (C78_unbounded_witness). Overflow is a RangeError (as in V8); built-ins are taken to need no stack."
  },
  {
   "property": "C79",
   "status": "partial",
   "theorems": [
    "Typical.C79_u64_large",
    "Typical.C79_u64_negative",
    "Typical.C79_s64_large",
    "Typical.C79_s64_small",
    "Typical.C79_u64_partial",
    "Typical.C79_s64",
    "Typical.C79_unchanged_iff_partial"
   ],
   "note": "False: proved for struct { x: U64 } and struct { x: S64 } that exactly the integers in range are read back unchanged and all others are changed without an error, with the exact result (U64: the last 64 bits, and only the last 7 bits of a negative integer; S64: 63 bits). For U64, integers below -2^52 are not covered (floating-point rounding is not modelled)."
  },
  {
   "property": "C80",
   "status": "proved",
   "theorems": [
    "Typical.C80_text",
    "Typical.C80_no_panic",
    "Typical.C80_build_modes",
    "Typical.C80_integers",
    "Typical.C80_writing",
    "Typical.C80_reading",
    "Typical.C80_reads_back"
   ],
   "note": "The code itself (syntax trees whose printed text is the generated text, C80_text) is executed with Rust's arithmetic."
  },
  {
   "property": "C81",
   "status": "partial",
   "theorems": [
    "Typical.C81_same_partial",
    "Typical.C81_header_partial",
    "Typical.C81_header_differs"
   ],
   "note": "False: deserialize_field_header truncates the size to usize, so a header with the size 2^32+1 is read as one with the size 1 on a 32-bit target. Proved for all other functions, and for headers whose size fits."
  },
  {
   "property": "C82",
   "status": "proved",
   "theorems": [
    "Typical.C82_rust_reader",
    "Typical.C82_typescript_reader"
   ],
   "note": "All four combinations of languages; TypeScript readers for contents without byte order marks at the start of strings (see C25)."
  },
  {
   "property": "C83",
   "status": "proved",
   "theorems": [
    "Typical.C83_rust_reader",
    "Typical.C83_typescript_reader"
   ],
   "note": "At the level of executions of the generated programs; C63 and C66 are about the codecs."
  },
  {
   "property": "C84",
   "status": "proved",
   "theorems": [
    "Typical.C84_unique",
    "Typical.C84_deserialize",
    "Typical.C84_failing_readers",
    "Typical.C84_serialize",
    "Typical.C84_round_trip"
   ],
   "note": "64-bit targets, with or without overflow checks. Failing readers: errors other than UnexpectedEof and Interrupted, which std itself treats specially."
  },
  {
   "property": "C85",
   "status": "proved",
   "theorems": [
    "Typical.C85_printed",
    "Typical.C85_values",
    "Typical.C85_serialize",
    "Typical.C85_deserialize",
    "Typical.C85_into"
   ],
   "note": "Members of structs and payloads of variants, resolved through the generated modules; the printed text of the items is in the file. Serializing: unless the message has 2^64 bytes or more."
  },
  {
   "property": "C86",
   "status": "proved",
   "theorems": [
    "Typical.C86_types",
    "Typical.C86_finite",
    "Typical.C86_impls",
    "Typical.C86_functions",
    "Typical.C86_traits",
    "Typical.C86_printed",
    "Typical.C86_variables",
    "Typical.C86_runtime"
   ],
   "note": "Rules for places include mutability and moves out of borrows, not use after move or lifetimes; the functions at the top of the file are covered by their signatures only. Local variables named after fields are assumed to be legal identifiers (C52)."
  },
  {
   "property": "C87",
   "status": "proved",
   "theorems": [
    "Typical.C87_names",
    "Typical.C87_defined",
    "Typical.C87_printed",
    "Typical.C87_returned",
    "Typical.C87_accepted",
    "Typical.C87_messages",
    "Typical.C87_other_properties"
   ],
   "note": "The condition on other properties is needed (C87_other_properties). Values are finite; strings are without lone surrogates; atlas types are printed and defined, their values are not considered."
  },
  {
   "property": "C88",
   "status": "proved",
   "theorems": [
    "Typical.C88_rust",
    "Typical.C88_typescript",
    "Typical.C88_names",
    "Typical.C88_valid",
    "Typical.C88_format"
   ],
   "note": "The condition on names is needed (witness: foo_1 and foo1). An interruption in the middle of the write of one file is not modelled. The fill of textwrap is a parameter, as for C36."
  },
  {
   "property": "C89",
   "status": "proved",
   "theorems": [
    "Typical.C89_rust_reader",
    "Typical.C89_typescript_reader"
   ],
   "note": "Composition of C57, C63, C66, C67, C82, C83 and C84, on targets of 64 bits."
  },
  {
   "property": "C90",
   "status": "partial",
   "theorems": [
    "Typical.C90_one_file_partial",
    "Typical.C90_recovery",
    "Typical.C90_witness"
   ],
   "note": "False as stated (C90_witness). Proved: C90_one_file_partial and C90_recovery. std::fs::write is modelled as emptying the file and then writing the text from its beginning; a crash of the operating system (which may lose or reorder earlier writes) is not modelled."
  },
  {
   "property": "C91",
   "status": "proved",
   "theorems": [
    "Typical.C91_functions",
    "Typical.C91_traits",
    "Typical.C91_copied",
    "Typical.C91_parameters"
   ],
   "note": "The check is conservative and syntax-directed; that what it takes to be copied has a Copy type is proved against the typing rules of C86 (C91_copied). Borrows (overlapping references, lifetimes) are not checked; the functions at the top of the file are not covered."
  },
  {
   "property": "C92",
   "status": "proved",
   "theorems": [
    "Typical.C92_wire_types",
    "Typical.C92_exact",
    "Typical.C92_edits",
    "Typical.C92_exclusive"
   ],
   "note": "The message exists whatever its size; that readers reject it is proved for sizes below the limits of the other theorems (8 * size < 2^64). Conversions between structs and choices are outside the hypothesis (see C61 for the exact condition on wire types there)."
  },
  {
   "property": "C93",
   "status": "proved",
   "theorems": [
    "Typical.C93_validation",
    "Typical.C93_loading",
    "Typical.C93_violations",
    "Typical.C93_syntax",
    "Typical.C93_begins",
    "Typical.C93_messages",
    "Typical.C93_example"
   ],
   "note": "The texts of system errors, the unexpected symbol or token, and the names of types on cycles are parameters of the model (Wording); the theorems hold for all of them (C93_syntax assumes that these messages end with a full stop, as they do)."
  },
  {
   "property": "C94",
   "status": "proved",
   "theorems": [
    "Typical.C94_waiting_direction",
    "Typical.C94_rollout",
    "Typical.C94_update",
    "Typical.C94_waiting"
   ],
   "note": "Sizes of messages are limited as in C82. Versions without a successor relation for a declaration (removed types) impose nothing."
  },
  {
   "property": "C95",
   "status": "proved",
   "theorems": [
    "Typical.C95_generate",
    "Typical.C95_generate_errors",
    "Typical.C95_format",
    "Typical.C95_format_errors",
    "Typical.C95_generate_stdout",
    "Typical.C95_format_stdout",
    "Typical.C95_driver_generate",
    "Typical.C95_driver_format",
    "Typical.C95_done",
    "Typical.C95_panics",
    "Typical.C95_shell",
    "Typical.C95_shell_names"
   ],
   "note": "The parsing of the command line and the completion scripts are those of clap and not modelled; failures of writing to standard output or standard error are not modelled; paths given by the user are shown in canonical form. C95_driver_* shows that this model and the model used for C42 and C44 agree."
  },
  {
   "property": "C96",
   "status": "proved",
   "theorems": [
    "Typical.C96_rust_reader",
    "Typical.C96_typescript_reader",
    "Typical.C96_exact",
    "Typical.C96_exclusive",
    "Typical.C96_both_ways",
    "Typical.C96_edits",
    "Typical.C96_conversions"
   ],
   "note": "For TypeScript readers no choice became a struct (such a message can have the same field several times), and for exactness no struct became a choice or vice versa. Exactness supposes that each choice of the writer's version has a required field (others have no messages, C61_unproductive). Bounds on sizes and on strings with byte order marks as in C82."
  },
  {
   "property": "C97",
   "status": "proved",
   "theorems": [
    "Typical.C97_blank",
    "Typical.C97_expected",
    "Typical.C97_never_unexpected",
    "Typical.C97_not_there",
    "Typical.C97_printed",
    "Typical.C97_type_witness"
   ],
   "note": "The Unicode tables are parameters which agree with ASCII, as in C33. The expectation 'a type' stands for a name: after the name of an import, Bool is reported as not being a type (C97_type_witness)."
  }
 ]
}