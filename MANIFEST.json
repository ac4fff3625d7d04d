{
 "claims": [
  {
   "property": "C01",
   "status": "proved",
   "theorems": [
    "Verif.C01_no_panic",
    "Verif.C01_fuel"
   ],
   "note": "Panic sites are explicit values of the model; for every unquoting function."
  },
  {
   "property": "C02",
   "status": "proved",
   "theorems": [
    "Verif.C02_errors"
   ],
   "note": ""
  },
  {
   "property": "C03",
   "status": "proved",
   "theorems": [
    "Verif.C03_content"
   ],
   "note": ""
  },
  {
   "property": "C04",
   "status": "proved",
   "theorems": [
    "Verif.C04_spans_valid",
    "Verif.C04_span_bounds",
    "Verif.C04_global_args",
    "Verif.C04_line_breaks"
   ],
   "note": ""
  },
  {
   "property": "C05",
   "status": "proved",
   "theorems": [
    "Verif.C05_instructions_in_order"
   ],
   "note": ""
  },
  {
   "property": "C06",
   "status": "proved",
   "theorems": [
    "Verif.C06_fields_within",
    "Verif.C06_fields_ordered",
    "Verif.C06_subfields_ordered"
   ],
   "note": ""
  },
  {
   "property": "C07",
   "status": "proved",
   "theorems": [
    "Verif.C07_plain_strings",
    "Verif.C07_label_strings",
    "Verif.C07_shell_components",
    "Verif.C07_env_values",
    "Verif.C07_env_unterminated"
   ],
   "note": "Shell text is always verbatim; an ENV value with an unterminated quote is verbatim."
  },
  {
   "property": "C08",
   "status": "proved",
   "theorems": [
    "Verif.C08_document"
   ],
   "note": ""
  },
  {
   "property": "C09",
   "status": "proved",
   "theorems": [
    "Verif.C09_global_args"
   ],
   "note": ""
  },
  {
   "property": "C10",
   "status": "proved",
   "theorems": [
    "Verif.C10_from_index",
    "Verif.C10_from_index_is_stage_index"
   ],
   "note": ""
  },
  {
   "property": "C100",
   "status": "proved",
   "theorems": [
    "Verif.C100_default",
    "Verif.C100_late",
    "Verif.C100_others",
    "Verif.C100_takes",
    "Verif.C100_missing"
   ],
   "note": ""
  },
  {
   "property": "C101",
   "status": "proved",
   "theorems": [
    "Verif.C101_remove",
    "Verif.C101_stages"
   ],
   "note": ""
  },
  {
   "property": "C102",
   "status": "proved",
   "theorems": [
    "Verif.C102_replace",
    "Verif.C102_standalone"
   ],
   "note": ""
  },
  {
   "property": "C103",
   "status": "proved",
   "theorems": [
    "Verif.C103_lines",
    "Verif.C103_rewrite",
    "Verif.C103_complete",
    "Verif.C103_bracket",
    "Verif.C103_word"
   ],
   "note": ""
  },
  {
   "property": "C104",
   "status": "proved",
   "theorems": [
    "Verif.C104_default",
    "Verif.C104_flag_from",
    "Verif.C104_flag_copy",
    "Verif.C104_unflag_from",
    "Verif.C104_unflag_copy",
    "Verif.C104_pair_env",
    "Verif.C104_pair_label",
    "Verif.C104_unpair_env",
    "Verif.C104_unpair_label",
    "Verif.C104_needed"
   ],
   "note": ""
  },
  {
   "property": "C105",
   "status": "proved",
   "theorems": [
    "Verif.C105_delete",
    "Verif.C105_insert",
    "Verif.C105_alias",
    "Verif.C105_stages",
    "Verif.C105_needed"
   ],
   "note": ""
  },
  {
   "property": "C106",
   "status": "proved",
   "theorems": [
    "Verif.C106_together",
    "Verif.C106_apart",
    "Verif.C106_stages",
    "Verif.C106_order",
    "Verif.C106_needed"
   ],
   "note": ""
  },
  {
   "property": "C107",
   "status": "proved",
   "theorems": [
    "Verif.C107_join",
    "Verif.C107_cut"
   ],
   "note": ""
  },
  {
   "property": "C108",
   "status": "proved",
   "theorems": [
    "Verif.C108_probe",
    "Verif.C108_quotes",
    "Verif.C108_needed"
   ],
   "note": ""
  },
  {
   "property": "C109",
   "status": "proved",
   "theorems": [
    "Verif.C109_closers",
    "Verif.C109_stack"
   ],
   "note": ""
  },
  {
   "property": "C11",
   "status": "partial",
   "theorems": [
    "Verif.C11_get_global_arg_partial",
    "Verif.C11_sound",
    "Verif.C11_negation",
    "Verif.C11_found_iff",
    "Verif.C11_holds_iff"
   ],
   "note": "False when a non-ARG precedes (C11_negation); soundness holds always. C11_found_iff: exactly what is found; C11_holds_iff: exactly when the claim holds."
  },
  {
   "property": "C110",
   "status": "proved",
   "theorems": [
    "Verif.C110_behind",
    "Verif.C110_openers",
    "Verif.C110_finds",
    "Verif.C110_needed",
    "Verif.C110_all"
   ],
   "note": ""
  },
  {
   "property": "C111",
   "status": "proved",
   "theorems": [
    "Verif.C111_idle",
    "Verif.C111_empty",
    "Verif.C111_scan"
   ],
   "note": ""
  },
  {
   "property": "C112",
   "status": "proved",
   "theorems": [
    "Verif.C112_footer",
    "Verif.C112_plain",
    "Verif.C112_changes",
    "Verif.C112_frame"
   ],
   "note": ""
  },
  {
   "property": "C12",
   "status": "proved",
   "theorems": [
    "Verif.C12_partition"
   ],
   "note": ""
  },
  {
   "property": "C13",
   "status": "proved",
   "theorems": [
    "Verif.C13_index_name"
   ],
   "note": ""
  },
  {
   "property": "C14",
   "status": "proved",
   "theorems": [
    "Verif.C14_parent",
    "Verif.C14_parent_earlier"
   ],
   "note": ""
  },
  {
   "property": "C15",
   "status": "proved",
   "theorems": [
    "Verif.C15_root",
    "Verif.C15_root_unique",
    "Verif.C15_parent"
   ],
   "note": ""
  },
  {
   "property": "C16",
   "status": "proved",
   "theorems": [
    "Verif.C16_get_by_name",
    "Verif.C16_get_numeral",
    "Verif.C16_get_other"
   ],
   "note": "usize is 64 bits wide."
  },
  {
   "property": "C17",
   "status": "proved",
   "theorems": [
    "Verif.C17_arg_index",
    "Verif.C17_arg_index_none"
   ],
   "note": ""
  },
  {
   "property": "C18",
   "status": "proved",
   "theorems": [
    "Verif.C18_display_parse"
   ],
   "note": "Display of a parsed reference is the input text."
  },
  {
   "property": "C19",
   "status": "proved",
   "theorems": [
    "Verif.C19_parse_iff_spec",
    "Verif.C19_registry",
    "Verif.C19_tag_hash_exclusive"
   ],
   "note": "Relational specification; parse is its unique solution."
  },
  {
   "property": "C20",
   "status": "proved",
   "theorems": [
    "Verif.C20_parse_display",
    "Verif.C20_parse_wellFormed",
    "Verif.C20_iff",
    "Verif.C20_injective"
   ],
   "note": "Round trip for well-formed references; every parse result is well-formed."
  },
  {
   "property": "C21",
   "status": "partial",
   "theorems": [
    "Verif.C21_single_splice",
    "Verif.C21_panic_iff",
    "Verif.Mach.C21_panic_partial",
    "Verif.Mach.C21_panic_exact",
    "Verif.Mach.C21_panic_negation"
   ],
   "note": "The statement about panics is false of the code for spans with numbers from 2^63 on, which count as 0 (C21_panic_negation, witness: the span (usize::MAX, usize::MAX)). C21_panic_partial is the statement for numbers below 2^63, C21_panic_exact says what holds for all numbers. C21_panic_iff is the same with unbounded numbers."
  },
  {
   "property": "C22",
   "status": "proved",
   "theorems": [
    "Verif.C22_disjoint_splices",
    "Verif.C22_order_independent"
   ],
   "note": "C22_empty_span_overwritten shows why spans must be non-empty."
  },
  {
   "property": "C23",
   "status": "partial",
   "theorems": [
    "Verif.C23_same_span_partial",
    "Verif.C23_negation",
    "Verif.C23_exact",
    "Verif.C23_holds_iff"
   ],
   "note": "False when a middle replacement is empty (C23_negation); proved otherwise. C23_exact: the result for all replacements; C23_holds_iff: exactly when the claim holds."
  },
  {
   "property": "C24",
   "status": "proved",
   "theorems": [
    "Verif.C24_enclosing_after_inner",
    "Verif.C24_inner_first_history",
    "Verif.C24_outer_first_panics",
    "Verif.C24_outer_first_corrupts"
   ],
   "note": "Inner-first proved for all histories; outer-first shown to panic or corrupt."
  },
  {
   "property": "C25",
   "status": "proved",
   "theorems": [
    "Verif.C25_splice_parsed",
    "Verif.C25_fields_disjoint"
   ],
   "note": ""
  },
  {
   "property": "C26",
   "status": "proved",
   "theorems": [
    "Verif.C26_relative_span_total",
    "Verif.C26_relative_span_bytes",
    "Verif.C26_relative_span",
    "Verif.C26_lines_exist",
    "Verif.C26_line",
    "Verif.C26_document"
   ],
   "note": ""
  },
  {
   "property": "C27",
   "status": "proved",
   "theorems": [
    "Verif.C27_substitute_is_expansion",
    "Verif.C27_expansion_unique",
    "Verif.C27_none_iff"
   ],
   "note": "Depth is any natural number (u8 in the code)."
  },
  {
   "property": "C28",
   "status": "proved",
   "theorems": [
    "Verif.C28_depth_monotone",
    "Verif.C28_cycle_rejected"
   ],
   "note": "Termination: substitute is a total Lean function."
  },
  {
   "property": "C29",
   "status": "proved",
   "theorems": [
    "Verif.C29_used_vars_exact",
    "Verif.C29_used_vars_failure"
   ],
   "note": ""
  },
  {
   "property": "C30",
   "status": "proved",
   "theorems": [
    "Verif.C30_variables",
    "Verif.C30_resolve_vars",
    "Verif.C30_context",
    "Verif.C30_no_refs",
    "Verif.C30_undefined"
   ],
   "note": ""
  },
  {
   "property": "C31",
   "status": "proved",
   "theorems": [
    "Verif.C31_from_reader",
    "Verif.C31_invalid_utf8",
    "Verif.C31_io_error",
    "Verif.C31_chunking",
    "Verif.C31_end_of_file",
    "Verif.C31_end_of_file_invalid",
    "Verif.C31_readers",
    "Verif.C31_from_str"
   ],
   "note": "Reader modelled as list of read outcomes; BufReader's buffer not modelled."
  },
  {
   "property": "C32",
   "status": "proved",
   "theorems": [
    "Verif.C32_shell_text"
   ],
   "note": ""
  },
  {
   "property": "C33",
   "status": "proved",
   "theorems": [
    "Verif.C33_blank_or_comment_line"
   ],
   "note": "Equality of results, including errors, for every document text."
  },
  {
   "property": "C34",
   "status": "proved",
   "theorems": [
    "Verif.C34_keyword_case",
    "Verif.C34_recognised",
    "Verif.C34_anywhere"
   ],
   "note": "C34_anywhere is for the whole document. C34_keyword_case: for the keyword at the start of the text; a line not recognised as an instruction of its kind becomes misc and shows the word as written, which is the only difference."
  },
  {
   "property": "C35",
   "status": "proved",
   "theorems": [
    "Verif.C35_from"
   ],
   "note": "Single-spaced form; C40_single_line has the same for any layout (casing, blanks, continuations, comments in continuations), with all spans."
  },
  {
   "property": "C36",
   "status": "proved",
   "theorems": [
    "Verif.C36_arg",
    "Verif.C36_env",
    "Verif.C36_label"
   ],
   "note": "Single-spaced form; C40_single_line for any layout, quoted values and the 'name value' forms."
  },
  {
   "property": "C37",
   "status": "proved",
   "theorems": [
    "Verif.C37_copy"
   ],
   "note": "The first source must not itself have the form of a flag."
  },
  {
   "property": "C38",
   "status": "proved",
   "theorems": [
    "Verif.C38_shell",
    "Verif.C38_misc"
   ],
   "note": ""
  },
  {
   "property": "C39",
   "status": "proved",
   "theorems": [
    "Verif.C39_exec",
    "Verif.C39_unquote"
   ],
   "note": "For all strings without NUL and U+001F; quotes and backslashes are escaped in the text. C39_exec is for any unquoting function that undoes this escaping, C39_unquote says that enquote::unquote (as modelled) does."
  },
  {
   "property": "C40",
   "status": "proved",
   "theorems": [
    "Verif.C40_roundtrip",
    "Verif.C40_single_line"
   ],
   "note": ""
  },
  {
   "property": "C41",
   "status": "partial",
   "theorems": [
    "Verif.C41_digest_partial",
    "Verif.C41_not_hex",
    "Verif.C41_accepted_iff",
    "Verif.C41_error"
   ],
   "note": "The full statement is false of the code (C41_not_hex); proved: sha256: + 64 characters, one a hex digit; exactly these are accepted (C41_accepted_iff), the others give the error (C41_error)."
  },
  {
   "property": "C42",
   "status": "partial",
   "theorems": [
    "Verif.C42_partial",
    "Verif.C42_negation",
    "Verif.C42_rejected",
    "Verif.C42_error"
   ],
   "note": "False of the code (C42_negation; C42_rejected says such documents are never accepted, C42_error with which error). Proved: comments everywhere else in continuations are ignored."
  },
  {
   "property": "C43",
   "status": "proved",
   "theorems": [
    "Verif.C43_update",
    "Verif.C43_invalid",
    "Verif.C43_example"
   ],
   "note": "For every accepted text. C43_invalid: a new image with an invalid digest is reported; C43_example: the program examples/splice.rs."
  },
  {
   "property": "C44",
   "status": "proved",
   "theorems": [
    "Verif.C44_accessors",
    "Verif.C44_exactly_one",
    "Verif.C44_try_from",
    "Verif.C44_span"
   ],
   "note": "as_x/into_x/TryFrom modelled as one function each."
  },
  {
   "property": "C45",
   "status": "proved",
   "theorems": [
    "Verif.C45_exec_form"
   ],
   "note": ""
  },
  {
   "property": "C46",
   "status": "proved",
   "theorems": [
    "Verif.C46_copy"
   ],
   "note": ""
  },
  {
   "property": "C47",
   "status": "proved",
   "theorems": [
    "Verif.C47_keyword"
   ],
   "note": ""
  },
  {
   "property": "C48",
   "status": "proved",
   "theorems": [
    "Verif.C48_line_by_line",
    "Verif.C48_succeeds",
    "Verif.C48_instructions",
    "Verif.C48_document",
    "Verif.C48_false"
   ],
   "note": "C48_false refutes the statement without the proviso on '#'."
  },
  {
   "property": "C49",
   "status": "proved",
   "theorems": [
    "Verif.C49_image_parsed"
   ],
   "note": ""
  },
  {
   "property": "C50",
   "status": "proved",
   "theorems": [
    "Verif.C50_lexical"
   ],
   "note": ""
  },
  {
   "property": "C51",
   "status": "proved",
   "theorems": [
    "Verif.C51_fits",
    "Verif.C51_unfit",
    "Verif.C51_syntax_error",
    "Verif.C51_accepted",
    "Verif.C51_unambiguous"
   ],
   "note": "The description (Spec/Source.lean) does not refer to the grammar or the parser."
  },
  {
   "property": "C52",
   "status": "proved",
   "theorems": [
    "Verif.C52_layout"
   ],
   "note": ""
  },
  {
   "property": "C53",
   "status": "proved",
   "theorems": [
    "Verif.C53_metered",
    "Verif.C53_quadratic"
   ],
   "note": "K = 78068. Counts evaluations of expressions, not time; comparing with a literal is one evaluation."
  },
  {
   "property": "C54",
   "status": "proved",
   "theorems": [
    "Verif.C54_family",
    "Verif.C54_not_linear"
   ],
   "note": ""
  },
  {
   "property": "C55",
   "status": "proved",
   "theorems": [
    "Verif.C55_nesting",
    "Verif.C55_plain",
    "Verif.C55_family",
    "Verif.C55_unbounded"
   ],
   "note": "65 + 30 * (number of backslashes and hashes). Rounds of a repetition do not nest."
  },
  {
   "property": "C56",
   "status": "proved",
   "theorems": [
    "Verif.C56_syntax",
    "Verif.C56_skeleton"
   ],
   "note": ""
  },
  {
   "property": "C57",
   "status": "proved",
   "theorems": [
    "Verif.C57_edit",
    "Verif.C57_keyword",
    "Verif.C57_word",
    "Verif.C57_flag",
    "Verif.C57_quotes",
    "Verif.C57_meaning"
   ],
   "note": "The fields and the conditions are in Spec/Edit.lean; the other theorems are witnesses that the conditions are needed. A keyword that is read as an unknown instruction, and an unknown instruction whose arguments do not start with a blank and a word, are left out."
  },
  {
   "property": "C58",
   "status": "proved",
   "theorems": [
    "Verif.Pest.C58_read",
    "Verif.Pest.C58_names",
    "Verif.Pest.C58_bodies",
    "Verif.Pest.C58_text",
    "Verif.Pest.C58_passes",
    "Verif.Pest.C58_list",
    "Verif.Pest.C58_optimized",
    "Verif.Pest.C58_skip",
    "Verif.Pest.C58_changed",
    "Verif.Pest.C58_list_unsound",
    "Verif.Pest.C58_decimal",
    "Verif.Pest.C58_hex"
   ],
   "note": "pest itself is modelled from its documented behaviour and source (Model/Pest). C58_list_unsound: the last pass would not be harmless in general."
  },
  {
   "property": "C59",
   "status": "proved",
   "theorems": [
    "Verif.C59_excerpt",
    "Verif.C59_alone",
    "Verif.C59_trimmed",
    "Verif.C59_stage"
   ],
   "note": "Positions are moved with `remap (\u00b7 - start)`; every position of these instructions is at least `start` (C01)."
  },
  {
   "property": "C60",
   "status": "proved",
   "theorems": [
    "Verif.C60_join",
    "Verif.C60_plain",
    "Verif.C60_quotes",
    "Verif.C60_array",
    "Verif.C60_word",
    "Verif.C60_inside"
   ],
   "note": "C60_plain has simpler conditions; the last four are witnesses that each condition is needed."
  },
  {
   "property": "C61",
   "status": "proved",
   "theorems": [
    "Verif.Pest.C61_engine",
    "Verif.Pest.C61_parse",
    "Verif.Pest.C61_any",
    "Verif.Pest.C61_position",
    "Verif.Pest.C61_expected",
    "Verif.Pest.C61_second_line",
    "Verif.Pest.C61_later_line",
    "Verif.Pest.C61_start"
   ],
   "note": "pest is modelled from its source as known (Model/PestState; the crate is not in /repo). The last three are examples; C61_later_line: the position may lie on a later line than the start of the bad instruction."
  },
  {
   "property": "C62",
   "status": "proved",
   "theorems": [
    "Verif.C62_expansion",
    "Verif.C62_resolve",
    "Verif.C62_document",
    "Verif.C62_enquote",
    "Verif.C62_attained",
    "Verif.C62_no_smaller"
   ],
   "note": "C62_document assumes that unquoting does not lengthen; C62_enquote says that enquote::unquote (as modelled) does not."
  },
  {
   "property": "C63",
   "status": "proved",
   "theorems": [
    "Verif.C63_eq",
    "Verif.C63_order",
    "Verif.C63_laws",
    "Verif.C63_other_document",
    "Verif.C63_decimal",
    "Verif.C63_display",
    "Verif.C63_get_parent",
    "Verif.C63_number_image",
    "Verif.C63_number_name"
   ],
   "note": "Indices are unbounded numbers; C63_get_parent assumes an index below 2^64. The last two and C63_other_document are examples of what does not hold."
  },
  {
   "property": "C64",
   "status": "proved",
   "theorems": [
    "Verif.Pest.C64_text",
    "Verif.Pest.C64_error",
    "Verif.Pest.C64_line",
    "Verif.Pest.C64_caret",
    "Verif.Pest.C64_relative_span",
    "Verif.Pest.C64_order",
    "Verif.Pest.C64_example",
    "Verif.Pest.C64_carriage_return",
    "Verif.Pest.C64_caret_off"
   ],
   "note": "pest is modelled from its source as known (Model/PestError). The last three are examples; the last two of what goes wrong with carriage returns."
  },
  {
   "property": "C65",
   "status": "proved",
   "theorems": [
    "Verif.C65_builder",
    "Verif.C65_add",
    "Verif.C65_rebuild",
    "Verif.C65_env_value",
    "Verif.C65_orders",
    "Verif.C65_str_order",
    "Verif.C65_dictionary",
    "Verif.C65_values",
    "Verif.C65_document",
    "Verif.C65_components",
    "Verif.C65_components_unsorted"
   ],
   "note": "The last one is an example of components that are not in the derived order."
  },
  {
   "property": "C66",
   "status": "proved",
   "theorems": [
    "Verif.C66_same",
    "Verif.C66_exact",
    "Verif.C66_bound",
    "Verif.C66_document",
    "Verif.C66_attained",
    "Verif.C66_no_smaller",
    "Verif.C66_cycle"
   ],
   "note": "Counts calls of substitute, not time. C66_document assumes that unquoting does not lengthen (C62_enquote)."
  },
  {
   "property": "C67",
   "status": "proved",
   "theorems": [
    "Verif.C67_debug",
    "Verif.C67_debug_end",
    "Verif.C67_debug_name",
    "Verif.C67_conversion",
    "Verif.C67_conversion_text",
    "Verif.C67_messages",
    "Verif.C67_texts",
    "Verif.C67_parse",
    "Verif.C67_each",
    "Verif.C67_total"
   ],
   "note": "The format of derived Debug, and of Debug for std types and for the errors of enquote, is modelled from their source as known."
  },
  {
   "property": "C68",
   "status": "proved",
   "theorems": [
    "Verif.C68_final_break",
    "Verif.C68_final_error",
    "Verif.C68_final_breaks",
    "Verif.C68_open_rejected",
    "Verif.C68_open_accepted",
    "Verif.C68_open_different"
   ],
   "note": "The last three are witnesses that the condition (no backslash at the end) is needed."
  },
  {
   "property": "C69",
   "status": "proved",
   "theorems": [
    "Verif.C69_panic",
    "Verif.C69_failed",
    "Verif.C69_splice",
    "Verif.C69_again",
    "Verif.C69_again_open",
    "Verif.C69_stages",
    "Verif.C69_stages_same"
   ],
   "note": "the text on standard error is that of C67; `StageParent` with its derived `Debug`"
  },
  {
   "property": "C70",
   "status": "proved",
   "theorems": [
    "Verif.C70_syntax",
    "Verif.C70_there",
    "Verif.C70_back",
    "Verif.C70_plain",
    "Verif.C70_positions",
    "Verif.C70_label_rejected",
    "Verif.C70_env_different"
   ],
   "note": "The last two are witnesses that the condition (no string in quotes across lines) is needed."
  },
  {
   "property": "C71",
   "status": "proved",
   "theorems": [
    "Verif.C71_split",
    "Verif.C71_exchange",
    "Verif.C71_delete",
    "Verif.C71_insert",
    "Verif.C71_splice",
    "Verif.C71_open",
    "Verif.C71_inside"
   ],
   "note": "The last two are witnesses that the conditions are needed."
  },
  {
   "property": "C72",
   "status": "proved",
   "theorems": [
    "Verif.C72_checks",
    "Verif.C72_accepted",
    "Verif.C72_line",
    "Verif.C72_quoted"
   ],
   "note": ""
  },
  {
   "property": "C73",
   "status": "proved",
   "theorems": [
    "Verif.C73_write",
    "Verif.C73_enquote",
    "Verif.C73_parsed",
    "Verif.C73_normal",
    "Verif.C73_canonical",
    "Verif.C73_backslash",
    "Verif.C73_array",
    "Verif.C73_keyword",
    "Verif.C73_digest"
   ],
   "note": "The last four are witnesses that conditions of C73_write are needed."
  },
  {
   "property": "C74",
   "status": "proved",
   "theorems": [
    "Verif.C74_reached",
    "Verif.C74_depends",
    "Verif.C74_needed"
   ],
   "note": ""
  },
  {
   "property": "C75",
   "status": "proved",
   "theorems": [
    "Verif.C75_resolved",
    "Verif.C75_again",
    "Verif.C75_new_reference",
    "Verif.C75_same"
   ],
   "note": "The last two are witnesses that the condition of C75_again is needed, and that having no references is not necessary for resolving to itself in one document."
  },
  {
   "property": "C76",
   "status": "proved",
   "theorems": [
    "Verif.C76_into",
    "Verif.C76_borrow",
    "Verif.C76_try_from",
    "Verif.C76_shell_exec",
    "Verif.C76_components",
    "Verif.C76_iterate",
    "Verif.C76_as_str_vec",
    "Verif.C76_as_str_vec_back",
    "Verif.C76_debug"
   ],
   "note": ""
  },
  {
   "property": "C77",
   "status": "proved",
   "theorems": [
    "Verif.C77_tag",
    "Verif.C77_digest",
    "Verif.C77_plain",
    "Verif.C77_registry",
    "Verif.C77_no_registry",
    "Verif.C77_tag_and_digest",
    "Verif.C77_document",
    "Verif.C77_bump",
    "Verif.C77_pin"
   ],
   "note": "C77_tag_and_digest is the witness that the condition on the name is needed."
  },
  {
   "property": "C78",
   "status": "proved",
   "theorems": [
    "Verif.C78_shape",
    "Verif.C78_same",
    "Verif.C78_others",
    "Verif.C78_prefix"
   ],
   "note": ""
  },
  {
   "property": "C79",
   "status": "proved",
   "theorems": [
    "Verif.Rx.C79_matcher",
    "Verif.Rx.C79_search",
    "Verif.Rx.C79_patterns",
    "Verif.Rx.C79_captures",
    "Verif.Rx.C79_groups",
    "Verif.Rx.C79_substitute",
    "Verif.Rx.C79_hex",
    "Verif.Rx.C79_image",
    "Verif.Rx.C79_split",
    "Verif.Rx.C79_digest",
    "Verif.Rx.C79_breaks"
   ],
   "note": "The syntax of patterns that is modelled is what the two patterns need (classes, groups, alternatives, +)."
  },
  {
   "property": "C80",
   "status": "proved",
   "theorems": [
    "Verif.Mach.C80_splicing",
    "Verif.Mach.C80_large",
    "Verif.Mach.C80_document",
    "Verif.Mach.C80_relative",
    "Verif.Mach.C80_depth",
    "Verif.Mach.C80_substitute",
    "Verif.Mach.C80_substitute_result",
    "Verif.Mach.C80_counts",
    "Verif.Mach.C80_front",
    "Verif.Mach.C80_backwards"
   ],
   "note": "For a 64-bit target; the lengths of texts are taken to fit (a Rust allocation is at most isize::MAX bytes). In substitute a text that does not fit is an allocation that panics."
  },
  {
   "property": "C81",
   "status": "proved",
   "theorems": [
    "Verif.C81_lines",
    "Verif.C81_document",
    "Verif.C81_place",
    "Verif.C81_shell",
    "Verif.C81_backslash",
    "Verif.C81_other"
   ],
   "note": ""
  },
  {
   "property": "C82",
   "status": "proved",
   "theorems": [
    "Verif.C82_texts",
    "Verif.C82_image",
    "Verif.C82_images",
    "Verif.C82_global_args",
    "Verif.C82_document",
    "Verif.C82_unquote",
    "Verif.C82_spans"
   ],
   "note": "Texts and numbers of fields; not the sizes that the allocator uses for them."
  },
  {
   "property": "C83",
   "status": "proved",
   "theorems": [
    "Verif.C83_metered",
    "Verif.C83_shell",
    "Verif.C83_stages",
    "Verif.C83_splices",
    "Verif.C83_splices_panic",
    "Verif.C83_relative"
   ],
   "note": "Counts of the steps of the loops, in functions that give the same results (C83_metered); not times."
  },
  {
   "property": "C84",
   "status": "proved",
   "theorems": [
    "Verif.C84_words",
    "Verif.C84_unique",
    "Verif.C84_space",
    "Verif.C84_keywords"
   ],
   "note": "Src.Begins (Spec/Source.lean) says what the start of the arguments is; C84_keywords are the witnesses that keywords can become unknown instructions."
  },
  {
   "property": "C85",
   "status": "proved",
   "theorems": [
    "Verif.C85_unquote",
    "Verif.C85_wrong",
    "Verif.C85_grammar",
    "Verif.C85_never",
    "Verif.C85_occur"
   ],
   "note": "About the model of the enquote crate (Model/Enquote), whose source is not in the sandbox."
  },
  {
   "property": "C86",
   "status": "proved",
   "theorems": [
    "Verif.C86_default",
    "Verif.C86_ignored",
    "Verif.C86_string",
    "Verif.C86_stage",
    "Verif.C86_columns",
    "Verif.C86_debug",
    "Verif.C86_pretty"
   ],
   "note": "Formatter::pad, pad_integral, PadAdapter and the builders of std are modelled from their documentation (Model/Format). C86_columns contains the negation for the parents of stages."
  },
  {
   "property": "C87",
   "status": "proved",
   "theorems": [
    "Verif.Mach32.C87_splicing",
    "Verif.Mach32.C87_large",
    "Verif.Mach32.C87_panic",
    "Verif.Mach32.C87_relative",
    "Verif.Mach32.C87_document",
    "Verif.Mach32.C87_front",
    "Verif.Mach32.C87_backwards",
    "Verif.Mach32.C87_substitute",
    "Verif.Mach32.C87_substitute_result",
    "Verif.Mach32.C87_targets",
    "Verif.Mach32.C87_targets_substitute",
    "Verif.Mach32.C87_targets_differ"
   ],
   "note": "As C80, for a 32-bit target."
  },
  {
   "property": "C88",
   "status": "proved",
   "theorems": [
    "Verif.C88_lines",
    "Verif.C88_instructions",
    "Verif.C88_count",
    "Verif.C88_plain",
    "Verif.C88_blank_line",
    "Verif.C88_comment_line",
    "Verif.C88_comment_first",
    "Verif.C88_quoted",
    "Verif.C88_negation",
    "Verif.C88_words",
    "Verif.C88_keyword"
   ],
   "note": "C88_negation and the theorems around it are the documents that the two readers treat differently. The reader is that of Spec/Logical, after the description of the format, not the code of another program."
  },
  {
   "property": "C89",
   "status": "proved",
   "theorems": [
    "Verif.C89_directives",
    "Verif.C89_same",
    "Verif.C89_start",
    "Verif.C89_byte_order_mark",
    "Verif.C89_lone_word",
    "Verif.C89_heredoc",
    "Verif.C89_copy_one_word",
    "Verif.C89_copy_array"
   ],
   "note": ""
  },
  {
   "property": "C90",
   "status": "proved",
   "theorems": [
    "Verif.C90_syntax",
    "Verif.C90_there",
    "Verif.C90_back",
    "Verif.C90_plain",
    "Verif.C90_same",
    "Verif.C90_ends",
    "Verif.C90_positions",
    "Verif.C90_quoted_rejected"
   ],
   "note": "C90_quoted_rejected is the negation without the condition on quotes across lines."
  },
  {
   "property": "C91",
   "status": "proved",
   "theorems": [
    "Verif.C91_exec",
    "Verif.C91_env",
    "Verif.C91_label",
    "Verif.C91_arg",
    "Verif.C91_copy",
    "Verif.C91_from"
   ],
   "note": ""
  },
  {
   "property": "C92",
   "status": "proved",
   "theorems": [
    "Verif.C92_document",
    "Verif.C92_rename",
    "Verif.C92_lookup",
    "Verif.C92_conditions"
   ],
   "note": ""
  },
  {
   "property": "C93",
   "status": "proved",
   "theorems": [
    "Verif.C93_stages",
    "Verif.C93_delete",
    "Verif.C93_insert",
    "Verif.C93_conditions"
   ],
   "note": ""
  },
  {
   "property": "C94",
   "status": "proved",
   "theorems": [
    "Verif.C94_expand",
    "Verif.C94_used",
    "Verif.C94_resolve",
    "Verif.C94_exists",
    "Verif.C94_document",
    "Verif.C94_conditions"
   ],
   "note": ""
  },
  {
   "property": "C95",
   "status": "proved",
   "theorems": [
    "Verif.C95_pieces",
    "Verif.C95_references",
    "Verif.C95_parts",
    "Verif.C95_image",
    "Verif.C95_escape",
    "Verif.C95_default",
    "Verif.C95_default_tag"
   ],
   "note": ""
  },
  {
   "property": "C96",
   "status": "proved",
   "theorems": [
    "Verif.C96_exchange",
    "Verif.C96_instructions",
    "Verif.C96_insert",
    "Verif.C96_delete",
    "Verif.C96_edit",
    "Verif.C96_quote",
    "Verif.C96_removed",
    "Verif.C96_control"
   ],
   "note": ""
  },
  {
   "property": "C97",
   "status": "proved",
   "theorems": [
    "Verif.C97_exchange",
    "Verif.C97_comment",
    "Verif.C97_uncomment",
    "Verif.C97_lines",
    "Verif.C97_remove",
    "Verif.C97_add",
    "Verif.C97_keyword",
    "Verif.C97_backslash"
   ],
   "note": ""
  },
  {
   "property": "C98",
   "status": "proved",
   "theorems": [
    "Verif.C98_replace",
    "Verif.C98_delete",
    "Verif.C98_alias",
    "Verif.C98_stages",
    "Verif.C98_quote",
    "Verif.C98_names"
   ],
   "note": ""
  },
  {
   "property": "C99",
   "status": "proved",
   "theorems": [
    "Verif.C99_default",
    "Verif.C99_flag_from",
    "Verif.C99_flag_copy",
    "Verif.C99_unflag_from",
    "Verif.C99_unflag_copy",
    "Verif.C99_pair_env",
    "Verif.C99_pair_label",
    "Verif.C99_forms"
   ],
   "note": ""
  }
 ]
}