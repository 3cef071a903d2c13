{
 "claims": [
  {
   "property": "C01",
   "status": "proved",
   "theorems": [
    "Brack.C01_tokenize_total"
   ],
   "note": "for every segmenter satisfying the UAX #29 laws"
  },
  {
   "property": "C02",
   "status": "proved",
   "theorems": [
    "Brack.C02_lossless",
    "Brack.C02_lossless_nul"
   ],
   "note": "NUL-free texts; with NULs the text up to the first NUL"
  },
  {
   "property": "C03",
   "status": "proved",
   "theorems": [
    "Brack.C03_tiles"
   ],
   "note": ""
  },
  {
   "property": "C04",
   "status": "partial",
   "theorems": [
    "Brack.C04_position_partial",
    "Brack.C04_line",
    "Brack.C04_exact",
    "Brack.C04_position_text_partial",
    "Brack.C04_position_refuted"
   ],
   "note": "false in general (line feed swallowed by an identifier, CR LF): C04_position_refuted. C04_exact: true of a token if and only if no earlier token other than NewLine contains a line feed; C04_line: otherwise the line is too small by the number of these line feeds; C04_position_text_partial: a condition on the text"
  },
  {
   "property": "C05",
   "status": "proved",
   "theorems": [
    "Brack.C05_separators_nested",
    "Brack.C05_no_separator_in_nested_text"
   ],
   "note": "both directions"
  },
  {
   "property": "C06",
   "status": "proved",
   "theorems": [
    "Brack.C06_plain_text"
   ],
   "note": ""
  },
  {
   "property": "C07",
   "status": "proved",
   "theorems": [
    "Brack.C07_counters_bounded",
    "Brack.C07_no_overflow"
   ],
   "note": ""
  },
  {
   "property": "C08",
   "status": "partial",
   "theorems": [
    "Brack.C08_line_feeds_partial",
    "Brack.C08_crlf_no_newline",
    "Brack.C08_crlf_refuted"
   ],
   "note": "LF proved; CRLF line ends never produce a NewLine token"
  },
  {
   "property": "C09",
   "status": "proved",
   "theorems": [
    "Brack.C09_keeps_tokens",
    "Brack.C09_keeps_all_tokens"
   ],
   "note": "Leaves of the tree = tokens, with locations; escape nodes stand for backslash plus escaped token."
  },
  {
   "property": "C10",
   "status": "proved",
   "theorems": [
    "Brack.C10_no_panic",
    "Brack.C10_no_panic_text",
    "Brack.C10_panic_only_backslash"
   ],
   "note": "No panic whenever EOF occurs; without EOF only a final backslash panics."
  },
  {
   "property": "C11",
   "status": "partial",
   "theorems": [
    "Brack.C11_accepts_iff",
    "Brack.C11_sound",
    "Brack.C11_grammar_refuted"
   ],
   "note": "Exact accepted language (C11_accepts_iff) and soundness w.r.t. brack.cst.ebnf proved; literal EBNF completeness is false (C11_grammar_refuted)."
  },
  {
   "property": "C12",
   "status": "proved",
   "theorems": [
    "Brack.C12_grammar"
   ],
   "note": "Every tree returned follows brack.cst.ebnf."
  },
  {
   "property": "C13",
   "status": "partial",
   "theorems": [
    "Brack.C13_parses_partial",
    "Brack.C13_refuted",
    "Brack.C13_leading_newline_refuted"
   ],
   "note": "False in general (C13_refuted, C13_leading_newline_refuted); proved for texts without closing brackets and leading line feed; C11_accepts_iff is the exact criterion."
  },
  {
   "property": "C14",
   "status": "partial",
   "theorems": [
    "Brack.C14_escape_partial",
    "Brack.C14_escape_refuted",
    "Brack.C14_rest_refuted",
    "Brack.C14_written_partial"
   ],
   "note": "False for escaped brackets inside of commands and for dots and commas outside of brackets (C14_escape_refuted, C14_rest_refuted). C14_escape_partial: an escaped token becomes exactly that text; C14_written_partial: documents as authors write them (C72), with backslashes escaped anywhere and dots and commas inside of brackets, are read as if the escaped characters were plain text."
  },
  {
   "property": "C15",
   "status": "partial",
   "theorems": [
    "Brack.C15_merge_start_partial",
    "Brack.C15_merge_covers_iff",
    "Brack.C15_merge_stop",
    "Brack.C15_refuted"
   ],
   "note": "Start proved; end false in general (C15_refuted) with an exact criterion (C15_merge_covers_iff)."
  },
  {
   "property": "C16",
   "status": "partial",
   "theorems": [
    "Brack.C16_exact",
    "Brack.C16_node_ranges_partial",
    "Brack.C16_refuted",
    "Brack.C16_stmt_start",
    "Brack.C16_stmt_refuted"
   ],
   "note": "For expressions and brackets the range always starts at the first token, and C16_exact says exactly when it ends at the last token; false for statements and for expressions ending in an escape (C16_refuted, C16_stmt_refuted)."
  },
  {
   "property": "C17",
   "status": "partial",
   "theorems": [
    "Brack.C17_no_panic_refuted",
    "Brack.C17_no_panic_refuted_unclosed",
    "Brack.C17_panic_iff",
    "Brack.C17_no_panic_partial"
   ],
   "note": "False in general (two witnesses); exact panic criterion C17_panic_iff; proved for texts without escaped opening brackets in which brackets are left unclosed at the end only."
  },
  {
   "property": "C18",
   "status": "partial",
   "theorems": [
    "Brack.C18_commands_partial",
    "Brack.C18_grammar_partial",
    "Brack.C18_grammar_refuted"
   ],
   "note": "Command shape proved for all clean documents; full grammar for clean documents without escaped opening brackets; false otherwise (C18_grammar_refuted)."
  },
  {
   "property": "C19",
   "status": "proved",
   "theorems": [
    "Brack.C19_unclosed_reported"
   ],
   "note": "Ordered list equality with an independent bracket scan."
  },
  {
   "property": "C20",
   "status": "partial",
   "theorems": [
    "Brack.C20_never_reported",
    "Brack.C20_unopened_refuted",
    "Brack.C20_mismatch_partial"
   ],
   "note": "False: these kinds are never reported (C20_never_reported) and unopened brackets go unreported (C20_unopened_refuted); mismatches are reported as not-closed."
  },
  {
   "property": "C21",
   "status": "proved",
   "theorems": [
    "Brack.C21_backslash"
   ],
   "note": "Ordered list equality with an independent scan."
  },
  {
   "property": "C22",
   "status": "proved",
   "theorems": [
    "Brack.C22_content",
    "Brack.C22_words"
   ],
   "note": "Ordered list equality, with ranges."
  },
  {
   "property": "C23",
   "status": "proved",
   "theorems": [
    "Brack.C23_arguments",
    "Brack.C23_nonempty"
   ],
   "note": "The AST of a clean document equals an independent reading of the tree."
  },
  {
   "property": "C24",
   "status": "partial",
   "theorems": [
    "Brack.C24_spaces_refuted",
    "Brack.C24_words_partial"
   ],
   "note": "False (C24_spaces_refuted); words, their order and ranges survive."
  },
  {
   "property": "C25",
   "status": "proved",
   "theorems": [
    "Brack.C25_unique_ids",
    "Brack.C25_absent_ids"
   ],
   "note": "Assuming pairwise different UUIDs."
  },
  {
   "property": "C26",
   "status": "proved",
   "theorems": [
    "Brack.C26_ranges"
   ],
   "note": ""
  },
  {
   "property": "C27",
   "status": "partial",
   "theorems": [
    "Brack.C27_unchanged",
    "Brack.C27_expansion_refuted",
    "Brack.C27_expansion_partial",
    "Brack.C27_compile_refuted"
   ],
   "note": "False: the expander returns its input (C27_unchanged); partial for macros returning themselves. As a consequence no document with a macro call compiles (C27_compile_refuted)."
  },
  {
   "property": "C28",
   "status": "proved",
   "theorems": [
    "Brack.C28_macro_calls",
    "Brack.C28_compiled"
   ],
   "note": "Trace of requests, with the reasons for stopping early."
  },
  {
   "property": "C29",
   "status": "partial",
   "theorems": [
    "Brack.C29_no_panic_refuted",
    "Brack.C29_no_panic_partial",
    "Brack.C29_panic_iff"
   ],
   "note": "False for stray backslashes (C29_no_panic_refuted); proved for all documents without that error; exact criterion for documents without macros."
  },
  {
   "property": "C30",
   "status": "proved",
   "theorems": [
    "Brack.C30_admissible",
    "Brack.C30_calls_admissible"
   ],
   "note": "Both for the whole document after success and for every call made before a failure."
  },
  {
   "property": "C31",
   "status": "partial",
   "theorems": [
    "Brack.C31_counts_refuted",
    "Brack.C31_counts_iff",
    "Brack.C31_counts_partial"
   ],
   "note": "False for parameters after an array; exact criterion C31_counts_iff."
  },
  {
   "property": "C32",
   "status": "partial",
   "theorems": [
    "Brack.C32_no_panic_refuted",
    "Brack.C32_no_panic_refuted_array",
    "Brack.C32_panic_iff",
    "Brack.C32_no_panic_partial",
    "Brack.C32_no_panic_document_partial"
   ],
   "note": "False for optional before required or array parameters; exact criterion C32_panic_iff; proved for documents with standard signatures."
  },
  {
   "property": "C33",
   "status": "proved",
   "theorems": [
    "Brack.C33_binding",
    "Brack.C33_generate",
    "Brack.C33_delivered"
   ],
   "note": "Standard signatures, as in the property."
  },
  {
   "property": "C34",
   "status": "proved",
   "theorems": [
    "Brack.C34_hooks",
    "Brack.C34_prefix"
   ],
   "note": ""
  },
  {
   "property": "C35",
   "status": "proved",
   "theorems": [
    "Brack.C35_abort",
    "Brack.C35_macro_or_invalid",
    "Brack.C35_only"
   ],
   "note": "With converse: otherwise only plugin errors make generation fail."
  },
  {
   "property": "C36",
   "status": "partial",
   "theorems": [
    "Brack.C36_exact",
    "Brack.C36_plain_partial",
    "Brack.C36_crlf_refuted"
   ],
   "note": "CR LF line breaks are kept, not removed (C36_crlf_refuted), and texts that begin with a line feed are refused. C36_exact: the outcome for every text without special characters."
  },
  {
   "property": "C37",
   "status": "partial",
   "theorems": [
    "Brack.C37_reported_refuted",
    "Brack.C37_reported_partial",
    "Brack.C37_kinds_partial"
   ],
   "note": "False: errors of all other kinds can go unnoticed (C37_reported_refuted); stray backslashes and unclosed angle brackets always make compilation fail (C37_reported_partial). C37_kinds_partial: there are no further kinds, so the classification is exact."
  },
  {
   "property": "C38",
   "status": "proved",
   "theorems": [
    "Brack.C38_one_plugin",
    "Brack.C38_bound"
   ],
   "note": "Both directions."
  },
  {
   "property": "C39",
   "status": "proved",
   "theorems": [
    "Brack.C39_order",
    "Brack.C39_same_result",
    "Brack.C39_same_name_refuted"
   ],
   "note": "Including that generation and expansion give the same results; distinct names as in the property (for equal names refuted)."
  },
  {
   "property": "C40",
   "status": "partial",
   "theorems": [
    "Brack.C40_loads_iff",
    "Brack.C40_loaded",
    "Brack.C40_hook_exists",
    "Brack.C40_hook_found_partial",
    "Brack.C40_hook_call",
    "Brack.C40_missing_refuted"
   ],
   "note": "Acceptance characterised exactly; hook calls always reach the plugin for distinct names; false for plugins with the same name (C40_missing_refuted)."
  },
  {
   "property": "C41",
   "status": "proved",
   "theorems": [
    "Brack.C41_roundtrip",
    "Brack.C41_accepts_exactly",
    "Brack.C41_config_roundtrip",
    "Brack.C41_distinct"
   ],
   "note": "Over the serde data model; the text form is the toml crate's, a parameter without laws."
  },
  {
   "property": "C42",
   "status": "partial",
   "theorems": [
    "Brack.C42_components_partial",
    "Brack.C42_succeeds",
    "Brack.C42_empty_repo_refuted"
   ],
   "note": "Proved for non-empty repositories; for an empty one the file requested is named after the owner (C42_empty_repo_refuted)."
  },
  {
   "property": "C43",
   "status": "partial",
   "theorems": [
    "Brack.C43_success",
    "Brack.C43_failure_partial",
    "Brack.C43_failure_prefix_partial",
    "Brack.C43_other_files",
    "Brack.C43_crash_refuted"
   ],
   "note": "Success and failure for runs in which no write stops in the middle; a crash while writing destroys the configuration (C43_crash_refuted)."
  },
  {
   "property": "C44",
   "status": "partial",
   "theorems": [
    "Brack.C44_refuted"
   ],
   "note": "False for every successful add (C44_refuted): the plugin is stored under another path than the one build looks for, and requested again."
  },
  {
   "property": "C45",
   "status": "proved",
   "theorems": [
    "Brack.C45_second_run",
    "Brack.C45_no_plugins",
    "Brack.C45_plugin_set",
    "Brack.C45_succeeds"
   ],
   "note": "The second run makes no request; the plugin set and success conditions are characterised."
  },
  {
   "property": "C46",
   "status": "partial",
   "theorems": [
    "Brack.C46_complete_partial",
    "Brack.C46_recovers_partial",
    "Brack.C46_crash_refuted"
   ],
   "note": "Proved for runs in which no write stops in the middle; after a crash the incomplete file is taken for the plugin (C46_crash_refuted)."
  },
  {
   "property": "C47",
   "status": "proved",
   "theorems": [
    "Brack.C47_outputs",
    "Brack.C47_only_out",
    "Brack.C47_succeeds"
   ],
   "note": "Success: outputs exactly; any outcome: nothing outside out changes; conditions for success."
  },
  {
   "property": "C48",
   "status": "partial",
   "theorems": [
    "Brack.C48_handled_partial",
    "Brack.C48_all_partial",
    "Brack.C48_burst_refuted",
    "Brack.C48_unanswered_refuted",
    "Brack.C48_character_refuted",
    "Brack.C48_cut_refuted"
   ],
   "note": "Proved for inputs with at most one message end per read and no read ending inside a character; false for several messages in one read (C48_burst_refuted, C48_unanswered_refuted) and reads ending inside a character (C48_character_refuted, C48_cut_refuted)."
  },
  {
   "property": "C49",
   "status": "proved",
   "theorems": [
    "Brack.C49_frames",
    "Brack.C49_recovered"
   ],
   "note": "Every message sent is one well-formed frame; the sequence of messages can be read back."
  },
  {
   "property": "C50",
   "status": "partial",
   "theorems": [
    "Brack.C50_answered_partial",
    "Brack.C50_once_partial",
    "Brack.C50_notification",
    "Brack.C50_response",
    "Brack.C50_string_id_refuted",
    "Brack.C50_no_project_refuted",
    "Brack.C50_no_trigger_refuted",
    "Brack.C50_unreadable_refuted",
    "Brack.C50_params_refuted"
   ],
   "note": "At most one response always; exactly one unless the parameters are malformed, the request is neglected or the document is larger than 2^32; each exception shown by a refutation."
  },
  {
   "property": "C51",
   "status": "partial",
   "theorems": [
    "Brack.C51_unreadable",
    "Brack.C51_continues_iff_partial",
    "Brack.C51_published_partial",
    "Brack.C51_clean_partial",
    "Brack.C51_rejected_refuted",
    "Brack.C51_panic_refuted"
   ],
   "note": "Exact criterion for the server to go on; diagnostics exact in that case; false for rejected documents and loose separators (two refutations)."
  },
  {
   "property": "C52",
   "status": "partial",
   "theorems": [
    "Brack.C52_decode_partial",
    "Brack.C52_large_refuted"
   ],
   "note": "Documents of less than 2^32 characters; false for larger ones (C52_large_refuted)."
  },
  {
   "property": "C53",
   "status": "partial",
   "theorems": [
    "Brack.C53_types_partial",
    "Brack.C53_types_refuted"
   ],
   "note": "Tokens that name or enclose commands; false for the others (C53_types_refuted)."
  },
  {
   "property": "C54",
   "status": "partial",
   "theorems": [
    "Brack.C54_units_partial",
    "Brack.C54_ascii_partial",
    "Brack.C54_units_refuted",
    "Brack.C54_exact"
   ],
   "note": "Texts with one UTF-16 unit per cluster; false otherwise (C54_units_refuted). C54_exact: exactly which positions and lengths are right, for all documents of less than 2^32 characters."
  },
  {
   "property": "C55",
   "status": "partial",
   "theorems": [
    "Brack.C55_listed_partial",
    "Brack.C55_continues",
    "Brack.C55_macros_refuted"
   ],
   "note": "Inline and block commands exactly; macros are never listed (C55_macros_refuted)."
  },
  {
   "property": "C56",
   "status": "partial",
   "theorems": [
    "Brack.C56_loaded_partial",
    "Brack.C56_only",
    "Brack.C56_exact",
    "Brack.C56_succeeds",
    "Brack.C56_names_refuted",
    "Brack.C56_versions_refuted",
    "Brack.C56_directory_refuted"
   ],
   "note": "Proved for names of letters, directories without underscore and a single cached version; false otherwise (three refutations). C56_exact: exactly which plugins are loaded, in terms of the pattern."
  },
  {
   "property": "C57",
   "status": "partial",
   "theorems": [
    "Brack.C57_levels",
    "Brack.C57_refused",
    "Brack.C57_no_effects",
    "Brack.C57_agree_partial",
    "Brack.C57_agree_single_partial",
    "Brack.C57_stateful_refuted"
   ],
   "note": "Levels, refusals and absence of effects proved in full; agreement with build for plugins without memory or a single document, false for plugins that remember calls (C57_stateful_refuted)."
  },
  {
   "property": "C58",
   "status": "proved",
   "theorems": [
    "Brack.C58_names_after_open",
    "Brack.C58_names_due"
   ],
   "note": ""
  },
  {
   "property": "C59",
   "status": "proved",
   "theorems": [
    "Brack.C59_clean_iff"
   ],
   "note": "Both directions, against a specification on the concrete tree."
  },
  {
   "property": "C60",
   "status": "partial",
   "theorems": [
    "Brack.C60_once_refuted",
    "Brack.C60_once_partial",
    "Brack.C60_comma_refuted",
    "Brack.C60_twice_partial"
   ],
   "note": "False for dots among arguments (C60_once_refuted) and for commas before the end of a command (C60_comma_refuted). Proved: no error is reported more than twice, and all errors other than unexpected dots and commas are reported at most once."
  },
  {
   "property": "C61",
   "status": "proved",
   "theorems": [
    "Brack.C61_served"
   ],
   "note": ""
  },
  {
   "property": "C62",
   "status": "proved",
   "theorems": [
    "Brack.C62_output",
    "Brack.C62_identifiers",
    "Brack.C62_no_macros",
    "Brack.C62_trees",
    "Brack.C62_error_refuted"
   ],
   "note": "Successful compilations for all plugins; failing ones for macros that do not look at identifiers (for others the error may differ, C62_error_refuted)."
  },
  {
   "property": "C63",
   "status": "partial",
   "theorems": [
    "Brack.C63_clean_settles",
    "Brack.C63_read_partial",
    "Brack.C63_compile_partial",
    "Brack.C63_paragraphs_partial",
    "Brack.C63_pending_refuted",
    "Brack.C63_range_refuted"
   ],
   "note": "Paragraphs after which nothing is pending (C63_clean_settles: those without errors, escaped brackets and unopened brackets) and the starts of the ranges of unclosed brackets; false otherwise (C63_pending_refuted, C63_range_refuted)."
  },
  {
   "property": "C64",
   "status": "proved",
   "theorems": [
    "Brack.C64_json"
   ],
   "note": "For tokens and all trees; JSON texts by the grammar of RFC 8259."
  },
  {
   "property": "C65",
   "status": "partial",
   "theorems": [
    "Brack.C65_nesting",
    "Brack.C65_exchange_partial",
    "Brack.C65_identity_iff",
    "Brack.C65_deep_refuted"
   ],
   "note": "Replies nested at most 127 times (C65_nesting: documents with at most 19 commands open at once get through to macros and back, C65_identity_iff: exactly those of height at most 42); false for more (C65_deep_refuted: 20 commands inside of each other)."
  },
  {
   "property": "C66",
   "status": "proved",
   "theorems": [
    "Brack.C66_exchange"
   ],
   "note": "All arguments and replies."
  },
  {
   "property": "C67",
   "status": "partial",
   "theorems": [
    "Brack.C67_declared_partial",
    "Brack.C67_deep_refuted"
   ],
   "note": "Replies nested at most 127 times; false for more (C67_deep_refuted)."
  },
  {
   "property": "C68",
   "status": "proved",
   "theorems": [
    "Brack.C68_created",
    "Brack.C68_existing",
    "Brack.C68_nothing_lost",
    "Brack.C68_succeeds"
   ],
   "note": "The command succeeds under the stated conditions, exact effects; nothing lost however it ends."
  },
  {
   "property": "C69",
   "status": "partial",
   "theorems": [
    "Brack.C69_builds_partial",
    "Brack.C69_name_refuted"
   ],
   "note": "Names of characters that need no escape in TOML; false for others (C69_name_refuted: a backslash). The TOML parser is assumed to conform to a part of the TOML grammar."
  },
  {
   "property": "C70",
   "status": "partial",
   "theorems": [
    "Brack.C70_confined_partial",
    "Brack.C70_escape_refuted"
   ],
   "note": "Configurations whose plugin names and backend contain no slash; false otherwise (C70_escape_refuted)."
  },
  {
   "property": "C71",
   "status": "proved",
   "theorems": [
    "Brack.C71_only_github"
   ],
   "note": "All commands and executions."
  },
  {
   "property": "C72",
   "status": "proved",
   "theorems": [
    "Brack.C72_reads",
    "Brack.C72_compiles",
    "Brack.C72_executes",
    "Brack.C72_succeeds",
    "Brack.C72_uncombined"
   ],
   "note": "All documents in which no character with a meaning is combined with a combining mark (C72_uncombined)."
  },
  {
   "property": "C73",
   "status": "partial",
   "theorems": [
    "Brack.C73_accepted_partial",
    "Brack.C73_reads",
    "Brack.C73_callable",
    "Brack.C73_names_refuted"
   ],
   "note": "Names without characters that mean something in documents or snippets; false for others (C73_names_refuted: a space, a dollar sign). Snippets by the part of the LSP rules in Spec/Snippet.lean."
  },
  {
   "property": "C74",
   "status": "proved",
   "theorems": [
    "Brack.C74_same_start",
    "Brack.C74_edits",
    "Brack.C74_ascii"
   ],
   "note": "Any segmentation with a common beginning (C74_same_start); by the rules of UAX 29 (C74_edits) and for ASCII (C74_ascii)."
  },
  {
   "property": "C75",
   "status": "proved",
   "theorems": [
    "Brack.C75_any_order",
    "Brack.C75_rebuild"
   ],
   "note": "The build with the same plugins in any order (C75_any_order) and the whole command including the download (C75_rebuild)."
  },
  {
   "property": "C76",
   "status": "partial",
   "theorems": [
    "Brack.C76_output_partial",
    "Brack.C76_stateful_refuted",
    "Brack.C76_before_failure",
    "Brack.C76_broken_refuted"
   ],
   "note": "False in general: plugins that remember calls (C76_stateful_refuted), and a document that does not compile prevents the outputs of those listed after it (C76_broken_refuted). Proved: the output is the same in every project that is built, if calls leave no trace (C76_output_partial); a failing build stops at a document that is to blame, all documents before it have their outputs, nothing else changes (C76_before_failure)."
  },
  {
   "property": "C77",
   "status": "partial",
   "theorems": [
    "Brack.C77_builds_partial",
    "Brack.C77_fresh_refuted"
   ],
   "note": "False for a project without a directory plugins, which new projects keep out of version control (C77_fresh_refuted). Proved: with that directory, the build succeeds if each missing plugin can be fetched, plugins load, documents compile and nothing is in the way (C77_builds_partial)."
  },
  {
   "property": "C78",
   "status": "partial",
   "theorems": [
    "Brack.C78_changes_refuted",
    "Brack.C78_announced_refuted",
    "Brack.C78_tokens_partial",
    "Brack.C78_saved_partial"
   ],
   "note": "False for unsaved edits: didChange makes no difference to anything (C78_changes_refuted) although full synchronisation is announced (C78_announced_refuted). Proved: tokens and diagnostics are those of the text on the disk at that time (C78_tokens_partial, C78_saved_partial)."
  },
  {
   "property": "C79",
   "status": "partial",
   "theorems": [
    "Brack.C79_path_partial",
    "Brack.C79_uri_refuted"
   ],
   "note": "False: diagnostics carry the path, not the URI (C79_uri_refuted). Proved: they carry the path of the saved document (C79_path_partial)."
  },
  {
   "property": "C80",
   "status": "partial",
   "theorems": [
    "Brack.C80_shutdown_refuted",
    "Brack.C80_exit_refuted",
    "Brack.C80_early_refuted",
    "Brack.C80_ends_partial"
   ],
   "note": "False: shutdown is answered with an error, exit has no effect, requests before initialize are served (C80_shutdown_refuted, C80_exit_refuted, C80_early_refuted). Proved: the end of the input ends the server, successfully exactly if the messages before were handled (C80_ends_partial)."
  },
  {
   "property": "C81",
   "status": "partial",
   "theorems": [
    "Brack.C81_announced_partial",
    "Brack.C81_triggers_refuted"
   ],
   "note": "False for trigger characters (C81_triggers_refuted). Proved for all requests that need a capability (C81_announced_partial)."
  },
  {
   "property": "C82",
   "status": "partial",
   "theorems": [
    "Brack.C82_opened_partial",
    "Brack.C82_last_refuted",
    "Brack.C82_stray_refuted"
   ],
   "note": "False after a document of another project or of none was opened (C82_last_refuted, C82_stray_refuted), and for macros (C55_macros_refuted). Proved until the next document is opened (C82_opened_partial)."
  },
  {
   "property": "C83",
   "status": "partial",
   "theorems": [
    "Brack.C83_continues_partial",
    "Brack.C83_offline_refuted",
    "Brack.C83_directory_refuted",
    "Brack.C83_unsaved_refuted"
   ],
   "note": "False: offline, without a directory plugins, for documents that are not files (C83_*_refuted). Proved: exactly when the server goes on (C83_continues_partial), on a healthy file system and steady network."
  },
  {
   "property": "C84",
   "status": "partial",
   "theorems": [
    "Brack.C84_unknown_partial",
    "Brack.C84_params_refuted",
    "Brack.C84_json_refuted",
    "Brack.C84_header_refuted",
    "Brack.C84_length_refuted"
   ],
   "note": "False for parameters of the wrong form, content that is not JSON, headers without colon or length (C84_*_refuted). Proved for messages with an unknown method or none (C84_unknown_partial)."
  },
  {
   "property": "C85",
   "status": "partial",
   "theorems": [
    "Brack.C85_entry_partial",
    "Brack.C85_backend_refuted",
    "Brack.C85_output_refuted"
   ],
   "note": "False for the backend (C85_backend_refuted, C85_output_refuted). Proved for a changed plugin entry whose digest differs (C85_entry_partial)."
  },
  {
   "property": "C86",
   "status": "proved",
   "theorems": [
    "Brack.C86_text"
   ],
   "note": "The derived Debug implementations are modelled; which characters are printed as they are is an arbitrary table."
  },
  {
   "property": "C87",
   "status": "proved",
   "theorems": [
    "Brack.C87_files",
    "Brack.C87_changed"
   ],
   "note": "For an arbitrary hash function; a collision is one of the stated outcomes."
  },
  {
   "property": "C88",
   "status": "proved",
   "theorems": [
    "Brack.C88_details"
   ],
   "note": "For the inline and block commands, which are those listed (C55); if a plugin reports a command twice, the last report counts."
  },
  {
   "property": "C89",
   "status": "partial",
   "theorems": [
    "Brack.C89_any_partial",
    "Brack.C89_limits",
    "Brack.C89_line_feed_refuted",
    "Brack.C89_backslash_refuted"
   ],
   "note": "False for line feeds: without plugins no document outputs a\\nb (C89_line_feed_refuted, C89_limits), and for backslashes as the rule (C89_backslash_refuted). Proved for every text without NUL whose line breaks are CR LF, with one cluster per line (C89_any_partial)."
  },
  {
   "property": "C90",
   "status": "partial",
   "theorems": [
    "Brack.C90_depth",
    "Brack.C90_depth_refuted",
    "Brack.C90_quadratic_partial",
    "Brack.C90_quadratic",
    "Brack.C90_linear_refuted"
   ],
   "note": "False: the calls nest once for each cluster (C90_depth, C90_depth_refuted) and each holds a copy of the remaining text, so the memory is quadratic (C90_quadratic, C90_linear_refuted). Proved: not more than quadratic (C90_quadratic_partial)."
  },
  {
   "property": "C91",
   "status": "partial",
   "theorems": [
    "Brack.C91_succeeds_partial",
    "Brack.C91_empties",
    "Brack.C91_outside",
    "Brack.C91_fetches",
    "Brack.C91_repairs",
    "Brack.C91_missing_refuted",
    "Brack.C91_interrupted_refuted"
   ],
   "note": "False without a directory plugins (C91_missing_refuted) and after an interruption between its deletion and creation, after which neither clearing nor downloading works (C91_interrupted_refuted). Proved: it succeeds if the directory exists and the file system works (C91_succeeds_partial), and the claims about what it does (C91_empties, C91_outside, C91_fetches, C91_repairs)."
  },
  {
   "property": "C92",
   "status": "proved",
   "theorems": [
    "Brack.C92_unaffected",
    "Brack.C92_added",
    "Brack.C92_build",
    "Brack.C92_empty_name"
   ],
   "note": "C92_unaffected: plugin sets that differ in unused plugins only give the same outcome and calls. C92_added: one plugin more in the list. C92_build: one plugin more in a project, if the file system works. C92_empty_name shows why the empty name is excluded."
  },
  {
   "property": "C93",
   "status": "proved",
   "theorems": [
    "Brack.C93_changes_nothing",
    "Brack.C93_same_answer",
    "Brack.C93_session"
   ],
   "note": "C93_changes_nothing: disk and server unchanged, only messages sent, even if the file system fails. C93_same_answer: the answer depends on disk and server state only. C93_session: a question can be left out of a session. Plugins are taken to answer the same question in the same way, as in the rest of the model of the server."
  },
  {
   "property": "C94",
   "status": "proved",
   "theorems": [
    "Brack.C94_blank_lines",
    "Brack.C94_final_lines",
    "Brack.C94_output",
    "Brack.C94_final_output",
    "Brack.C94_carriage_return"
   ],
   "note": "C94_blank_lines and C94_final_lines for the document as read, C94_output and C94_final_output for the output. C94_carriage_return shows why a carriage return before the line feeds has to be excluded."
  },
  {
   "property": "C95",
   "status": "proved",
   "theorems": [
    "Brack.C95_layout",
    "Brack.C95_output",
    "Brack.C95_room"
   ],
   "note": "C95_layout for the document as read, C95_output for the output, C95_room for the condition that no combining character follows, by the rules of UAX #29 with tables of any Unicode version."
  },
  {
   "property": "C96",
   "status": "partial",
   "theorems": [
    "Brack.C96_other_keys_refuted",
    "Brack.C96_layout_refuted",
    "Brack.C96_known_partial"
   ],
   "note": "False: the file is read and printed anew. C96_other_keys_refuted: sections and keys that are not part of the configuration are lost by every successful add; C96_layout_refuted: files with the same configuration become the same file, so that comments and layout are lost. C96_known_partial: the document section and the other plugins are kept, if the TOML crate reads what it has printed."
  },
  {
   "property": "C97",
   "status": "proved",
   "theorems": [
    "Brack.C97_parts",
    "Brack.C97_commands"
   ],
   "note": "C97_parts: the commands and leaves of the tree with the commands around each, against one scan of the tokens with the brackets open; C97_commands: without backslashes the commands are the opening brackets."
  },
  {
   "property": "C98",
   "status": "partial",
   "theorems": [
    "Brack.C98_alone",
    "Brack.C98_place_partial",
    "Brack.C98_output_partial",
    "Brack.C98_apart",
    "Brack.C98_written",
    "Brack.C98_place_refuted",
    "Brack.C98_output_refuted"
   ],
   "note": "Proved for commands with paired brackets (also after backslashes) whose last command has a name, at places where no name or escaped character is due and not more brackets were closed than opened (C98_place_partial), and for the output without a hook for expressions, where the commands are compared without hooks for documents and statements (C98_output_partial); C98_alone, C98_apart: such commands are documents and keep apart from their surroundings; C98_written: commands as authors write them (C72) are such commands. False in general (C98_place_refuted): after an escaped closing bracket, dots and separators of a command are read as text; and with a hook for expressions (C98_output_refuted), which sees all of an expression."
  },
  {
   "property": "C99",
   "status": "proved",
   "theorems": [
    "Brack.C99_compiles",
    "Brack.C99_reads",
    "Brack.C99_fails",
    "Brack.C99_loads"
   ],
   "note": "C99_compiles: documents as written (C72) and the same with the other names; C99_reads: any two texts read alike up to the names, with or without errors; C99_fails: without macros all results, errors included; C99_loads: loading. Macros are given the tree with the names in it, so that with them the calls of a failing run may differ."
  },
  {
   "property": "C100",
   "status": "proved",
   "theorems": [
    "Brack.C100_depth",
    "Brack.C100_size"
   ],
   "note": "C100_depth: heights of both trees against the greatest number of commands open at once, by one scan of the tokens; C100_size: numbers of tokens and nodes against the length of the text. The depth of tokenizing is not bounded this way (C90)."
  },
  {
   "property": "C101",
   "status": "partial",
   "theorems": [
    "Brack.C101_shown",
    "Brack.C101_ast_partial",
    "Brack.C101_ast_refuted",
    "Brack.C101_cst_partial",
    "Brack.C101_cst_refuted",
    "Brack.C101_errors"
   ],
   "note": "C101_shown: trees can always be printed; C101_ast_partial: exact for documents without CR LF line ends; C101_cst_partial: concrete trees print alike exactly if they are the same up to positions and the characters behind backslashes; C101_errors: exact. False in general: a text with a CR LF in it can print like a text and a mark for something invalid (C101_ast_refuted), and escaped characters are not printed in concrete trees (C101_cst_refuted)."
  },
  {
   "property": "C102",
   "status": "proved",
   "theorems": [
    "Brack.C102_stated",
    "Brack.C102_read",
    "Brack.C102_build_refused",
    "Brack.C102_add_refused"
   ],
   "note": "C102_stated and C102_read: exact, up to the order in which plugins are kept, for the values that the crate toml gives (no key twice in a table, which TOML demands); C102_build_refused, C102_add_refused: otherwise nothing but the error happens. The crate toml itself is not modelled."
  },
  {
   "property": "C103",
   "status": "partial",
   "theorems": [
    "Brack.C103_never",
    "Brack.C103_refuted",
    "Brack.C103_build_partial",
    "Brack.C103_compile_partial",
    "Brack.C103_document_iff",
    "Brack.C103_clean"
   ],
   "note": "C103_never: new, add and version. False for build and compile (C103_refuted): the document \\[a b makes both crash. C103_build_partial, C103_compile_partial: with plugins that declare required parameters first, only a separator outside all brackets or a backslash that escapes nothing makes them crash (levels 1 and 2 of compile never crash, level 3 only for the separator); C103_document_iff: exact for documents without macros; C103_clean: documents without errors never. Printing to a closed terminal, which makes println panic, is not modelled; the language server is in C51."
  },
  {
   "property": "C104",
   "status": "partial",
   "theorems": [
    "Brack.C104_message_iff_partial",
    "Brack.C104_session_partial",
    "Brack.C104_crash_partial",
    "Brack.C104_written",
    "Brack.C104_refuted"
   ],
   "note": "False (C104_refuted): a saved document with an unopened bracket stops the server, one with a space behind an escaped bracket crashes it. C104_message_iff_partial: exactly after which messages the server stops (parameters that cannot be read, documents that are no files, plugins that cannot be fetched, saved documents that are rejected or have a separator outside brackets), for documents with fewer than 2^32 characters, a working file system and a steady network; C104_session_partial: sessions without such messages end with the input; C104_crash_partial: crashes have only the two reasons, whatever the file system does; C104_written: if nothing can be written, the next answer stops the server. URLs of files are taken to give absolute paths, and hashes to contain no slash."
  },
  {
   "property": "C105",
   "status": "proved",
   "theorems": [
    "Brack.C105_reaction",
    "Brack.C105_session",
    "Brack.C105_faults"
   ],
   "note": "C105_reaction: for each message received; C105_session: for any bytes received; C105_faults: also if reads and writes fail. The forms are stated in Spec/Lsp.lean from the protocol, for the fields used. Numbers without sign may have 32 bits, as in the crate lsp-types, where the protocol text stops at 2^31-1. That the uri of diagnostics is really a path is C79, that types outside the legend occur is C53."
  },
  {
   "property": "C106",
   "status": "partial",
   "theorems": [
    "Brack.C106_crash_partial",
    "Brack.C106_message",
    "Brack.C106_refused",
    "Brack.C106_waits",
    "Brack.C106_crash_refuted",
    "Brack.C106_deaf_refuted",
    "Brack.C106_refuted"
   ],
   "note": "False (C106_refuted): a header line without a colon crashes the server, and after a header without a length it never answers again. C106_message, C106_refused, C106_waits: what is done with any bytes otherwise; C106_crash_partial: only the bytes described by Upsetting (a line without a colon and a blank, most negative lengths, a length ending inside a character) crash it, besides the messages of C104; C106_crash_refuted, C106_deaf_refuted: on all of those it does crash, and after all of those described by Deafening it does nothing more. Buffers have fewer than 2^63 bytes, as Rust guarantees."
  },
  {
   "property": "C107",
   "status": "proved",
   "theorems": [
    "Brack.C107_same_calls",
    "Brack.C107_until_failure"
   ],
   "note": "C107_same_calls: two sets of plugins with any functions, equal declarations; forms of calls and kinds of results are the same. C107_until_failure: with failures, one sequence of calls begins the other and ends with the failed call."
  },
  {
   "property": "C108",
   "status": "proved",
   "theorems": [
    "Brack.C108_error",
    "Brack.C108_success",
    "Brack.C108_build"
   ],
   "note": "C108_error: the failed call is the last, and the result is the error returned by the function declared for it; C108_success, C108_build: no failed call in a successful compilation or build. That a failing build writes nothing for the document is C76_before_failure."
  },
  {
   "property": "C109",
   "status": "partial",
   "theorems": [
    "Brack.C109_compiles_iff",
    "Brack.C109_clean_partial",
    "Brack.C109_macro_refuted",
    "Brack.C109_escaped_refuted"
   ],
   "note": "False (C109_macro_refuted): a document with a macro is never compiled; (C109_escaped_refuted): an escaped opening bracket makes a document without errors uncompilable. C109_clean_partial: true of documents without macros and without escaped opening brackets, and otherwise the error is that of the failed call; C109_compiles_iff: exactly which texts are compiled. Hooks named in the registry exist (C40), parameters are declared in the usual order (C32), and four times the text fits into memory."
  },
  {
   "property": "C110",
   "status": "proved",
   "theorems": [
    "Brack.C110_characters",
    "Brack.C110_whole",
    "Brack.C110_boundaries"
   ],
   "note": "C110_characters: the segmentation cuts exactly where rules GB1 to GB999, stated in Spec/Unicode.lean, put a boundary; C110_whole: tokens consist of whole characters and are as wide as their number; C110_boundaries: in the text as a whole. That the crate unicode-segmentation follows the rules is assumed. The tables are parameters, with three facts about them (UTable.Coherent). A NUL ends the text (C02)."
  },
  {
   "property": "C111",
   "status": "partial",
   "theorems": [
    "Brack.C111_again_partial",
    "Brack.C111_downloads_partial",
    "Brack.C111_refused_partial",
    "Brack.C111_download_refuted"
   ],
   "note": "False (C111_download_refuted): if the process is killed while it stores a downloaded plugin, the file that was cut is taken for the plugin by all later builds, which fail. True otherwise: C111_again_partial for projects with all plugin files present, after any end of the first build; C111_downloads_partial with plugins to be downloaded from a server that keeps its files, whenever no plugin file was left incomplete; C111_refused_partial as a special case, if operations were refused or requests unanswered but no write was cut."
  },
  {
   "property": "C112",
   "status": "partial",
   "theorems": [
    "Brack.C112_outputs_partial",
    "Brack.C112_stale_refuted"
   ],
   "note": "False (C112_stale_refuted): the output of a document that was removed remains, and is listed by the next build. C112_outputs_partial: the files are the outputs of the documents and those that were there before; exactly the outputs if the directory was empty. Contents are in C47, the listing in C76."
  },
  {
   "property": "C113",
   "status": "partial",
   "theorems": [
    "Brack.C113_tokens_partial",
    "Brack.C113_trees_partial",
    "Brack.C113_deep_refuted"
   ],
   "note": "False for deep trees (C113_deep_refuted): serde_json reads at most 127 objects and arrays inside of each other, so that the trees of a document with 20 commands inside of each other are printed but cannot be read. C113_tokens_partial: tokens always, from any JSON text that shows them; C113_trees_partial: trees exactly if they have at most 42 levels, and so if at most 18 commands are open at once."
  },
  {
   "property": "C114",
   "status": "proved",
   "theorems": [
    "Brack.C114_sources",
    "Brack.C114_characters",
    "Brack.C114_breaks"
   ],
   "note": "C114_sources: for any plugins; C114_characters, C114_breaks: consequences for single characters and line breaks. The calls are those in the log of the model, which records what reaches a plugin function; macros are passed the tree, which is C28. What a plugin reads by itself inside of its sandbox is outside of the model."
  },
  {
   "property": "C115",
   "status": "partial",
   "theorems": [
    "Brack.C115_any_partial",
    "Brack.C115_line_feed_refuted"
   ],
   "note": "False (C115_line_feed_refuted): no document makes just one call with a line feed in an argument, whatever the plugins. C115_any_partial: true of arguments without spaces, line ends, brackets and NUL, with dots, commas and backslashes; the document is given. That spaces in arguments vanish is C24, that escaped opening brackets make a document uncompilable is C109."
  },
  {
   "property": "C116",
   "status": "partial",
   "theorems": [
    "Brack.C116_outside_partial",
    "Brack.C116_swapped_partial",
    "Brack.C116_nested_refuted",
    "Brack.C116_flat_refuted"
   ],
   "note": "False inside of one command: the errors of inner commands come before those of the outer one (C116_nested_refuted), and dots before commas (C116_flat_refuted). C116_outside_partial: true across every place outside of all brackets, so for different lines, paragraphs and outermost commands; C116_swapped_partial: two errors out of order are about the same outermost command."
  },
  {
   "property": "C117",
   "status": "partial",
   "theorems": [
    "Brack.C117_once_refuted",
    "Brack.C117_criterion",
    "Brack.C117_once_partial",
    "Brack.C117_characters_partial"
   ],
   "note": "False for commands with two array parameters (C117_once_refuted): the last argument reaches the command twice. C117_once_partial: true if no command has a parameter after an array; C117_criterion: for all other signatures it is false of binding; C117_characters_partial: the same as an equation between numbers of characters. Names of commands are no texts; macros cannot occur in documents that compile (C18)."
  },
  {
   "property": "C118",
   "status": "proved",
   "theorems": [
    "Brack.C118_offered",
    "Brack.C118_unknown",
    "Brack.C118_no_plugins"
   ],
   "note": "C118_offered: the commands are read off the tokens (tokenParts, C97), so that escaped brackets are none; C118_unknown: the same for a bracket with names at any place among the tokens; C118_no_plugins: the promise of the README. When such commands do compile is C109."
  },
  {
   "property": "C119",
   "status": "proved",
   "theorems": [
    "Brack.C119_only",
    "Brack.C119_each",
    "Brack.C119_characters"
   ],
   "note": "C119_only: every call and the output, for failing compilations as well; C119_each: each text of the document once, in order; C119_characters: the consequence for single characters. Macros are given the tree (C28); documents with macros do not compile (C109)."
  },
  {
   "property": "C120",
   "status": "partial",
   "theorems": [
    "Brack.C120_same",
    "Brack.C120_calls",
    "Brack.C120_steps_partial",
    "Brack.C120_quadratic",
    "Brack.C120_nested",
    "Brack.C120_linear_refuted"
   ],
   "note": "False: C120_linear_refuted, as CST::add copies each tree once more at every level. C120_calls: the calls alone are linear for every text; C120_steps_partial: with the copies the steps are at most proportional to length times depth of nesting, for accepted documents; C120_quadratic: at most quadratic for all texts; C120_nested: at least quadratic in the depth. C120_same: the counting parser computes what the parser does."
  },
  {
   "property": "C121",
   "status": "proved",
   "theorems": [
    "Brack.C121_tree",
    "Brack.C121_calls",
    "Brack.C121_until_failure",
    "Brack.C121_compiles"
   ],
   "note": "C121_tree: structure and problems; C121_calls, C121_until_failure: the calls, also for two sets of plugins that declare the same; C121_compiles: with commands that do not fail. The words may be anything but brackets, backslashes, line feeds and NUL, inside of brackets also no spaces, dots and commas, and must not merge with their neighbours into one character (Apart, as in C98). Names of commands are no words."
  },
  {
   "property": "C122",
   "status": "proved",
   "theorems": [
    "Brack.C122_output",
    "Brack.C122_again",
    "Brack.C122_exchange",
    "Brack.C122_result"
   ],
   "note": "C122_output: compiling gives r if and only if documentOutput (Spec/Output.lean) does, from the text of the document to the output; C122_again: after another document; C122_exchange, C122_result: the consequences for parts. Memory of plugins is excluded by Wasm.Steady; for plugins with memory the calls and their order are C72_executes. Documents are those of C72; macros have no output (C18)."
  },
  {
   "property": "C123",
   "status": "partial",
   "theorems": [
    "Brack.C123_builds_partial",
    "Brack.C123_outputs_partial",
    "Brack.C123_blame_partial",
    "Brack.C123_listing_partial",
    "Brack.C123_stateful_refuted"
   ],
   "note": "False for plugins that remember calls (C123_stateful_refuted: a command that can be called only once). True for all plugins whose commands leave no trace: C123_builds_partial (if and only if), C123_outputs_partial, C123_blame_partial, C123_listing_partial; for projects whose plugins can be loaded, with nothing in the way of the outputs (World.Orderly) and nothing going wrong on the file system. The same error is stated for documents without macro calls (C62_error_refuted otherwise)."
  },
  {
   "property": "C124",
   "status": "proved",
   "theorems": [
    "Brack.C124_calls",
    "Brack.C124_brackets",
    "Brack.C124_exact"
   ],
   "note": "C124_calls: at most four calls per character and five more, for all plugins and documents; C124_brackets: without hooks at most one per opening bracket; C124_exact: without hooks exactly one per command if the document compiles."
  },
  {
   "property": "C125",
   "status": "proved",
   "theorems": [
    "Brack.C125_errors",
    "Brack.C125_three"
   ],
   "note": "C125_three shows that the bound of three per place is reached."
  },
  {
   "property": "C126",
   "status": "proved",
   "theorems": [
    "Brack.C126_tokens",
    "Brack.C126_tree",
    "Brack.C126_read",
    "Brack.C126_unicode",
    "Brack.C126_angle"
   ],
   "note": "C126_read is the claim; C126_tokens and C126_tree hold for all exchanges; C126_unicode: the assumption on the segmenter follows from the Unicode rules; C126_angle: for the abstract tree angle brackets are different, since macros can stand for names."
  },
  {
   "property": "C127",
   "status": "proved",
   "theorems": [
    "Brack.C127_generate",
    "Brack.C127_compile",
    "Brack.C127_escaped"
   ],
   "note": "C127_generate: code generation, for all trees and all outcomes; C127_compile: whole compilation; C127_escaped: why brackets in words are left out."
  },
  {
   "property": "C128",
   "status": "proved",
   "theorems": [
    "Brack.C128_errors",
    "Brack.C128_published"
   ],
   "note": "C128_errors is the claim (Spec/Reports.lean reads the errors off the tokens, without a tree); C128_published: the diagnostics sent on save."
  },
  {
   "property": "C129",
   "status": "proved",
   "theorems": [
    "Brack.C129_tree"
   ],
   "note": "C129_tree is the claim (Spec/Outline.lean reads the tree off the tokens, without a concrete tree); for the ranges see C16 and C97, for the identifiers C25."
  },
  {
   "property": "C130",
   "status": "proved",
   "theorems": [
    "Brack.C130_outcome",
    "Brack.C130_compile"
   ],
   "note": "C130_outcome: the three outcomes; C130_compile: compiling depends on the tree read off the tokens only."
  },
  {
   "property": "C131",
   "status": "proved",
   "theorems": [
    "Brack.C131_kinds",
    "Brack.C131_tokens"
   ],
   "note": "C131_kinds: the kinds and words are those of the reading `lexed`; C131_tokens: together with the ranges this determines the tokens."
  },
  {
   "property": "C132",
   "status": "proved",
   "theorems": [
    "Brack.C132_tokens",
    "Brack.C132_errors"
   ],
   "note": "C132_tokens: the tokens below; C132_errors: the errors below."
  },
  {
   "property": "C133",
   "status": "partial",
   "theorems": [
    "Brack.C133_steps_partial",
    "Brack.C133_quadratic",
    "Brack.C133_nested",
    "Brack.C133_linear_refuted"
   ],
   "note": "False as stated (C133_linear_refuted, C133_nested: at least quadratic in the depth, because children are copied at every level). C133_steps_partial: at most the length times the depth; C133_quadratic: at most quadratic in the length of the text."
  },
  {
   "property": "C134",
   "status": "proved",
   "theorems": [
    "Brack.C134_tokenizer",
    "Brack.C134_quadratic",
    "Brack.C134_least"
   ],
   "note": "C134_quadratic: the bound for tokenizing, parsing and transforming together; C134_tokenizer: the tokenizer alone; C134_least: the bound cannot be improved in order, as the tokenizer copies the remaining text at each cluster."
  },
  {
   "property": "C135",
   "status": "proved",
   "theorems": [
    "Brack.C135_closed",
    "Brack.C135_all"
   ],
   "note": "C135_closed: the document can still be read, and exactly the brackets open at its end are no more reported; C135_all: none is reported if these were all."
  },
  {
   "property": "C136",
   "status": "proved",
   "theorems": [
    "Brack.C136_doubled"
   ],
   "note": "C136_doubled; that the backslash is neither escaped nor escapes anything, so that it is reported, is a condition on the tokens (C21). BackslashAlone: the characters around it are told apart as before (always so in ASCII texts without carriage returns)."
  },
  {
   "property": "C137",
   "status": "proved",
   "theorems": [
    "Brack.C137_reworded"
   ],
   "note": "C137_reworded: the outcome is of the same sort and the errors are of the same kinds on the same lines in the same order; see C121 for what words (not names) do to trees and calls."
  },
  {
   "property": "C138",
   "status": "proved",
   "theorems": [
    "Brack.C138_met",
    "Brack.C138_nodes",
    "Brack.C138_broken",
    "Brack.C138_clean"
   ],
   "note": "C138_met: asking for children leads to all nodes; C138_nodes, C138_broken: both methods crash for a node exactly if it stands for a reported backslash; C138_clean: never in documents without errors."
  },
  {
   "property": "C139",
   "status": "proved",
   "theorems": [
    "Brack.C139_reworded",
    "Brack.C139_closed",
    "Brack.C139_doubled"
   ],
   "note": "C139_reworded: same messages on the same lines in the same order; C139_closed: exactly the brackets open at the end are no more shown as not closed; C139_doubled: exactly the diagnostic of the backslash is gone. Documents have less than 2^32 characters (columns are sent as u32)."
  },
  {
   "property": "C140",
   "status": "proved",
   "theorems": [
    "Brack.C140_met",
    "Brack.C140_nodes",
    "Brack.C140_words",
    "Brack.C140_values",
    "Brack.C140_order"
   ],
   "note": "C140_met: asking for children leads to all nodes; C140_nodes: each can be asked for exactly one of children and value; C140_words, C140_values: the values are the words of the document and its escaped characters, with their ranges; C140_order: a walk from left to right meets them in the order of the document."
  }
 ]
}