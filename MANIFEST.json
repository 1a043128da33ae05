{
 "claims": [
  {
   "property": "C01",
   "status": "proved",
   "theorems": [
    "Stylish.Props.C01_diff_replays"
   ],
   "note": ""
  },
  {
   "property": "C02",
   "status": "proved",
   "theorems": [
    "Stylish.Props.C02_diff_minimal",
    "Stylish.Props.C02_self_diff"
   ],
   "note": ""
  },
  {
   "property": "C03",
   "status": "proved",
   "theorems": [
    "Stylish.Props.C03_builtin_is_diff",
    "Stylish.Props.C03_builtin_idempotent",
    "Stylish.Props.C03_styleDiff_sets"
   ],
   "note": ""
  },
  {
   "property": "C04",
   "status": "proved",
   "theorems": [
    "Stylish.Props.C04_slice_left_to_right",
    "Stylish.Props.C04_slice_append",
    "Stylish.Props.C04_tuples_left_to_right",
    "Stylish.Props.C04_last_wins"
   ],
   "note": ""
  },
  {
   "property": "C05",
   "status": "proved",
   "theorems": [
    "Stylish.Props.C05_style_absolute",
    "Stylish.Props.C05_neutral",
    "Stylish.Props.C05_transparent",
    "Stylish.Props.C05_attribute_only"
   ],
   "note": ""
  },
  {
   "property": "C06",
   "status": "proved",
   "theorems": [
    "Stylish.Props.C06_writes_independent_of_writer",
    "Stylish.Props.C06_writes_until_failure"
   ],
   "note": ""
  },
  {
   "property": "C07",
   "status": "proved",
   "theorems": [
    "Stylish.Props.C07_formatter_restored",
    "Stylish.Props.C07_with_scoped",
    "Stylish.Props.C07_with_args_scoped",
    "Stylish.Props.C07_nested_with"
   ],
   "note": ""
  },
  {
   "property": "C08",
   "status": "proved",
   "theorems": [
    "Stylish.Props.C08_options_do_not_leak",
    "Stylish.Props.C08_any_writer",
    "Stylish.Props.C08_nested",
    "Stylish.Props.C08_nested_any_writer"
   ],
   "note": ""
  },
  {
   "property": "C09",
   "status": "proved",
   "theorems": [
    "Stylish.Props.C09_write_char",
    "Stylish.Props.C09_formatter_as_writer",
    "Stylish.Props.C09_formatter_write_str",
    "Stylish.Props.C09_write_fmt",
    "Stylish.Props.C09_write_fmt_through_formatter"
   ],
   "note": ""
  },
  {
   "property": "C10",
   "status": "proved",
   "theorems": [
    "Stylish.Props.C10_plain_format",
    "Stylish.Props.C10_plain_writes",
    "Stylish.Props.C10_styles_invisible"
   ],
   "note": ""
  },
  {
   "property": "C11",
   "status": "proved",
   "theorems": [
    "Stylish.Props.C11_string_remembers",
    "Stylish.Props.C11_string_displays",
    "Stylish.Props.C11_offsets",
    "Stylish.Props.C11_runs"
   ],
   "note": ""
  },
  {
   "property": "C12",
   "status": "proved",
   "theorems": [
    "Stylish.Props.C12_via_placeholder",
    "Stylish.Props.C12_via_string",
    "Stylish.Props.C12_string_again"
   ],
   "note": ""
  },
  {
   "property": "C13",
   "status": "proved",
   "theorems": [
    "Stylish.Props.C13_string_absolute"
   ],
   "note": ""
  },
  {
   "property": "C14",
   "status": "partial",
   "theorems": [
    "Stylish.Props.C14_terminal_shows_styles_partial",
    "Stylish.Props.C14_exact",
    "Stylish.Props.C14_format_partial",
    "Stylish.Props.C14_bold_faint_counterexample",
    "Stylish.Props.C14_esc_counterexample"
   ],
   "note": "False of the code in two cases, both with proven counterexamples: text containing ESC is not escaped; a direct change between bold and faint emits only 1/2, so terminals with independent flags show both. Proved for everything else (and C14_exact: exactly then)."
  },
  {
   "property": "C15",
   "status": "proved",
   "theorems": [
    "Stylish.Props.C15_finish_resets",
    "Stylish.Props.C15_format",
    "Stylish.Props.C15_unstyled_adds_nothing"
   ],
   "note": "For text without ESC, as the statement says; no condition on styles or terminal kind."
  },
  {
   "property": "C16",
   "status": "proved",
   "theorems": [
    "Stylish.Props.C16_chunk_insensitive",
    "Stylish.Props.C16_split_and_empty",
    "Stylish.Props.C16_format"
   ],
   "note": ""
  },
  {
   "property": "C17",
   "status": "proved",
   "theorems": [
    "Stylish.Props.C17_escape_only_on_change"
   ],
   "note": ""
  },
  {
   "property": "C18",
   "status": "proved",
   "theorems": [
    "Stylish.Props.C18_strip_gives_plain",
    "Stylish.Props.C18_exact",
    "Stylish.Props.C18_any_stream"
   ],
   "note": ""
  },
  {
   "property": "C19",
   "status": "proved",
   "theorems": [
    "Stylish.Props.C19_reads_back",
    "Stylish.Props.C19_format"
   ],
   "note": ""
  },
  {
   "property": "C20",
   "status": "proved",
   "theorems": [
    "Stylish.Props.C20_balanced"
   ],
   "note": ""
  },
  {
   "property": "C21",
   "status": "proved",
   "theorems": [
    "Stylish.Props.C21_only_own_tags",
    "Stylish.Props.C21_inert",
    "Stylish.Props.C21_tags_from_styles_only"
   ],
   "note": ""
  },
  {
   "property": "C22",
   "status": "proved",
   "theorems": [
    "Stylish.Props.C22_chunk_insensitive",
    "Stylish.Props.C22_split_and_empty",
    "Stylish.Props.C22_format",
    "Stylish.Props.C22_unstyled_no_markup"
   ],
   "note": ""
  },
  {
   "property": "C23",
   "status": "proved",
   "theorems": [
    "Stylish.Props.C23_attribute_legal",
    "Stylish.Props.C23_attribute_injective",
    "Stylish.Props.C23_same_look_counterexample"
   ],
   "note": "C23_same_look_counterexample records that although the attribute values differ, some colours (e.g. Blue and BrightBlue) have the same CSS RGB value."
  },
  {
   "property": "C24",
   "status": "proved",
   "theorems": [
    "Stylish.Props.C24_write_all_delivers",
    "Stylish.Props.C24_write_all_finishes",
    "Stylish.Props.C24_empty_never_writes",
    "Stylish.Props.C24_io_plain",
    "Stylish.Props.C24_io_ansi"
   ],
   "note": "Default write_all for any stylish io writer obeying the write contract, and the writers io::Plain and io::Ansi."
  },
  {
   "property": "C25",
   "status": "proved",
   "theorems": [
    "Stylish.Props.C25_write_all_prefix",
    "Stylish.Props.C25_io_plain",
    "Stylish.Props.C25_io_plain_default"
   ],
   "note": ""
  },
  {
   "property": "C26",
   "status": "proved",
   "theorems": [
    "Stylish.Props.C26_same_bytes",
    "Stylish.Props.C26_finishes",
    "Stylish.Props.C26_before_finish"
   ],
   "note": ""
  },
  {
   "property": "C27",
   "status": "proved",
   "theorems": [
    "Stylish.Props.C27_same_bytes",
    "Stylish.Props.C27_finishes"
   ],
   "note": ""
  },
  {
   "property": "C28",
   "status": "proved",
   "theorems": [
    "Stylish.Props.C28_write_fmt_error",
    "Stylish.Props.C28_first_error"
   ],
   "note": ""
  },
  {
   "property": "C29",
   "status": "proved",
   "theorems": [
    "Stylish.Props.C29_plain",
    "Stylish.Props.C29_ansi",
    "Stylish.Props.C29_html",
    "Stylish.Props.C29_io_plain",
    "Stylish.Props.C29_io_ansi",
    "Stylish.Props.C29_ansi_any",
    "Stylish.Props.C29_html_any",
    "Stylish.Props.C29_io_plain_any",
    "Stylish.Props.C29_io_ansi_any"
   ],
   "note": ""
  },
  {
   "property": "C30",
   "status": "proved",
   "theorems": [
    "Stylish.Props.C30_write_contract",
    "Stylish.Props.C30_retry_is_plain_write"
   ],
   "note": ""
  },
  {
   "property": "C31",
   "status": "proved",
   "theorems": [
    "Stylish.Props.C31_options_forwarded_other",
    "Stylish.Props.C31_options_forwarded_debug",
    "Stylish.Props.C31_as_written"
   ],
   "note": "The whole generated std_write! table, for all widths and precisions, all std traits."
  },
  {
   "property": "C32",
   "status": "proved",
   "theorems": [
    "Stylish.Props.C32_uniform_style",
    "Stylish.Props.C32_any_writer",
    "Stylish.Props.C32_placeholder",
    "Stylish.Props.C32_placeholder_any_writer",
    "Stylish.Props.C32_as_written"
   ],
   "note": ""
  },
  {
   "property": "C33",
   "status": "proved",
   "theorems": [
    "Stylish.Props.C33_literal_text"
   ],
   "note": ""
  },
  {
   "property": "C34",
   "status": "proved",
   "theorems": [
    "Stylish.Props.C34_parses_back",
    "Stylish.Props.C34_decimal"
   ],
   "note": ""
  },
  {
   "property": "C35",
   "status": "proved",
   "theorems": [
    "Stylish.Props.C35_only_documented",
    "Stylish.Props.C35_accepts_iff",
    "Stylish.Props.C35_unambiguous",
    "Stylish.Props.C35_brace_parity",
    "Stylish.Props.C35_lone_brace"
   ],
   "note": "Soundness (C35_only_documented), exact acceptance (C35_accepts_iff), unambiguity, stray braces."
  },
  {
   "property": "C36",
   "status": "partial",
   "theorems": [
    "Stylish.Props.C36_documented_accepted_partial",
    "Stylish.Props.C36_bright_rejected",
    "Stylish.Props.C36_counterexamples"
   ],
   "note": "False of the code: empty attribute list, trailing comma, fill other than space, $-counts, .* precision are rejected or panic (C36_counterexamples). Proved: everything else of the documented grammar is accepted."
  },
  {
   "property": "C37",
   "status": "partial",
   "theorems": [
    "Stylish.Props.C37_restyle_partial",
    "Stylish.Props.C37_no_reset_partial",
    "Stylish.Props.C37_from_default",
    "Stylish.Props.C37_exactly_when",
    "Stylish.Props.C37_order",
    "Stylish.Props.C37_counterexample"
   ],
   "note": "False of the code for fg=default, bg=default and normal, which cannot reset an inherited attribute (C37_counterexample). Proved for all others, and C37_exactly_when says exactly when it holds."
  },
  {
   "property": "C38",
   "status": "proved",
   "theorems": [
    "Stylish.Props.C38_placeholder_value",
    "Stylish.Props.C38_missing_reference",
    "Stylish.Props.C38_numbering",
    "Stylish.Props.C38_numbering_bare"
   ],
   "note": ""
  },
  {
   "property": "C39",
   "status": "proved",
   "theorems": [
    "Stylish.Props.C39_compiles_iff",
    "Stylish.Props.C39_unused_positional",
    "Stylish.Props.C39_unused_named"
   ],
   "note": ""
  },
  {
   "property": "C40",
   "status": "proved",
   "theorems": [
    "Stylish.Props.C40_evaluated_once_in_order",
    "Stylish.Props.C40_log"
   ],
   "note": ""
  },
  {
   "property": "C41",
   "status": "proved",
   "theorems": [
    "Stylish.Props.C41_formats",
    "Stylish.Props.C41_accepts_same",
    "Stylish.Props.C41_accepts_same_values",
    "Stylish.Props.C41_writeln",
    "Stylish.Props.C41_empty",
    "Stylish.Props.C41_macros",
    "Stylish.Props.C41_outputs"
   ],
   "note": "The format string is a literal here; for computed ones see C64."
  },
  {
   "property": "C42",
   "status": "proved",
   "theorems": [
    "Stylish.Props.C42_errors_explained",
    "Stylish.Props.C42_unreachable",
    "Stylish.Props.C42_format_errors_iff"
   ],
   "note": "Every compile error has one of the listed reasons; unreachable arms unreachable. C42_format_errors_iff: the parser's only panic is the explicit todo! for a fill other than a space, and exactly which format strings reach it."
  },
  {
   "property": "C43",
   "status": "proved",
   "theorems": [
    "Stylish.Props.C43_format_panics_iff"
   ],
   "note": ""
  },
  {
   "property": "C44",
   "status": "proved",
   "theorems": [
    "Stylish.Props.C44_to_string"
   ],
   "note": ""
  },
  {
   "property": "C45",
   "status": "proved",
   "theorems": [
    "Stylish.Props.C45_backends_agree"
   ],
   "note": ""
  },
  {
   "property": "C46",
   "status": "proved",
   "theorems": [
    "Stylish.Props.C46_formats",
    "Stylish.Props.C46_end_to_end",
    "Stylish.Props.C46_any_writer"
   ],
   "note": "The restyling is the one of C37, including that fg=default, bg=default and normal do not reset."
  },
  {
   "property": "C47",
   "status": "partial",
   "theorems": [
    "Stylish.Props.C47_ansi_partial",
    "Stylish.Props.C47_ansi_exact",
    "Stylish.Props.C47_ansi_counterexample",
    "Stylish.Props.C47_html_partial",
    "Stylish.Props.C47_html_exact",
    "Stylish.Props.C47_plain",
    "Stylish.Props.C47_html_counterexample",
    "Stylish.Props.C47_io_ansi_partial",
    "Stylish.Props.C47_io_ansi_exact",
    "Stylish.Props.C47_io_ansi_counterexample"
   ],
   "note": "False of the code (C47_ansi_counterexample, C47_io_ansi_counterexample, C47_html_counterexample). Proved for every failure that leaves no half-written escape sequence/tag, and exactness: every other failure loses later output. Plain: no condition."
  },
  {
   "property": "C48",
   "status": "proved",
   "theorems": [
    "Stylish.Props.C48_read_as_written",
    "Stylish.Props.C48_only_calls",
    "Stylish.Props.C48_every_argument_list",
    "Stylish.Props.C48_needs_crate"
   ],
   "note": "An expression is one token. Exact in both directions (C48_read_as_written, C48_only_calls)."
  },
  {
   "property": "C49",
   "status": "proved",
   "theorems": [
    "Stylish.Props.C49_plain_is_std",
    "Stylish.Props.C49_ansi_is_std"
   ],
   "note": "Attributes are ignored on the std side. Std's formatting of a value is an arbitrary function of the options (Spec.StdFormat)."
  },
  {
   "property": "C50",
   "status": "proved",
   "theorems": [
    "Stylish.Props.C50_html",
    "Stylish.Props.C50_ansi",
    "Stylish.Props.C50_ansi_esc_needed",
    "Stylish.Props.C50_html_format"
   ],
   "note": "C50_ansi_esc_needed shows that the ESC condition cannot be dropped."
  },
  {
   "property": "C51",
   "status": "proved",
   "theorems": [
    "Stylish.Props.C51_html",
    "Stylish.Props.C51_ansi"
   ],
   "note": ""
  },
  {
   "property": "C52",
   "status": "proved",
   "theorems": [
    "Stylish.Props.C52_ansi_size",
    "Stylish.Props.C52_html_size"
   ],
   "note": "All four bounds per change are attained (examples)."
  },
  {
   "property": "C53",
   "status": "proved",
   "theorems": [
    "Stylish.Props.C53_format_args",
    "Stylish.Props.C53_format_args_nl",
    "Stylish.Props.C53_string",
    "Stylish.Props.C53_std"
   ],
   "note": ""
  },
  {
   "property": "C54",
   "status": "proved",
   "theorems": [
    "Stylish.Props.C54_delivered",
    "Stylish.Props.C54_io_ansi",
    "Stylish.Props.C54_io_plain",
    "Stylish.Props.C54_flush"
   ],
   "note": ""
  },
  {
   "property": "C55",
   "status": "proved",
   "theorems": [
    "Stylish.Props.C55_append",
    "Stylish.Props.C55_append_string"
   ],
   "note": ""
  },
  {
   "property": "C56",
   "status": "proved",
   "theorems": [
    "Stylish.Props.C56_spellings",
    "Stylish.Props.C56_numbers",
    "Stylish.Props.C56_named_order",
    "Stylish.Props.C56_capture"
   ],
   "note": ""
  },
  {
   "property": "C57",
   "status": "proved",
   "theorems": [
    "Stylish.Props.C57_concat",
    "Stylish.Props.C57_fill"
   ],
   "note": ""
  },
  {
   "property": "C58",
   "status": "proved",
   "theorems": [
    "Stylish.Props.C58_pieces",
    "Stylish.Props.C58_attributes",
    "Stylish.Props.C58_size"
   ],
   "note": ""
  },
  {
   "property": "C59",
   "status": "proved",
   "theorems": [
    "Stylish.Props.C59_format_args",
    "Stylish.Props.C59_format_args_nl",
    "Stylish.Props.C59_std",
    "Stylish.Props.C59_string",
    "Stylish.Props.C59_writers",
    "Stylish.Props.C59_write_fmt",
    "Stylish.Props.C59_io_writers",
    "Stylish.Props.C59_io_write_fmt",
    "Stylish.Props.C59_lying_stream"
   ],
   "note": "C59_lying_stream shows that the condition on io streams is needed. The format functions additionally panic if the Display implementation returns an error (C43)."
  },
  {
   "property": "C60",
   "status": "proved",
   "theorems": [
    "Stylish.Props.C60_ansi_lines",
    "Stylish.Props.C60_html_lines",
    "Stylish.Props.C60_ansi_chars",
    "Stylish.Props.C60_html_chars"
   ],
   "note": "For ANSI lines the text must not contain ESC (as in C18)."
  },
  {
   "property": "C61",
   "status": "proved",
   "theorems": [
    "Stylish.Props.C61_escape_only_on_change",
    "Stylish.Props.C61_chunk_insensitive",
    "Stylish.Props.C61_as_text",
    "Stylish.Props.C61_plain"
   ],
   "note": "The stream's flush must not send anything by itself. A write that accepts nothing may send an escape sequence: see C30."
  },
  {
   "property": "C62",
   "status": "proved",
   "theorems": [
    "Stylish.Props.C62_borrowed_writer",
    "Stylish.Props.C62_borrowed_io_writer",
    "Stylish.Props.C62_provided_write_fmt",
    "Stylish.Props.C62_provided_io_write_fmt",
    "Stylish.Props.C62_borrowed_formatter"
   ],
   "note": "`by_ref` is the io reference. The theorem about the provided `write_fmt` also justifies the model's shorter `Write.writeFmt` / `IoWrite.writeFmt`, used by the other claims."
  },
  {
   "property": "C63",
   "status": "proved",
   "theorems": [
    "Stylish.Props.C63_format_args",
    "Stylish.Props.C63_only_calls",
    "Stylish.Props.C63_write",
    "Stylish.Props.C63_format",
    "Stylish.Props.C63_writeln"
   ],
   "note": "An expression is one token. `Accepted` and `formatArgs` are given their meaning by C39 and C46."
  },
  {
   "property": "C64",
   "status": "partial",
   "theorems": [
    "Stylish.Props.C64_computed_format_partial",
    "Stylish.Props.C64_writeln_counterexample",
    "Stylish.Props.C64_expand_cfg",
    "Stylish.Props.C64_not_a_string"
   ],
   "note": "False of the code for `writeln!`, which hands its tokens to the proc macro directly and so takes only literals (C64_writeln_counterexample). Proved for format_args!, write! and format!, and for everything with cfg(stylish_proc_macro_expand)."
  },
  {
   "property": "C65",
   "status": "proved",
   "theorems": [
    "Stylish.Props.C65_ansi_is_text",
    "Stylish.Props.C65_ansi_finished_is_text",
    "Stylish.Props.C65_plain_is_text",
    "Stylish.Props.C65_terminal",
    "Stylish.Props.C65_finish_resets",
    "Stylish.Props.C65_strip",
    "Stylish.Props.C65_same_bytes",
    "Stylish.Props.C65_cut",
    "Stylish.Props.C65_plain_cut"
   ],
   "note": ""
  },
  {
   "property": "C66",
   "status": "proved",
   "theorems": [
    "Stylish.Props.C66_inline"
   ],
   "note": ""
  },
  {
   "property": "C67",
   "status": "proved",
   "theorems": [
    "Stylish.Props.C67_accumulate",
    "Stylish.Props.C67_counterexample"
   ],
   "note": ""
  },
  {
   "property": "C68",
   "status": "proved",
   "theorems": [
    "Stylish.Props.C68_ansi",
    "Stylish.Props.C68_html"
   ],
   "note": ""
  },
  {
   "property": "C69",
   "status": "proved",
   "theorems": [
    "Stylish.Props.C69_text",
    "Stylish.Props.C69_nested",
    "Stylish.Props.C69_plain",
    "Stylish.Props.C69_blind_needed"
   ],
   "note": ""
  },
  {
   "property": "C70",
   "status": "proved",
   "theorems": [
    "Stylish.Props.C70_shows",
    "Stylish.Props.C70_exact",
    "Stylish.Props.C70_only_spans",
    "Stylish.Props.C70_embedded",
    "Stylish.Props.C70_reader_sound",
    "Stylish.Props.C70_crlf_counterexample"
   ],
   "note": ""
  },
  {
   "property": "C71",
   "status": "proved",
   "theorems": [
    "Stylish.Props.C71_exact",
    "Stylish.Props.C71_shows",
    "Stylish.Props.C71_resets",
    "Stylish.Props.C71_format",
    "Stylish.Props.C71_io",
    "Stylish.Props.C71_c1_counterexample",
    "Stylish.Props.C71_muddled_counterexample"
   ],
   "note": ""
  },
  {
   "property": "C72",
   "status": "proved",
   "theorems": [
    "Stylish.Props.C72_ansi",
    "Stylish.Props.C72_ansi_any",
    "Stylish.Props.C72_io",
    "Stylish.Props.C72_html",
    "Stylish.Props.C72_html_whole"
   ],
   "note": ""
  },
  {
   "property": "C73",
   "status": "proved",
   "theorems": [
    "Stylish.Props.C73_looks",
    "Stylish.Props.C73_default",
    "Stylish.Props.C73_weights",
    "Stylish.Props.C73_weights_weak",
    "Stylish.Props.C73_same_color",
    "Stylish.Props.C73_same_look_counterexample"
   ],
   "note": ""
  },
  {
   "property": "C74",
   "status": "partial",
   "theorems": [
    "Stylish.Props.C74_same_errors",
    "Stylish.Props.C74_names_partial",
    "Stylish.Props.C74_as_written_partial",
    "Stylish.Props.C74_place_partial",
    "Stylish.Props.C74_plain",
    "Stylish.Props.C74_needs_Default",
    "Stylish.Props.C74_needs_Some",
    "Stylish.Props.C74_needs_names",
    "Stylish.Props.C74_not_always"
   ],
   "note": "False as stated: the generated code calls `Some` and `StyleDiff::default()` by unqualified names and binds `diff` (C74_not_always). Proved for all calls and all places where these are the prelude's and no constant has a name the code binds (C74_names_partial, C74_as_written_partial, C74_place_partial, C74_plain); C74_needs_Default, C74_needs_Some and C74_needs_names say that each condition is necessary."
  },
  {
   "property": "C75",
   "status": "proved",
   "theorems": [
    "Stylish.Props.C75_locals",
    "Stylish.Props.C75_unrelated"
   ],
   "note": ""
  },
  {
   "property": "C76",
   "status": "proved",
   "theorems": [
    "Stylish.Props.C76_compiles_iff",
    "Stylish.Props.C76_compiles_nl_iff",
    "Stylish.Props.C76_traits",
    "Stylish.Props.C76_missing"
   ],
   "note": ""
  },
  {
   "property": "C77",
   "status": "proved",
   "theorems": [
    "Stylish.Props.C77_format",
    "Stylish.Props.C77_write_io",
    "Stylish.Props.C77_write_any",
    "Stylish.Props.C77_else_rejected"
   ],
   "note": ""
  },
  {
   "property": "C78",
   "status": "proved",
   "theorems": [
    "Stylish.Props.C78_only_borrows"
   ],
   "note": ""
  },
  {
   "property": "C79",
   "status": "proved",
   "theorems": [
    "Stylish.Props.C79_debug_words",
    "Stylish.Props.C79_debug_shows",
    "Stylish.Props.C79_debug_layout",
    "Stylish.Props.C79_debug_one_line",
    "Stylish.Props.C79_in_placeholder"
   ],
   "note": ""
  },
  {
   "property": "C80",
   "status": "proved",
   "theorems": [
    "Stylish.Props.C80_kept_iff",
    "Stylish.Props.C80_passed",
    "Stylish.Props.C80_not_returned"
   ],
   "note": ""
  },
  {
   "property": "C81",
   "status": "proved",
   "theorems": [
    "Stylish.Props.C81_field",
    "Stylish.Props.C81_width",
    "Stylish.Props.C81_row",
    "Stylish.Props.C81_seen",
    "Stylish.Props.C81_lines_up"
   ],
   "note": ""
  },
  {
   "property": "C82",
   "status": "proved",
   "theorems": [
    "Stylish.Props.C82_are_streams",
    "Stylish.Props.C82_are_reliable",
    "Stylish.Props.C82_ansi_buf",
    "Stylish.Props.C82_plain_buf",
    "Stylish.Props.C82_ansi_line",
    "Stylish.Props.C82_plain_line",
    "Stylish.Props.C82_flush_again",
    "Stylish.Props.C82_finishes",
    "Stylish.Props.C82_drop_ansi",
    "Stylish.Props.C82_drop_plain",
    "Stylish.Props.C82_finishes_plain",
    "Stylish.Props.C82_drop_hides_errors"
   ],
   "note": ""
  },
  {
   "property": "C83",
   "status": "proved",
   "theorems": [
    "Stylish.Props.C83_plain",
    "Stylish.Props.C83_ansi",
    "Stylish.Props.C83_ansi_short_writes"
   ],
   "note": "Proved as stated; C83_ansi_short_writes is the proven counterexample that shows why the statement for io::Ansi has its condition on the device."
  },
  {
   "property": "C84",
   "status": "proved",
   "theorems": [
    "Stylish.Props.C84_shared",
    "Stylish.Props.C84_locked",
    "Stylish.Props.C84_alone",
    "Stylish.Props.C84_locked_shows",
    "Stylish.Props.C84_pieces",
    "Stylish.Props.C84_returns",
    "Stylish.Props.C84_torn"
   ],
   "note": "Proved as stated; C84_torn is the proven counterexample that shows what a lock is needed for."
  },
  {
   "property": "C85",
   "status": "proved",
   "theorems": [
    "Stylish.Props.C85_any_writer",
    "Stylish.Props.C85_ansi",
    "Stylish.Props.C85_html",
    "Stylish.Props.C85_plain",
    "Stylish.Props.C85_string",
    "Stylish.Props.C85_io_ansi",
    "Stylish.Props.C85_io_plain"
   ],
   "note": ""
  },
  {
   "property": "C86",
   "status": "proved",
   "theorems": [
    "Stylish.Props.C86_ansi",
    "Stylish.Props.C86_html",
    "Stylish.Props.C86_html_pieces",
    "Stylish.Props.C86_plain",
    "Stylish.Props.C86_io_ansi",
    "Stylish.Props.C86_io_plain"
   ],
   "note": ""
  },
  {
   "property": "C87",
   "status": "partial",
   "theorems": [
    "Stylish.Props.C87_shown_partial",
    "Stylish.Props.C87_raw_never",
    "Stylish.Props.C87_exact",
    "Stylish.Props.C87_keyword_is_variable",
    "Stylish.Props.C87_counterexample"
   ],
   "note": "False of the code for raw identifiers (C87_counterexample): C87_raw_never, no call with an argument `r#name = v` compiles. Proved for all other names; C87_exact is the boundary. Names are taken to be in Unicode's normal form here; see C99 for others."
  },
  {
   "property": "C88",
   "status": "partial",
   "theorems": [
    "Stylish.Props.C88_shown_partial",
    "Stylish.Props.C88_text_partial",
    "Stylish.Props.C88_dropped",
    "Stylish.Props.C88_counterexample"
   ],
   "note": "False of the code for a name given twice (C88_counterexample). Proved for every argument that is not repeated later under the same name; C88_dropped: the value of one that is has no effect."
  },
  {
   "property": "C89",
   "status": "partial",
   "theorems": [
    "Stylish.Props.C89_exact",
    "Stylish.Props.C89_same_partial",
    "Stylish.Props.C89_back",
    "Stylish.Props.C89_counterexamples"
   ],
   "note": "False of the code (C89_counterexamples: five kinds of calls). C89_exact: a call that std accepts compiles iff it is none of the five; C89_same_partial: then the strings are the same; C89_back: the converse direction, in full."
  },
  {
   "property": "C90",
   "status": "proved",
   "theorems": [
    "Stylish.Props.C90_reported_error"
   ],
   "note": ""
  },
  {
   "property": "C91",
   "status": "proved",
   "theorems": [
    "Stylish.Props.C91_names_resolve",
    "Stylish.Props.C91_names_unique",
    "Stylish.Props.C91_manifests",
    "Stylish.Props.C91_stylish",
    "Stylish.Props.C91_core_write"
   ],
   "note": "C91_core_write: stylish-core's own write!/writeln! are exported without `macros` although they do not work then; stylish does not re-export them then (C93)."
  },
  {
   "property": "C92",
   "status": "proved",
   "theorems": [
    "Stylish.Props.C92_features_additive",
    "Stylish.Props.C92_choosing_more"
   ],
   "note": ""
  },
  {
   "property": "C93",
   "status": "proved",
   "theorems": [
    "Stylish.Props.C93_readme_features",
    "Stylish.Props.C93_packages"
   ],
   "note": ""
  },
  {
   "property": "C94",
   "status": "proved",
   "theorems": [
    "Stylish.Props.C94_no_std",
    "Stylish.Props.C94_no_alloc",
    "Stylish.Props.C94_old_resolver"
   ],
   "note": ""
  },
  {
   "property": "C95",
   "status": "partial",
   "theorems": [
    "Stylish.Props.C95_boxed_restyle_partial",
    "Stylish.Props.C95_exact",
    "Stylish.Props.C95_counterexample"
   ],
   "note": "False of the code (C95_counterexample): alloc of stylish and stylish-core is not passed on to stylish-style. C95_exact is the boundary; C95_boxed_restyle_partial: it is there if stylish-style's own alloc is on."
  },
  {
   "property": "C96",
   "status": "proved",
   "theorems": [
    "Stylish.Props.C96_writers",
    "Stylish.Props.C96_values",
    "Stylish.Props.C96_formatting"
   ],
   "note": ""
  },
  {
   "property": "C97",
   "status": "proved",
   "theorems": [
    "Stylish.Props.C97_any_writer",
    "Stylish.Props.C97_ansi",
    "Stylish.Props.C97_html",
    "Stylish.Props.C97_plain",
    "Stylish.Props.C97_string"
   ],
   "note": ""
  },
  {
   "property": "C98",
   "status": "proved",
   "theorems": [
    "Stylish.Props.C98_ansi",
    "Stylish.Props.C98_html",
    "Stylish.Props.C98_plain",
    "Stylish.Props.C98_string",
    "Stylish.Props.C98_io_ansi",
    "Stylish.Props.C98_io_plain",
    "Stylish.Props.C98_default"
   ],
   "note": ""
  },
  {
   "property": "C99",
   "status": "partial",
   "theorems": [
    "Stylish.Props.C99_exact",
    "Stylish.Props.C99_shown_partial",
    "Stylish.Props.C99_captured",
    "Stylish.Props.C99_variable_instead",
    "Stylish.Props.C99_counterexample"
   ],
   "note": "False of the code for arguments given by name (C99_counterexample): string literals are not normalised, names of arguments are. C99_exact is the boundary; proved for the normal form (C99_shown_partial) and for captured variables (C99_captured)."
  },
  {
   "property": "C100",
   "status": "proved",
   "theorems": [
    "Stylish.Props.C100_html",
    "Stylish.Props.C100_ansi",
    "Stylish.Props.C100_plain",
    "Stylish.Props.C100_Html_in_html",
    "Stylish.Props.C100_Ansi_in_html"
   ],
   "note": ""
  },
  {
   "property": "C101",
   "status": "proved",
   "theorems": [
    "Stylish.Props.C101_html",
    "Stylish.Props.C101_ansi",
    "Stylish.Props.C101_plain",
    "Stylish.Props.C101_string",
    "Stylish.Props.C101_io_ansi",
    "Stylish.Props.C101_io_plain"
   ],
   "note": ""
  },
  {
   "property": "C102",
   "status": "proved",
   "theorems": [
    "Stylish.Props.C102_in_order",
    "Stylish.Props.C102_each_time",
    "Stylish.Props.C102_shown_once",
    "Stylish.Props.C102_like_stateless",
    "Stylish.Props.C102_stateless"
   ],
   "note": ""
  },
  {
   "property": "C103",
   "status": "proved",
   "theorems": [
    "Stylish.Props.C103_ansi",
    "Stylish.Props.C103_ansi_buf",
    "Stylish.Props.C103_ansi_line",
    "Stylish.Props.C103_plain",
    "Stylish.Props.C103_plain_buf",
    "Stylish.Props.C103_plain_line"
   ],
   "note": ""
  },
  {
   "property": "C104",
   "status": "proved",
   "theorems": [
    "Stylish.Props.C104_written",
    "Stylish.Props.C104_finished",
    "Stylish.Props.C104_exact",
    "Stylish.Props.C104_right",
    "Stylish.Props.C104_unstyled",
    "Stylish.Props.C104_next",
    "Stylish.Props.C104_dropped",
    "Stylish.Props.C104_format",
    "Stylish.Props.C104_io"
   ],
   "note": ""
  },
  {
   "property": "C105",
   "status": "proved",
   "theorems": [
    "Stylish.Props.C105_pre",
    "Stylish.Props.C105_pre_exact",
    "Stylish.Props.C105_flow",
    "Stylish.Props.C105_flow_exact",
    "Stylish.Props.C105_pre_counterexample"
   ],
   "note": ""
  },
  {
   "property": "C106",
   "status": "proved",
   "theorems": [
    "Stylish.Props.C106_ansi",
    "Stylish.Props.C106_ansi_exact",
    "Stylish.Props.C106_ansi_clean",
    "Stylish.Props.C106_html",
    "Stylish.Props.C106_html_exact",
    "Stylish.Props.C106_io"
   ],
   "note": ""
  },
  {
   "property": "C107",
   "status": "proved",
   "theorems": [
    "Stylish.Props.C107_well_formed",
    "Stylish.Props.C107_styled",
    "Stylish.Props.C107_plain_text",
    "Stylish.Props.C107_styled_counterexample"
   ],
   "note": ""
  },
  {
   "property": "C108",
   "status": "proved",
   "theorems": [
    "Stylish.Props.C108_attribute",
    "Stylish.Props.C108_text_element",
    "Stylish.Props.C108_unquoted_counterexample"
   ],
   "note": ""
  },
  {
   "property": "C109",
   "status": "proved",
   "theorems": [
    "Stylish.Props.C109_ansi",
    "Stylish.Props.C109_html",
    "Stylish.Props.C109_ansi_seen",
    "Stylish.Props.C109_html_seen",
    "Stylish.Props.C109_styled_break_counterexample"
   ],
   "note": ""
  },
  {
   "property": "C110",
   "status": "proved",
   "theorems": [
    "Stylish.Props.C110_ansi",
    "Stylish.Props.C110_html",
    "Stylish.Props.C110_markup_counterexample",
    "Stylish.Props.C110_io",
    "Stylish.Props.C110_io_plain"
   ],
   "note": ""
  },
  {
   "property": "C111",
   "status": "proved",
   "theorems": [
    "Stylish.Props.C111_shows",
    "Stylish.Props.C111_resets",
    "Stylish.Props.C111_enough",
    "Stylish.Props.C111_all",
    "Stylish.Props.C111_stale_counterexample"
   ],
   "note": ""
  },
  {
   "property": "C112",
   "status": "proved",
   "theorems": [
    "Stylish.Props.C112_ansi",
    "Stylish.Props.C112_html",
    "Stylish.Props.C112_ansi_lines",
    "Stylish.Props.C112_html_lines",
    "Stylish.Props.C112_style_counterexample"
   ],
   "note": ""
  },
  {
   "property": "C113",
   "status": "proved",
   "theorems": [
    "Stylish.Props.C113_ansi",
    "Stylish.Props.C113_html",
    "Stylish.Props.C113_already",
    "Stylish.Props.C113_accent_counterexample"
   ],
   "note": ""
  },
  {
   "property": "C114",
   "status": "proved",
   "theorems": [
    "Stylish.Props.C114_ansi",
    "Stylish.Props.C114_html",
    "Stylish.Props.C114_terminal",
    "Stylish.Props.C114_reads",
    "Stylish.Props.C114_left_out_counterexample",
    "Stylish.Props.C114_quotes_counterexample",
    "Stylish.Props.C114_capitals_counterexample",
    "Stylish.Props.C114_io",
    "Stylish.Props.C114_io_plain"
   ],
   "note": ""
  },
  {
   "property": "C115",
   "status": "proved",
   "theorems": [
    "Stylish.Props.C115_looks",
    "Stylish.Props.C115_text",
    "Stylish.Props.C115_none",
    "Stylish.Props.C115_all",
    "Stylish.Props.C115_usual",
    "Stylish.Props.C115_printed_counterexample"
   ],
   "note": ""
  },
  {
   "property": "C116",
   "status": "proved",
   "theorems": [
    "Stylish.Props.C116_from_ansi",
    "Stylish.Props.C116_from_html",
    "Stylish.Props.C116_there_and_back",
    "Stylish.Props.C116_counterexamples"
   ],
   "note": ""
  },
  {
   "property": "C117",
   "status": "proved",
   "theorems": [
    "Stylish.Props.C117_string",
    "Stylish.Props.C117_string_tells",
    "Stylish.Props.C117_string_looks",
    "Stylish.Props.C117_ansi",
    "Stylish.Props.C117_html",
    "Stylish.Props.C117_plain",
    "Stylish.Props.C117_writers_tell",
    "Stylish.Props.C117_one_line",
    "Stylish.Props.C117_empty_write"
   ],
   "note": ""
  },
  {
   "property": "C118",
   "status": "proved",
   "theorems": [
    "Stylish.Props.C118_writes",
    "Stylish.Props.C118_write_fmt",
    "Stylish.Props.C118_write_fmt_failing",
    "Stylish.Props.C118_outputs",
    "Stylish.Props.C118_no_colour",
    "Stylish.Props.C118_theme",
    "Stylish.Props.C118_tee",
    "Stylish.Props.C118_tee_failing",
    "Stylish.Props.C118_io"
   ],
   "note": ""
  },
  {
   "property": "C119",
   "status": "proved",
   "theorems": [
    "Stylish.Props.C119_ansi",
    "Stylish.Props.C119_plain",
    "Stylish.Props.C119_writers_tell",
    "Stylish.Props.C119_written",
    "Stylish.Props.C119_diff",
    "Stylish.Props.C119_diff_tells",
    "Stylish.Props.C119_diff_from",
    "Stylish.Props.C119_lines"
   ],
   "note": ""
  },
  {
   "property": "C120",
   "status": "proved",
   "theorems": [
    "Stylish.Props.C120_literal",
    "Stylish.Props.C120_clean",
    "Stylish.Props.C120_terminal",
    "Stylish.Props.C120_browser"
   ],
   "note": ""
  },
  {
   "property": "C121",
   "status": "proved",
   "theorems": [
    "Stylish.Props.C121_ansi",
    "Stylish.Props.C121_html",
    "Stylish.Props.C121_styled_break_counterexample"
   ],
   "note": ""
  },
  {
   "property": "C122",
   "status": "proved",
   "theorems": [
    "Stylish.Props.C122_ansi",
    "Stylish.Props.C122_html",
    "Stylish.Props.C122_browser",
    "Stylish.Props.C122_terminal",
    "Stylish.Props.C122_ascii",
    "Stylish.Props.C122_io",
    "Stylish.Props.C122_c1_counterexample"
   ],
   "note": ""
  },
  {
   "property": "C123",
   "status": "proved",
   "theorems": [
    "Stylish.Props.C123_ansi",
    "Stylish.Props.C123_html",
    "Stylish.Props.C123_plain",
    "Stylish.Props.C123_ansi_room",
    "Stylish.Props.C123_html_room",
    "Stylish.Props.C123_format_ansi",
    "Stylish.Props.C123_format_html"
   ],
   "note": ""
  }
 ]
}