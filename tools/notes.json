{
 "C14": {
  "status": "partial",
  "note": "False of the code in two cases, both with proven counterexamples: text containing ESC is not escaped; a direct change between bold and faint emits only 1/2, so terminals with independent flags show both. Proved for everything else (and C14_exact: exactly then)."
 },
 "C15": {
  "note": "For text without ESC, as the statement says; no condition on styles or terminal kind."
 },
 "C23": {
  "note": "C23_same_look_counterexample records that although the attribute values differ, some colours (e.g. Blue and BrightBlue) have the same CSS RGB value."
 },
 "C24": {
  "note": "Default write_all for any stylish io writer obeying the write contract, and the writers io::Plain and io::Ansi."
 },
 "C31": {
  "note": "The whole generated std_write! table, for all widths and precisions, all std traits."
 },
 "C35": {
  "note": "Soundness (C35_only_documented), exact acceptance (C35_accepts_iff), unambiguity, stray braces."
 },
 "C36": {
  "status": "partial",
  "note": "False of the code: empty attribute list, trailing comma, fill other than space, $-counts, .* precision are rejected or panic (C36_counterexamples). Proved: everything else of the documented grammar is accepted."
 },
 "C37": {
  "status": "partial",
  "note": "False of the code for fg=default, bg=default and normal, which cannot reset an inherited attribute (C37_counterexample). Proved for all others, and C37_exactly_when says exactly when it holds."
 },
 "C42": {
  "note": "Every compile error has one of the listed reasons; unreachable arms unreachable. C42_format_errors_iff: the parser's only panic is the explicit todo! for a fill other than a space, and exactly which format strings reach it."
 },
 "C47": {
  "status": "partial",
  "note": "False of the code (C47_ansi_counterexample, C47_io_ansi_counterexample, C47_html_counterexample). Proved for every failure that leaves no half-written escape sequence/tag, and exactness: every other failure loses later output. Plain: no condition."
 },
 "C48": {
  "note": "An expression is one token. Exact in both directions (C48_read_as_written, C48_only_calls)."
 },
 "C49": {
  "note": "Attributes are ignored on the std side. Std's formatting of a value is an arbitrary function of the options (Spec.StdFormat)."
 },
 "C46": {
  "note": "The restyling is the one of C37, including that fg=default, bg=default and normal do not reset."
 },
 "C50": {
  "note": "C50_ansi_esc_needed shows that the ESC condition cannot be dropped."
 },
 "C52": {
  "note": "All four bounds per change are attained (examples)."
 },
 "C59": {
  "note": "C59_lying_stream shows that the condition on io streams is needed. The format functions additionally panic if the Display implementation returns an error (C43)."
 },
 "C60": {
  "note": "For ANSI lines the text must not contain ESC (as in C18)."
 },
 "C61": {
  "note": "The stream's flush must not send anything by itself. A write that accepts nothing may send an escape sequence: see C30."
 },
 "C62": {
  "note": "`by_ref` is the io reference. The theorem about the provided `write_fmt` also justifies the model's shorter `Write.writeFmt` / `IoWrite.writeFmt`, used by the other claims."
 },
 "C41": {
  "note": "The format string is a literal here; for computed ones see C64."
 },
 "C63": {
  "note": "An expression is one token. `Accepted` and `formatArgs` are given their meaning by C39 and C46."
 },
 "C64": {
  "status": "partial",
  "note": "False of the code for `writeln!`, which hands its tokens to the proc macro directly and so takes only literals (C64_writeln_counterexample). Proved for format_args!, write! and format!, and for everything with cfg(stylish_proc_macro_expand)."
 },
 "C74": {
  "status": "partial",
  "note": "False as stated: the generated code calls `Some` and `StyleDiff::default()` by unqualified names and binds `diff` (C74_not_always). Proved for all calls and all places where these are the prelude's and no constant has a name the code binds (C74_names_partial, C74_as_written_partial, C74_place_partial, C74_plain); C74_needs_Default, C74_needs_Some and C74_needs_names say that each condition is necessary."
 },
 "C83": {
  "note": "Proved as stated; C83_ansi_short_writes is the proven counterexample that shows why the statement for io::Ansi has its condition on the device."
 },
 "C84": {
  "note": "Proved as stated; C84_torn is the proven counterexample that shows what a lock is needed for."
 },
 "C87": {
  "status": "partial",
  "note": "False of the code for raw identifiers (C87_counterexample): C87_raw_never, no call with an argument `r#name = v` compiles. Proved for all other names; C87_exact is the boundary. Names are taken to be in Unicode's normal form here; see C99 for others."
 },
 "C88": {
  "status": "partial",
  "note": "False of the code for a name given twice (C88_counterexample). Proved for every argument that is not repeated later under the same name; C88_dropped: the value of one that is has no effect."
 },
 "C89": {
  "status": "partial",
  "note": "False of the code (C89_counterexamples: five kinds of calls). C89_exact: a call that std accepts compiles iff it is none of the five; C89_same_partial: then the strings are the same; C89_back: the converse direction, in full."
 },
 "C95": {
  "status": "partial",
  "note": "False of the code (C95_counterexample): alloc of stylish and stylish-core is not passed on to stylish-style. C95_exact is the boundary; C95_boxed_restyle_partial: it is there if stylish-style's own alloc is on."
 },
 "C91": {
  "note": "C91_core_write: stylish-core's own write!/writeln! are exported without `macros` although they do not work then; stylish does not re-export them then (C93)."
 },
 "C99": {
  "status": "partial",
  "note": "False of the code for arguments given by name (C99_counterexample): string literals are not normalised, names of arguments are. C99_exact is the boundary; proved for the normal form (C99_shown_partial) and for captured variables (C99_captured)."
 }
}