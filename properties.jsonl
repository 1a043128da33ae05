{"id": "C01", "title": "A style diff replays exactly", "statement": "For any two styles `a` and `b`, applying `b.diff_from(a)` to `a` with `Style::with` gives exactly `b`.", "quantifier": "every pair of styles", "why_tests_cant": "a unit test checks a few pairs; the law has to hold for every pair because stateful writers track the terminal through it", "anchors": ["style/src/lib.rs: Style::diff_from, Style::with, impl Restyle for StyleDiff"]}
{"id": "C02", "title": "A style diff is minimal", "statement": "`b.diff_from(a)` mentions an attribute if and only if `a` and `b` differ in it (so `a.diff_from(a)` is the empty diff), and every StyleDiff that also turns `a` into `b` mentions at least those attributes with the same values.", "quantifier": "every pair of styles and every other diff between them", "why_tests_cant": "minimality quantifies over all competing diffs", "anchors": ["style/src/lib.rs: Style::diff_from"]}
{"id": "C03", "title": "Built-in restylings only ever set attributes", "statement": "Any restyling assembled from the provided `Restyle` implementors (Foreground, Background, Intensity, Style, StyleDiff, (), references, boxes, Option, pairs, triples and slices, nested to any depth) acts on every style like one fixed StyleDiff: each attribute is either set to a constant or left alone. In particular applying it twice is the same as applying it once.", "quantifier": "every finite nesting of the built-in Restyle implementors and every style", "why_tests_cant": "the nesting is unbounded", "anchors": ["style/src/lib.rs: trait Restyle and all its impls"]}
{"id": "C04", "title": "Restylings apply left to right and the last one wins", "statement": "A slice, pair or triple of restylings is the same as calling `.with` with its elements one after the other in order; a slice of concatenated parts is the composition of the parts; the foreground after a list of attribute settings is the last foreground set in the list (or the original one if there is none), and likewise for background and intensity.", "quantifier": "every slice/tuple of restylings of any length and every starting style", "why_tests_cant": "slice length is unbounded", "anchors": ["style/src/lib.rs: impl Restyle for [T], (T,U), (T,U,V), Option<T>"]}
{"id": "C05", "title": "Absolute and neutral restylings", "statement": "Restyling with a `Style` gives that style whatever came before; restyling with `()`, `None`, an empty slice or an empty StyleDiff changes nothing; a reference to or a box of a restyling does what the restyling does; and Foreground/Background/Intensity each change their own attribute and no other.", "quantifier": "every style and every restyling", "why_tests_cant": "universally quantified algebra over an open trait", "anchors": ["style/src/lib.rs: impl Restyle for Style, (), &T, Box<T>, Option<T>, Foreground, Background, Intensity"]}
{"id": "C06", "title": "What is written does not depend on where it is written", "statement": "For any Display implementation (any terminating program using the Formatter API, including ones that look at the formatter), the sequence of (text, style) writes it performs, and whether it returns Ok, are the same for every writer that accepts all writes: the final writer state is always the starting state fed with that one sequence, in order.", "quantifier": "every Display program, every writer type that never fails, every starting style and format options", "why_tests_cant": "ranges over arbitrary user programs and arbitrary writers", "anchors": ["core/src/formatter.rs: Formatter", "core/src/display.rs: Display", "core/src/write.rs: Write::write_fmt"]}
{"id": "C07", "title": "Style changes are scoped", "statement": "`f.with(r)` and per-argument attributes only affect what is written through the sub-formatter: after it is dropped, further writes through `f` carry the style they would have carried without it; and everything a Display program writes through a sub-formatter is what it would write through a fresh formatter having the restyled style.", "quantifier": "every Display program run inside the sub-formatter, every program continuing after it, every restyling, every writer", "why_tests_cant": "ranges over arbitrary nested user programs", "anchors": ["core/src/formatter.rs: Formatter::with, Formatter::with_args"]}
{"id": "C08", "title": "Format options do not leak into nested format strings", "statement": "The result of formatting an `Arguments` value built by `format_args!` does not depend on the width, precision, sign, alignment, `#`, `0` or debug-hex options of the formatter it is formatted with; only on that formatter's style.", "quantifier": "every format string accepted by the macro, every arguments, every pair of formatter options, every writer", "why_tests_cant": "ranges over all format strings and all options", "anchors": ["core/src/formatter.rs: Formatter::with_args, write_fmt", "core/src/arguments.rs: impl Display for Arguments", "macros/src/lib.rs: format_args_impl"]}
{"id": "C09", "title": "write_char and the borrowed writer agree with write_str", "statement": "`write_char(c, style)` has the effect of `write_str` with the one-character string; writing through a `Formatter` used as a writer with style `s` writes with exactly style `s` whatever the formatter's own style is; `write_fmt` on a writer starts from the default style.", "quantifier": "every character, style, writer and Display program", "why_tests_cant": "all characters, all writers", "anchors": ["core/src/write.rs: Write::write_char, Write::write_fmt, impl Write for &mut W", "core/src/formatter.rs: impl Write for Formatter, impl core::fmt::Write for Formatter"]}
{"id": "C10", "title": "Plain output is exactly the text", "statement": "`plain::format` and `Plain` output exactly the concatenation of all text written, independent of any styling.", "quantifier": "every Display program and every sequence of styled writes", "why_tests_cant": "arbitrary programs", "anchors": ["plain/src/plain.rs: impl Write for Plain", "plain/src/format.rs: format"]}
{"id": "C11", "title": "An attributed String remembers every character's style", "statement": "After any sequence of styled writes into a `stylish::String`, displaying it writes exactly the same characters, in order, each with the style it was written with; slicing never panics (all recorded offsets are in-bounds UTF-8 boundaries in increasing order). The writes made for it are those of the history, neighbouring ones in the same style put together, so never more than were made.", "quantifier": "every history of write_str calls (any text including multi-byte and empty strings, any styles), every writer displayed to", "why_tests_cant": "histories are unbounded and offsets are byte offsets into UTF-8", "anchors": ["core/src/string.rs: impl Write for String, impl Display for String"]}
{"id": "C12", "title": "Rendering through an attributed String changes nothing", "statement": "Formatting into a `stylish::String` first and then rendering that string with `{:s}` gives byte for byte the same ANSI, HTML and plain output as rendering directly.", "quantifier": "every Display program that returns Ok", "why_tests_cant": "arbitrary programs; requires chunking-insensitivity of every backend", "anchors": ["core/src/string.rs", "core/src/format.rs: format", "ansi/src/format.rs", "html/src/format.rs", "plain/src/format.rs"]}
{"id": "C13", "title": "An attributed String keeps its styles in any context", "statement": "Displaying a `stylish::String` through a formatter with any current style and options writes the string's own styles, not the formatter's.", "quantifier": "every string history, every formatter style and options", "why_tests_cant": "universally quantified over contexts", "anchors": ["core/src/string.rs: impl Display for String", "style/src/lib.rs: impl Restyle for Style"]}
{"id": "C14", "title": "ANSI output displays every character in its style", "statement": "Feeding the output of `Ansi` to a terminal that interprets SGR escape sequences displays exactly the characters written, each with the style it was written with.", "quantifier": "every sequence of styled writes", "why_tests_cant": "needs the invariant that the writer's tracked style equals the terminal's state after every write, over unbounded histories of style changes", "anchors": ["ansi/src/ansi.rs: impl Write for Ansi", "ansi/src/util.rs"]}
{"id": "C15", "title": "ANSI finish restores the default style", "statement": "If the text written contains no ESC character, then after `finish` the terminal is back in the default style with no pending escape sequence; and if all non-empty text was written in the default style `Ansi` adds nothing at all to the text.", "quantifier": "every sequence of styled writes", "why_tests_cant": "unbounded histories", "anchors": ["ansi/src/ansi.rs: Ansi::finish"]}
{"id": "C16", "title": "ANSI output does not depend on how writes are split", "statement": "The bytes `Ansi` produces depend only on the sequence of (character, style) pairs: empty writes are invisible, and splitting or merging writes with equal style changes nothing.", "quantifier": "every pair of write sequences with the same styled characters", "why_tests_cant": "quantifies over all ways to chunk all texts", "anchors": ["ansi/src/ansi.rs: impl Write for Ansi"]}
{"id": "C17", "title": "ANSI emits an escape only on a style change", "statement": "Between two consecutive characters `Ansi` emits an escape sequence if and only if their styles differ, that escape sequence is a single SGR sequence, it is the reset `ESC[0m` if and only if the new style is the default one, and otherwise it has one parameter per attribute that differs.", "quantifier": "every sequence of styled writes", "why_tests_cant": "unbounded histories", "anchors": ["ansi/src/ansi.rs: impl Write for Ansi"]}
{"id": "C18", "title": "Stripping ANSI escapes gives the plain output", "statement": "Removing the SGR escape sequences from the ANSI rendering of any Display program whose text contains no ESC character gives its plain rendering.", "quantifier": "every Display program writing no ESC character", "why_tests_cant": "arbitrary programs", "anchors": ["ansi/src/format.rs", "plain/src/format.rs"]}
{"id": "C19", "title": "HTML output reads back as the styled text", "statement": "Reading the output of `Html` (after `finish`) with an HTML reader that decodes character references and `<span style=..>` elements gives exactly the characters written, each with the style it was written with.", "quantifier": "every sequence of styled writes, any text (including `<`, `&`, quotes and any Unicode)", "why_tests_cant": "unbounded histories and all texts", "anchors": ["html/src/html.rs: impl Write for Html", "html/src/util.rs", "askama_escape"]}
{"id": "C20", "title": "HTML spans are balanced and never nested", "statement": "In the output after `finish` every `<span>` is closed, at most one is open at any point, and no `</span>` appears without an open span; before `finish` at most one closing tag is missing.", "quantifier": "every sequence of styled writes", "why_tests_cant": "unbounded histories", "anchors": ["html/src/html.rs: impl Write for Html, Html::finish"]}
{"id": "C21", "title": "Text cannot inject HTML markup", "statement": "Written text only ever reaches the HTML output escaped: the output is an alternation of the writer's own tags and escaped text, escaped text contains no `<`, `>`, `\"` or `'`, every `&` in it starts one of the five known character references, and the tags of the output depend only on the styles, never on the characters.", "quantifier": "every text and every sequence of styled writes", "why_tests_cant": "all texts including adversarial ones", "anchors": ["html/src/html.rs: impl Write for Html", "askama_escape::escape"]}
{"id": "C22", "title": "HTML output does not depend on how writes are split", "statement": "The string `Html` produces depends only on the sequence of (character, style) pairs: empty writes are invisible and splitting or merging equally-styled writes changes nothing; unstyled text gets no markup at all.", "quantifier": "every pair of write sequences with the same styled characters", "why_tests_cant": "quantifies over all ways to chunk all texts", "anchors": ["html/src/html.rs: impl Write for Html"]}
{"id": "C23", "title": "HTML style attributes are valid and unambiguous", "statement": "Every `style=` value the writer emits is a legal unquoted attribute value (no whitespace, quotes, `=`, `<`, `>` or backtick) and different styles get different values.", "quantifier": "every non-default style", "why_tests_cant": "all 17*17*3 styles, and the value is assembled from parts", "anchors": ["html/src/html.rs: impl Write for Html", "html/src/util.rs"]}
{"id": "C24", "title": "io write_all delivers the whole buffer under any schedule", "statement": "If the underlying writer only ever accepts part of what it is offered or returns Interrupted, then whenever `write_all` finishes it returned Ok and exactly the buffer, in order and once, has been delivered; and it does finish if the writer returns Interrupted only finitely often in a row. An empty buffer never calls `write`.", "quantifier": "every buffer and every schedule of partial writes and interruptions", "why_tests_cant": "ranges over all schedules of the underlying writer", "anchors": ["core/src/io.rs: Write::write_all"]}
{"id": "C25", "title": "io write_all reports the first fatal error and never duplicates or reorders", "statement": "In every run of `write_all`, what was delivered is a prefix of the buffer; the result is Ok only if everything was delivered; a zero-length write gives WriteZero; and any other error returned is the error the underlying writer returned at its last call, never Interrupted.", "quantifier": "every buffer and every behaviour of the underlying writer obeying the Write contract", "why_tests_cant": "ranges over all failure schedules", "anchors": ["core/src/io.rs: Write::write_all"]}
{"id": "C26", "title": "io::Ansi writes the same bytes as Ansi under any schedule", "statement": "Formatting into `io::Ansi` over a sink that splits and interrupts writes arbitrarily (but does not fail) delivers exactly the UTF-8 bytes of the string that `Ansi` produces for the same arguments, and `finish` likewise.", "quantifier": "every Display program and every schedule of partial writes and interruptions, including splits inside multi-byte characters and inside escape sequences", "why_tests_cant": "ranges over all schedules and programs", "anchors": ["ansi/src/io.rs: impl Write for Ansi, Ansi::finish", "ansi/src/ansi.rs", "core/src/io.rs: Write::write_fmt, ErrorTrap"]}
{"id": "C27", "title": "io::Plain writes the same bytes as Plain under any schedule", "statement": "Formatting into `io::Plain` over a sink that splits and interrupts writes arbitrarily delivers exactly the UTF-8 bytes of the plain text.", "quantifier": "every Display program and every schedule of partial writes and interruptions", "why_tests_cant": "ranges over all schedules and programs", "anchors": ["plain/src/io.rs: impl Write for Plain"]}
{"id": "C28", "title": "io write_fmt reports the underlying error", "statement": "`io::Write::write_fmt` returns Ok exactly when the Display program returns Ok; when it returns Err the result is the most recent I/O error of the sink if there was one and otherwise an error of kind Other. For programs that propagate errors this is the first I/O error, and nothing is written after it.", "quantifier": "every Display program, every writer", "why_tests_cant": "all programs and failure points", "anchors": ["core/src/io.rs: ErrorTrap, Write::write_fmt"]}
{"id": "C29", "title": "A failed write leaves a prefix of the correct output", "statement": "If the sink fails at any point while formatting with a Display program that propagates errors, what reached the sink is a prefix of what would have reached it without the failure (for Ansi, Html, Plain, io::Ansi and io::Plain).", "quantifier": "every error-propagating Display program and every failure point of the sink, including in the middle of an escape sequence or tag", "why_tests_cant": "every crash point", "anchors": ["ansi/src/ansi.rs", "html/src/html.rs", "plain/src/plain.rs", "ansi/src/io.rs", "plain/src/io.rs"]}
{"id": "C30", "title": "io::Ansi obeys the io::Write contract", "statement": "`io::Ansi::write` returns Ok(n) only with n at most the buffer length; if it returns an error none of the buffer was written; it returns Interrupted only after the style change is complete, so that retrying the same write does not repeat the escape sequence.", "quantifier": "every buffer, style, state and behaviour of the underlying writer", "why_tests_cant": "all behaviours of the sink", "anchors": ["ansi/src/io.rs: impl Write for Ansi", "core/src/io.rs: Write::write"]}
{"id": "C31", "title": "std formatting options are forwarded exactly", "statement": "When an argument is formatted with a std trait, the std formatter it sees has exactly the alignment, sign, `#`, `0`, width, precision and (for Debug) debug-hex options written in the stylish format string, and no others.", "quantifier": "every combination of options and all width/precision values", "why_tests_cant": "the dispatch is a generated match with hundreds of arms", "anchors": ["core/src/std_compat.rs: std_write!", "core/src/arguments.rs: StdFmtOther, StdFmtDebug"]}
{"id": "C32", "title": "A std-formatted argument is uniformly styled", "statement": "Everything an argument formatted through a std trait writes, including padding, carries exactly the style of its placeholder: the surrounding style with the placeholder's attributes applied.", "quantifier": "every std formatting implementation, every options and styles", "why_tests_cant": "ranges over arbitrary std fmt implementations", "anchors": ["core/src/std_compat.rs: StdProxy", "core/src/arguments.rs", "core/src/formatter.rs: with_args"]}
{"id": "C33", "title": "Literal text survives with braces doubled", "statement": "For every text, the format string obtained by doubling its braces is accepted and outputs exactly that text in the current style.", "quantifier": "every text", "why_tests_cant": "all strings", "anchors": ["macros/src/format.rs: Piece::parse_lit, Format::parse", "macros/src/lib.rs: format_args_impl"]}
{"id": "C34", "title": "Format strings parse to what they say", "statement": "For every sequence of literal text and placeholders (argument reference, alignment, sign, `#`, `0`, width, precision, attributes, trait), printing it in the documented syntax and parsing it with the macro's parser gives back exactly that sequence.", "quantifier": "every sequence of pieces expressible in the supported syntax (any length, any identifiers, any attribute lists, any integers that fit usize)", "why_tests_cant": "unbounded syntax, parser with backtracking and cuts", "anchors": ["macros/src/format.rs: Parse impls"]}
{"id": "C35", "title": "Only documented syntax is accepted", "statement": "Every format string the macro accepts is a string of the documented grammar with the parsed pieces as its meaning: no input is accepted by skipping or misreading part of it, and stray braces are rejected.", "quantifier": "every string", "why_tests_cant": "all strings", "anchors": ["macros/src/format.rs: Parse impls", "README.md: Syntax change"]}
{"id": "C36", "title": "All documented syntax is accepted", "statement": "Every format string of the documented grammar (README `format_spec`/`attributes`, including the empty attribute list and a trailing comma, fill characters and parameter counts) is accepted by the macro.", "quantifier": "every string of the documented grammar", "why_tests_cant": "all strings of a grammar", "anchors": ["macros/src/format.rs: FormatSpec::parse, StyleDiff::parse", "macros/src/to_tokens.rs: Count", "README.md: Syntax change"]}
{"id": "C37", "title": "Attributes in a placeholder restyle it", "statement": "A placeholder with attributes writes its argument in the surrounding style restyled by the listed attributes from left to right (so the last setting of an attribute wins and the order of different attributes is irrelevant).", "quantifier": "every attribute list and every surrounding style", "why_tests_cant": "all attribute lists in all contexts", "anchors": ["macros/src/format.rs: impl Parse for StyleDiff", "macros/src/to_tokens.rs: StyleDiff", "core/src/formatter.rs: with_args"]}
{"id": "C38", "title": "Arguments are matched to placeholders as documented", "statement": "The i-th `{}` placeholder without an explicit reference shows the i-th positional argument; `{n}` shows positional argument n and does not affect the numbering of the others; `{name}` shows the named argument of that name if one was passed, otherwise the variable of that name in scope. If a reference does not exist the macro is a compile error.", "quantifier": "every format string and every argument list", "why_tests_cant": "all mixes of references, any lengths", "anchors": ["macros/src/lib.rs: format_args_impl"]}
{"id": "C39", "title": "Unused arguments are rejected", "statement": "The macro is a compile error if any positional or named argument is referenced by no placeholder; conversely, if the format string parses without unsupported features, all references exist and all arguments are used then it compiles.", "quantifier": "every format string and every argument list", "why_tests_cant": "all argument lists", "anchors": ["macros/src/lib.rs: format_args_impl"]}
{"id": "C40", "title": "Arguments are evaluated exactly once, in order", "statement": "Each argument expression is evaluated exactly once, positional ones first and in the order written, however many placeholders mention it, and all placeholders see that one value.", "quantifier": "every format string, argument list and effectful argument expressions", "why_tests_cant": "all mixes of repeated references", "anchors": ["macros/src/lib.rs: format_args_impl"]}
{"id": "C41", "title": "writeln! is write! plus a newline", "statement": "`writeln!` accepts exactly the format strings `write!` accepts and writes the same followed by a newline in the current style.", "quantifier": "every format string and argument list", "why_tests_cant": "the newline is appended before parsing, so it must not change the parse of any string", "anchors": ["macros/src/lib.rs: format_args_nl", "core/src/write.rs: writeln!"]}
{"id": "C42", "title": "The macro's internal unreachable arms are unreachable", "statement": "No format string makes the code generator hit one of its `unreachable!` arms; a parsed format string either expands, or fails with one of the documented compile errors or the explicit not-yet-supported errors (fill characters, parameter counts).", "quantifier": "every format string and argument list", "why_tests_cant": "all strings", "anchors": ["macros/src/to_tokens.rs", "macros/src/format.rs"]}
{"id": "C43", "title": "Formatting to a string only fails if the Display implementation fails", "statement": "`ansi::format`, `html::format`, `plain::format` and `stylish::format` panic exactly when the Display program itself returns an error (or panics); the string backends never introduce a failure.", "quantifier": "every Display program", "why_tests_cant": "arbitrary programs", "anchors": ["ansi/src/format.rs", "html/src/format.rs", "plain/src/format.rs", "core/src/format.rs"]}
{"id": "C44", "title": "to_*_string equals formatting with {:s}", "statement": "`to_ansi_string`, `to_html_string`, `to_plain_string` and `to_stylish_string` give the rendering of the value's own writes starting from the default style, i.e. the same as writing the value into the corresponding fresh writer.", "quantifier": "every Display value", "why_tests_cant": "arbitrary programs", "anchors": ["ansi/src/to_string.rs", "html/src/to_string.rs", "plain/src/to_string.rs", "core/src/to_string.rs"]}
{"id": "C45", "title": "All backends agree on the text", "statement": "For every Display program without ESC characters in its text, the plain output, the ANSI output with escapes removed, the HTML output with tags removed and character references decoded, and the text of the attributed String are the same text.", "quantifier": "every Display program", "why_tests_cant": "arbitrary programs on four backends", "anchors": ["ansi/src/ansi.rs", "html/src/html.rs", "plain/src/plain.rs", "core/src/string.rs"]}
{"id": "C46", "title": "End to end: format string to styled text", "statement": "Formatting with any accepted format string writes, in order, each literal in the current style with doubled braces halved, and each argument's own output in the current style restyled by the placeholder's attributes (within the limits of C37); nothing else is written.", "quantifier": "every accepted format string, every arguments, every backend", "why_tests_cant": "composition of parser, code generator and formatter for all strings", "anchors": ["macros/src/format.rs", "macros/src/lib.rs", "macros/src/to_tokens.rs", "core/src/formatter.rs", "core/src/arguments.rs"]}
{"id": "C47", "title": "Writers stay consistent after a failed write", "statement": "If a write to `Ansi`/`io::Ansi`/`Html` fails and the program carries on writing (or calls finish), text written afterwards is still shown with the right style and the markup is still balanced.", "quantifier": "every failure point and every continuation", "why_tests_cant": "every crash point", "anchors": ["ansi/src/ansi.rs: impl Write for Ansi", "ansi/src/io.rs: impl Write for Ansi", "html/src/html.rs: impl Write for Html"]}
{"id": "C48", "title": "A macro call is read as written", "statement": "A call `crate = path, \"format\", arg, ..` means the format string with its arguments in order: `ident = expr` is the named argument `ident`, every other expression is positional, a trailing comma makes no difference; input of any other shape, or without the crate, does not compile.", "quantifier": "every token sequence given to format_args!/format_args_nl!", "why_tests_cant": "arbitrary token sequences and argument expressions", "anchors": ["macros/src/lib.rs: ArgsInput::parse, format_args, format_args_nl"]}
{"id": "C49", "title": "Agreement with std's format!", "statement": "If every placeholder uses a std trait, plain::format! gives exactly the string that std's format! gives for the same format string (attributes removed) and arguments, or panics exactly when std's would; without attributes so does ansi::format!.", "quantifier": "every accepted format string and arguments", "why_tests_cant": "all format strings and all formatting trait implementations", "anchors": ["macros/src/format.rs", "macros/src/lib.rs", "macros/src/to_tokens.rs", "core/src/std_compat.rs", "plain/src/format.rs", "ansi/src/format.rs"]}
{"id": "C50", "title": "The output determines the styled text", "statement": "Two finished HTML outputs are equal exactly when the styled characters written are equal; the same for ANSI outputs of text without ESC characters. So no styling is lost and no accidental differences are introduced.", "quantifier": "every two sequences of writes", "why_tests_cant": "injectivity over all pairs of styled texts", "anchors": ["ansi/src/ansi.rs", "html/src/html.rs", "ansi/src/util.rs", "html/src/util.rs"]}
{"id": "C51", "title": "Finished outputs can be concatenated", "statement": "Finished outputs put one after the other show the styled texts one after the other: for HTML always, for ANSI under the conditions under which each part alone is shown right (C14); the terminal ends in its initial state. No style leaks from one part into the next.", "quantifier": "every list of outputs", "why_tests_cant": "arbitrary many outputs of arbitrary text", "anchors": ["ansi/src/ansi.rs: Ansi::finish", "html/src/html.rs: Html::finish"]}
{"id": "C52", "title": "Markup size is bounded by the number of style changes", "statement": "A finished ANSI output has the bytes of the text plus between 4 and 12 bytes for each place where the style changes (including back to default at the end); an HTML output has at most 5 bytes more for each of < > & \" ' and between 7 and 78 for each style change.", "quantifier": "every sequence of writes, however cut", "why_tests_cant": "all inputs; both bounds", "anchors": ["ansi/src/ansi.rs", "html/src/html.rs", "ansi/src/util.rs", "html/src/util.rs"]}
{"id": "C53", "title": "A failed write stops formatting", "statement": "Everything the library itself provides - the arguments made by `format_args!`, `write!` and `writeln!`, an attributed `String`, std-formatted values - makes its writes in order until one fails, writes nothing after that, and returns that failure, provided the user's formatting implementations do so too.", "quantifier": "every format string, arguments, attributed String and writer, failing at any point", "why_tests_cant": "it quantifies over all programs and over every point at which a writer may fail", "anchors": ["macros/src/lib.rs: format_args_impl", "core/src/string.rs: impl Display for String", "core/src/std_compat.rs: std_write, StdProxy"]}
{"id": "C54", "title": "Nothing is held back", "statement": "As soon as writing has returned Ok, and before `finish`, all of the text has reached the stream inside the writer: as is for Plain, with escape sequences around it for ANSI, and as an HTML text that lacks at most one closing tag; the io writers have delivered all bytes under every schedule of short writes and interruptions. `flush` flushes the stream inside, returns its result and does nothing else.", "quantifier": "every writer, stream, list of writes or formatting arguments", "why_tests_cant": "all streams, all inputs and all schedules of partial writes", "anchors": ["plain/src/plain.rs", "ansi/src/ansi.rs", "html/src/html.rs", "core/src/io.rs", "ansi/src/io.rs"]}
{"id": "C55", "title": "Appending to an attributed String", "statement": "Formatting into an attributed `String` that already holds styled characters returns what the formatting returns, and leaves the old characters followed by those the formatting wrote, each in its own style; in particular `write!(s, \"{:s}\", t)` concatenates two Strings.", "quantifier": "every history of the string, every formatting arguments, every second string", "why_tests_cant": "the string's history is arbitrary and runs are merged at the boundary", "anchors": ["core/src/string.rs: String, Write for String, Display for String", "core/src/write.rs: Write::write_fmt", "macros/src/lib.rs: write"]}
{"id": "C56", "title": "Equivalent spellings", "statement": "These make no difference, to whether a call compiles or to what it does on any writer: writing the number of the argument in a placeholder instead of leaving it out (in all of them), leading zeros, a fill of a space, `{:}` for `{}`, the order of attributes of different kinds and settings that are overridden, the order of named arguments with different names, and passing `n = v` instead of capturing a variable `n` of that value.", "quantifier": "every pair of format strings that differ in this way, all arguments, all writers", "why_tests_cant": "all format strings and arguments, and writers failing at any point", "anchors": ["macros/src/format.rs", "macros/src/lib.rs: format_args_impl"]}
{"id": "C57", "title": "Format strings can be put together", "statement": "Formatting with one format string and then with another writes the same styled characters, and returns the same, as formatting once with the two strings and their arguments put together, provided the first uses up its positional arguments, the second has no numbered references, the names do not clash, and it is not the case that the first ends in `{:}` and the second starts with an alignment character (that does not compile).", "quantifier": "every two format strings and their arguments", "why_tests_cant": "all pairs of format strings", "anchors": ["macros/src/format.rs: Format::parse", "macros/src/lib.rs: format_args_impl"]}
{"id": "C58", "title": "Expansion terminates and is linear", "statement": "Expanding a macro call terminates on every format string: each piece read consumes at least one character, so every loop of the parser ends by itself within as many iterations as there are characters left, and nom's check for an iteration without progress never fires. The generated code has at most as many statements, and captures at most as many variables, as the format string has characters, and holds each argument once.", "quantifier": "every format string and argument list", "why_tests_cant": "termination and a size bound over all strings", "anchors": ["macros/src/format.rs: Piece::parse, Format::parse, StyleDiff::parse", "macros/src/lib.rs: format_args_impl"]}
{"id": "C59", "title": "The library does not panic by itself", "statement": "Formatting with the library panics only if the formatting implementation of a value, or the stream written to, panics: the code generated by format_args! and writeln! never refers to a value it did not capture, std formatted values find a matching arm, displaying an attributed String never slices out of bounds or inside a character whatever was written to it, and writing to Plain, Ansi, Html, io::Plain and io::Ansi, their finish and write_fmt, in any state and after any failures, do not panic (for io, provided the stream does not claim to have written more than it was given; otherwise write_all does panic).", "quantifier": "every format string, argument list, value, writer state, failure history and stream", "why_tests_cant": "absence of panics over all inputs, states and failing writers", "anchors": ["core/src/string.rs: impl Display for String", "core/src/std_compat.rs: std_write", "core/src/io.rs: write_all", "macros/src/lib.rs: format_args_impl", "ansi/src/ansi.rs", "html/src/html.rs"]}
{"id": "C60", "title": "Markup does not change the lines of a text", "statement": "ANSI and HTML output, finished or not, have the same lines as the plain text: no escape sequence, tag or character reference is split between lines, and line i of the output, without its markup, is line i of the text. Apart from ESC, `[`, digits, `;` and `m` for ANSI, and printable ASCII for HTML, the output has exactly the characters of the text in order: no control character (such as CR or NUL) and no character outside ASCII is added, lost or changed.", "quantifier": "every sequence of writes, every text and style, every stream", "why_tests_cant": "all texts and styles", "anchors": ["ansi/src/ansi.rs: write_str", "html/src/html.rs: write_str", "ansi/src/util.rs", "html/src/util.rs"]}
{"id": "C61", "title": "How bytes are split over io writes does not matter", "statement": "A client of stylish::io::Write that makes any sequence of write (each accepting at least one byte), write_all and flush calls on io::Ansi, all answered Ok, on any stream obeying the io::Write contract, gets exactly the accepted bytes delivered, in order, with an escape sequence only where the style changes; two clients that got the same bytes accepted in the same styles have sent the same, before and after finish, whatever the calls and streams; and bytes that make up a styled text, split anywhere, even inside a UTF-8 character, are sent as the bytes of what the string writer Ansi makes of that text. io::Plain delivers exactly the accepted bytes.", "quantifier": "every sequence of calls, buffers, styles, stream and schedule of short writes and interruptions", "why_tests_cant": "all splittings and schedules", "anchors": ["ansi/src/io.rs: impl io::Write for Ansi", "plain/src/io.rs: impl io::Write for Plain", "core/src/io.rs: Write::write_all"]}
{"id": "C62", "title": "Borrowed writers are transparent", "statement": "Using `&mut w` (or `w.by_ref()`, or references to references) in place of a writer `w` changes nothing: every call of `write_str`, `write_char`, `write_fmt` (and of io `write`, `flush`, `write_all`, `write_fmt`) returns the same result and has the same effect on `w`, including writers that override the provided methods; in particular `write_fmt` through a reference to a `Formatter` keeps that formatter's style and options.", "quantifier": "every writer (with any implementation of all methods), every caller whose next call may depend on earlier results, every number of references at each call", "why_tests_cant": "all writers, all call histories, all nesting depths", "anchors": ["core/src/write.rs: Write::write_fmt, impl Write for &mut W", "core/src/io.rs: Write::write_fmt, Write::by_ref, impl Write for &mut W", "core/src/formatter.rs: impl Write for Formatter"]}
{"id": "C63", "title": "The user-facing macros do what the call says", "statement": "`format_args!(fmt, args..)`, `write!(dst, fmt, args..)`, `writeln!(dst, \"fmt\", args..)` and the four `format!`s accept exactly the calls whose format string and arguments fit together (with or without a trailing comma). They evaluate the destination first, then every argument exactly once in the order written, and then make one `write_fmt` (or `format`) call with the format string applied to those values. `writeln!(dst, \"fmt\", ..)` is `write!(dst, \"fmt\\n\", ..)`; `writeln!(dst)` and `writeln!(dst,)` are `write!(dst, \"\\n\")`.", "quantifier": "every token sequence, every argument list, every (side-effecting) argument and destination expression, every writer", "why_tests_cant": "all calls, all evaluation effects", "anchors": ["core/src/lib.rs: format_args!, _format_args!", "core/src/write.rs: write!, writeln!", "core/src/format.rs: format!", "plain/src/format.rs: format!", "ansi/src/format.rs: format!", "html/src/format.rs: format!", "macros/src/lib.rs: ArgsInput::parse"]}
{"id": "C64", "title": "A computed format string is as good as a literal", "statement": "Wherever a macro takes a format string, a builtin macro call such as `concat!(..)` may stand for the literal it expands to: the call compiles exactly if it does with the literal, and then means the same.", "quantifier": "every builtin call, every argument list, every macro that takes a format string", "why_tests_cant": "all format strings and arguments", "anchors": ["core/src/lib.rs: format_args!, _format_args!", "core/src/write.rs: write!, writeln!", "macros/src/lib.rs: ArgsInput::parse (both cfg variants)"]}
{"id": "C65", "title": "What reaches a byte stream is text", "statement": "The bytes `io::Ansi` and `io::Plain` have sent between two calls of `write_fmt`, and after `finish`, are well-formed UTF-8. Decoded they are the text `Ansi` (`Plain`) makes of all the calls together, so for text without ESC a terminal shows the same characters and styles, is back in its default state after `finish`, without the escape sequences it is the plain text line by line, and two outputs are the same bytes exactly if the styled texts are the same. If a call fails, panics or hangs, what was sent is the start of that, cut at worst inside one character.", "quantifier": "every byte stream obeying the io::Write contract, every schedule of short writes, interruptions and failures, every sequence of write_fmt calls whose arguments pass errors on", "why_tests_cant": "all schedules, all texts and all sequences of calls", "anchors": ["core/src/io.rs: Write::write_fmt, Write::write_all", "ansi/src/io.rs: Ansi", "plain/src/io.rs: Plain"]}
{"id": "C66", "title": "A nested format_args! can be written in place", "statement": "A `{:s}` placeholder whose argument is a `format_args!` can be replaced by that call's format string, with its arguments put where the argument was: the call still compiles, writes the same characters in the same styles and returns the same. Conditions: the part before it and the nested call have one `{}` for each positional argument, there are no numbered references from the nested call on, no part refers to a name that is an argument of another, and no `{:}` comes to stand before an alignment character.", "quantifier": "every format string around the placeholder, every nested format string, and all their arguments", "why_tests_cant": "all pairs of format strings and all argument lists", "anchors": ["macros/src/lib.rs: format_args_impl", "core/src/arguments.rs: impl Display for Arguments", "core/src/formatter.rs: Formatter::with"]}
{"id": "C67", "title": "Attributes of nested placeholders accumulate", "statement": "The attributes of a `{:(..)s}` placeholder whose argument is a `format_args!` without literal text act like attributes written at the front of the list of every placeholder of that `format_args!`: both compile, and do the same on every writer, failing or not. The one condition: no nested placeholder resets (`fg=default`, `bg=default`, `normal`) an attribute the outer list sets, since a nested reset has no effect.", "quantifier": "every outer attribute list, every nested format string of placeholders, all arguments, every writer and surrounding style", "why_tests_cant": "all pairs of attribute lists, all format strings, all writers", "anchors": ["macros/src/format.rs: FormatSpec, Style parsing", "macros/src/lib.rs: format_args_impl", "core/src/formatter.rs: Formatter::with", "style/src/lib.rs: Restyle"]}
{"id": "C68", "title": "Outputs produced in parts", "statement": "Writing two texts through one `ansi::Ansi` and finishing it gives the same string as writing each through an `Ansi` of its own and concatenating the results, exactly when one of the texts is empty, or the first ends in the default style, or the second begins in it (otherwise a reset sequence would come between). With `html::Html` it does exactly unless the first ends and the second begins in one same style other than the default (then the two spans are one).", "quantifier": "all pairs of write sequences, all styles and texts, all three writers' underlying streams", "why_tests_cant": "The claim is an equivalence over all texts and styles at the joint; tests sample a few pairs.", "anchors": ["ansi/src/ansi.rs: Ansi::write_str, Ansi::finish", "html/src/html.rs: Html::write_str, Html::finish"]}
{"id": "C69", "title": "Attributes do not change the text", "statement": "Two format strings that differ only in their attribute lists `(..)` both compile or both do not, and with the same arguments they do the same on every writer that ignores styles, failing or not: `plain::format!` gives the same string, `Plain` and `io::Plain` make the same calls on the stream inside and return the same. The one condition: values shown with `{:s}` do not themselves look at the style (which they could through the formatter's Debug output). Values built by `format_args!` from such values meet it again.", "quantifier": "all pairs of format strings equal up to attributes, all arguments, all style-ignoring writers over all streams, all surrounding styles", "why_tests_cant": "all format strings, arguments, attribute lists and failing streams", "anchors": ["macros/src/lib.rs: format_args_impl", "macros/src/format.rs: FormatSpec", "plain/src/plain.rs: Plain::write_str", "plain/src/io.rs: io::Plain::write_all"]}
{"id": "C70", "title": "What a browser shows of the HTML output", "statement": "A browser (the tokenizer of the HTML standard with input preprocessing and all character references, and tree construction for text and spans) shows of the HTML output exactly the text that was written, every character in the style it was written in, whether or not `finish` was called; except that CR LF in one style and CR become LF, and NUL is dropped. For text without NUL there are no parse errors and no tags but spans whose only attribute is one of the styles written with. The output does not influence how the rest of a page around it is read.", "quantifier": "all sequences of writes of all texts in all styles, to all streams; all tables of named character references that contain lt; gt; amp; quot; all texts following the output", "why_tests_cant": "all texts, including those that try to inject markup, and all texts that may follow", "anchors": ["html/src/html.rs: Html::write_str, Html::finish", "html/src/util.rs", "askama_escape"]}
{"id": "C71", "title": "What a video terminal makes of the ANSI output", "statement": "A terminal with the parser of the DEC VT500 series (C0 and C1 controls, escape and control sequences, strings, all SGR parameters including indexed and RGB colours) does for the ANSI output exactly what should happen for the text: it shows each character in the pen of its style, acts on each control character, and nothing else, if and only if the text has no control character that begins or ends something longer on this kind of terminal (ESC; with C1 also DCS, SOS, CSI, ST, OSC, PM, APC) and either bold and faint exclude each other or no shown character follows one of the other intensity without normal intensity in between. After `finish` the pen is as after power-up and no sequence is pending. The same for `ansi::format` and, decoded as UTF-8, for the bytes of `io::Ansi`.", "quantifier": "all sequences of writes of all texts in all styles to all streams, all four kinds of terminals", "why_tests_cant": "all texts, including those with control characters, and all histories of style changes", "anchors": ["ansi/src/ansi.rs: impl Write for Ansi, Ansi::finish", "ansi/src/util.rs", "ansi/src/io.rs", "ansi/src/format.rs"]}
{"id": "C72", "title": "What is seen of an output that was cut off", "statement": "If the stream fails or the formatting itself fails, panics or never returns, at whatever moment, a terminal has shown of what reached it a part of what should be shown, from the start: no character in a wrong style and nothing of a cut-off escape sequence (given text that the terminal shows right at all, C71). For `io::Ansi` this holds of the bytes decoded as UTF-8, of which at most three at the end belong to a cut-off character. A browser shows of what reached the stream of `Html` the first characters of the text, each in its style, and after them at most what can be seen of a single tag or character reference that was cut off; of a tag at most `<` or `</`; and nothing at all of it if the stream takes each call whole or not at all. If the result is Ok, everything is shown.", "quantifier": "all formatting implementations that propagate errors, all streams and moments of failure, all kinds of terminals, all tables of character references", "why_tests_cant": "all texts, styles and positions of the cut", "anchors": ["ansi/src/ansi.rs: impl Write for Ansi, Ansi::finish", "ansi/src/io.rs", "html/src/html.rs: impl Write for Html, Html::finish"]}
{"id": "C73", "title": "What the HTML output looks like", "statement": "Read with CSS (declarations, computed values of color, background-color and font-weight, inheritance), the HTML output looks exactly as the styles say on every page it is put into: each character in the red, green and blue of its foreground colour on those of its background colour, `Default` being the colours of the page; bold and faint one step bolder and lighter than the page, normal in the weight of the page. Text in the default style looks like the page around it. On pages of a weight between 100 and 900, and only there, the three intensities can be told apart. Two colours other than the default look the same exactly for yellow, blue, magenta, cyan, white and their bright variants.", "quantifier": "all sequences of writes of all texts in all styles to all streams; all looks of the page around; all tables of character references and colour names that agree with the standards on the names used", "why_tests_cant": "all texts, sequences of styles and surroundings", "anchors": ["html/src/util.rs: foreground, background, intensity", "html/src/html.rs: impl Write for Html, Html::finish"]}
{"id": "C74", "title": "Names at the place of a call do not matter", "statement": "The code a macro call expands to does the same wherever the call is: it evaluates the arguments written and the variables named in the format string, and makes the value the format string says, whatever other variables, functions, types, constants and traits the caller has in scope, in particular if they have the names the generated code uses itself. (False in general: the generated code uses `Some` and `StyleDiff::default()` unqualified. Proved where `Some` and `Default` are those of the prelude and no constant has one of the six names the code binds; each of these conditions is proved necessary, and only for calls with a placeholder or an attribute as far as possible.)", "quantifier": "all calls with all format strings and arguments, all places (local variables, items, traits in scope), all effects of the arguments", "why_tests_cant": "all scopes a call can be compiled in", "anchors": ["macros/src/lib.rs: format_args_impl", "macros/src/to_tokens.rs", "core/src/lib.rs: format_args!, module of exports"]}
{"id": "C75", "title": "The caller's local variables and those of the macro are never confused", "statement": "What a macro call does, or that it does not compile, depends on the caller's local variables only through the arguments written and the variables named in the format string: any other local variable can be added, removed, renamed or changed, also if it has the name of a variable of the generated code or of `Some`.", "quantifier": "all calls with all format strings and arguments, all pairs of places with the same items and traits in scope, all local variables", "why_tests_cant": "all sets of variables a call can be compiled with", "anchors": ["macros/src/lib.rs: format_args_impl", "macros/src/to_tokens.rs", "core/src/lib.rs: format_args!"]}
{"id": "C76", "title": "When a call compiles", "statement": "A macro call compiles exactly if the format string has the documented syntax, positional arguments come first, every placeholder has its argument or a variable of that name, every argument is used, and the type of each argument or variable implements the trait of each placeholder it is shown by: `core::fmt::Debug` for `{:?}`, `{:x?}` and `{:X?}`, `stylish::Display` for `{:s}`, `core::fmt::Display` for `{}`, and so on. No other trait is needed of it.", "quantifier": "all calls with all format strings and arguments, all types (sets of traits) of arguments and variables, all places where the names of the prelude are in scope", "why_tests_cant": "all format strings times all sets of traits", "anchors": ["macros/src/to_tokens.rs: ToTokens for FormatTrait, ToTokens for (FormatTrait, TokenStream)", "macros/src/lib.rs: format_args_impl"]}
{"id": "C77", "title": "From the call in the source to what is seen", "statement": "Wherever the names of the prelude are in scope, a call that follows the documented rules compiles (and one that does not follow them does not), evaluates its arguments once each in the order written, and produces a value for which: `plain::format!` gives the text the format string says of the argument values (and a newline for the macros that end the line); `html::format!` gives a page on which a browser shows that text with the styles of the format string; `ansi::format!` gives a string for which a terminal does the same, exactly if the text has no characters the terminal obeys and the terminal does not combine bold with faint; `write!` through `io::Ansi` delivers the bytes of such a string to any stream that does not fail, however it splits the writes; `write!` to any other writer performs the pieces of the format string in order until the first failure; and `format!` panics if a `Display` implementation reports an error or panics.", "quantifier": "all calls with all format strings and arguments, all types and values of arguments and variables, all places in the source where the prelude is in scope, all browsers, terminals, byte streams and writers", "why_tests_cant": "the whole pipeline, for all programs that call the macro and all environments the output goes to", "anchors": ["macros/src/lib.rs: format_args, format_args_impl", "core/src/arguments.rs: Arguments", "core/src/write.rs: Write::write_fmt", "ansi/src/ansi.rs", "ansi/src/io.rs", "html/src/html.rs", "plain/src/plain.rs"]}
{"id": "C78", "title": "Arguments are only borrowed", "statement": "A macro call moves neither the values of its arguments nor the variables named in the format string: whatever their types, they can be used after the call as before it. Nothing in the code of a call is used after it was moved, and the value format_args! makes can be formatted any number of times: formatting it does not use up anything it has captured.", "quantifier": "all calls of format_args! and format_args_nl! with all format strings and arguments; all types of arguments and variables", "why_tests_cant": "a test with a type that is copied does not notice a move, and a test covers one spelling of one argument; the claim is about the code generated for every call", "anchors": ["macros/src/lib.rs: format_args, format_args_impl", "macros/src/to_tokens.rs: Scoped, impl ToTokens for Scoped<(FormatTrait, TokenStream)>, Scoped<FormatterArgs>"]}
{"id": "C79", "title": "Debug output of a formatter tells its style and options", "statement": "What `{:?}` and `{:#?}` show of a `stylish::Formatter` is exactly the style and the options in force, each field's value after its name: two formatters are shown the same if and only if they have the same style and options, whatever they write to. An implementation of `stylish::Display` that writes its own formatter with `{:?}` in a placeholder shows the surrounding style restyled by the attributes, and the options as written in the placeholder. `{:?}` is one line; in `{:#?}` every field is on a line of its own and every line is indented by four spaces for every bracket open around it; but for spaces, line breaks and commas the two texts are the same.", "quantifier": "all pairs of formatters with all styles, options and writers; all placeholders", "why_tests_cant": "widths and precisions are unbounded and there are many combinations; that no two look alike is a statement about all pairs", "anchors": ["core/src/formatter.rs: impl Debug for Formatter, FormatterArgs, Align, Sign, DebugHex", "style/src/lib.rs: Style, Color, Intensity (derive(Debug))"]}
{"id": "C80", "title": "How long the value of format_args! can be used", "statement": "The value of `format_args!(..)` can be kept in a variable with `let` and used in later statements exactly if no argument shown is a temporary or refers to one; variables named in the format string never prevent it. Whatever the arguments, it can be used in the statement the call is in, so `write!`, `writeln!` and `format!` take any arguments, including calls that return temporaries. It always refers to a temporary, so that it cannot be returned.", "quantifier": "all calls of format_args! and format_args_nl! with all format strings and arguments; arguments that are places, constants or temporaries", "why_tests_cant": "it is about which programs the borrow checker accepts: a compile-fail test settles one format string and one list of arguments, not all", "anchors": ["macros/src/lib.rs: format_args_impl (the `&match (..) { (..) => move |..| .. }`)", "macros/src/to_tokens.rs: ToTokens for (FormatTrait, TokenStream)", "core/src/lib.rs: format_args", "core/src/arguments.rs: Arguments"]}
{"id": "C81", "title": "Width, precision and alignment count what is seen", "statement": "A placeholder shows a text, `char`, `bool` or integer of std exactly as the documentation of std::fmt says for its sign, `#`, `0`, width, precision and alignment, all of it, with the spaces and zeros, in the placeholder's style: it is as long as the width or as the value needs, whichever is more, and stands to the left, right or in the middle. What is seen of a whole format string, as plain text, in HTML and on a terminal, is exactly these fields and the texts between them: colours and escape sequences do not count. So lines made by one format string line up whatever values that fit are shown: every piece starts in the same column.", "quantifier": "all format strings, all texts, characters, booleans and integers of any size as arguments, all specifications, all styles; all pairs of lines", "why_tests_cant": "all values of all lengths in all combinations of options, and that columns line up is a statement about all pairs of lines", "anchors": ["core/src/std_compat.rs: std_write, StdProxy", "core/src/arguments.rs: StdFmtOther, StdFmtDebug", "macros/src/to_tokens.rs", "core/src/formatter.rs: with_args"]}
{"id": "C82", "title": "Buffered streams lose nothing", "statement": "Put `io::Ansi` or `io::Plain` over a `std::io::BufWriter` or `LineWriter` (as `std::io::stdout()` is) of any capacity over any device: whatever short writes, interruptions and failures happen, the device has at every end a prefix of what had been written before followed by the bytes of `ansi::format` (`plain::format`); and when formatting, `finish` (for Ansi) and `flush` have returned Ok, it has exactly these bytes. A flush that failed can be tried again any number of times without losing or repeating a byte. Over a device that never fails, all of this comes to an end and returns Ok. A buffered stream that is dropped instead has handed the device a prefix of the same bytes, and all of them if the device never fails; if it fails, nobody is told.", "quantifier": "all arguments whose Display propagates errors, all capacities, all devices obeying the contract of std::io::Write, all schedules of short writes, interruptions and failures, all numbers of retries, flushing or only dropping", "why_tests_cant": "where the buffer fills up against where the styles change, and every schedule of the device: unboundedly many interleavings", "anchors": ["ansi/src/io.rs: Ansi, write, finish, flush", "plain/src/io.rs: Plain, write, write_all, flush", "core/src/io.rs: Write::write_all, Write::write_fmt, the examples with std::io::stdout()"]}
{"id": "C83", "title": "Complete lines are seen at once", "statement": "Over a line-buffered stream (`std::io::stdout()`): when formatting into `io::Plain` has returned Ok, everything up to any line break written has reached the device without a flush, whatever short writes and interruptions happened. The same holds of `io::Ansi` after `finish` if the device takes all it is offered in one call (or is interrupted, or fails); if it takes less, the end of a complete line can stay in the buffer until the next write or flush (counterexample proved), because `io::Ansi` writes text with `write` and not `write_all`.", "quantifier": "all arguments whose Display propagates errors, all capacities, all line-buffered streams without a line waiting in the buffer, all devices obeying the contract of std::io::Write, all positions of line breaks", "why_tests_cant": "all positions of line breaks, style changes and the end of the buffer, under all schedules of the device", "anchors": ["plain/src/io.rs: Plain::write_all", "ansi/src/io.rs: Ansi::write", "core/src/io.rs: Write::write_all, the examples with std::io::stdout()"]}
{"id": "C84", "title": "Threads that share a stream", "statement": "Any number of threads each do one thing after the other: format into an io writer of their own (`io::Ansi`, then `finish`, or `io::Plain`) around one shared stream, such as `std::io::stdout()`, or flush it, under any schedule of their calls to it. What the stream gets in the turns of one thread is in order and a prefix of the bytes of `ansi::format` (`plain::format`) of that thread's arguments one after the other, and all of them when the thread has returned Ok: what the others do loses, repeats or reorders nothing of it. Over a stream that takes something of whatever it is offered, a thread that gets enough turns returns Ok however the others' turns fall. With `io::Plain` over a stream whose `write_all` is one call, each piece of text arrives whole. If each thread keeps the stream to itself for a message or several (a lock), the messages arrive whole, in the order in which the lock was held, and a terminal shows each in its styles; a thread that holds the lock does turn by turn what it does when run straight on the stream. Without a lock an escape sequence of `io::Ansi` can be torn by another thread (counterexample proved).", "quantifier": "all numbers of threads, all lists of messages and flushes per thread, all arguments whose Display propagates errors, all streams obeying the contract of std::io::Write (with short writes, interruptions and failures), all schedules of calls, all orders of holding the lock, with write_all as one call or as std's loop of writes", "why_tests_cant": "the schedules of several threads are unboundedly many and not under a test's control", "anchors": ["ansi/src/io.rs: Ansi, write, finish", "plain/src/io.rs: Plain, write_all", "core/src/io.rs: Write::write_all, Write::write_fmt, the examples with std::io::stdout()"]}
{"id": "C85", "title": "A value that fails harms nothing but its own text", "statement": "A program makes any number of `write!` calls on one writer over a stream that does not fail, and carries on when the formatting implementation of a value returns an error by itself, or panics and the panic is caught. Every call returns what its own values make of it, whatever became of the calls before (`io::Write::write_fmt` reports such a failure as the error `formatter error`); and at the end, after `finish`, which succeeds, the output is that of all the text written, that of failed calls up to where they failed, each character in its style: on a terminal for `Ansi` and `io::Ansi` (with C14's conditions), which is back in its initial state; as a balanced page for `Html`; exactly the text for `Plain` and `io::Plain`; in an attributed `String`. So a failing value leaves no style behind for what follows.", "quantifier": "all sequences of calls with all values, failing or panicking at any point inside any nesting of styles, all streams that do not fail, under any schedule of short writes and interruptions for io", "why_tests_cant": "the points at which a value can fail, inside any nesting of styles and followed by any later calls, are unboundedly many", "anchors": ["core/src/write.rs: Write::write_fmt", "core/src/io.rs: Write::write_fmt, ErrorTrap", "core/src/formatter.rs: Formatter::with, Formatter::write_fmt", "ansi/src/ansi.rs: Ansi", "html/src/html.rs: Html", "core/src/string.rs: String"]}
{"id": "C86", "title": "Which calls a stream gets", "statement": "Text and markup reach the stream in calls of their own. Each piece of text (one `write_str`, whatever its style) reaches it whole, in a single call, in order, and an empty piece in none (`Plain` passes every piece on as it is, in one call); only `Html` cuts a piece, into one call for each character to escape and at most one for what is before, between and behind them. Markup takes no call as long as the style stays the same, and at most seven calls (`Ansi`, `io::Ansi`) or eight (`Html`) for each change of style, including the one back to the default at the end. If a call fails, the calls made are the first of these. For `io::Ansi` and `io::Plain` this counts the calls of `write` on a stream that takes all it is offered, i.e. system calls if it is unbuffered.", "quantifier": "all sequences of styled pieces of text, all `core::fmt::Write` streams that fail whenever they like, all arguments whether their formatting fails or not, all byte streams that take all they are offered", "why_tests_cant": "a bound on the number of calls for all sequences of pieces and styles", "anchors": ["ansi/src/ansi.rs: Ansi::write_str, Ansi::finish", "html/src/html.rs: Html::write_str, Html::finish", "plain/src/plain.rs: Plain::write_str", "ansi/src/io.rs: Ansi::write, Ansi::finish", "plain/src/io.rs: Plain::write_all", "core/src/io.rs: Write::write_all, Write::write_fmt"]}
{"id": "C87", "title": "Arguments with the names of keywords", "statement": "Whatever name an argument can be written with, `{name}` shows it: `format!(\"{kind}\", kind = v)` shows `v`, and for a name that is a keyword of Rust so does `format!(\"{type}\", r#type = v)`, as with std's macros. (False of raw identifiers: the argument is looked up as `r#type`, which no placeholder can name, so that no call with a raw argument name compiles; proved for all other names, together with the exact boundary and what a keyword in a placeholder means instead: always the variable in scope.)", "quantifier": "all names that can be written, all format strings, all other arguments", "why_tests_cant": "all identifiers, all format strings and argument lists", "anchors": ["macros/src/lib.rs: ArgsInput::parse, format_args_impl (named_args_names, Ident::new_raw)", "tests/tests.rs: capture_raw_strings_and_idents"]}
{"id": "C88", "title": "No argument is silently ignored", "statement": "An argument passed to a formatting macro is never dropped without a word: in a call that compiles, every argument is shown by some placeholder, and what is passed as text is in the text that is written. (False when a named argument is given again: `format!(\"{a}\", a = \"1\", a = \"2\")` compiles, evaluates both and shows \"2\" only, where std rejects the duplicate. Proved for every argument that is not repeated later under its name; for one that is, proved that its value has no effect on the call.)", "quantifier": "all format strings, all argument lists, all arguments in them, all variables in scope, all writers", "why_tests_cant": "all format strings and argument lists", "anchors": ["macros/src/lib.rs: ArgsInput::parse, format_args_impl (named_args_names, unused_named)"]}
{"id": "C89", "title": "A call written for std's format! can be taken over", "statement": "A call that std's `format!` accepts (leaving out counts taken from arguments, `width$` and `.*`) compiles unchanged with this crate's macros, and plain::format! and ansi::format! return the string that std's returns, or panic when it does. (False: a fill other than a space, white space before the closing brace, a named argument referred to by number, `{self}`, and raw argument names do not compile. Proved: these five are exactly the calls that do not compile, all others do and give the same string; and, the other way round, a call without attributes and without a name given twice is accepted by std.)", "quantifier": "all calls that std accepts: all format strings of std's grammar, all argument lists, all values, all variables", "why_tests_cant": "all format strings and argument lists of two macros at once", "anchors": ["macros/src/format.rs: Format::parse, FormatArg, FormatSpec", "macros/src/lib.rs: format_args_impl", "README.md: Integrate into std::fmt as much as possible"]}
{"id": "C90", "title": "The reported error is about the first mistake", "statement": "Which error a rejected call is reported with is determined by what is wrong with it: a positional argument after a named one first, then a fill that is not supported, then a format string that cannot be read; otherwise the first placeholder, in reading order, that refers to an argument that does not exist (by the number written, or the name that cannot be a variable), or takes its width or precision from an argument, in one placeholder the reference before the counts; and only if there is nothing of this kind, that an argument is not used. So a user who mends the reported mistake never has an earlier one left.", "quantifier": "all format strings, all argument lists, all errors", "why_tests_cant": "all combinations of mistakes in format strings of any length", "anchors": ["macros/src/lib.rs: ArgsInput::parse, format_args_impl, unused arguments check", "macros/src/format.rs: Format::parse"]}
{"id": "C91", "title": "Every choice of features compiles", "statement": "Whatever features are turned on in whatever packages of the project (by the user, by other packages, with either of Cargo's resolvers, with or without `--cfg stylish_proc_macro_expand`): every name mentioned in code that is compiled, or in the expansion of a macro used there, exists and is visible there and its crate is a dependency; everything that is re-exported is there; no name is defined twice; and the manifests only mention features and optional dependencies that exist.", "quantifier": "all builds that keep to the manifests, i.e. all sets of features of all packages", "why_tests_cant": "a test run compiles one choice of features; there are exponentially many, and more through other packages", "anchors": ["Cargo.toml: features, dependencies", "style/Cargo.toml: features, dependencies", "core/Cargo.toml: features, dependencies", "plain/Cargo.toml: features, dependencies", "ansi/Cargo.toml: features, dependencies", "html/Cargo.toml: features, dependencies", "macros/Cargo.toml: features, dependencies", "src/lib.rs: cfg(feature = ..)", "style/src/lib.rs: cfg(feature = ..)", "core/src/lib.rs: cfg(feature = ..)", "plain/src/lib.rs: cfg(feature = ..)", "ansi/src/lib.rs: cfg(feature = ..)", "html/src/lib.rs: cfg(feature = ..)", "macros/src/lib.rs: cfg(feature = ..)", "core/src/write.rs", "core/src/format.rs", "plain/src/format.rs", "ansi/src/format.rs", "html/src/format.rs", "macros/src/format.rs", "core/src/to_string.rs", "plain/src/to_string.rs", "ansi/src/to_string.rs", "html/src/to_string.rs"]}
{"id": "C92", "title": "Features are additive", "statement": "Turning on more features never takes anything away: every name (type, function, macro with all it expands to) that can be used from some crate in a build can be used from it in every build in which more features are on.", "quantifier": "all pairs of builds, one with more features than the other; all names, all crates", "why_tests_cant": "all pairs of feature sets", "anchors": ["src/lib.rs: cfg(feature = ..)", "style/src/lib.rs: cfg(feature = ..)", "core/src/lib.rs: cfg(feature = ..)", "plain/src/lib.rs: cfg(feature = ..)", "ansi/src/lib.rs: cfg(feature = ..)", "html/src/lib.rs: cfg(feature = ..)", "macros/src/lib.rs: cfg(feature = ..)", "Cargo.toml: features", "style/Cargo.toml: features", "core/Cargo.toml: features", "plain/Cargo.toml: features", "ansi/Cargo.toml: features", "html/Cargo.toml: features", "macros/Cargo.toml: features"]}
{"id": "C93", "title": "The features enable what the README says", "statement": "With any choice of features of `stylish`, the public names that a program can use are exactly those that the feature table of the README promises: `std` (on by default) the io module and io helpers, `alloc` (implied by std) String and what uses it, `macros` (on by default) the macros throughout the enabled modules, `ansi`, `html`, `plain` the module and the items that use it; each macro together with all it expands to.", "quantifier": "all choices of features, all paths and namespaces, both resolvers", "why_tests_cant": "all choices of features, and that nothing else is exported", "anchors": ["README.md: Features", "src/lib.rs", "Cargo.toml: features"]}
{"id": "C94", "title": "no_std and no allocator", "statement": "Without the feature `std` nothing that becomes part of the program links or mentions the standard library, and without `alloc` nothing links or mentions the alloc crate. (The latter with Cargo's resolver 2, the default; with resolver 1 exactly one thing does, stylish-style, exactly if `macros` is on, because the proc macro asks for its feature `alloc`.)", "quantifier": "all choices of features, all crates of the program", "why_tests_cant": "all choices of features; a test on a machine with std never notices", "anchors": ["style/src/lib.rs: no_std, extern crate", "core/src/lib.rs: no_std, extern crate", "plain/src/lib.rs: no_std, extern crate", "ansi/src/lib.rs: no_std, extern crate", "html/src/lib.rs: no_std, extern crate", "macros/src/lib.rs: no_std, extern crate", "Cargo.toml: features", "style/Cargo.toml: features", "core/Cargo.toml: features", "plain/Cargo.toml: features", "ansi/Cargo.toml: features", "html/Cargo.toml: features", "macros/Cargo.toml: features", "macros/Cargo.toml: stylish-style.features"]}
{"id": "C95", "title": "Boxed restylings with an allocator", "statement": "With the feature `alloc` (or `std`) of stylish, `Box<T>` is a `Restyle` if `T` is, so that a list of restylings of different kinds can be made. (False: no feature of stylish or stylish-core turns on `alloc` of stylish-style, where the implementation is. Proved: it is there if that is asked for of stylish-style itself, and, exactly, for a program that depends on stylish only with resolver 1 and `macros`.)", "quantifier": "all choices of features, both resolvers", "why_tests_cant": "all choices of features; in the tests of stylish-style the feature is on by default", "anchors": ["style/src/lib.rs: impl Restyle for Box", "core/Cargo.toml: features", "Cargo.toml: features", "style/Cargo.toml: features"]}
{"id": "C96", "title": "What can be sent between threads", "statement": "Each writer of stylish (the ANSI, HTML and plain ones, for text and for io) can be sent to another thread, shared between threads, unpinned, and kept over a caught panic exactly if the stream it writes to can. Colours, intensities, styles, style changes and attributed strings always can. The value of `format_args!` and a formatter can never be sent or shared (or kept over a caught panic), whatever the arguments are, but can always be moved when pinned.", "quantifier": "all streams, by which of the five auto traits they have; any nesting of writers", "why_tests_cant": "all types of streams; and a test that something is not Send does not compile", "anchors": ["ansi/src/ansi.rs: Ansi", "html/src/html.rs: Html", "plain/src/plain.rs: Plain", "ansi/src/io.rs", "plain/src/io.rs", "core/src/formatter.rs: Formatter", "core/src/arguments.rs: Arguments", "core/src/string.rs: String", "style/src/lib.rs"]}
{"id": "C97", "title": "Threads that share a writer", "statement": "Threads share one writer through handles that lock it for each `write_str` (a user's `impl Write` for a handle to a mutex, say), and each makes calls of `write!` one after the other, carrying on whatever comes of them (errors of values are ignored, panics caught). Whatever the order of the turns, the writer is where it would be if one thread had made all the writes in that order: every character is shown in its own style, no matter what others wrote in between. Of each thread exactly the writes of its turns were made, in order; with enough turns every call has returned, with its own result.", "quantifier": "all numbers of threads, calls and formatting implementations, all schedules, Ansi, Html, Plain, an attributed String or any writer that takes every write", "why_tests_cant": "all interleavings of the threads", "anchors": ["ansi/src/ansi.rs: Write for Ansi", "html/src/html.rs: Write for Html", "plain/src/plain.rs: Write for Plain", "core/src/string.rs: Write for String", "core/src/write.rs: Write::write_fmt"]}
{"id": "C98", "title": "Clones and defaults of writers", "statement": "A clone of a writer goes on where the writer was, and independently of it: whatever clones were taken on the way, what a finished writer has delivered is what it would have if everything written since the first of them was made had been written to one writer. A writer made by `Default` is a new one around the default stream.", "quantifier": "all histories of writes and clones, all streams whose clones have received what they have, all writers (Ansi, Html, Plain, the io ones, an attributed String)", "why_tests_cant": "all histories and streams", "anchors": ["ansi/src/ansi.rs: derive(Clone, Default)", "html/src/html.rs: derive", "plain/src/plain.rs: derive", "ansi/src/io.rs: derive", "plain/src/io.rs: derive", "core/src/string.rs: derive"]}
{"id": "C99", "title": "Names that Unicode counts as the same", "statement": "Spellings with the same normal form C are the same identifier in Rust, so a variable or an argument is found under every spelling of its name in the format string. (True of captured variables. False of arguments `name = value`: an argument is found under its name in normal form only, however it is spelled where it is given; in any other spelling the placeholder means the variable in scope, even if the argument is there.)", "quantifier": "all identifiers and their spellings, any normal form, all calls", "why_tests_cant": "all names and spellings; two spellings look the same in the source of a test", "anchors": ["macros/src/lib.rs: format_args_impl (named_args_names)", "macros/src/format.rs: identifier"]}
{"id": "C100", "title": "Markup within a formatter is text", "statement": "An implementation of Display may put a writer around the formatter it is given. What it writes there comes out as text in the style the implementation is shown in: the source of the markup it wrote, whatever styles that is about; so a page that results shows the source of the inner markup, and the styles of the two never mix.", "quantifier": "all outer writers (those that fail get the start of the source), all styles and texts written, Ansi, Html and Plain within, HTML around either", "why_tests_cant": "all writes within and all writers without", "anchors": ["core/src/formatter.rs: impl core::fmt::Write for Formatter", "ansi/src/ansi.rs: Ansi", "html/src/html.rs: Html", "plain/src/plain.rs: Plain"]}
{"id": "C101", "title": "A document written call by call is one format!", "statement": "Several calls of `write!` on `stylish::html(stream)` (`ansi`, `plain`, `io::ansi`, `io::plain`, an attributed String), and `finish`, add to the stream exactly what `html::format!(\"{:s}{:s}..\", format_args!(..), format_args!(..), ..)` returns for the same calls; the `format!` panics exactly if one of the calls returns an error or panics.", "quantifier": "all lists of calls, all accepting streams (byte streams: every schedule that keeps going), whatever was on the stream before", "why_tests_cant": "all numbers of calls and all styles at the seams between them", "anchors": ["src/lib.rs: ansi, html, plain, io::ansi, io::plain", "html/src/format.rs: format", "ansi/src/format.rs: format", "plain/src/format.rs: format", "core/src/format.rs: format", "core/src/write.rs: write!"]}
{"id": "C102", "title": "Values that change as they are shown", "statement": "A value may change something while it is shown (a counter in a Cell, an iterator that is used up). In write!(w, format, ..) the argument expressions are evaluated in order, each once; then every placeholder shows its value exactly once, in the order of the placeholders, in the style and with the options it says, up to the first that fails; nothing else asks a value. Building a format_args! shows nothing, and showing it again asks again. From a given state the output is one that values without a state would give, so everything said of those holds.", "quantifier": "all accepted format strings, all argument expressions and values with any shared state, all writers including failing ones", "why_tests_cant": "all values, all states and all orders in which placeholders mention them", "anchors": ["macros/src/lib.rs: format_args_impl", "macros/src/to_tokens.rs: ToTokens for (FormatTrait, TokenStream)", "core/src/arguments.rs: Arguments, StdFmtOther, StdFmtDebug", "core/src/std_compat.rs: StdProxy", "core/src/write.rs: write_fmt, write!"]}
{"id": "C103", "title": "A program that is killed at any moment", "statement": "Let a program write to io::Ansi or io::Plain in any sequence of write_fmt and flush calls and be killed at any moment, even in the middle of a call of the device that took a part of its bytes. Directly on the device, everything that the calls that returned Ok say is there; through a BufWriter or a LineWriter, everything said before the last flush that returned Ok is; through a LineWriter, io::Plain has also left there every complete line of the calls that returned Ok. Whatever else is there is a part, from its start, of what the rest of the program says: a terminal shows it in the right styles and nothing of a cut-off escape sequence, and the bytes are UTF-8 but for at most three at the end.", "quantifier": "all programs of write_fmt and flush calls, all formatted texts, all devices within the contract of io::Write (short writes, interruptions, errors), all moments of the kill, all buffer capacities, all kinds of terminals", "why_tests_cant": "crash points: every call of every program on every device is one, and each leaves something else behind", "anchors": ["ansi/src/io.rs: Ansi::write, Ansi::finish", "plain/src/io.rs: Plain::write, write_all", "core/src/io.rs: write_all, write_fmt, ErrorTrap"]}
{"id": "C104", "title": "A terminal that something else left in another rendition", "statement": "When the output of an ANSI writer begins on a terminal that someone else left in some colours, bold, underlined or in any other rendition, the terminal shows the characters of the text and nothing else, and how each of them looks is determined: once the text has gone back from some style to none at all, as its style says; before that, a colour or intensity is that of the style as soon as the text has had one, and what was left otherwise, and the other attributes are what was left. Text in no style is shown in what was left and leaves it so. finish leaves the terminal in its default rendition if any of the text was in a style, so the next writer's output is shown right; a writer dropped without finish leaves its last style to the next.", "quantifier": "all renditions the terminal may be in, all styled texts without control characters that begin a sequence, all divisions into writes, all sinks, both kinds of bold and faint, with and without C1, ansi::format and io::Ansi", "why_tests_cant": "the outcome depends on the rendition left behind and on the whole history of styles up to each character", "anchors": ["ansi/src/ansi.rs: Ansi::write_str, Ansi::finish", "ansi/src/io.rs: Ansi::write, Ansi::finish", "ansi/src/util.rs: foreground, background, intensity"]}
{"id": "C105", "title": "White space in the HTML output", "statement": "Put into a <pre> element, the HTML output is shown as the styled text that was written, except that a line feed at its start is lost if it is in no style (line breaks are normalised and NUL is dropped, as on every page): so it is shown exactly if and only if the text has no CR and NUL and does not begin with an unstyled line feed. In normal flow, where the browser collapses white space, the words of the text are shown, every character of them in its style, with one space between two of them; so the text reads as written if and only if it is words with single spaces between. It makes no difference whether finish was called.", "quantifier": "all styled texts, all divisions into writes, all sinks, finished or not, all tables of named character references", "why_tests_cant": "whether a line feed is the first token depends on the style of the first character and on every rule of the tokenizer; white space runs go across spans", "anchors": ["html/src/html.rs: Html::write_str, Html::finish", "html/src/format.rs: format"]}
{"id": "C106", "title": "The end of an output without its beginning", "statement": "If the first lines of an output are missing, as with tail or in a log that was rotated, what is seen of the rest is determined by the style of the last line feed that is missing. If that is no style, the rest is shown as if written by itself. Otherwise: of ANSI output, on a fresh terminal, every character is shown, and it is right from the first unstyled character on; before that, exactly those of foreground, background and intensity are not seen that have been the same since the missing line feed. Of HTML output, only the characters at the start that are in the style of the missing line feed are shown in no style, everything else is right; so HTML recovers at the first change of style, ANSI only where each attribute has changed.", "quantifier": "all styled texts, all lines at which to cut, all divisions into writes, all sinks, finished or not; ANSI also through io::Ansi; both kinds of bold and faint, with and without C1", "why_tests_cant": "depends on all the styles since the cut and on the style at the cut, for every text and every line", "anchors": ["ansi/src/ansi.rs: Ansi::write_str, Ansi::finish", "html/src/html.rs: Html::write_str, Html::finish", "ansi/src/io.rs: Ansi::write", "style/src/lib.rs: diff_from"]}
{"id": "C107", "title": "The HTML output in XML documents", "statement": "Taken as the content of an element in an XML document (XHTML, SVG, EPUB, feeds), what the `Html` writer wrote is well-formed exactly if no character of it is in a style and every character is one XML has; then it is read as the text that was written, with line breaks normalised, whatever markup or `]]>` was in the text. With a style anywhere in it it is not well-formed, because the attribute value is not in quotes; an XML processor must reject it.", "quantifier": "all sequences of writes of styled text, all streams below, with and without `finish`", "why_tests_cant": "texts and styles are unbounded; that every output with a style is rejected and every other is accepted is a statement about all of them", "anchors": ["html/src/html.rs: impl Write for Html, write_str, finish", "html/src/util.rs: foreground, background, intensity"]}
{"id": "C108", "title": "The HTML output in attribute values, titles and text areas", "statement": "Put in a quoted attribute value (`<a title=\"..\">`, with either kind of quote) or in a `title` or `textarea` element, what the `Html` writer wrote ends where it ends: no text can end the value, the tag or the element, add an attribute or change how the rest of the page is read. It is read as the text that was written (line breaks normalised, NUL as U+FFFD) if and only if no character is in a style. In an attribute value without quotes it is not safe: text with a space can add attributes.", "quantifier": "all sequences of writes of styled text, all streams below, with and without `finish`; all names of elements and attributes in small letters, all pages after it, all tables of named references that have the four used", "why_tests_cant": "an injection is one text among all texts, and depends on what follows in the page; texts are unbounded", "anchors": ["html/src/html.rs: impl Write for Html, write_str, finish", "html/Cargo.toml: askama_escape"]}
{"id": "C109", "title": "Lines picked out of an output", "statement": "If no line feed is written in a style, then every line of the `Ansi` or `Html` output is what a writer of its own would have written of that line of the text. So any lines of it, picked, repeated and put in any order, as by `grep`, `sort`, `uniq`, `tac` or `head`, are seen on a terminal or a page in the styles they were written in, and leave nothing switched on for what follows. If a line feed is in a style that does not hold.", "quantifier": "all sequences of writes of styled text in which line feeds are in the default style, all streams below; all lists of line numbers; all kinds of terminals of C71 and all tables of named references", "why_tests_cant": "it is about every text and every selection and order of its lines, both unbounded", "anchors": ["ansi/src/ansi.rs: impl Write for Ansi, finish", "html/src/html.rs: impl Write for Html, finish"]}
{"id": "C110", "title": "Searching in an output", "statement": "A word that is in one style in the text is found, letter after letter, in the output of `Ansi`, and escaped in the source written by `Html`, as by `grep` or a pager. Nothing else is found: what is found is in the text, in one style, unless the word begins with a character that markup is made of or (for `Ansi`) has an escape character. A word in several styles is not found. The same holds for the bytes of a word among those `io::Ansi` sends, which are found nowhere but where its characters begin, and with `io::Plain` for every word.", "quantifier": "all sequences of writes of styled text, all streams below, with and without `finish`; all words", "why_tests_cant": "it is about every text and every word, both unbounded; a false match may begin anywhere, also within markup or a character reference", "anchors": ["ansi/src/ansi.rs: impl Write for Ansi, finish", "html/src/html.rs: impl Write for Html, finish", "html/Cargo.toml: askama_escape", "ansi/src/io.rs: impl io::Write for Ansi, finish"]}
{"id": "C111", "title": "Terminals that know only some of the codes", "statement": "On a terminal that skips any set of SGR parameters other than 0 (one with eight colours, with none, or without faint text), every character of the `Ansi` output is still shown, in order and once. Text in the default style is shown plain; other text has the right foreground if the terminal knows its parameter, likewise the background, and the right intensity if the terminal knows 1, 2 and 22 (and bold and faint are not next to each other, or exclude each other); nothing else is switched on. After `finish` the terminal is as before. A colour that is not known is not shown as none, though: what was shown before it remains.", "quantifier": "all sequences of writes of styled text without control characters that begin something longer, all streams below, with and without `finish`; all sets of known parameters that have 0; all kinds of terminals of C71", "why_tests_cant": "it is about every text, every order of styles and every subset of the parameters; texts are unbounded and what remains on the terminal depends on the whole history", "anchors": ["ansi/src/ansi.rs: impl Write for Ansi, finish", "ansi/src/util.rs: foreground, background, intensity"]}
{"id": "C112", "title": "Changing a part of a text changes only that part of the output", "statement": "If a part of a styled text is replaced, the output of `Ansi` or `Html` changes only there: what comes before is the same, and what comes after is the same but for the one change of style at its beginning, which depends only on the style the replaced part ends in. If whole lines are replaced, added or removed and the style at their end stays the same, then the lines of the output before and after them are the same, so `diff` of two outputs (e.g. snapshots) shows just those lines.", "quantifier": "all sequences of writes of styled text before, in and after the part, all streams below; all replacements", "why_tests_cant": "it compares the outputs of every text with every edit of it, both unbounded; a writer may keep state that shows up arbitrarily far behind an edit", "anchors": ["ansi/src/ansi.rs: impl Write for Ansi, finish", "html/src/html.rs: impl Write for Html, finish"]}
{"id": "C113", "title": "Outputs that are normalised", "statement": "Normalising an output (Unicode form C, as editors, forms and databases do) gives the output of the same writes with each text normalised, and leaves it as it is if they are in normal form; so no markup is broken. This needs that no text written begins with a character that joins what stands before it (a combining accent), and with `Html` that none comes right after a character that is escaped.", "quantifier": "all sequences of writes of styled text that meet the condition, all streams below, with and without `finish`; every normalisation that obeys the laws of form C", "why_tests_cant": "it is about every text and every place where text and markup meet; the tables of Unicode have thousands of characters that join others", "anchors": ["ansi/src/ansi.rs: impl Write for Ansi, finish", "html/src/html.rs: impl Write for Html, finish", "html/Cargo.toml: askama_escape"]}
{"id": "C114", "title": "Outputs whose characters are replaced", "statement": "Replacing characters in an output one by one (line ends converted to \\r\\n, each line indented or quoted, characters transliterated or taken out), with printable ASCII characters and ESC left as they are, gives the output of the same writes with the characters replaced in the texts; with `Html` no character may be replaced by one that has to be escaped. If characters are taken out, a terminal still shows and HTML still reads as exactly the characters that are left, in their styles. On byte streams, ASCII characters may be replaced byte by byte.", "quantifier": "all replacements of characters by texts that leave printable ASCII and ESC as they are, all sequences of writes of styled text, all streams below, with and without `finish`", "why_tests_cant": "it is about every replacement, every text and every markup", "anchors": ["ansi/src/ansi.rs: impl Write for Ansi, finish", "html/src/html.rs: impl Write for Html, finish", "html/Cargo.toml: askama_escape"]}
{"id": "C115", "title": "Pages on which only some styles count", "statement": "On a page on which only some of the declarations in style attributes count (backgrounds are not printed, colours are the reader's own, a content security policy forbids inline styles), all of the text is shown, and every part of its style that counts looks as it says; a part that does not looks as on the page around, never as in the text before.", "quantifier": "all sequences of writes of styled text, all streams below, with and without `finish`; all choices of the declarations that count, all pages around", "why_tests_cant": "it is about every text and every choice of declarations; tests look at markup, not at what is seen", "anchors": ["html/src/html.rs: impl Write for Html, finish", "html/src/util.rs"]}
{"id": "C116", "title": "Outputs that are converted into each other", "statement": "A program that reads an ANSI output as a terminal does, or an HTML output as a page, and writes what it has read character by character with `Html`, `Ansi` or `Plain`, produces exactly what the original program would have produced with that writer; so converting an output and converting the result back changes nothing. From ANSI this needs text without ESC, and a terminal on which bold and faint exclude each other or no direct change between them.", "quantifier": "all sequences of writes of styled text that meet the conditions, all streams, both kinds of terminals", "why_tests_cant": "it is about every text and every sequence of style changes; a test compares a few outputs", "anchors": ["ansi/src/ansi.rs: impl Write for Ansi, finish", "html/src/html.rs: impl Write for Html, finish", "plain/src/plain.rs: impl Write for Plain"]}
{"id": "C117", "title": "Debug output of attributed strings and of writers", "statement": "`{:?}` and `{:#?}` of an attributed string show its text as a string literal that Rust reads as just this text, and for every change of style the byte where it takes place and the style; so two attributed strings are shown the same if and only if the same texts were written to them in the same sequence of styles, however split into writes. Of `Ansi`, `Html` and `Plain` on a `String` they show what the `String` has received and the style written in last, and nothing else; writers that are shown the same behave the same from then on. `{:?}` is one line, whatever the text.", "quantifier": "all sequences of writes, all texts, both layouts, whichever characters `core` takes for printable", "why_tests_cant": "texts may contain quotation marks, braces and pieces of Debug output; a test compares a few of them", "anchors": ["core/src/string.rs: derive(Debug) on String", "ansi/src/ansi.rs: derive(Debug) on Ansi", "html/src/html.rs: derive(Debug) on Html", "plain/src/plain.rs: derive(Debug) on Plain"]}
{"id": "C118", "title": "Writers of the user's own", "statement": "`stylish::Write` can be implemented by the user for a writer that passes what it is given on to another one, changed as it likes, with whatever it remembers: then everything is as if the changed texts had been written straight to the other writer, whether that fails or not, with any arguments. So with a writer that passes everything on in the default style `Ansi` writes the text alone and the HTML output has no markup, with one that exchanges styles each character is shown in the style that takes the place of its own, and a writer that passes everything on to two others gives each what it would have got alone; if one of these fails they are at most one text apart. A writer of the user's own for bytes that exchanges the styles is, over `io::Ansi`, like `io::Ansi` given these styles, the errors included.", "quantifier": "all such writers, all writers below them, all sequences of writes and all arguments of `write!`", "why_tests_cant": "the user's implementation is arbitrary; a test has one", "anchors": ["core/src/write.rs: trait Write, write_fmt", "core/src/formatter.rs: Formatter::write_str, with", "ansi/src/ansi.rs: impl Write for Ansi", "html/src/html.rs: impl Write for Html"]}
{"id": "C119", "title": "Debug output of byte writers and of changes of a style", "statement": "`{:?}` and `{:#?}` of `io::Ansi` and `io::Plain` on a `Vec<u8>` show the bytes written so far as numbers, in order, and of `io::Ansi` the style last written in, and nothing else; after a `write!` that succeeded these are the bytes and the style of `Ansi` on a `String`. Of a `StyleDiff` they show each attribute, as `Some` if it is changed and `None` if not, of `Foreground` and `Background` the colour. Two such values are shown the same if and only if they are the same; so what leads from one style to two others is shown the same if and only if these are the same. `{:?}` is one line.", "quantifier": "all writers with all bytes, all arguments of `write!`, all changes of a style, both layouts", "why_tests_cant": "the bytes are unbounded, and a test compares a few of the changes", "anchors": ["ansi/src/io.rs: derive(Debug) on io::Ansi", "plain/src/io.rs: derive(Debug) on io::Plain", "style/src/lib.rs: derive(Debug) on StyleDiff, Foreground, Background"]}
{"id": "C120", "title": "Texts shown with {:?} are one safe line", "statement": "A text or `char` shown with `{:?}`, `{:x?}` or `{:X?}`, whatever the width, precision and flags, appears as a literal of Rust that means just this text or character, every character of it in the style of the placeholder, and without control characters. So if all texts of a call are shown this way and the format string itself and the other values have no control characters, then what is written has none, whatever the texts: all of it is one line, a terminal shows just these characters, each in its style, and does nothing else (even if the texts are themselves escape sequences) and a browser shows them of the HTML output, also inside a `<pre>`; without the escape sequences of `ansi` just the text of `plain` is left.", "quantifier": "all accepted format strings whose texts are shown with `?`, all texts and characters, all styles, all terminals of C71, all choices of core which characters are shown as they are (control characters are not)", "why_tests_cant": "the texts come from outside and are unbounded; a test tries a few hostile ones", "anchors": ["macros/src/format.rs: FormatTrait, FormattingTrait::Debug", "core/src/std_compat.rs: std_write, write_str", "ansi/src/ansi.rs: Ansi::write_str"]}
{"id": "C121", "title": "Lines of outputs put side by side or behind other text", "statement": "If no line feed is written in a style, then whatever is made of whole lines of any finished outputs of `Ansi` and of other text between them (as by `paste`, `nl`, `sed 's/^/> /'`, or a tool that puts the lines of several programs behind their names) is seen on a terminal as it should: every character of the lines in its style and all other text in none, and the terminal is left as it was. The same holds of `Html` outputs on a page, if the other text is no markup. If a line feed is in a style then the other text gets this style.", "quantifier": "all numbers of outputs, all styled texts in them (without escape characters, or without CR and NUL, as C71 and C70 say), all arrangements of lines and all other text, all terminals of C71", "why_tests_cant": "the outputs, the arrangements and the text between are unbounded; a test shows a few of them", "anchors": ["ansi/src/ansi.rs: Ansi::write_str, finish", "html/src/html.rs: Html::write_str, finish"]}
{"id": "C122", "title": "Outputs read in another encoding", "statement": "An output in UTF-8 that is taken to be in another encoding that extends ASCII with one character per byte (a page without charset, a terminal set up for Latin-1) is the output of the same writes with each text misread: no escape sequence, tag or character reference is broken and none comes in. So a browser shows the misread text, each character in the style it was written in, and takes nothing for a tag but the spans; a terminal does the same if it does not know the C1 control characters. Text in ASCII is shown right. The same holds of the bytes sent by `io::Ansi`. A terminal that knows C1 may find escape sequences in the misread text.", "quantifier": "all encodings with one character per byte that extend ASCII, all sequences of writes of styled text (without CR and NUL on pages, without ESC on terminals), all streams below, with and without `finish`", "why_tests_cant": "it is about every encoding, text and markup", "anchors": ["ansi/src/ansi.rs: impl Write for Ansi, finish", "html/src/html.rs: impl Write for Html, finish", "ansi/src/io.rs: impl io::Write for Ansi"]}
{"id": "C123", "title": "Buffers of fixed size", "statement": "Writing styled text (or a format string) through `Ansi`, `Html` or `Plain` into a buffer of fixed size, as one does without an allocator, and finishing: if the bytes of the complete output fit behind what the buffer held, everything succeeds and the buffer holds it; if not, one of the writes or `finish` returns an error and the buffer has got a start of the output, never anything else. It does not matter whether the buffer takes strings whole or in part, and no room beyond the output is needed. The text plus 12 bytes per change of style suffices for ANSI, the text plus 5 bytes per character to escape and 78 per change for HTML.", "quantifier": "all sequences of writes, all format strings whose implementations pass errors on, all sizes, all contents before, all buffers that take what fits and fail otherwise", "why_tests_cant": "it is about every output and every size of buffer", "anchors": ["ansi/src/ansi.rs: impl Write for Ansi, finish", "html/src/html.rs: impl Write for Html, finish", "plain/src/plain.rs: impl Write for Plain", "ansi/src/ansi.rs: write_fmt"]}
