# Formal model of stylish-rs: design

## Layout

```
lean/Verif/Model/    the model, one file per crate area, every def cites /repo file:lines
  Basic.lean         Res/Act (Rust Result + panic + state), Str (List Char), UTF-8 lengths/slices
  Style.lean         style/src/lib.rs
  Formatter.lean     core/src/{formatter,display,write,arguments,std_compat}.rs  (Display programs)
  StyString.lean     core/src/string.rs
  Plain.lean, Ansi.lean, Html.lean            plain/src, ansi/src, html/src (fmt side)
  Io.lean            core/src/io.rs, ansi/src/io.rs, plain/src/io.rs
  StdWrite.lean      core/src/std_compat.rs  (the std_write! match, generated as the macro does)
  Nom.lean           the nom 7.1 combinators used
  Format.lean        macros/src/format.rs
  Expand.lean        macros/src/lib.rs + macros/src/to_tokens.rs
  MacroInput.lean    macros/src/lib.rs ArgsInput::parse on tokens
  Api.lean           format / to_*_string functions
  Borrow.lean        the writer traits with all their methods, `&mut W`
  Debug.lean         `{:?}` of a formatter
  DebugMore.lean     `{:?}` of attributed strings and of writers on a `String`
  DebugIo.lean       `{:?}` of byte writers on a `Vec<u8>` and of changes of a style
  StdDebug.lean      `{:?}` of texts and characters, external
  StdBuffer.lean     std's `BufWriter` and `LineWriter` (so `stdout()`), external
  Front.lean         the macro_rules!: format_args!, write!, writeln!, format! on tokens
  Rust.lean          the small Rust the generated code is written in: scopes, hygiene, evaluation
  Tokens.lean        the generated code: every quote! of macros/src
  Features.lean      the manifests and the cfg attributes: which names exist under which features
  Types.lean         the fields of the public types, as far as auto traits look at them
  Derives.lean       `derive(Clone, Default)` of the writers
  InFormatter.lean   a formatter as a stream for text (a writer around it)
  Live.lean          values that have a state: Display programs and the generated code for them
  Alias.lean         the short names of the writers in the main crate
lean/Verif/Spec/     independent specifications, none of which mentions the model's internals
  Text.lean          styled text = List (Char × Style); what a Display program writes
  Sink.lean          laws of a core::fmt::Write sink
  IoContract.lean    laws of a std::io::Write stream: `write` and `write_all` deliver what they report, streams that never fail
  IoSink.lean        such streams, following a script or a schedule of short writes and interruptions
  Buffered.lean      what a buffered stream holds, and the devices below it
  Calls.lean         streams that record the calls made on them
  CarryOn.lean       a program that goes on after a call failed or panicked
  RawNames.lean      the names of arguments as written, raw identifiers included
  Normal.lean        identifiers that differ only in how Unicode spells them
  InTurn.lean        a document written in several calls
  Live.lean          showing values that have a state, piece by piece; values that note when they are shown
  Killed.lean        a device whose calls stop being answered; programs of write_fmt and flush, what they said
  Stained.lean       how text looks on a terminal that something else left in another rendition
  Pre.lean           white space on a page: the element pre, collapsing
  Tail.lean          a text without its first lines, and how the rest looks
  Xml.lean           the content of an XML document
  Place.lean         text in titles and text areas of a page
  Pick.lean          lines picked out of an output
  Search.lean        words found in an output
  Partly.lean        a terminal that knows only some parameters
  Edit.lean          texts made of whole lines
  Recompose.lean     the laws of Unicode normalisation
  Replace.lean       replacing the characters of an output (C114)
  Policy.lean        the page of Css.lean if only some declarations count
  Convert.lean       copying a screen or a page
  DebugMore.lean     string literals as Rust reads them
  Adaptor.lean       writers of the user's own, which pass texts on
  Buffer.lean        Streams into a buffer of fixed size
  Charset.lean       UTF-8 read as an encoding with one character per byte
  Arrange.lean       a text made of lines of several outputs and of other text
  Quoted.lean        texts and characters to be shown with `{:?}`, character literals, calls without control characters
  DebugIo.lean       the words for bytes, byte writers and changes of a style
  Shared.lean        threads that share a stream: turns, schedules, what was written in them
  SharedWriter.lean  threads that share a writer
  Clones.lean        the history of a writer and its clones
  Terminal.lean      an SGR terminal (VT style parser)
  HtmlReader.lean    an HTML reader (tags, character references, open spans)
  Vt.lean            a video terminal (VT500 parser, all of SGR)
  Css.lean           what a page of text and spans looks like (style attributes, computed values)
  Cut.lean           what a browser shows of markup cut off by the end of the page
  Browser.lean       how a browser reads any page (the tokenizer of the HTML standard)
  Changes.lean       the number of style changes
  Lines.lean         lines of a text, the characters markup is made of
  Spelling.lean      which format strings differ only in spelling
  Std.lean           what std formatting options a stylish placeholder asks for
  Grammar.lean       printer / grammar of the README syntax
  Macro.lean         what a format string with arguments means
  Call.lean          what a macro call looks like in tokens
  StdFormat.lean     what std's format! gives
  StdCall.lean       the calls of std's format!: its grammar, its rules for arguments, its result
  Mistake.lean       what is wrong with a call, in reading order
  Features.lean      the README's feature table; what it means that a build compiles
  Borrow.lean        callers of a writer, calls through references
  Front.lean         what a user writes in a macro call
  Ownership.lean     which variables an expression of Rust moves
  Field.lean         how texts and numbers fill a placeholder, and what a format string of them shows
  Debug.lean         the words that describe a style and options; indentation
  Lifetime.lean      how long what a value refers to lives in Rust
  Whole.lean         a call in a place of a program, and the rules it has to keep
lean/Verif/Lemmas/   helper lemmas
lean/Verif/Props/    the property theorems, one file per group, with non-vacuity examples
lean/Verif/RepoTests.lean  the project's own tests and documentation examples, run in the model
```

## Modelling decisions

* `&str` is `List Char` (`Str`); byte lengths/offsets are UTF-8 byte counts, slicing by byte offset
  returns "panic" off a boundary. `&[u8]` is `List UInt8`, with core Lean's `String.utf8EncodeChar`.
* A function with `&mut self` returning `Result` is `S → Res E A × S`; a panic is the value
  `Res.panic`, an unbounded loop that ran out of its fuel is `Res.diverge`.
* A `Display` implementation is an arbitrary terminating program using the public Formatter API: the
  inductive interaction tree `Disp` (write_str / with / with_args / look at the formatter / return /
  panic) whose continuations receive the result of each call, so programs which ignore, retry after or
  convert errors are included. A std formatting implementation is a function from std options to a tree of
  `write_str` calls. Both are without a state here; values that read and change a state while they are shown are in
  Model/Live, and C102 says that from a given state they do what values without one do.
* Sinks (`core::fmt::Write`, `std::io::Write`) are arbitrary state machines. Laws (`Ok(n)` appended
  exactly `n` bytes, `Err` appended nothing, ...) are explicit hypotheses and have instances.
* A stream's `write_all` is either std's documented default loop (with the same fuel convention) or the stream's own,
  arbitrary but for its contract (`WriteAllContract`, Spec/IoContract).
* `nom` combinators are modelled one by one with the four outcomes ok / Error / Failure / panic.
* `unicode_ident::is_xid_start/continue`, `usize::MAX` are parameters (`Env`).
* The proc macro is modelled as a function from (format string, argument list) to either a compile error
  (panic value) or an expansion (tuple of argument expressions + statement list), and the expansion has an
  evaluator. In front of it `ArgsInput::parse` works on tokens in which an expression is one token.
* The generated code is modelled a second time, as code (Model/Tokens): every `quote!` is an expression of a small
  Rust with scopes, hygiene and an evaluator (Model/Rust). C74 says that it does what the expansion does. Which formatting
  traits the types of the arguments implement is part of the model (C76), as are references (a `&` too many or too few does
  not evaluate) and moves (C78); apart from that, Rust's type checker and the borrow checker are not modelled.

## Properties and how each is proved

| id | model | proof |
|----|-------|-------|
| C01,C02,C05 | Style | case analysis on attributes |
| C03,C04 | Style, a syntax of nested built-in restylings | induction on the nesting / the list |
| C06,C07,C09 | Formatter | induction on the interaction tree |
| C08 | Expand + Formatter | induction on the statements |
| C10 | Plain | induction on tree/writes |
| C11,C13 | StyString | invariant over write histories (offsets increasing boundaries) + refinement to styled text |
| C12 | StyString, Ansi, Html, Plain, Api | C11 + chunk-insensitivity |
| C14 | Ansi vs Spec.Terminal | simulation: tracked style = terminal style. Expected partial: text with ESC; bold↔faint on terminals where these are independent flags |
| C15–C18 | Ansi | same invariant; canonical form of output as a function of styled characters |
| C19–C23 | Html vs Spec.HtmlReader | simulation; reader state = writer state |
| C24,C25 | Io.writeAll | induction on fuel |
| C26,C27 | Io vs Ansi/Plain | refinement, program induction |
| C28,C29 | Io, all writers | program induction; prefix invariant |
| C30 | Io | case analysis + C25 |
| C31 | StdWrite vs Spec.Std | the generated finite table, lifted to all widths |
| C32 | Formatter | induction on std tree |
| C33–C36 | Nom, Format vs Spec.Grammar | parser round trip / soundness by induction. C36 expected partial: `()`, trailing comma, fill, `$`-counts are not accepted by the code |
| C37 | Format, Expand | expected partial: `fg=default`, `bg=default`, `normal` do not reset an inherited attribute |
| C38,C39,C40 | Expand | induction on pieces with the numbering state generalised |
| C41 | Format, Expand | induction on the parse |
| C42 | Expand | the parser only yields the nine basic colours; no combinator panics except at a fill (Lemmas/FillTodo.lean), and conversely |
| C43–C46 | Api | corollaries |
| C48 | MacroInput | induction on the tokens, both directions |
| C49 | Expand, Api vs Spec.StdFormat | corollary of C46 + induction on the pieces |
| C50–C52 | Ansi, Html, renderings | corollaries of C14/C19; induction with a bound per change |
| C53 | Expand, StyString, StdWrite | the generated program propagates errors, then C06 |
| C54 | Plain, Ansi, Html, io wrappers | C10/C18/htmlRender read-back before `finish`, on any `FmtSink`/`IoSink`; flush by unfolding |
| C55 | StyString, macros | C11 on the appended history; `{:s}` by the macro tree |
| C56 | Format, Expand | specification in Spec/Spelling.lean (`Alike`, `Numbered`, `SameEffect`); induction over the two trees, C46 on any writer |
| C57 | Format, Expand | the two trees are joined (texts at the seam merge); acceptance by the list of placeholders with their counts; output by `treeOutput_append` |
| C58 | Nom, Format, Expand | every parser leaves a suffix (Lemmas/NomFuel.lean, which also shows that the bounded loops of the model satisfy nom's unbounded loop equations: `many0_eq`, `separatedLoop_eq`); pieces consume; size by C39 |
| C59 | all | `PanicFree` (semantic: on every writer that does not panic) is closed under the generated code; slots in range by induction over the pieces; attributed strings by C11's segments; writers by induction over their actions |
| C60 | Ansi, Html | spec: `lines`, `ansiMark`, `printable` (Spec/Lines.lean); induction over the styled text of the rendering |
| C61 | IoAnsi, IoPlain | histories of calls with their answers (`AnsweredCalls`); induction over the history, from `write`'s contract (C30) and the `write_all` loop lemma |
| C62 | Borrow (the traits with all their methods, `&mut W`) | callers as decision trees, each call through its own number of references; induction over the references and the caller; simulation between a reference and its place |
| C63 | Front (the `macro_rules!`) on top of MacroInput and Expand | case analysis of the macro arms, then C48, C39 and C40; naturality of the expansion in the argument expressions |
| C64 | Front | `writeln!` is a proven exception (partial); full for `cfg(stylish_proc_macro_expand)` |
| C65 | IoAnsi, IoPlain, Spec/Utf8 (strict streaming decoder) | every prefix of the emitted bytes from `Emitted`, the decoder undoes the encoder, then the string theorems C14, C15, C18, C50, C60 |
| C66 | Format, Expand | C57 on three parts, with the part in the middle once `{:s}` and once the nested format string; C44 and C08 for the former |
| C67 | Format, Expand, Formatter | the tree with the outer list put before every list is again documented, supported and accepted; C46 on any writer, and induction over the pieces with: a list after a list is the two in one, if nothing is reset |
| C68 | Ansi, Html | the rendering functions (proved equal to what the writers deliver) over an append; a switch through the default style costs one more escape sequence unless one side is the default / equals the direct switch unless the styles agree |
| C69 | Expand, Formatter, Plain, Io | C46 on any writer; induction over the pieces with a relation between the tree and the tree without attributes; for values, induction over the program (a program that never inspects the formatter is style-blind) |
| C70 | Html vs Spec/Browser (WHATWG tokenizer, character references with a table of names as parameter, text and spans) | the strict reader of C19 is sound for the browser (simulation of the tokenizer on the pages the reader accepts, with any text after them), newline normalisation of a rendered text is the rendering of a normalised text |
| C71 | Ansi, IoAnsi vs Spec/Vt (DEC VT500 parser, all of SGR) | simulation over the styled text with the pen as state; on terminals with two flags the pen is described by the run since the last normal intensity; an invariant (introducers are never executed) for the converse |
| C72 | Ansi, IoAnsi, Html on failing streams vs Spec/Vt, Spec/Browser, Spec/Cut | what reached the stream is a prefix (C29, C65); a terminal's events only grow, so with C71 they are a prefix; for HTML every prefix is a rendering of the first characters, a switch of style and a proper prefix of one piece of markup, whose tokens are computed; for streams that take each call whole or not at all, by a program logic that tracks the set of outputs a failing action may leave |
| C73 | Html vs Spec/Css (style attributes, computed values) on top of Spec/Browser | the declarations of every style are computed segment by segment; induction over the styled text with the look of the open span as state; case analysis on weights and colours |
| C74 | the generated code itself (Model/Tokens) as expressions of a small Rust (Model/Rust: scopes with hygiene, evaluation) vs Spec/Names | each `quote!` evaluates to the value Model/Expand gives it, by cases and induction over the pieces; expected false in general (`Some`, `Default`), each missing condition is proved necessary |
| C75 | Model/Tokens, Model/Rust | non-interference: evaluating any code that mentions at most the given variables of the caller is the same in both places, by mutual induction over expressions; the generated code is such code, by induction over the pieces |
| C76 | Model/Tokens, Model/Rust with the traits each value's type implements | each placeholder's code is dead exactly if its trait is missing, by cases on the trait and induction over the pieces; with C39 this is a complete condition in terms of the grammar |
| C77 | all of the above joined: tokens, expansion, Rust fragment, formatter, writers, browser and terminal | composition of C76, C74, C46 with C10, C70, C73, C71, C26 and C43, with the hypotheses in terms of the grammar only |
| C78 | generated tokens (Model/Tokens) against which variables an expression of Rust moves (Spec/Ownership: place and value contexts, `move` closures, copied types) | induction over the pieces and arguments; lifetimes are not modelled here, see C80 |
| C79 | Debug (`impl Debug for Formatter`, the derives it uses, `debug_struct` and `PadAdapter` of core) | the words of the text, the same with and without `#`, are read off by induction over what is shown; each determines its field |
| C80 | generated tokens (Model/Tokens) against how long what a value refers to lives in Rust (Spec/Lifetime: temporary scopes and their extension, constant promotion, what closures capture) | induction over the pieces: what the closure captures is exactly the arguments used; so the references in the value are one to the closure and those to these arguments |
| C81 | std's own types (Model/StdPad: `Formatter::pad`, `pad_integral`, digits) under the whole pipeline, against the documentation of std::fmt (Spec/Field) | what a program of std writes is computed through its calls; the pieces one after the other as in C46; lengths of fields and rows by arithmetic and induction over the pieces |
| C82 | io::Ansi, io::Plain over Model/StdBuffer (`BufWriter`, `LineWriter`) over any device | the buffered streams obey the stream contracts (what counts as written is device then buffer), so C26, C27, C29 apply; flush empties the buffer; termination from a bound on interruptions in a row |
| C83 | the same, lines | invariant: no line break is in the buffer, kept by `write_all` always and by `write` if the device takes all it is offered; counterexample with short writes |
| C84 | io::Ansi, io::Plain in threads around one stream, each with a list of jobs (Spec/Shared: turns of a schedule, holds of a lock) | an action on a thread's view of the stream, given one more turn, makes exactly the call it was waiting for (closed under sequencing, loops, traps); so what a thread's turns added is what C29 says of its run; alone: simulation with the run on the stream itself; returns: bound on the turns needed; torn: counterexample |
| C85 | all writers, `write_fmt`, values that fail or panic (Spec/CarryOn: calls one after the other, results ignored, panics caught) | by induction on the calls: on a writer that takes every write a call makes the writes of its denotation and ends as it says; then C10, C11, C14, C15, C19; for io the writes settle with enough fuel and the trap stays empty |
| C86 | Ansi, Html, Plain, io::Ansi, io::Plain around a stream that records its calls (Spec/Calls) | the `Emits` logic with the list of calls in place of the text; then counting over the pieces |
| C87 | MacroInput, Expand; Spec/RawNames (names as written, `r#` included) | expected false of raw identifiers: the name keeps its `r#`, which is no identifier of the grammar, so the argument is unused (C39, C35); the other names by the tree of `{name}` |
| C88 | MacroInput, Expand | expected false of names given twice: the map from names to positions keeps the last; the others by the unused-argument check (C39) and the value each placeholder shows (C38) |
| C89 | Format, MacroInput, Expand, StdWrite; Spec/StdCall (std's grammar and argument rules, written down separately) | expected false; the exact boundary: the first piece with a foreign fill or white space stops the parser (as for C42), else the two trees are the same and C39/C49 apply |
| C90 | Format, MacroInput, Expand; Spec/Mistake (first mistake in reading order, over syntax trees) | induction over the pieces: with nothing wrong before it, a piece's expansion fails exactly with its mistake; the parse-level errors are C42 |
| C91 | Features (tables of the manifests, of all cfg'd items, of the names the code and the macros mention) | Horn closure of Cargo's rules from the facts a cfg gives, checked by the kernel for each piece of code, with a soundness theorem for all builds |
| C92 | Features | no cfg is negative; induction over how a name is resolved |
| C93 | Features; Spec/Features (the README's table) | the resolved build is described outright and shown equal to the least one; names by completeness of the routes to them |
| C94 | Features | as C93: what mentions std or alloc needs the feature |
| C95 | Features | expected false; exact boundary |
| C96 | Types (the fields of the public types, Rust's rules for auto traits) | computation over the fields, for any types chosen by the user |
| C97 | Ansi, Html, Plain, StyString, `write_fmt` in threads around one writer (Spec/SharedWriter: handles, turns of a schedule) | a program on a handle with `n` turns makes the first `n` writes of its denotation, by induction over the program; so what a thread waits for is the next of its writes; then induction over the schedule, and C10, C11, C14, C15, C19 for the writes in the order of the turns |
| C98 | Derives (`Clone`, `Default`) for all writers (Spec/Clones: the history of a writer and its clones) | induction over the history with what was delivered and the current style as invariant |
| C99 | MacroInput, Expand; Spec/Normal (an arbitrary normal form; which names Rust normalises) | expected false of named arguments: the name in the literal is looked up as it is; exact boundary by the tree of `{name}` (C39), the rest by the value each placeholder shows (C38) |
| C100 | InFormatter, Formatter, Ansi, Html, Plain | a writer makes the same calls on two streams that answer alike (lock step); one of them a list of calls, whose text C17/C19/C10 describe |
| C101 | Alias, Expand, Api, all writers; Spec/InTurn (calls in turn; the format string `{:s}{:s}..`) | the tree of `{:s}{:s}..` (C46) writes what the calls write in turn, up to the first failure; then the outputs of both (C17, C19, C85) |
| C102 | Live (Display programs with a state outside the writer; the same expansion) ; Spec/Live (pieces in order) | induction over the pieces as for C46, with the state; a program with a state, from a given one, is turned into a stateless program in continuation-passing style |
| C103 | Io, StdBuffer ; Spec/Killed (a device whose calls stop being answered; programs of write_fmt and flush) | the device of a killed process obeys the stream contracts; invariants kept whatever the outcome (what the device has it keeps), induction over the steps; the terminal's view from C71 and UTF-8 prefixes |
| C104 | Ansi, Io ; Spec/Vt, Spec/Stained (how a character looks on a terminal that was in another rendition, from the styles up to it) | induction over the text: the rendition is a function of the one left and the styles so far, one SGR sequence at a time |
| C105 | Html ; Spec/Browser, Spec/Pre (the element pre, collapsing of white space) | from the tokens of C70: which of them comes first; induction over the text for the collapsing |
| C106 | Ansi, Html, Io ; Spec/Vt, Spec/Browser, Spec/Tail (a text without its first lines; how characters look after the cut) | the cut commutes with rendering (induction over the text); invariant of the pen and the styles since the cut; tokens of the rest for HTML |
| C107 | Html, Spec/Xml | An XML 1.0 content reader (tags, quoted attributes, references, nesting, `]]>`, the ranges of characters), run on the writer's rendering: by induction on the text; the first styled character stops it at the first character of the attribute value. |
| C108 | Html, Spec/Browser (the tokenizer's attribute value states), Spec/Place (text-only elements) | By induction on the text: each escaped character is one character of the value, the markup is read as it is; the value is longer than the text as soon as there is markup. Unquoted values: a counterexample. |
| C109 | Ansi, Html, Spec/Pick (lines, picks of them) | By induction on the text: a switch has no line feed and every line begins and ends in the default style, so the lines of the rendering are the renderings of the lines; then C71 and C70/C51 for each. A styled line feed: a counterexample. |
| C110 | Ansi, Html, Spec/Search (words in one style, HTML source of a word, characters of markup) | For any markup whose changes begin with a character no text begins with, and whose character codes can be read off: a match that begins at a character goes on in step with the text and no change comes in between; it cannot begin within markup as the first character does not occur there. Induction on the word and on the text. Other words: a counterexample. For byte streams: the first byte of a character tells its length and is never one of the others, so a word is found among the bytes just if it is in the text they encode. |
| C111 | Ansi, Spec/Partly (the terminal of Spec/Vt that skips unknown parameters) | Invariant over the text: the pen is plain in the default style, and each of foreground, background and intensity is right if the parameter of its present value is known, since a value is only entered by its own parameter or by a reset. An unknown colour after a known one: a counterexample. |
| C112 | Ansi, Html, Spec/Edit (whole lines) | The output of a text in parts is that of the parts, each started in the style the one before ends in; the output of the last part depends on that style only in its first change. Whole lines of text are as many whole lines of output, as markup has no line feeds. Different styles at the end: a counterexample. |
| C113 | Ansi, Html, Spec/Recompose (normalisation, by its laws) | A text may be cut for normalisation before ASCII characters and before the first character of each write, so the output is normalised piece by piece: markup is left as it is, and escaped characters are cut points of the text. Induction on the writes, and on the text from one escaped character to the next. An accent at the start of a write: a counterexample. |
| C114 | Ansi, Html, Spec/Replace (replacements of characters) | Markup is printable ASCII and ESC, so it is left as it is; escaping and replacing commute if nothing is replaced by a character to be escaped; a replaced character is never empty, so the same changes of style are written. With characters left out: induction over the text for the terminal's pen and the reader's stack, which are those of the last change. For byte streams: a byte below 128 is a character, and all bytes of other characters are above. `‹` replaced by `<`, and capitals: counterexamples. |
| C115 | Html, Spec/Policy (the page of Spec/Css, with the declarations that count) | The declarations of a style are one for each part that is not the default, in any order of filtering; spans are never nested, so what does not count is as on the page. Induction over the text for the stack of open spans, as for C73. White text on blue, printed: a counterexample to its being readable. |
| C116 | Ansi, Html, Spec/Convert (copying a screen or a page) | What a terminal or the reader gets is the styled text (C14, C19), whose look determines the style; the output depends on the styled text only (C16, C22), not on how it is split into writes. |
| C117 | Model/DebugMore (the derived `Debug`s and `core::fmt`'s builders), Spec/DebugMore (string literals as Rust reads them, words) | Induction over the text: each escaped character is read back, `\u{…}` by induction over the digits; the indentation of `{:#?}` does not touch the literal because it has no line break. The words after it give the list of styles, by induction; the string is determined by its text and starts (C11). |
| C118 | Formatter, Ansi, Html, Spec/Adaptor (writers that pass texts on) | Induction over the writes: a run through such a writer is the run of the concatenation of what it passes on (append lemma of `writeChunks`); `write!` makes the writes of its arguments (C06, C53). Then C14, C16, C19 for the changed texts. For byte writers: induction over the fuel of the `write_all` loop. |
| C119 | DebugIo, DebugMore, Io, Style | As C117: the words of the output, by induction over the bytes; numbers are read back with `ofDigitChars`. The bytes are those of C26; C01 for differences. |
| C120 | StdDebug (`Debug` of `str` and `char` after std's source), Quoted | The loop of `impl Debug for str` writes each character's escape in order; literals are read back with C117's reader; digits are no control characters, by strong induction; lifted along the pieces of the format string with C46 and C81; C71 for terminals, C70 and C105 for pages. |
| C121 | Arrange, Pick | The lines of a finished output are what writers of their own write of the lines (C109), also without the line feed, as it is in no style: `chomp` commutes with rendering; text without style is rendered as itself. Then C71 line by line, and C51, C70 for pages. |
| C122 | Charset, Replace | Misreading replaces each character on its own, ASCII characters by themselves and others by characters outside ASCII, as the bytes of their UTF-8 are ≥ 128; so C114 applies, then C70; C26 for bytes. |
| C123 | Buffer, InFormatter | The writer makes the same calls on the buffer as on a `String` as long as it succeeds (`SameAnswers`), and the string only grows, so the first call that does not fit shows that the output does not fit; C52 for the sizes. |
| C47 | Ansi, Html | expected false in general (counterexample) with a partial theorem |

## Trusted base

**Kernel and axioms.** Lean 4.33.0's kernel. No axiom is declared anywhere; no proof uses
`native_decide`/`bv_decide`. Every theorem listed in MANIFEST.json depends on a subset of `propext`,
`Classical.choice` and `Quot.sound` (checked with a script that walks the environment; `vcheck` repeats
this). Mathlib is not imported: the development uses core Lean only.

**That the model is the code.** The model was written by hand from the text of /repo; nothing connects the two
mechanically. Each definition cites the lines it models. Every `.rs` file outside `tests/` is covered as
follows.

| code | modelled as | left out |
|---|---|---|
| style/src/lib.rs | Model/Style, Model/Debug, Model/DebugIo, Model/Derives (derives) | `no_std`, doc examples |
| core/src/formatter.rs | Model/Formatter, Model/Debug (`impl Debug`, `{:?}` and `{:#?}`; the `inspect` node of a Display program stands for it) | `{:?}` with other options |
| core/src/display.rs, write.rs, arguments.rs | Model/Formatter, Model/StdWrite, Model/Expand (the `write!`/`writeln!` macros), Model/Borrow (`&mut W`, provided methods as overridable ones) | – |
| core/src/string.rs | Model/StyString, Model/Derives, Model/DebugMore (derives) | – |
| core/src/std_compat.rs | Model/StdWrite: the `macro_rules!` accumulator step by step | – |
| core/src/io.rs, ansi/src/io.rs, plain/src/io.rs | Model/Io, Model/Borrow (`by_ref`, `&mut W`, `write_fmt` as a method), Model/DebugIo (`Debug` on `Vec<u8>`s) | `Debug` on other streams |
| core,ansi,html,plain `format.rs`, `to_string.rs` | Model/Api, end of Model/Expand, Model/Front (the `format!` macros) | `String` capacity |
| ansi/src/{ansi,util}.rs | Model/Ansi, Model/DebugMore (`Debug` on `String`s) | `Debug` on other streams |
| html/src/{html,util}.rs | Model/Html, Model/DebugMore (`Debug` on `String`s) | `Debug` on other streams |
| plain/src/plain.rs | Model/Plain, Model/DebugMore (`Debug` on `String`s) | `Debug` on other streams |
| macros/src/format.rs | Model/Nom + Model/Format | – |
| macros/src/lib.rs, to_tokens.rs | Model/MacroInput, Model/Expand, Model/Tokens (the code generated), Model/Front (the `cfg(stylish_proc_macro_expand)` parser) | how `syn` makes an `Expr` out of tokens (an expression is one token here), spans of error messages, type and borrow checking of the generated code beyond what evaluating it needs |
| core/src/lib.rs | Model/Front (`format_args!`, `_format_args!`), Model/Features (re-exports, feature gates) | `cfg(doc)` |
| src/lib.rs, */src/lib.rs, Cargo.toml, */Cargo.toml | Model/Features (re-exports, feature gates, features, dependencies), Model/Alias (the functions `ansi`, `html`, `plain`) | documentation, versions, dev-dependencies, the `_tests` features |

**External code, modelled by its documented behaviour.**

* `nom` 7.1 combinators (Model/Nom): ordered choice with backtracking on `Error` but not on `Failure`,
  `many0`'s guard against empty matches, `separated_list0` not consuming a trailing separator.
* `askama_escape` 0.10: the table `< > & " '` and the way it writes runs between replacements (Model/Html).
* `std::io::Write::write_all` (the default method, or a stream's own), `core::fmt::Write`/`std::io::Write` sinks (arbitrary state
  machines), `String` as a sink that never fails, `usize::from_str` on digits, `str::replace`, `HashMap`
  collected from pairs (last one wins), `str` slicing (panics off a boundary).
* Threads (Spec/Shared, C84 only): a call of the shared stream is atomic (its lock, or the operating system), everything
  else a thread does is its own; a schedule is any list of thread numbers. Whether `write_all` is one call or std's loop
  of `write`s is a parameter. C84_alone ties the turn-by-turn run to the run of the model straight on the stream.
* Threads that share a writer (Spec/SharedWriter, C97 only): a `write_str` is atomic (a lock), as above.
* Rust's rules for auto traits (`has` in Model/Types, C96 only); `Clone` and `Default` of streams: arbitrary, C98 assumes
  that a clone has received what the original has.
* `std::io::BufWriter` and `LineWriter` (Model/StdBuffer), function by function after std's source, for C82 and C83 only. How much
  of an unaccepted rest `LineWriter::write` buffers is arbitrary (`keep`; `stdKeep` is the choice of Rust 1.80). `Stdout` is a
  `LineWriter`; its lock and its treatment of a closed descriptor are not modelled.
* Cargo's feature resolution (`rules`, `Resolved` in Model/Features) and rustc's name resolution (`Usable`): paths in
  namespaces, re-exports in all of them, visibility as reachability of the path, no types; C91–C95 only. The tables of
  which file mentions which names were made by reading the files.
* std's format-string syntax (`readStdSpec`), used to give meaning to the format string that `std_write!`
  assembles. Newer std versions limit width/precision to `u16::MAX`; the model has no such limit.
* The `Display` of `str`, `char`, `bool` and the integers, and the integers' `Debug`, `LowerHex`, `UpperHex`, `Octal`
  and `Binary` (Model/StdPad), for C81 and C120 only, and
  the `Debug` of `str` and `char` (Model/StdDebug), for C120 only; everywhere else what an argument's std implementation writes is arbitrary.
* `unicode_ident` (`Env`, arbitrary predicates; theorems about the grammar assume the few facts in
  `Env.Lawful`, e.g. that digits and punctuation do not start identifiers) and `usize::MAX` (parameter).
* `with_builtin!` and `expand_expr` (Model/Front): an arbitrary partial function from expressions to the literals
  they expand to.
* `proc_macro::Ident::new_raw` panics exactly for `_ super self Self crate`; `Ident::to_string` keeps the `r#` of a raw
  identifier. Names are compared as strings of characters; that Rust normalises identifiers (also those made by
  `Ident::new_raw`) but not string literals comes in only with C99, everywhere else names are taken to be in normal form.
* Rust itself, for the generated code (Model/Rust): local variables of the macro's own tokens are separate from the
  caller's, all other names are looked up where the caller is, a local variable cannot shadow a constant or constructor,
  trait methods are found only if the trait is in scope, evaluation is from left to right, `?` returns the error.
* `Display` implementations are assumed to terminate and to reach the writer only through the formatter
  they are given (Rust's borrow rules give the second part).
* User implementations of `Restyle::apply` are arbitrary functions on styles (pure and total).

**Specification side.** The terminal (Spec/Terminal) understands `ESC [ params m` with the parameters 0, 1,
2, 22, 30–37, 39, 40–47, 49, 90–97, 100–107, in two kinds (bold and faint as one exclusive attribute, or as
two independent flags). The video terminal (Spec/Vt) is the DEC VT500 parser with C0, C1, escape and control
sequences, strings, and all of SGR; other control functions have no effect on the pen. The HTML reader (Spec/HtmlReader) is a tag/character-reference scanner, not the
WHATWG algorithm: CR and NUL normalisation are outside it. The browser (Spec/Browser) is the WHATWG tokenizer
with preprocessing, character references (the table of names is a parameter; assumed: `lt; gt; amp; quot;` and
that `;` is only the last character of a name), all data, tag and attribute states, and tree construction for text
and `span`; comments, DOCTYPE and CDATA lead to a state about which nothing is said. CSS is the same in both: the
declarations the writer uses, anything else is unreadable. What a page looks like (Spec/Css) is computed from style
attributes in general form (case, white space, `#rgb`, weights by number, the last declaration wins, inheritance); the
table of colour names is a parameter, other properties and value forms are unreadable.

## Findings: where the code does not do what a user would expect

Each is a proved counterexample or an exact characterisation.

1. Bold→Faint (and back) emits only `2` (`1`), which on terminals where these are independent flags shows
   bold and faint together: `C14_bold_faint_counterexample`; `C14_exact` says that this and the next one are the only failures.
2. `Ansi` does not escape ESC in text: `C14_esc_counterexample`; nor U+009B and the other C1 introducers:
   `C71_c1_counterexample`; `C71_exact` says exactly which text is safe on which terminal.
3. `(fg=default)`, `(bg=default)` and `(normal)` do nothing inside a styled context, because the macro diffs
   the attributes against the default style: `C37_counterexample`, `C37_exactly_when`.
4. Of the documented grammar `()` and a trailing comma in the attribute list are rejected, a fill other
   than a space and `$` counts are `todo!()` panics: `C36_counterexamples`. The bright colours cannot be named
   in a format string: `C36_bright_rejected`.
5. After a failed style change `Ansi`/`Html` can be out of step with the stream: `C47_*_counterexample`,
   with `C47_*_exact` saying exactly when.
6. HTML: `Blue` and `BrightBlue` (and similar pairs) are different strings for the same CSS colour:
   `C23_same_look_counterexample`.
7. `io::Write::write_fmt` returns Ok if the Display program swallowed an I/O error; if it returns an error
   of its own later, the *most recent* I/O error is reported (`C28_write_fmt_error`).
8. `io::Ansi::write` with an empty buffer emits the style change (`C30_write_contract` is stated so as to
   allow it), unlike `Ansi::write_str`.
9. Macro arguments: a duplicated named argument is accepted silently if referenced, the last one wins (see
   C38); named arguments cannot be referenced by position; `{self}`, `{_}`, ... panic in the macro;
   `{:0}` is the zero flag, not width 0 (as in std).
10. Macro calls: `::x = e` and `<T>::x = e` count as the named argument `x` (the guard looks only at the
    number of segments); `r#n = 1` has the name `r#n`, so `{n}` does not find it.
11. `writeln!` takes only a literal format string: `writeln!(w, concat!("a", "b"))` does not compile although
    `write!(w, concat!("a", "b"))` does: `C64_writeln_counterexample`.
12. HTML: CR at the end of one style and LF at the start of the next are one line break in the text but two in a
    browser, because there is a tag in between: `C70_crlf_counterexample`.
13. In HTML the bright variants of yellow, blue, magenta, cyan and white look like the plain ones (and bright red,
   `#af0000`, is darker than red, `#ff0000`): `C73_same_color`, `C73_same_look_counterexample`. Bold and faint are
   relative (`bolder`, `lighter`) and cannot be seen on pages of weight 900 and above, 100 and below: `C73_weights`.
14. The generated code mentions `Some` (to_tokens.rs:102-112) and `StyleDiff::default()` (to_tokens.rs:99) without a
   full path. In a module with `#![no_implicit_prelude]` no call with a placeholder compiles (`C74_needs_Default`,
   `C74_needs_Some`), and a function `Some` of the caller's is called instead: `C74_not_always`. A constant `diff` in
   scope is an error as well (`C74_needs_names`). All other names are given by full paths.
15. A line that ends in a short write can stay in the buffer of a `LineWriter`: `C83_ansi_short_writes`.
16. Two threads with writers of their own around one stream, which both write styled text, tear each other's escape
   sequences and styles (`C84_torn`); around one shared writer they do not (C97).
17. An argument named by a keyword, `r#type = 1`, can never be used: `C87_raw_never`. A name given twice drops the first
   argument silently: `C88_*`. What std's `format!` takes and `stylish::format!` does not: `C89_*`.
18. `alloc` of stylish does not make `Box<T>` a `Restyle`: `C95_counterexample`.
19. Names in format strings are not normalised: `format!("{é}", é = 1)` does not compile if `é` is spelled with a
   combining accent: `C99_counterexample`.
20. An ANSI writer takes it that the terminal is in its default rendition. Where it is not, unstyled text is shown in what
   is left (`C104_unstyled`), and a writer dropped without `finish` leaves its last style to the next (`C104_dropped`).
21. HTML output has its line breaks as they are: they are seen only in a `pre` or the like (`C105_flow`), and there an
   unstyled one at the start is lost (`C105_pre_counterexample`).
22. A style that goes over a line end is lost to whoever sees only the later lines (`C106_ansi_exact`,
   `C106_html_exact`): to be safe, the line feed itself should be unstyled (`C106_ansi_clean`).
23. The HTML output is no XML as soon as there is a style in it: `style=color:red` has no quotes (`C107_styled`,
    `C107_styled_counterexample`); an XHTML page with it is rejected as a whole.
24. The HTML output is safe in quoted attribute values, but not in unquoted ones (`C108_unquoted_counterexample`).
25. A line feed written in a style makes the lines of the output depend on each other: `grep` or `sort` on it then shows text in
    the wrong style (`C109_styled_break_counterexample`).
26. On a terminal with eight colours bright colours are not left out: the colour before them remains, e.g. bright green text after
    red text is red (`C111_stale_counterexample`).
27. A text in another style that begins with a combining character (an accent whose letter is in the style before) joins the last
   character of the markup if the output is normalised (form C): `m` and an acute accent are `ḿ`, so the escape sequence is one no
   more, and `>` and a long solidus are `≯`, so the tag is not closed (`C113_accent_counterexample`).
28. HTML output that is transliterated may get markup: some programs make `<` of `‹` or of `«` (`C114_quotes_counterexample`); it has
   to be transliterated before it is written. ANSI output in capitals deletes lines (`C114_capitals_counterexample`).
29. White text on a dark background cannot be read when the page is printed without backgrounds (`C115_printed_counterexample`).
30. UTF-8 must not be sent to a terminal that is set up for Latin-1 and knows C1 control characters: `ě` then begins an escape
   sequence (`C122_c1_counterexample`). For other terminals and for pages a wrong encoding is harmless.
