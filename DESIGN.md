# Formal model of dockerfile-parser-rs in Lean 4

## 1. Shape of the model

Code base: a PEG grammar (`src/dockerfile_parser.pest`, interpreted by the `pest` crate), a
conversion layer from pest pairs to typed instructions (`src/instructions/*.rs`, `src/util.rs`),
and pure logic on top (`splicer.rs`, `image.rs`, `stage.rs`, `dockerfile_parser.rs`).

| module (under `lean/Verif/`) | models |
|---|---|
| `Basic` | Rust `str` as `List Char` with UTF-8 byte lengths; `split_at`, byte slicing |
| `Model/Peg` | pest: expressions, rule kinds (normal, silent, atomic, compound-atomic), tokens, backtracking; an interpreter |
| `Model/Grammar` | `dockerfile_parser.pest`, rule by rule |
| `Model/Ast` | the public data types |
| `Model/Enquote` | the `enquote` crate's `unquote` (concrete instance; theorems quantify over it where possible) |
| `Model/Records` | `from_record` functions and `util.rs` helpers |
| `Model/Dockerfile` | `parse_dockerfile`, `from_reader`, `get_global_arg`, accessors |
| `Model/Image` | `ImageRef::parse`, `Display`, `substitute`, `resolve_vars` |
| `Model/Splicer` | `Span`, `Splicer`, `relative_span` |
| `Model/Stage` | `Stages::new`, lookups |
| `Model/PestText` | the text of `dockerfile_parser.pest` |
| `Model/Pest`, `Model/PestRuns` | pest's syntax, optimiser and semantics of grammars (C58) |
| `Model/PestState` | pest's engine: parser state, token queue, record of attempts, generated code, reading of pairs (C61) |
| `Model/PestError` | pest's error: position, line and column, line shown, message (C64) |
| `Model/Builder` | building and comparing strings (C65) |
| `Model/Accessors` | accessors that take ownership, `From`, accessors of RUN/CMD/ENTRYPOINT, iterating over stages, `Debug` of stages (C76) |
| `Model/Regex` | patterns as texts, a matcher, `splitn`, `split`, `find`, `replace`, slicing; `ImageRef::parse`, `substitute`, the check of digests and `clean_escaped_breaks` written with them (C79) |
| `Model/Machine` | the splicer, `relative_span` and `substitute` with 64-bit and 8-bit integers, for debug and release builds (C80) |
| `Model/Machine32` | the same with 32-bit integers (C87) |
| `Model/Work` | the loops of `util.rs:252-271`, `stage.rs:124-171`, `splicer.rs:62-80,163-178` once more, with the number of their steps (C83) |
| `Model/Format` | `Formatter` with fill, alignment, width, precision, sign and `#`; `Display` and `Debug` of the crate with these options (C86) |
| `Model/Examples` | the programs `examples/splice.rs` and `examples/stages.rs` (C69) |
| `Model/Debug` | `Debug` output, the texts of errors, `TryFrom` with the payload of its error (C67) |
| `Model/SubstCost` | `substitute` with the number of its calls (C66; proved to compute the same) |
| `Model/Cost` | the interpreter again, counting evaluations and nesting of calls |
| `Sample` | the document of a concrete text, for examples |
| `Conformance`, `ConformanceDocs` | the repository's own unit tests, the programs in its documentation and its `Dockerfile.test` evaluated in the model (tests, not proofs) |

A panic is an explicit value (`Fault.panic`, or `none` for `splice` and `relative_span`), a Rust `Err`
is `Fault.err`.

### Strings and positions
A Rust `str` is a `List Char`; byte offsets are sums of `Char.utf8Size`. A bound that is not on a
character boundary or past the end is the panic of `split_at`/slicing.

### PEG
Deep embedding `PExpr` of pest expressions; rule references are inlined as `rule kind name body`
nodes, the three recursive rules (`any_breakable`, `inner`, `single_quoted_inner`) go through a
`recur` node. The interpreter is fuel-driven; it is proved that fuel `length + 2` always suffices
for this grammar (this is the termination proof), which yields fuel-free unfolding equations from
which everything else is proved.

The transcription is checked (C58): `Model/PestText` has the text of the grammar file, `Model/Pest` a
reader for pest's syntax and pest's optimiser, `Model/PestRuns` the meaning of a grammar whose
expressions refer to rules by name. The expressions of `Model/Grammar` are literally what the passes
`rotate` and `unroll` make of the text; the other passes are proved not to change what is matched or
which tokens are emitted, except `list` (which would), and `list` finds nothing to do here.
`Model/PestState` goes one step further down: the state machine that pest runs (position, queue of
start and end tokens, lookahead, atomicity, record of failed attempts), the closures that are generated
for the optimised grammar, and the pairs read off the queue. C61 proves that it computes the same, and
where the error position is.

## 2. Specifications

`Spec/*` are small definitions that do not refer to the grammar, the interpreter or the record
functions; the theorems in `Props/*` relate the code to them.

| module | says |
|---|---|
| `Spec/Splice` | simultaneous replacement of spans (C21–C25, C43) |
| `Spec/Image` | image references as a relation (C18–C20) |
| `Spec/Stage`, `Spec/Instr` | stages, global arguments (C09–C17) |
| `Spec/Subst` | textual expansion of variables (C27–C30) |
| `Spec/Fields`, `Spec/Layout`, `Spec/Document` | the spans and strings of an instruction and how they must lie in the text (C04–C08, C32, C45–C47, C50) |
| `Spec/Keyword`, `Spec/Shift`, `Spec/Lines` | letter case, moving a document, line-by-line (C33, C34, C48) |
| `Spec/Plain`, `Spec/Print` | writing down instructions and documents (C35–C40) |
| `Spec/Source` | the accepted source texts and their values, exactly (C51) |
| `Spec/Relayout`, `Spec/Remap` | layout, and values up to positions (C42, C52) |
| `Spec/Update` | a document after some of its images have been replaced (C43) |
| `Spec/Like`, `Spec/Edit`, `Spec/Quoted` | plain text; the texts of a document that may be replaced, and the document afterwards (C57) |
| `Spec/Alike` | texts that look alike, instructions without their texts (C34, C56) |
| `Spec/FinalBreak` | texts that end inside a line continuation (C68) |
| `Spec/LineEnds` | texts with other line ends, and where positions go (C70) |
| `Spec/AnyEnds` | texts with mixed line ends, and where positions go (C90) |
| `Spec/Split` | places between the lines of a document (C71) |
| `Spec/Faults` | the checks of a text that has the right form (C72) |
| `Spec/Write` | writing down any instructions with quotes and escapes (C73) |
| `Spec/Resolve` | texts in which every dollar sign starts a reference (C75) |
| `Spec/StageShape` | which FROMs refer to which (C78) |
| `Spec/Malformed` | the list of the ways in which a line can be wrong (C81) |
| `Spec/Machine` | the texts that are built when variables are replaced (C80) |
| `Spec/Size` | the texts that are stored in a document (C82) |
| `Spec/StrLines` | the lines of a text, as `str::lines` gives them (C26) |
| `Spec/Escape` | texts in quotes, escapes and what they stand for (C85) |
| `Spec/Format` | padded texts, texts in several lines and what they are in one line (C86) |
| `Spec/Logical` | a reader that works line by line, and the documents that it reads as the library does (C88) |
| `Spec/Forms` | the text onwards from an offset, names with space after them (C91) |
| `Spec/Rename` | the edits that rename a stage, and the instructions after them (C92) |
| `Spec/Prune` | cuts between stages, the instructions of each stage, the numbers of the stages after a block is taken out or put in (C93) |
| `Spec/Respell` | texts that are the same up to the names of the variables they refer to (C94) |
| `Spec/Pieces` | places where no reference can lie, the expanded parts of an image (C95) |
| `Spec/Seam` | text without quotes (C96) |
| `Spec/Place` | the text that gives a stage a name |
| `Spec/Parts` | the texts of defaults, flags and pairs that are put in, and their values |
| `Spec/Default` | the default of one variable is set, the others kept |
| `Spec/Filter` | the edits that take instructions out |
| `Spec/Rewrite` | the edits that replace instructions, and the instructions afterwards |
| `Spec/Settled` | documents that leave nothing open |
| `Spec/SettledParts` | where pairs start; documents that leave nothing open with their instructions |
| `Spec/Reorder` | texts of stages; orders of stages in which references are kept |
| `Spec/Probe` | lines that can be put in front of every text (C108, C109) |
| `Spec/Behind` | texts that can be put behind all lines, blank lines and comments (C110, C111, C112) |
| `Spec/Cost` | documents that are slow or nest deeply (C54, C55) |

`Proof/*` are lemmas. The larger groups:

* `Peg`, `SemX`, `Lex`, `Shape`, `Tokens`: the interpreter — termination, unfolding equations, which
  tokens a rule can emit, lexical rules as functions.
* `Records`, `Layout`, `Spans`, `Document`: what the record functions return on tokens of the grammar.
* `Shift`, `Keyword`, `Local`, `Lines`: the parser does not depend on the position, on the case of
  keywords, or on what follows a plain line.
* `Gap`, `Quote`, `Print*`, `Plain`: forward reasoning — running the grammar on written text.
* `Src*`: the description of `Spec/Source` is sound and complete for the grammar.
* `Relayout`: the value of a line depends only on its bare form.
* `Swap`, `SwapItem`, `Move`, `Update`, `Remap`: exchanging images in a text (C43).
* `Exch`, `ExchSpot`: replacing plain text keeps lookaheads; `EditSeg`: a text as fixed pieces and
  fields; `EditItem`, `EditFits`, `EditDoc`, `EditValue`, `EditEval`: new texts in a document (C57).
* `Alike`, `AlikeItem`, `AlikeEval`, `AlikeSkel`, `AlikeLeaf`: texts that look alike (C34, C56).
* `PestRuns`, `PestInline`: the optimiser, and names versus bodies (C58); `PestState`: the engine does
  what the grammar means (C61).
* `Cut`, `CutItem`, `CutOpen`, `CutDoc`: cutting a text at the end of an instruction (C59); `Join`,
  `JoinDoc`: adding text after the end of a document (C60); `FinalBreak`, `FinalDoc`: a line feed
  after the end, and taken away (C68).
* `Cost`, `CostBound`, `CostGap`, `CostLow`, `CostNest`: the metered interpreter (C53–C55).
* `Growth`: sizes of expansions (C62).
* `Builder`: building and comparing strings (C65).
* `Debug`: `Debug` output and texts of errors (C67).
* `SpliceProgram`, `StagesProgram`: the example programs (C69).
* `LineEnds` (a run of the grammar with other line ends), `LineEndsRead` (reading tokens that differ in
  positions only), `LineEndsTexts` (which tokens have their text on one line), `LineEndsDoc` (C70); `AnyEnds`, `AnyEndsDoc` (the same for mixed line ends, C90); `Split` (cutting a text that fits after a line break, C71); `Faults` (the first check that fails, C72); `Write` (what is written is well-formed and has the right value, C73).
* `SubstCost`: the calls of a substitution (C66; specification in Spec/SubstCost).
* `StageOrder`: comparing, printing and looking up stages (C63).

## 3. Plan per property

See `properties.jsonl` for statements, `MANIFEST.json` for status and theorem names.

* C01, C02: static analysis of the embedded grammar (which tokens a rule may/must emit), proved
  sound for the interpreter, shows which branches of `from_record` are reachable; termination from
  the fuel bound.
* C03, C09, C10, C11: induction over the loop of `parse_dockerfile`.
* C04–C08, C45–C47: one generic theorem about the interpreter — the tokens of a successful parse
  form an ordered forest over exactly the consumed text — plus inversion of each rule.
* C12–C17: induction over the instruction list, invariants of `Stages::new`.
* C18–C20: case analysis on first occurrences of `/ @ :`.
* C21–C26: invariant of the splicer relating the accumulated offsets to a piecewise description of
  the current content.
* C27–C30: refinement of `substitute` to a textual expansion, induction on depth.
* C31: the reader is a list of read events; the loop accumulates bytes.
* C32: inversion of `any_breakable`.
* C33: translation invariance of the interpreter.
* C34: the case-insensitive matcher is invariant under casing; congruence of the interpreter.
* C35–C40: forward reasoning with the unfolding equations.
* C48: locality of the interpreter on plain lines.
* C51: for every rule, "matches" is equivalent to a relation between the consumed text and the rest;
  then induction over the lines of the document.
* C52: C51 and the fact that the value of a line, up to positions, is that of its bare form.
* C43: C51; exchanging an image keeps every line well-formed (lookahead included), and moves values.
* C57: C51; the text is cut into fixed pieces and fields, lines with new texts in the fields still fit
  (lookahead included), and their values are the old ones with the new texts, moved.
* C56 (and C34 anywhere): C51; lines that fit still fit when their text is replaced by one that looks
  alike, and their values then differ at most in the texts.
* C53: a static analysis that computes a bound from the parts of an expression, proved sound; where
  it is too coarse (gaps, words, flags, arrays) the lookahead is charged to what is consumed next.
* C54, C55: the runs of the grammar on two families of documents, followed step by step; the upper
  bound of C55 holds since recursive references are reached only after a backslash or a hash.
* C58: each pass preserves a relational semantics; that semantics and the one of `Proof/Peg` agree
  on expressions with bodies for names; the rest is evaluation by the kernel.
* C59: C51; the end of an instruction never cuts a line continuation in two, hence all lookahead in
  front of the cut has the same outcome with and without what follows.
* C62: induction over the expansion; the family of documents is read with C40.
* C64: the line of a position is cut out in four pieces (`Cut`), and each of pest's functions is evaluated
  on them.
* C67: every `Debug` text is a code whose end can be seen (a number if no digit follows), put together field by field.
* C66: the calls are those of a relation over the text, by induction over the captures; the family of C62 with one more reference.
* C65: orders are put together from pairs and lists; UTF-8 keeps the order because its digits do.
* C63: from C13, C14, C16 and C18; the digits of a number by induction.
* C69: from C43, C68 and C67; splicing texts by themselves changes nothing; line feeds are escaped in `Debug`.
* C70: a static check of the grammar (`good`) lets every run be repeated with other line ends; the texts
  that are read are on one line, but for those in quotes; all errors are the same.
* C72: evaluating the description of C51 fails with the first failing check, part by part; lines as in C71.
* C73: C40 for what is written (any string in quotes with escapes is a word and is read back); C51 and C50 for the
  instructions of accepted texts.
* C78: from C13, C14 and C15, in terms of the list of FROMs; the last part by induction on the loop.
* C77: C20 for the changed image (the first slash of a text decides about the registry), then C43.
* C76: by cases; the texts of stages as in C67.
* C74, C75: induction on the depth of substitution (what is matched is a reference); the path to a variable is cut
  at its first occurrence; induction on the expansion for the dollar signs (proofs in `Props/Resolve`).
* C71: the description of accepted texts (C51) is cut after the line break; what an instruction may look
  at ends there, so the first part still fits.  Joining is C60.
* C68: as C60, for one line feed, and back; line feeds are added one at a time.
* C60: as C59, in the other direction: lines in front of a line break still fit when text is added.
* C79: the matcher gives the list of all matches in order of preference; its soundness and completeness by induction on the
  pattern; for VAR the list of all matches of a word is computed, the longest first.
* C80: the sums of all positive and of all negative offsets bound every intermediate number. In `substitute` replacements go from left
  to right, so that intermediate numbers are places in texts that have been allocated.
* C81: for every rule, what is left when it stops early; and that it does stop there.
* C82: what lies one after the other in a text is no longer than it; fields that are read are no longer
  than their text; induction over the lines of the document.
* C83: the counting functions give the results of the others; then induction over the shell text, the
  instructions, the history and the bytes.
* C84: from C51: an item other than an unknown instruction satisfies `Begins`, by construction; for an
  unknown instruction its negation is part of `Fits`.
* C85: `unescape` follows the two relations of the specification, one of which always applies; the grammar's
  description of quoted texts excludes two of the four errors.
* C86: cases for `pad` and `pad_integral`; induction over the calls that a `Debug` implementation makes, with
  the lines it writes and their depths.
* C87: as C80. The comparison of a position with a negative number `as usize` comes out the same for 32 and 64 bits because positions
  of splices are below `2^31` (they come from an `isize`), which is an invariant of the splicer.
* C88: C51; reading an item line by line never leaves the logical line (`Scan`, `Proof/Logical*`), part by part, and at its
  end the line is not continued.
* C89 (unsupported forms): directives by C33, line after line; the rejected forms by the list of malformed lines (C81) and by reading line by line (C48); `COPY` with arrays by C51.
* C90 (mixed line ends): as C70, with a text cut into characters and line ends in place of one line end for the whole text.
* C91 (forms): by the item of C51 that an instruction comes from; the space, the name and a text in quotes at the front of a text are unique.
* C92 (renaming a stage): by C57 (new texts at fields), since the spans of different fields are different, and the description of the parents by the `FROM`s (C78).
* C93 (taking out stages): C71 for the text; for the stages, the parent in terms of the list of `FROM`s (C78), with the places in the shorter list embedded in the longer one.
* C94 (other names): by induction on the depth of `Expands` and on the text; the code by C30; the text of a document by C57.
* C95 (pieces): a reference at the front of a text ends before such a place; then by induction on the length.
* C96 (exchange of idle lines): the declarative relation of the grammar (`Src`) for each instruction, from a text to one with other lines at its end; an open quote does not close in the lines.
* C97 (commenting out, other lines): as C96, with an arbitrary text instead of the idle lines; where the grammar looks over idle lines, both texts are compared up to the next line that is not idle.
* C98 (instructions replaced at their spans, names of stages): from C97 and the lines of the document; the new `FROM` is written down as an item that fits wherever the old one does.
* C99 (parts put in and taken out): from C98_replace, with the item that has the part and one that has not; each fits where the other does.
* C100 (a default and the images): C99_default gives the document, C74 and C30 what depends on the default.
* C101 (instructions taken out): C98_delete from the last one to the first, and C22 for the order of the splices.
* C102 (instructions replaced): C98_replace from the last one to the first, with C60 for the lines behind, and C22 for the order of the splices.
* C103 (nothing left open): nothing that is put behind settled lines makes a difference to them (C60); then as C102, from the last instruction to the first, with the invariant that the text is settled.
* C104 (parts, nothing left open): as C99, with the front of C103; a pair that is taken out leaves in front of the others a gap, in front of the end a word that does not end with a backslash, and a text that does not start with a quote does not become one in quotes.
* C105 (stages, nothing left open): C93 and C98 with the front of C103.
* C106 (other orders): the texts are joined one by one, keeping track of the groups of C93; the stages as in C93, by induction on the old number.
* C107 (exactly when lines can be put in front): one direction is C60; for the other, the items of C51 of the joined text say at each spot whether quotes, an array or arguments start there.
* C108 (two lines decide): C107; what may stand between quotes may be cut at a line break and go on differently.
* C109 (two lines decide, whatever is left open): C107; where an array, or flags, gaps and words behind a keyword, run over the end of the first text, they can be ended by the letter X, a quote and a bracket as well.
* C110 (texts that can be put behind all lines): C107; where a string or an array runs over the end of the first text, the second has a closing quote; space behind a keyword that runs over the end takes all blank lines and comments with it, up to the first instruction.
* C111 (texts without instructions): C51, only blank lines and comments give nothing; C33.
* C112 (comments at the end): C110 for the texts of C111.
* C11, C21 (panics, for spans with numbers from 2^63 on), C23, C41, C42: the full claim is false of the
  code; the negation is proved with a concrete
  witness, the true part is proved as `_partial`, and `Props/Exact`, `C42_rejected`, `C42_error` say
  exactly what happens instead.
* C24: the claim as stated covers inner-before-outer; that the other order panics or corrupts is
  proved with witnesses.
* C44: case analysis.

## 4. Trusted base

* Lean's kernel.
* Axioms: at most `propext`, `Classical.choice`, `Quot.sound`; no axiom of our own, no `sorry`, no
  `native_decide`. The table at the end lists them per theorem of the manifest.
* `Model/PestText` is the text of the grammar file (`diff` shows it; Lean does not read files).
* The reading of the Rust source: each definition of `Model/*` names the file and lines it models.
* The dependencies, which are not in the sandbox and are modelled from their documented behaviour:
  `pest` 2.x (the parts described in `Model/Peg`, `Model/Pest`, `Model/PestState` and
  `Model/PestError`; C58 and C61 relate the first three), `regex` (the syntax that the two patterns
  need, with the preferences of Perl; `Model/Regex`, C79), `enquote::unquote` (only used in examples and
  in `C39_unquote`, `C62_enquote`, `C73_enquote`, `C82_unquote` and C85; everything else holds for every unquoting function), `std`.

### What is modelled
All of `src/` except the following; where a simplification was made it is named in the comment of the
definition.

### What is not modelled
* the payload of `ReadError` (the `io::Error`);
* the Unicode tables behind `Debug for str` (a parameter of C67 and C86), `Debug` of
  `SpliceOffset` (private) and of errors, what the example programs write to standard error (C69);
* exhaustion of the stack or of memory: the nesting of calls is counted (`Model/Cost`) but has no
  limit in the model;
* time: `Model/Cost` counts evaluations of the expressions of the grammar as it is written. pest's
  optimiser merges some of them, which changes the counts by constant factors;
* machine integers of targets other than 64-bit and 32-bit ones; `Model/Splicer` has unbounded integers, `Model/Machine` and
  `Model/Machine32` have 64-bit and 32-bit ones, and C80 and C87 relate them (an allocation of `2^63` or `2^31` bytes or more is taken
  to panic);
* the internal buffer of `BufReader` (the reader's `read` results are arbitrary anyway);
* the `u8` depth of `substitute` is a natural number (C80: no difference); `HashMap` is a function, `HashSet` a list read as a
  set; ownership, lifetimes, `Clone` (`PartialEq` and `Ord` of `Stage` are modelled: C63; derived `Ord`s: C65);
* the unused grammar rule `any_eol`; `test_util.rs` and the tests (transcribed in `Conformance`).
* `RunInstruction`, `CmdInstruction` and `EntrypointInstruction` share one record type, as do `FromFlag` and `CopyFlag`.

## 5. Testing the theorems

`seeded/LOG.jsonl` has one line per wrong program tried (an edit of a definition of the model in a
scratch copy, the claim it breaks, the theorems that failed). Some edits turned out to be
equivalent to the original program, so that no claim becomes false; their lines in the log say so in the note. Examples:
making an optional part optional twice, the order of two lists of which one is always empty, bounds in
`unescape` that decide between two ways to the same error, and the depth below 0, which is never computed.

## 6. Axioms per theorem

* no axioms: `C23_negation`, `C24_outer_first_panics`, `C24_outer_first_corrupts`, `C53_metered`, `C65_values`, `C67_each`, `C76_shell_exec`, `C77_tag_and_digest`, `Mach.C80_front`, `Mach.C80_backwards`, `C86_default`, `C86_ignored`, `Mach32.C87_front`, `Mach32.C87_backwards`, `Mach32.C87_targets_differ`
* `propext`: `C07_env_unterminated`, `C103_bracket`, `C104_needed`, `C105_needed`, `C106_needed`, `C108_needed`, `C15_root_unique`, `C26_lines_exist`, `C31_readers`, `C31_from_str`, `C41_not_hex`, `C44_exactly_one`, `C48_false`, `C57_keyword`, `C57_word`, `C57_flag`, `C57_quotes`, `C57_meaning`, `Pest.C58_read`, `Pest.C58_names`, `Pest.C58_bodies`, `Pest.C58_list`, `Pest.C58_skip`, `Pest.C58_changed`, `Pest.C58_list_unsound`, `Pest.C58_hex`, `C60_quotes`, `C60_array`, `C60_word`, `C60_inside`, `Pest.C61_second_line`, `Pest.C61_start`, `C63_other_document`, `C63_number_image`, `C63_number_name`, `Pest.C64_order`, `Pest.C64_example`, `Pest.C64_carriage_return`, `Pest.C64_caret_off`, `C65_builder`, `C65_add`, `C65_rebuild`, `C65_env_value`, `C65_components_unsorted`, `C67_conversion`, `C67_total`, `C68_open_rejected`, `C68_open_accepted`, `C68_open_different`, `C70_label_rejected`, `C70_env_different`, `C71_open`, `C71_inside`, `C73_backslash`, `C73_array`, `C73_keyword`, `C73_digest`, `C75_new_reference`, `C75_same`, `C76_into`, `C76_borrow`, `C76_try_from`, `C76_components`, `Rx.C79_patterns`, `C81_backslash`, `C84_space`, `C84_keywords`, `C85_occur`, `C88_count`, `C88_blank_line`, `C88_comment_line`, `C88_comment_first`, `C88_quoted`, `C88_negation`, `C88_words`, `C88_keyword`, `C90_quoted_rejected`, `C92_conditions`, `C93_conditions`, `C95_escape`, `C96_quote`, `C96_removed`, `C96_control`, `C97_keyword`, `C97_backslash`, `C98_quote`, `C98_names`, `C99_forms`
* `propext, Quot.sound`: `C01_fuel`, `C03_content`, `C04_global_args`, `C09_global_args`, `C10_from_index`, `C100_others`, `C106_stages`, `C11_get_global_arg_partial`, `C11_sound`, `C11_negation`, `C11_found_iff`, `C11_holds_iff`, `C110_finds`, `C110_needed`, `C13_index_name`, `C14_parent`, `C14_parent_earlier`, `C15_root`, `C15_parent`, `C16_get_by_name`, `C16_get_numeral`, `C16_get_other`, `C21_single_splice`, `Mach.C21_panic_negation`, `C23_exact`, `C23_holds_iff`, `C26_relative_span_total`, `C26_relative_span_bytes`, `C30_variables`, `C39_unquote`, `C44_accessors`, `C44_try_from`, `C44_span`, `C55_nesting`, `C55_plain`, `Pest.C58_text`, `Pest.C58_passes`, `Pest.C58_optimized`, `Pest.C58_decimal`, `Pest.C61_engine`, `Pest.C61_parse`, `Pest.C61_any`, `Pest.C61_expected`, `C62_enquote`, `C63_eq`, `C63_order`, `C63_decimal`, `C63_get_parent`, `Pest.C64_text`, `Pest.C64_error`, `Pest.C64_caret`, `C66_same`, `C66_bound`, `C67_debug`, `C67_debug_end`, `C67_debug_name`, `C67_conversion_text`, `C67_texts`, `C70_positions`, `C72_quoted`, `C73_enquote`, `C74_reached`, `C76_debug`, `C78_shape`, `C78_same`, `C78_others`, `C78_prefix`, `Rx.C79_matcher`, `Rx.C79_search`, `Rx.C79_hex`, `Rx.C79_split`, `Rx.C79_digest`, `Rx.C79_breaks`, `C82_unquote`, `C83_metered`, `C83_splices`, `C83_splices_panic`, `C84_unique`, `C94_used`, `C95_default`
* `propext, Classical.choice, Quot.sound`: `C01_no_panic`, `C02_errors`, `C04_spans_valid`, `C04_span_bounds`, `C04_line_breaks`, `C05_instructions_in_order`, `C06_fields_within`, `C06_fields_ordered`, `C06_subfields_ordered`, `C07_plain_strings`, `C07_label_strings`, `C07_shell_components`, `C07_env_values`, `C08_document`, `C10_from_index_is_stage_index`, `C100_default`, `C100_late`, `C100_takes`, `C100_missing`, `C101_remove`, `C101_stages`, `C102_replace`, `C102_standalone`, `C103_lines`, `C103_rewrite`, `C103_complete`, `C103_word`, `C104_default`, `C104_flag_from`, `C104_flag_copy`, `C104_unflag_from`, `C104_unflag_copy`, `C104_pair_env`, `C104_pair_label`, `C104_unpair_env`, `C104_unpair_label`, `C105_delete`, `C105_insert`, `C105_alias`, `C105_stages`, `C106_together`, `C106_apart`, `C106_order`, `C107_join`, `C107_cut`, `C108_probe`, `C108_quotes`, `C109_closers`, `C109_stack`, `C110_behind`, `C110_openers`, `C110_all`, `C111_idle`, `C111_empty`, `C111_scan`, `C112_footer`, `C112_plain`, `C112_changes`, `C112_frame`, `C12_partition`, `C17_arg_index`, `C17_arg_index_none`, `C18_display_parse`, `C19_parse_iff_spec`, `C19_registry`, `C19_tag_hash_exclusive`, `C20_parse_display`, `C20_parse_wellFormed`, `C20_iff`, `C20_injective`, `C21_panic_iff`, `Mach.C21_panic_partial`, `Mach.C21_panic_exact`, `C22_disjoint_splices`, `C22_order_independent`, `C23_same_span_partial`, `C24_enclosing_after_inner`, `C24_inner_first_history`, `C25_splice_parsed`, `C25_fields_disjoint`, `C26_relative_span`, `C26_line`, `C26_document`, `C27_substitute_is_expansion`, `C27_expansion_unique`, `C27_none_iff`, `C28_depth_monotone`, `C28_cycle_rejected`, `C29_used_vars_exact`, `C29_used_vars_failure`, `C30_resolve_vars`, `C30_context`, `C30_no_refs`, `C30_undefined`, `C31_from_reader`, `C31_invalid_utf8`, `C31_io_error`, `C31_chunking`, `C31_end_of_file`, `C31_end_of_file_invalid`, `C32_shell_text`, `C33_blank_or_comment_line`, `C34_keyword_case`, `C34_recognised`, `C34_anywhere`, `C35_from`, `C36_arg`, `C36_env`, `C36_label`, `C37_copy`, `C38_shell`, `C38_misc`, `C39_exec`, `C40_roundtrip`, `C40_single_line`, `C41_digest_partial`, `C41_accepted_iff`, `C41_error`, `C42_partial`, `C42_negation`, `C42_rejected`, `C42_error`, `C43_update`, `C43_invalid`, `C43_example`, `C45_exec_form`, `C46_copy`, `C47_keyword`, `C48_line_by_line`, `C48_succeeds`, `C48_instructions`, `C48_document`, `C49_image_parsed`, `C50_lexical`, `C51_fits`, `C51_unfit`, `C51_syntax_error`, `C51_accepted`, `C51_unambiguous`, `C52_layout`, `C53_quadratic`, `C54_family`, `C54_not_linear`, `C55_family`, `C55_unbounded`, `C56_syntax`, `C56_skeleton`, `C57_edit`, `C59_excerpt`, `C59_alone`, `C59_trimmed`, `C59_stage`, `C60_join`, `C60_plain`, `Pest.C61_position`, `Pest.C61_later_line`, `C62_expansion`, `C62_resolve`, `C62_document`, `C62_attained`, `C62_no_smaller`, `C63_laws`, `C63_display`, `Pest.C64_line`, `Pest.C64_relative_span`, `C65_orders`, `C65_str_order`, `C65_dictionary`, `C65_document`, `C65_components`, `C66_exact`, `C66_document`, `C66_attained`, `C66_no_smaller`, `C66_cycle`, `C67_messages`, `C67_parse`, `C68_final_break`, `C68_final_error`, `C68_final_breaks`, `C69_panic`, `C69_failed`, `C69_splice`, `C69_again`, `C69_again_open`, `C69_stages`, `C69_stages_same`, `C70_syntax`, `C70_there`, `C70_back`, `C70_plain`, `C71_split`, `C71_exchange`, `C71_delete`, `C71_insert`, `C71_splice`, `C72_checks`, `C72_accepted`, `C72_line`, `C73_write`, `C73_parsed`, `C73_normal`, `C73_canonical`, `C74_depends`, `C74_needed`, `C75_resolved`, `C75_again`, `C76_iterate`, `C76_as_str_vec`, `C76_as_str_vec_back`, `C77_tag`, `C77_digest`, `C77_plain`, `C77_registry`, `C77_no_registry`, `C77_document`, `C77_bump`, `C77_pin`, `Rx.C79_captures`, `Rx.C79_groups`, `Rx.C79_substitute`, `Rx.C79_image`, `Mach.C80_splicing`, `Mach.C80_large`, `Mach.C80_document`, `Mach.C80_relative`, `Mach.C80_depth`, `Mach.C80_substitute`, `Mach.C80_substitute_result`, `Mach.C80_counts`, `C81_lines`, `C81_document`, `C81_place`, `C81_shell`, `C81_other`, `C82_texts`, `C82_image`, `C82_images`, `C82_global_args`, `C82_document`, `C82_spans`, `C83_shell`, `C83_stages`, `C83_relative`, `C84_words`, `C85_unquote`, `C85_wrong`, `C85_grammar`, `C85_never`, `C86_string`, `C86_stage`, `C86_columns`, `C86_debug`, `C86_pretty`, `Mach32.C87_splicing`, `Mach32.C87_large`, `Mach32.C87_panic`, `Mach32.C87_relative`, `Mach32.C87_document`, `Mach32.C87_substitute`, `Mach32.C87_substitute_result`, `Mach32.C87_targets`, `Mach32.C87_targets_substitute`, `C88_lines`, `C88_instructions`, `C88_plain`, `C89_directives`, `C89_same`, `C89_start`, `C89_byte_order_mark`, `C89_lone_word`, `C89_heredoc`, `C89_copy_one_word`, `C89_copy_array`, `C90_syntax`, `C90_there`, `C90_back`, `C90_plain`, `C90_same`, `C90_ends`, `C90_positions`, `C91_exec`, `C91_env`, `C91_label`, `C91_arg`, `C91_copy`, `C91_from`, `C92_document`, `C92_rename`, `C92_lookup`, `C93_stages`, `C93_delete`, `C93_insert`, `C94_expand`, `C94_resolve`, `C94_exists`, `C94_document`, `C94_conditions`, `C95_pieces`, `C95_references`, `C95_parts`, `C95_image`, `C95_default_tag`, `C96_exchange`, `C96_instructions`, `C96_insert`, `C96_delete`, `C96_edit`, `C97_exchange`, `C97_comment`, `C97_uncomment`, `C97_lines`, `C97_remove`, `C97_add`, `C98_replace`, `C98_delete`, `C98_alias`, `C98_stages`, `C99_default`, `C99_flag_from`, `C99_flag_copy`, `C99_unflag_from`, `C99_unflag_copy`, `C99_pair_env`, `C99_pair_label`
