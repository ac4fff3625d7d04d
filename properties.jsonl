{"id": "C01", "title": "Dockerfile::parse is total: never panics, never diverges", "statement": "For every input string, Dockerfile::parse terminates and returns either Ok(dockerfile) or Err(error); none of the unwrap(), pop().unwrap(), indexing or slicing sites reachable from it can panic.", "quantifier": "every UTF-8 input string, of any length and nesting of line continuations, comments, quotes and escapes", "why_tests_cant": "Termination and absence of panics must hold on inputs nobody thought of; a test corpus samples finitely many strings.", "anchors": ["src/dockerfile_parser.rs:parse_dockerfile", "src/dockerfile_parser.pest:dockerfile", "src/instructions/run.rs:RunInstruction::from_record", "src/instructions/env.rs:EnvInstruction::from_record", "src/instructions/copy.rs:CopyInstruction::from_record"]}
{"id": "C02", "title": "Only documented kinds of error come out of parse", "statement": "If Dockerfile::parse fails, the error is a syntax error (ParseError), an unescape error of some quoted text (UnescapeError), the 'image reference digest is invalid' error of FROM, or the 'unexpected token comment' error of RUN/CMD/ENTRYPOINT; UnknownParseError, ReadError, ConversionError and all 'missing field' errors are unreachable from parse.", "quantifier": "every input string", "why_tests_cant": "Unreachability of an error branch is a statement about all inputs; a test can only show a branch being reached.", "anchors": ["src/error.rs:Error", "src/dockerfile_parser.rs:parse_dockerfile", "src/instructions/*.rs:from_record"]}
{"id": "C03", "title": "The parsed Dockerfile keeps the input verbatim", "statement": "If Dockerfile::parse(s) = Ok(d) then d.content is s, byte for byte, and a Splicer made from d starts with content s.", "quantifier": "every input string that parses", "why_tests_cant": "Universal over inputs; tests never compare content on arbitrary input.", "anchors": ["src/dockerfile_parser.rs:parse_dockerfile", "src/dockerfile_parser.rs:Dockerfile::splicer", "src/splicer.rs:Splicer::from"]}
{"id": "C04", "title": "Every exposed span is a valid, non-empty byte range on character boundaries", "statement": "Every span anywhere in a parsed Dockerfile (instruction, flag, name, value, image, alias, array element, string component, comment) satisfies start < end <= content.len() and both bounds are UTF-8 character boundaries, so slicing content by it cannot panic. No span starts with a line break, and none starts or ends between the two characters of a CR LF line end.", "quantifier": "every parsed input and every span reachable in the result", "why_tests_cant": "Must hold for every Unicode input and every node; a slice that panics shows up only on the particular multi-byte input that triggers it.", "anchors": ["src/splicer.rs:Span", "src/util.rs:SpannedString", "src/dockerfile_parser.rs:Instruction::span"]}
{"id": "C05", "title": "Instruction spans are in source order and disjoint", "statement": "For a parsed Dockerfile, the spans of instructions[i] and instructions[i+1] satisfy end_i < start_{i+1}: instructions appear in source order, do not overlap, and have at least one (newline) byte between them.", "quantifier": "every parsed input, every pair of instructions", "why_tests_cant": "Ordering over arbitrary instruction sequences and inputs.", "anchors": ["src/dockerfile_parser.rs:parse_dockerfile", "src/dockerfile_parser.pest:dockerfile"]}
{"id": "C06", "title": "Field spans nest inside their instruction and siblings do not overlap", "statement": "Every field span of an instruction lies inside the instruction's span; within an instruction, sibling fields (flags, paths, labels, env vars, array elements, string components) are in source order and pairwise disjoint.", "quantifier": "every parsed input, every instruction and every pair of its fields", "why_tests_cant": "Needs all inputs; editors and splicers silently corrupt files when it fails.", "anchors": ["src/instructions/*.rs:from_record", "src/util.rs:parse_string_array", "src/util.rs:parse_any_breakable"]}
{"id": "C07", "title": "Unquoted field content is exactly the source text at its span", "statement": "For every SpannedString in a parsed Dockerfile outside shell text and ENV values, the text of the document at its span is the content field itself, unless that text starts with a quote character, in which case content is the unquoting of that text (for LABEL after deleting backslash-newline pairs). Components of shell text are always verbatim. An ENV value is the unquoting of a quoted text, or its text verbatim (also when it starts with an unterminated quote), or its text without continuations and comments.", "quantifier": "every parsed input and every SpannedString", "why_tests_cant": "Relates two views of arbitrary text.", "anchors": ["src/util.rs:parse_string", "src/instructions/label.rs:Label::from_record", "src/instructions/env.rs:parse_env_pair"]}
{"id": "C08", "title": "No source text is silently dropped between instructions", "statement": "If Dockerfile::parse(s) = Ok(d), the text of s outside the instruction spans consists only of spaces, tabs, newlines and whole # comments; concatenating gaps and instruction texts in order gives back s.", "quantifier": "every parsed input", "why_tests_cant": "Coverage of all characters of arbitrary documents.", "anchors": ["src/dockerfile_parser.pest:dockerfile", "src/dockerfile_parser.pest:meta_step", "src/dockerfile_parser.rs:parse_dockerfile"]}
{"id": "C09", "title": "global_args is exactly the ARGs before the first FROM", "statement": "For a parsed Dockerfile d, d.global_args equals, in order, the ARG instructions of d.instructions that precede the first FROM (all ARGs if there is no FROM).", "quantifier": "every parsed input, any interleaving of instructions", "why_tests_cant": "Any sequence of instructions of any length.", "anchors": ["src/dockerfile_parser.rs:parse_dockerfile"]}
{"id": "C10", "title": "FROM indices number the stages 0,1,2,...", "statement": "For a parsed Dockerfile, the k-th FROM instruction (from 0) has index k, and this equals the index of the stage it opens in d.stages().", "quantifier": "every parsed input, any number of FROMs", "why_tests_cant": "Unbounded number of FROM instructions interleaved with others.", "anchors": ["src/dockerfile_parser.rs:parse_dockerfile", "src/instructions/from.rs:FromInstruction", "src/stage.rs:Stages::new"]}
{"id": "C11", "title": "get_global_arg agrees with global_args", "statement": "d.get_global_arg(name) is Some(first global ARG with that name) whenever such an ARG exists and None otherwise. (The code only guarantees this when nothing but ARG precedes the ARG; the general claim is false.)", "quantifier": "every parsed Dockerfile and every name", "why_tests_cant": "Any arrangement of instructions before the first FROM.", "anchors": ["src/dockerfile_parser.rs:Dockerfile::get_global_arg"]}
{"id": "C12", "title": "Stages partition the instruction list", "statement": "Concatenating the instruction lists of d.stages() gives d.instructions without the instructions before the first FROM; every stage starts with a FROM and contains no other FROM; the number of stages is the number of FROMs.", "quantifier": "every list of instructions", "why_tests_cant": "Any instruction sequence; induction over its length.", "anchors": ["src/stage.rs:Stages::new"]}
{"id": "C13", "title": "Stage index and name", "statement": "The i-th stage of d.stages() has index i, and its name is the ASCII-lowercased alias of its FROM (None if there is no alias).", "quantifier": "every list of instructions", "why_tests_cant": "Any number of stages.", "anchors": ["src/stage.rs:Stages::new"]}
{"id": "C14", "title": "Stage parent resolution", "statement": "A stage's parent is Scratch iff its FROM image is 'scratch' case-insensitively; otherwise it is Stage(j) where j is the first earlier stage whose alias equals the image text case-insensitively; otherwise Image(image_parsed). In particular a stage parent is always an earlier stage, so the parent relation is acyclic.", "quantifier": "every list of instructions", "why_tests_cant": "Any number of stages and aliases, including duplicates, forward references and shadowing.", "anchors": ["src/stage.rs:Stages::new", "src/stage.rs:Stages::get_by_name"]}
{"id": "C15", "title": "Stage root resolution", "statement": "A stage's root is never Stage(_): it is the parent of the stage reached by following parent links until a non-stage parent, and Stages::new never panics while indexing the parent stage. The root is the parent itself exactly if the parent is not a stage, and so for the first stage.", "quantifier": "every list of instructions", "why_tests_cant": "Chains of arbitrary length.", "anchors": ["src/stage.rs:Stages::new"]}
{"id": "C16", "title": "Stages::get and get_by_name lookups", "statement": "get_by_name(n) returns the first stage whose alias equals n ignoring ASCII case, or None if there is none. get(s) returns stage number k when s is a valid usize numeral with value k (None if there is no such stage), otherwise get_by_name(s).", "quantifier": "every Stages value and every lookup string", "why_tests_cant": "All strings (signs, leading zeros, overflowing numerals, aliases that look like numbers).", "anchors": ["src/stage.rs:Stages::get", "src/stage.rs:Stages::get_by_name"]}
{"id": "C17", "title": "Stage::arg_index finds the first matching ARG of the stage", "statement": "arg_index(name) = Some(i) iff instructions[i] of the stage is an ARG called name and no earlier instruction of the stage is; None iff the stage has no such ARG.", "quantifier": "every stage and every name", "why_tests_cant": "Any stage length.", "anchors": ["src/stage.rs:Stage::arg_index"]}
{"id": "C18", "title": "ImageRef display inverts parse", "statement": "For every string s, format!(\"{}\", ImageRef::parse(s)) == s, so parsing an image reference loses nothing.", "quantifier": "every string, including malformed references", "why_tests_cant": "All strings.", "anchors": ["src/image.rs:ImageRef::parse", "src/image.rs:Display for ImageRef"]}
{"id": "C19", "title": "ImageRef::parse decision rules", "statement": "registry is Some(r) iff s has the form r/rest with r slash-free and r is 'localhost' or contains '.' or ':'; the remainder is split at the first '@' into image and hash, or else at the first ':' into image and tag; tag and hash are never both present.", "quantifier": "every string", "why_tests_cant": "All strings; the disambiguation rule is a case split over arbitrary text.", "anchors": ["src/image.rs:ImageRef::parse", "src/image.rs:is_registry"]}
{"id": "C20", "title": "ImageRef parse inverts display for well-formed references", "statement": "For every ImageRef whose registry (if any) is a slash-free registry host, whose image contains no '@' (and no ':' unless a hash is present), whose first image path component is not itself a registry when registry is None, and which has not both tag and hash (tag without '@'), parse(display(r)) = r; and for no other ImageRef.", "quantifier": "every ImageRef value meeting the stated well-formedness", "why_tests_cant": "All component strings.", "anchors": ["src/image.rs:ImageRef::parse", "src/image.rs:Display for ImageRef"]}
{"id": "C21", "title": "A single splice replaces exactly the span", "statement": "On a fresh splicer over text s, splice(span, r) with span a valid range of s makes content = s[..start] + r + s[end..]; it panics exactly when start > end or a bound is past the end or not on a character boundary.", "quantifier": "every text, span and replacement", "why_tests_cant": "All texts, including multi-byte ones, and all spans.", "anchors": ["src/splicer.rs:Splicer::splice"]}
{"id": "C22", "title": "Splicing disjoint spans is order-independent and equals simultaneous replacement", "statement": "Splicing any set of pairwise disjoint non-empty spans of the original document, in any order, never panics and yields the original text with each span replaced by its replacement.", "quantifier": "every document, every finite family of disjoint spans and replacements, every order", "why_tests_cant": "All permutations, counts, growing/shrinking/empty replacements.", "anchors": ["src/splicer.rs:Splicer::splice", "src/splicer.rs:Span::adjust_offsets"]}
{"id": "C23", "title": "Splicing the same span again replaces the earlier replacement", "statement": "Splicing the same (non-empty) span of the original document repeatedly leaves the text with that span replaced by the last replacement. (True when no replacement but the last is empty; false in general.)", "quantifier": "every document, span and sequence of replacements", "why_tests_cant": "Any history of splices on one span.", "anchors": ["src/splicer.rs:Splicer::splice"]}
{"id": "C24", "title": "Splicing an enclosing span after inner ones replaces the whole region", "statement": "After splicing any disjoint spans inside an outer span, splicing the outer span replaces the whole (already edited) region and leaves the text outside it untouched; splicing outer-first then inner is not supported by the code (may corrupt or panic).", "quantifier": "every document, outer span, family of inner spans", "why_tests_cant": "Any number of inner edits that grow or shrink the region.", "anchors": ["src/splicer.rs:Splicer::splice", "src/splicer.rs:Span::adjust_offsets"]}
{"id": "C25", "title": "Splicing parser-produced spans cannot panic or corrupt", "statement": "For a parsed Dockerfile, splicing any selection of pairwise disjoint spans taken from the parse result, in any order, never panics and changes only those spans.", "quantifier": "every parsed input, every selection of disjoint spans, every order", "why_tests_cant": "Combines all inputs with all edit scripts.", "anchors": ["src/dockerfile_parser.rs:Dockerfile::splicer", "src/splicer.rs:Splicer::splice"]}
{"id": "C26", "title": "relative_span gives line number and column", "statement": "For a span with start <= end and start <= len, relative_span returns (number of newline bytes before start, span relative to the byte after the last of them), the relative length equals the original length, and line start + relative start = start; it never panics for start <= end. The line of that number is one of the lines of the text (as str::lines gives them) for every span of a parsed document; if the text of the span goes over a line end, the relative end lies beyond the end of the line; otherwise the relative span is the place of the text in the line.", "quantifier": "every document and span", "why_tests_cant": "Any document layout and Unicode content.", "anchors": ["src/splicer.rs:Span::relative_span"]}
{"id": "C27", "title": "substitute equals textual expansion of variable references", "statement": "substitute(s, vars, used, d) returns s with every leftmost-longest $name / ${name} reference replaced by the recursive substitution (with depth d-1) of its value and everything else unchanged; None iff some referenced variable is undefined, or its value cannot be substituted, or d = 0 and there is a reference. It never panics.", "quantifier": "every template, every variable map, every depth", "why_tests_cant": "Recursion through arbitrary variable graphs, splicing of arbitrary-length replacements.", "anchors": ["src/image.rs:substitute"]}
{"id": "C28", "title": "substitute is monotone in depth and rejects cycles", "statement": "If substitute succeeds with depth d it returns the same string with every larger depth; a string that references a variable lying on a reference cycle yields None at every depth; substitute terminates for every map.", "quantifier": "every variable map (cyclic or not), every depth", "why_tests_cant": "All reference graphs.", "anchors": ["src/image.rs:substitute"]}
{"id": "C29", "title": "used_vars is exactly the set of variables transitively referenced", "statement": "When substitute succeeds, used_vars gains exactly the variables reachable through references from the input string; when it fails it only gains variables that are reachable.", "quantifier": "every template and variable map", "why_tests_cant": "All reference graphs.", "anchors": ["src/image.rs:substitute", "src/image.rs:ImageRef::resolve_vars_with_context"]}
{"id": "C30", "title": "resolve_vars depends only on global ARG defaults", "statement": "resolve_vars(d) uses only ARGs before the first FROM that have a default, the last one winning for a repeated name; an image without variable references resolves to itself; a reference to an ARG that is undefined, has no default or is declared after FROM yields None.", "quantifier": "every ImageRef and Dockerfile", "why_tests_cant": "All ARG arrangements.", "anchors": ["src/image.rs:ImageRef::resolve_vars", "src/image.rs:ImageRef::resolve_vars_with_context"]}
{"id": "C31", "title": "from_reader is independent of chunking and equals parse", "statement": "from_reader over any reader that delivers bytes B in any chunking (with any number of interrupted reads) equals parse(B) when B is valid UTF-8 and is ReadError otherwise; a reader that fails with a real I/O error gives ReadError; a read that delivers nothing is the end of the file, and what the reader would do behind it makes no difference; from_str equals parse.", "quantifier": "every byte content, every chunking and interruption schedule", "why_tests_cant": "All schedules of short reads, including splits inside multi-byte characters.", "anchors": ["src/dockerfile_parser.rs:Dockerfile::from_reader", "src/dockerfile_parser.rs:FromStr for Dockerfile"]}
{"id": "C32", "title": "Shell-form text is the source with continuations and comments removed", "statement": "For shell-form RUN/CMD/ENTRYPOINT (and misc arguments), to_string() is the text at the span with every line continuation (backslash, blanks, newline) and every comment line removed; it contains no line break, and comments appear, in order, as separate components.", "quantifier": "every parsed input", "why_tests_cant": "All layouts of continuations, comments and blanks.", "anchors": ["src/util.rs:parse_any_breakable", "src/util.rs:Display for BreakableString", "src/dockerfile_parser.pest:any_breakable"]}
{"id": "C33", "title": "Blank and comment lines do not change the result", "statement": "Putting a comment line or blank line in front of a document changes nothing in the parse result except that every span moves by the length of the inserted line.", "quantifier": "every document, every comment text / blank prefix", "why_tests_cant": "All documents.", "anchors": ["src/dockerfile_parser.pest:meta_step", "src/dockerfile_parser.rs:parse_dockerfile"]}
{"id": "C34", "title": "Keywords are case-insensitive", "statement": "Changing the ASCII case of the keyword of an instruction (FROM, RUN, ARG, LABEL, COPY, ENTRYPOINT, CMD, ENV) does not change what the document parses to. (Only a line that is not well-formed for its keyword, and so becomes a misc instruction, shows the word as it is written.) More generally, the case of letters anywhere outside of the texts that the instructions show (keywords of any line, AS, comments) does not matter.", "quantifier": "every document text after the keyword, every casing of the keyword; every accepted text, every change of case outside of the shown texts", "why_tests_cant": "All casings times all continuations of the text.", "anchors": ["src/dockerfile_parser.pest:from", "src/dockerfile_parser.pest:run", "src/dockerfile_parser.pest:arg", "src/dockerfile_parser.pest:label", "src/dockerfile_parser.pest:copy", "src/dockerfile_parser.pest:entrypoint", "src/dockerfile_parser.pest:cmd", "src/dockerfile_parser.pest:env"]}
{"id": "C35", "title": "FROM round-trip", "statement": "For all images over the documented image alphabet (with valid digest if any), all flag lists and optional alias, the text 'FROM [--k=v ...] image [AS alias]' parses to one FROM with exactly these flags, image, ImageRef, alias and the obvious spans.", "quantifier": "every image, flag list and alias over the accepted alphabets", "why_tests_cant": "All strings over the alphabets, any number of flags.", "anchors": ["src/dockerfile_parser.pest:from", "src/instructions/from.rs:FromInstruction::from_record"]}
{"id": "C36", "title": "ARG and ENV/LABEL pair round-trip", "statement": "For all names and unquoted values, 'ARG name', 'ARG name=value', 'ENV k1=v1 ... kn=vn' and 'LABEL k1=v1 ... kn=vn' parse to exactly those names and values in order.", "quantifier": "every number of pairs, every name and value over the accepted alphabets", "why_tests_cant": "Any number of pairs and any strings.", "anchors": ["src/dockerfile_parser.pest:arg", "src/dockerfile_parser.pest:env_pairs", "src/dockerfile_parser.pest:label", "src/instructions/arg.rs", "src/instructions/env.rs", "src/instructions/label.rs"]}
{"id": "C37", "title": "COPY round-trip", "statement": "'COPY [--k=v ...] s1 ... sn dest' with n >= 1 parses to exactly these flags, sources in order, and destination; the destination is always the last path.", "quantifier": "every number of flags and sources, all path strings without whitespace", "why_tests_cant": "Any number of paths.", "anchors": ["src/dockerfile_parser.pest:copy", "src/instructions/copy.rs:CopyInstruction::from_record"]}
{"id": "C38", "title": "Shell-form and misc round-trip", "statement": "For all single-line texts, 'RUN text' (CMD, ENTRYPOINT) parses to a shell expression whose to_string() is text; 'WORD args' for an unknown word parses to a misc instruction with that word and the remaining text.", "quantifier": "every single-line text without a line continuation", "why_tests_cant": "All texts.", "anchors": ["src/dockerfile_parser.pest:run", "src/dockerfile_parser.pest:cmd", "src/dockerfile_parser.pest:entrypoint", "src/dockerfile_parser.pest:misc"]}
{"id": "C39", "title": "Exec-form round-trip", "statement": "For every list of strings without quotes, backslashes or control characters, 'RUN [\"a\", \"b\", ...]' (CMD, ENTRYPOINT) parses to an exec expression with exactly these strings in order, also for the empty list.", "quantifier": "every list of plain strings", "why_tests_cant": "Any length list.", "anchors": ["src/dockerfile_parser.pest:string_array", "src/util.rs:parse_string_array"]}
{"id": "C40", "title": "Whole-document round-trip", "statement": "Printing any sequence of well-formed items (instructions in the forms above, comments, blank lines) one per line and parsing the result gives back exactly that sequence of instructions, with spans pointing at the printed text.", "quantifier": "every finite sequence of well-formed items", "why_tests_cant": "Sequences of unbounded length; interaction between adjacent lines.", "anchors": ["src/dockerfile_parser.rs:Dockerfile::parse", "src/dockerfile_parser.pest:dockerfile"]}
{"id": "C41", "title": "Image digests accepted by FROM are sha256 of 64 hex digits", "statement": "If parse accepts a FROM whose image has a hash, then the hash is 'sha256:' followed by exactly 64 hexadecimal digits. (False: the check only requires 64 bytes, at least one of them a hex digit.)", "quantifier": "every parsed input", "why_tests_cant": "All digests.", "anchors": ["src/instructions/from.rs:FromInstruction::from_record"]}
{"id": "C42", "title": "A comment after a continuation is allowed before the first argument", "statement": "A comment line right after 'RUN \\\\' (CMD, ENTRYPOINT) is ignored as it is for every other instruction. (False: these three instructions reject it.)", "quantifier": "every such document", "why_tests_cant": "All comment texts.", "anchors": ["src/instructions/run.rs:RunInstruction::from_record", "src/instructions/cmd.rs", "src/instructions/entrypoint.rs"]}
{"id": "C43", "title": "Image update end-to-end", "statement": "Parsing a document, splicing new image text over the image spans of any of its FROMs, and re-parsing gives the same instructions with those images replaced.", "quantifier": "every well-formed document, every selection of FROMs, every valid replacement image", "why_tests_cant": "Composition of parse, splice and parse over all documents.", "anchors": ["examples/splice.rs", "src/splicer.rs:Splicer::splice", "src/dockerfile_parser.rs:Dockerfile::parse"]}
{"id": "C44", "title": "Typed accessors agree with the instruction variant", "statement": "Each as_x/into_x/TryFrom accessor returns the payload exactly when the instruction is of that kind (and None/ConversionError otherwise), exactly one accessor succeeds on any instruction, and span() is the payload's span.", "quantifier": "every instruction value", "why_tests_cant": "All values of the type.", "anchors": ["src/dockerfile_parser.rs:Instruction", "src/instructions/*.rs:TryFrom"]}
{"id": "C45", "title": "Exec arrays and shell strings are told apart by the source text", "statement": "An instruction parsed in exec form has source text at its expression span starting with '[' and ending with ']', and its elements are, in order, the unquoted quoted strings at the element spans.", "quantifier": "every parsed input", "why_tests_cant": "All inputs.", "anchors": ["src/dockerfile_parser.pest:string_array", "src/util.rs:parse_string_array", "src/util.rs:ShellOrExecExpr"]}
{"id": "C46", "title": "COPY has at least one source and the destination is the last path", "statement": "Every parsed COPY has a non-empty source list, its destination span lies after all source spans, and all flags precede all paths.", "quantifier": "every parsed input", "why_tests_cant": "All inputs.", "anchors": ["src/instructions/copy.rs:CopyInstruction::from_record", "src/dockerfile_parser.pest:copy"]}
{"id": "C47", "title": "Each instruction's text starts with its keyword", "statement": "The text at the span of a parsed FROM/RUN/ARG/LABEL/COPY/ENTRYPOINT/CMD/ENV instruction starts with that keyword in some casing; a misc instruction starts with its (alphabetic, non-empty) instruction word.", "quantifier": "every parsed input", "why_tests_cant": "All inputs.", "anchors": ["src/dockerfile_parser.pest:step", "src/dockerfile_parser.rs:Instruction"]}
{"id": "C48", "title": "Documents without quotes or backslashes are parsed line by line", "statement": "For a document without backslashes, quotes, carriage returns and '#' (other than in comment lines), parse succeeds iff it succeeds on every line separately, and the instructions are those of the lines, in order, with spans shifted to the line's offset. (With a '#' right after a keyword it is false: 'WORD #c' takes in the following line.)", "quantifier": "every such document", "why_tests_cant": "Any number of lines.", "anchors": ["src/dockerfile_parser.pest:dockerfile", "src/dockerfile_parser.rs:parse_dockerfile"]}
{"id": "C49", "title": "image_parsed is the parse of the image text", "statement": "For every FROM of a parsed Dockerfile, image_parsed = ImageRef::parse(image.content).", "quantifier": "every parsed input, every FROM", "why_tests_cant": "tests check single images; the claim is that no path builds the two fields inconsistently", "anchors": ["src/instructions/from.rs:100-126"]}
{"id": "C50", "title": "Names and images are over their documented alphabets", "statement": "In a parsed Dockerfile flag names and misc words are non-empty strings of ASCII letters, images, aliases and ENV keys are non-empty strings over [A-Za-z0-9_\\-.:/${}@], [A-Za-z0-9_-] and [A-Za-z0-9_], ARG names are a letter followed by letters, digits and underscores.", "quantifier": "every parsed input, every instruction", "why_tests_cant": "a universal claim about all texts that the grammar accepts", "anchors": ["src/dockerfile_parser.pest:dockerfile", "src/instructions/from.rs"]}
{"id": "C51", "title": "Exactly which texts are accepted, and what they mean", "statement": "A text is accepted by the grammar iff it can be cut into logical lines that are well-formed where they stand (blanks, comments, FROM/ARG/LABEL/RUN/CMD/ENTRYPOINT/COPY/ENV in all their layouts with continuations and comments between the parts, or another word with its text); the result is then the document these lines stand for, with all spans, or the first error they give (a quoted text that cannot be unquoted, an invalid digest, a comment in front of the arguments of RUN/CMD/ENTRYPOINT). Every other text is a syntax error.", "quantifier": "every text and every unquoting function", "why_tests_cant": "A complete description of an infinite language and of its meaning.", "anchors": ["src/dockerfile_parser.pest:dockerfile", "src/dockerfile_parser.rs:Dockerfile::parse", "src/instructions", "src/util.rs"]}
{"id": "C52", "title": "Layout does not matter", "statement": "Two documents whose instructions differ only in layout (space, continuations and comments between the parts of an instruction, case of keywords, indentation, trailing blanks, line-break style, blank and comment lines) give the same result apart from text and positions, also when it is an error; except for a comment in front of the arguments of RUN, CMD, ENTRYPOINT (C42).", "quantifier": "all pairs of well-formed documents, in any of the infinitely many layouts", "why_tests_cant": "All layouts of all documents.", "anchors": ["src/dockerfile_parser.pest:arg_ws", "src/dockerfile_parser.pest:meta_step", "src/dockerfile_parser.rs:Dockerfile::parse"]}
{"id": "C53", "title": "Parsing takes at most quadratic work", "statement": "On a text of n characters, accepted or not, the backtracking engine evaluates at most K*(n+1)^2 grammar expressions, for one constant K.", "quantifier": "all texts of all lengths", "why_tests_cant": "A test measures some texts; a backtracking grammar may be exponential on others.", "anchors": ["src/dockerfile_parser.pest:dockerfile", "src/dockerfile_parser.rs:parse_dockerfile"]}
{"id": "C54", "title": "Parsing work is not linear", "statement": "There is no constant K such that every accepted text of n characters is parsed with at most K*(n+1) evaluations: for every n there is an accepted document of n instructions and 17n characters that takes at least n^2.", "quantifier": "all constants K; all n", "why_tests_cant": "Growth is a statement about infinitely many sizes.", "anchors": ["src/dockerfile_parser.pest:string_array", "src/dockerfile_parser.pest:cmd"]}
{"id": "C55", "title": "What the recursion depth of the parser depends on", "statement": "The number of nested evaluations is at most a constant plus a constant times the number of backslashes and hashes in the text, whatever its length; and it is not bounded over all accepted documents: one RUN over n+1 lines takes at least n nested evaluations.", "quantifier": "all texts; all n", "why_tests_cant": "Depth grows with the text; a test sees only the depths it tries.", "anchors": ["src/dockerfile_parser.pest:any_breakable", "src/dockerfile_parser.pest:inner"]}
{"id": "C56", "title": "What the structure of a document depends on", "statement": "Replace letters by the same letters in another case, digits by digits, and characters that have no role in the syntax by others of the same size. Then a syntax error remains a syntax error and other texts do not become one. If the text was accepted, then the new one is accepted, too, with the same instructions up to their texts: the same kinds, flags, arguments, labels, variables, components and stages in the same order, and all spans equal. The only exception is an error about what a text says (invalid digest, or a quoted text that cannot be unquoted).", "quantifier": "all pairs of texts that look alike", "why_tests_cant": "Relates all pairs of texts; a test sees a few.", "anchors": ["src/dockerfile_parser.pest:dockerfile", "src/dockerfile_parser.rs:parse_dockerfile"]}
{"id": "C57", "title": "New texts leave the rest of the document as it was", "statement": "Parse a text and, with the splicer, put new texts at any of the fields of the instructions: names and values of flags, images, aliases, names and values of ARG, names and values of labels, the lines of shell text and the comments between them, elements of arrays, paths, names and values of ENV, arguments of unknown instructions. A new text is the old one with pieces of plain text (no blanks, line breaks, quotes, backslashes, '#', '=', ',', brackets) replaced by others, and is of the form the field asks for. Then splicing does not panic, and parsing the result gives the same document with the new texts: every other text is the same, and all positions are moved by the differences of the lengths.", "quantifier": "all accepted texts; all sets of edits at these fields, in any order", "why_tests_cant": "Any document, any set of fields, any new texts; a test sees a few.", "anchors": ["src/splicer.rs:splice", "src/dockerfile_parser.rs:parse_dockerfile", "src/dockerfile_parser.pest:dockerfile"]}
{"id": "C58", "title": "The parser follows the grammar file", "statement": "Read the grammar file as pest does, run pest's optimiser on it, and run the rule dockerfile on a text: the outcome (failure, or the position and the tokens) is exactly that of the model's parser, on which the other properties rest. The same holds for the grammar as written, and for any sequence of the optimiser's passes other than the last one, which finds nothing to do in this grammar.", "quantifier": "all texts", "why_tests_cant": "The optimiser rewrites the grammar; that the rewritten one accepts the same texts with the same tokens is a statement about all texts.", "anchors": ["src/dockerfile_parser.pest", "src/parser.rs"]}
{"id": "C59", "title": "Instructions stand alone", "statement": "Parse a text and take the excerpt from the start of an instruction to the end of the same or a later instruction. Parsing the excerpt by itself gives exactly these instructions, with all positions counted from the start of the excerpt and the stages numbered from 0. In particular this holds for the text of a single instruction, for the text without what comes before the first and after the last instruction, and for a stage: from its FROM to the end of its last instruction is a document with one stage of the same name.", "quantifier": "all accepted texts; all runs of consecutive instructions", "why_tests_cant": "Where an instruction ends depends on what follows (line continuations, closing quotes, comments); that cutting there never changes the reading is a statement about all texts and all cuts.", "anchors": ["src/dockerfile_parser.pest:dockerfile", "src/dockerfile_parser.rs:parse_dockerfile", "src/stage.rs:new"]}
{"id": "C60", "title": "Joining documents", "statement": "Take an accepted text that ends with a line break which is not part of an instruction, and put another text after it. Suppose nothing the first text left open is closed in the second: no quoted text, no array, no arguments of a keyword that was read as an unknown word. Then the result of parsing the joined text is that of the second text with the instructions of the first in front and the positions moved: the instructions are those of the first text followed by those of the second, the stages are numbered through, the global arguments are the ARGs before the first FROM; if the second text is rejected, so is the joined text, with the same error. Each of the conditions is needed.", "quantifier": "all accepted first texts, all second texts", "why_tests_cant": "The parser looks ahead without bound (quotes, arrays and continuations may extend over lines), so whether more text changes earlier instructions is a statement about all pairs of texts.", "anchors": ["src/dockerfile_parser.pest:dockerfile", "src/dockerfile_parser.rs:parse_dockerfile"]}
{"id": "C61", "title": "The parsing engine and its error positions", "statement": "Running the code that pest generates for the grammar (parser state with a queue of tokens, record of failed attempts, backtracking) on any text comes to an end without a panic, with the pairs that the model's parser returns, so that Dockerfile::parse is what the model says; otherwise with an error that names at least one rule, at a byte offset that is a character boundary of the text. There is exactly one place up to which the text consists of well formed lines and at which no well formed line begins, and the error is never reported before that place. Every rule that the error lists as expected does not match at that offset in the grammar as it is written, and every rule listed as unexpected matches there.", "quantifier": "all texts", "why_tests_cant": "The engine backtracks, truncates its queue and revises its record of attempts in ways that depend on the whole history; that nothing of this leaks into the pairs or puts the error before the first bad line is a statement about all texts.", "anchors": ["src/dockerfile_parser.pest:dockerfile", "src/dockerfile_parser.rs:parse_dockerfile", "src/error.rs:Error"]}
{"id": "C62", "title": "How large resolved images can get", "statement": "Expanding a text of n bytes with variables whose values have at most V bytes (V at least 2) and depth d gives at most n * (V/2)^d bytes. So resolve_vars, which uses depth 16, turns an image of n bytes into one of at most n * (V/2)^16 bytes, and an image of a document of n bytes into one of at most n^17 / 2^16 bytes. This is attained: for every m there is an accepted document of 34 m + 117 bytes, with image and default values of 2 m bytes each, whose image resolves to 2 m^17 bytes. No multiple of the 16th power of the size of the document is a bound.", "quantifier": "all variable maps, depths and texts; all documents; all m", "why_tests_cant": "The sizes in question cannot be produced in a test (457 bytes of input give 2 * 10^17 bytes), and an upper bound is a statement about all documents.", "anchors": ["src/image.rs:substitute", "src/image.rs:ImageRef::resolve_vars_with_context", "src/image.rs:ImageRef::resolve_vars"]}
{"id": "C63", "title": "Comparing, printing and looking up stages", "statement": "Two stages of one document are equal for == exactly if they are the same stage, and ordered by cmp as in the document, so the list of stages is strictly ascending; stages[i] is the stage with index i and panics exactly if there is none. For all stages, also of different documents, cmp is a total order with which == and partial_cmp agree; stages of different documents may be equal with different contents. The text of a StageParent is scratch, the number of the stage in decimal without leading zeros, or the image as written in the document. If the parent of a stage is a stage, Stages::get finds it under that text; an image whose text is a number is found as that stage although it is an image, and a stage whose name is a number is found by get_by_name but not by get.", "quantifier": "all documents and their stages; all stages (laws)", "why_tests_cant": "Order laws and lookup by printed parent are statements about all documents; the trait implementations have no tests at all.", "anchors": ["src/stage.rs:Stage", "src/stage.rs:StageParent", "src/stage.rs:Stages::get", "src/stage.rs:Stages::index"]}
{"id": "C64", "title": "Line, column and text of parse errors", "statement": "For every text that Dockerfile::parse rejects because pest does, pest's error can be made and printed without a panic. The line it names is one plus the number of line feeds before the offset, the column is one plus the number of characters of that line before the offset; the line shown is that line without line breaks, or with visible ones if the offset is at a line break; the message lists the expected and unexpected rules of the report, each once, in the order of the grammar, and is never 'unknown parsing error'. The line is never before the one where the first malformed line begins. If there is no carriage return before the offset in its line, the mark is printed under the character at the offset; with carriage returns it may be under a later one, and instructions ended by single carriage returns do not count as lines. Span::relative_span agrees with pest on lines, but counts bytes as columns.", "quantifier": "all rejected texts; all offsets at character boundaries", "why_tests_cant": "Slicing of lines, columns and underlining depend on all positions and character widths; tests only assert that an error occurs.", "anchors": ["src/error.rs:Error", "src/dockerfile_parser.rs:parse_dockerfile", "src/splicer.rs:relative_span"]}
{"id": "C65", "title": "Building and comparing strings", "statement": "A BreakableString built with new, add, add_string and add_comment has the span given and exactly the components added, in order; its text is the concatenation of the strings added, whatever comments are in between; every string of a document is the one built from its span and components, and ENV values in pairs are built with new and add_string. The derived orders of Span, SpannedString, SpannedComment, BreakableStringComponent, BreakableString and StringArray are total orders that agree with equality, and the order of texts by bytes is that by characters; lists and texts are in dictionary order. In a parsed document, instructions and their fields, by their spans, are strictly ascending in that order. The components of a shell text are so by their spans, but in the derived order of components exactly if no comment comes before a string.", "quantifier": "all spans, components, texts; all documents", "why_tests_cant": "Order laws and their agreement with the source order are statements about all values and all documents; none of the derived orders is tested.", "anchors": ["src/util.rs:BreakableString", "src/util.rs:BreakableStringComponent", "src/util.rs:SpannedString", "src/splicer.rs:Span"]}
{"id": "C66", "title": "How much work resolving an image takes", "statement": "substitute calls itself once for every reference it comes to, from left to right, and stops at the first one that is undefined, nested too deeply or has a value that cannot be expanded; with at most K references in every value and c in the text, d levels take at most 1 + c*(1 + K + ... + K^(d-1)) calls. Hence resolve_vars makes at most 1 + k + k^2 + ... + k^16 calls for a document of n bytes, k = n/2; for every m there is a document of 34m+119 bytes that takes 1 + m + ... + m^16 calls although its image cannot be resolved, so no multiple of n^15 is a bound. A variable whose value begins with a reference to itself takes 17 calls, whatever follows.", "quantifier": "all variable maps, depths, texts, documents", "why_tests_cant": "Work is a function of all inputs; the worst documents cannot be run (459 bytes take more than 10^16 calls).", "anchors": ["src/image.rs:substitute", "src/image.rs:ImageRef::resolve_vars", "src/image.rs:ImageRef::resolve_vars_with_context"]}
{"id": "C67", "title": "Debug output and texts of errors", "statement": "The Debug texts of spans, strings, images, instructions and documents determine the values, whatever the tables of std say about which characters are shown as they are; such a text also shows where it ends. Each TryFrom of an instruction type gives the payload of its variant and otherwise a ConversionError with the Debug text of the instruction and the name of the type, and the text of that error determines both. The Debug text of an instruction starts with the names of its variant and type and with its span. Different messages of GenericParseError have different texts, and two different errors have different texts unless both are reports of pest. Whenever Dockerfile::parse fails, the payloads of the error are determined by the text, and its text is pest's report after 'could not parse Dockerfile: ', one of two sentences (invalid digest, unexpected comment), or 'error unescaping string: ' and the kind of failure. Every error other than a report of pest has a text, which is the sentence given for its variant in src/error.rs with the payload put in; an error of enquote is shown by the name of its variant.", "quantifier": "all values, all texts, all tables of printable characters", "why_tests_cant": "Injectivity is a statement about all pairs of values; the texts are never tested.", "anchors": ["src/error.rs:Error", "src/splicer.rs:Span", "src/dockerfile_parser.rs:Instruction", "src/instructions/from.rs:FromInstruction"]}
{"id": "C68", "title": "Line feeds at the end of the text", "statement": "Let a text not end with a backslash, or a backslash and blanks. It is rejected if and only if it is rejected with a line feed after it, and with the same error. If it is accepted, then with the line feed the global arguments are the same and the instructions are the same, except that a last instruction that ends with the text (in a comment or a line continuation) may become longer by the line feed, which changes nothing but spans. Hence any number of line feeds at the end changes nothing but spans. The condition is needed: with a backslash at the end, a line feed can turn an accepted text into a rejected one, the other way round, or change values.", "quantifier": "all texts", "why_tests_cant": "Whether a file ends with a line feed is decided by editors; that it makes no difference is a statement about all texts, and it fails for some.", "anchors": ["src/dockerfile_parser.pest:dockerfile", "src/dockerfile_parser.pest:arg_ws", "src/dockerfile_parser.pest:any_breakable", "src/dockerfile_parser.rs:Dockerfile::parse", "examples/splice.rs:main"]}
{"id": "C69", "title": "The example programs", "statement": "The programs examples/splice.rs and examples/stages.rs panic without an argument or if the file cannot be opened, and in no other case; they exit with code 1 exactly if Dockerfile::from_reader fails, with its error, and with code 0 otherwise. For an accepted text, splice prints the text with splice:test in place of the image of every FROM, and a line feed; the printed text without that line feed is accepted and has the same instructions with these images. If the text does not end with a backslash (and blanks), the program accepts its own output and prints it again with one more line feed; otherwise its output need not be accepted. For an accepted text, stages prints one line for each stage and one line for each of its instructions, and no other line feeds; two files give the same output if and only if they have the same instructions from the first FROM on.", "quantifier": "all files, and all ways in which reading them may proceed", "why_tests_cant": "The programs are not tested at all; that the loop never panics and that the output can be read again depend on every Dockerfile that may be given.", "anchors": ["examples/splice.rs:main", "examples/splice.rs:wrap", "examples/stages.rs:main", "examples/stages.rs:wrap", "src/splicer.rs:Splicer::splice", "src/stage.rs:StageParent"]}
{"id": "C70", "title": "Other line ends", "statement": "Put CR LF, or a single CR, in place of every LF of a text without CR. The grammar rejects the new text if and only if it rejects the old one. If the old text is accepted, and no string of the document is written in quotes across two lines, the new text is accepted and gives the same document with every position moved by the bytes added before it; and conversely for the new text. For a text without quote characters the results are the same, whether they are documents or errors. Strings in quotes across two lines are an exception: a LABEL continued inside quotes is accepted with LF and rejected with CR LF, and an ENV value with a line end in quotes has another value.", "quantifier": "all texts without carriage returns, both other line ends, all documents", "why_tests_cant": "Every rule of the grammar that looks at line ends, and every place where the code looks at the text of a token, must treat the three line ends alike; tests try some files.", "anchors": ["src/dockerfile_parser.pest:NEWLINE", "src/dockerfile_parser.pest:line_continuation", "src/util.rs:clean_escaped_breaks", "src/dockerfile_parser.rs:parse_dockerfile"]}
{"id": "C71", "title": "Cutting, exchanging, deleting and inserting lines", "statement": "If an accepted text is cut after a line break that is not part of an instruction, both parts are accepted, and the instructions of the document are those of the first part followed by those of the second, moved by the length of the first (stages numbered anew, global arguments up to the first FROM). Hence lines of an accepted text can be exchanged for the lines of another one: the instructions before keep their values and places, those of the old lines are replaced by those of the new lines, and those after keep their values and move; likewise lines can be taken out or put in, and the splicer can replace an instruction by several. Only what is left open before must not be closed after it (quotes, arrays, arguments of a keyword), as in C60; this condition is needed, and so is that the cut is not inside an instruction.", "quantifier": "all accepted texts, all cuts after a line break outside of instructions, all replacements", "why_tests_cant": "Every instruction may look ahead beyond its line; that no decision depends on later lines, for all texts and all cuts, is a statement about the whole grammar.", "anchors": ["src/dockerfile_parser.pest:dockerfile", "src/dockerfile_parser.rs:parse_dockerfile", "src/splicer.rs:163-178"]}
{"id": "C72", "title": "The first fault in the text decides the error", "statement": "A text of the right form is rejected if and only if one of its checks fails: a text in quotes that enquote cannot read, an image with an invalid digest, a comment in front of the arguments of RUN, CMD or ENTRYPOINT. The error is that of the first check that fails, in the order of the text; what is unquoted is a part of the text that starts with a quote (for labels, without pairs of backslash and newline). If a text is rejected for another reason than its form, then some line is to blame: the text before that line is accepted, and the line by itself, as well as the text from it on, is rejected with the same error.", "quantifier": "all texts, all behaviours of the unquoting library", "why_tests_cant": "Which of several faults is reported depends on the order in which the code visits the parse tree; that this is the order of the text, for all combinations of faults, is a statement about all documents.", "anchors": ["src/dockerfile_parser.rs:parse_dockerfile", "src/util.rs:parse_string", "src/instructions/from.rs:FromInstruction::from_record", "src/instructions/copy.rs:CopyInstruction::from_record", "src/instructions/label.rs:LabelInstruction::from_record"]}
{"id": "C73", "title": "Every document can be written down, and there is a normal form", "statement": "For any list of instructions whose names, images and aliases are over their alphabets (with valid digests), whose COPYs have a source, and whose shell texts consist of lines and comments that start and end with text, a text can be written, putting every value in quotes with escapes; it is accepted and is read as these instructions, whatever characters the values consist of. All instructions of an accepted text are of this kind, except those with shell text that starts or ends with a comment, ends with a backslash or looks like an array, values of several lines that start with a quote, and keywords used as unknown words. For other documents the text written is a normal form: it is read as the same document up to positions, writing that gives the same text again, and two documents have the same values iff the same text is written for them.", "quantifier": "all instructions, all accepted texts, all unquoting libraries that undo the escapes (enquote does, as modelled)", "why_tests_cant": "Values are arbitrary strings; whether some value breaks out of its quotes, or is joined with the next line, is a statement about all of them.", "anchors": ["src/dockerfile_parser.pest:dockerfile", "src/dockerfile_parser.rs:parse_dockerfile", "src/util.rs:parse_string"]}
{"id": "C74", "title": "The variables reported are exactly what an image depends on", "statement": "If an image resolves in a document, then in every document in which the variables reported have the same last default values (whatever else differs) it resolves to the same image with the same variables reported. Each of them is needed: in a document with the same default values except that one of the variables reported has none, the image does not resolve. More generally substitution, whether it succeeds or not, depends only on the values of the variables that can be reached from the text.", "quantifier": "all images, all pairs of documents, all variable maps, all depths", "why_tests_cant": "It compares runs on two arbitrary documents, and variables may be reached through chains of other variables.", "anchors": ["src/image.rs:ImageRef::resolve_vars_with_context", "src/image.rs:substitute"]}
{"id": "C75", "title": "Resolving an image again", "statement": "An image resolves to itself in every document iff its text has no references. If every dollar sign of an image, and of the values of the variables it reaches, starts a reference, then the resolved image has no dollar sign, and resolving it again in any document changes nothing. Without this condition it may change: references may be put together from parts (witness), and an image with references may resolve to itself (witness).", "quantifier": "all images, all documents", "why_tests_cant": "Whether the result has references depends on all the values that are put together.", "anchors": ["src/image.rs:ImageRef::resolve_vars", "src/image.rs:substitute"]}
{"id": "C76", "title": "The remaining accessors and conversions, iterating over stages, and their Debug text", "statement": "Each accessor that takes ownership (into_from, ..., into_misc) takes apart exactly the instructions that the conversion From of its structure makes, and agrees with the accessor that borrows (as_from, ...); TryFrom undoes From. RUN, CMD and ENTRYPOINT have either shell text or an array, and as_shell, into_shell, as_exec and into_exec of the expression and of each of the three structures give it. as_str_vec gives what the quoted texts at the elements' spans stand for, in order, and reads back strings that were written as an array. Iterating over the stages with iter, into_iter or iter_stages gives the stages in order. The Debug text of a stage determines all of it, although == compares only the index, and the Debug text of Stages determines all stages.", "quantifier": "all instructions, all documents, all lists of stages, all sets of characters shown without escapes", "why_tests_cant": "They are statements about all values; that the Debug text is unambiguous is a statement about all strings in it.", "anchors": ["src/dockerfile_parser.rs:Instruction::into_from", "src/dockerfile_parser.rs:impl_from_instruction", "src/util.rs:ShellOrExecExpr::into_shell", "src/instructions/run.rs:RunInstruction::as_shell", "src/dockerfile_parser.rs:Dockerfile::iter_stages", "src/stage.rs:Stage", "src/util.rs:StringArray::as_str_vec"]}
{"id": "C77", "title": "Changing a part of an image", "statement": "A parsed image in which one part is replaced is read back from its text as changed exactly when: for a new tag, the name has no colon, the tag no @, and no slash if the image has neither registry nor slash; for no tag and no digest, the name has no colon; for a new registry, it is a host without slashes that is localhost or has a dot or a colon; for no registry, the rest does not start with another registry. A new digest without slashes is always read back. An image with both tag and digest keeps the tag in its name, so a new tag ends up behind the old one (witness). In every accepted document the image of any one FROM can be replaced by an image that is read back (over the alphabet of images, with a valid digest): splicing its text gives a document that is the same except for this image; in particular any tag over the characters of tags (if the name has no colon) and any sha256 digest of 64 hexadecimal digits.", "quantifier": "all image texts, all tags, digests and registries, all accepted documents and every FROM in them", "why_tests_cant": "Whether the changed text is divided in the same way depends on all characters of all parts.", "anchors": ["src/image.rs:ImageRef::parse", "src/image.rs:ImageRef (Display)", "src/splicer.rs:Splicer::splice", "src/instructions/from.rs:FromInstruction::from_record"]}
{"id": "C78", "title": "What the stages of a document depend on", "statement": "Parents and roots of stages depend only on which images are scratch and which are aliases of earlier stages, ignoring case: if two documents agree on that for their first n FROMs, then their first n stages have corresponding parents (both scratch, the same stage, or both images), and their roots are the parents of corresponding stages; so stages can be renamed. If the first n FROMs have the same images and aliases ignoring case, the first n stages have the same index, name, parent and root; so other instructions make no difference to these. With more instructions at the end of a document all stages but the last are unchanged, and the last one only gets more instructions.", "quantifier": "all pairs of documents, all stages", "why_tests_cant": "It compares the stages of two arbitrary documents.", "anchors": ["src/stage.rs:Stages::new", "src/stage.rs:Stages::get_by_name"]}
{"id": "C79", "title": "Regular expressions and string functions, as they are written", "statement": "The two patterns of the crate, read from their texts as in the source, and matched by a general matcher for regular expressions (classes, groups, alternatives, repetition; leftmost, first alternative first, as many as possible), give what the model says: the matcher finds exactly the texts of the language of a pattern, and a search finds the leftmost place where there is one; the captures of VAR are the references of the text, the text of the first group is the name if there are no braces, that of the second group if there are braces, and the other group is not there; substitute written with the captures is the substitute of the model; HEX matches if there is a hexadecimal digit anywhere. ImageRef::parse written with splitn, find, split_at, indexing and slicing never panics and gives the parts of the model; split(':') gives the pieces of the model, so the check of a digest is that of the model; replace gives clean_escaped_breaks.", "quantifier": "all patterns (for the matcher), all texts, all maps of variables, all depths", "why_tests_cant": "It is about all texts: leftmost-longest names, braces that do not close, offsets of characters of several bytes, and the absence of panics of indexing and slicing.", "anchors": ["src/image.rs:substitute", "src/image.rs:ImageRef::parse", "src/instructions/from.rs:FromInstruction::from_record", "src/util.rs:clean_escaped_breaks"]}
{"id": "C80", "title": "Machine integers", "statement": "With the integers of a 64-bit target, with overflow that panics (debug builds) or wraps around (release builds): any history of splices gives what it gives with unbounded integers, including panics, if the length of the text and the numbers in the spans stay below 2^63 when the lengths of all new texts are added; for spans of a parsed document it is enough that the text and the new texts have less than 2^63 bytes together. On a fresh splicer, numbers in a span from 2^63 on count as 0, so splicing at (usize::MAX, usize::MAX) puts the text at the front instead of panicking. relative_span does not overflow for spans that do not end before their start; otherwise a debug build panics and a release build gives a wrapped number. The u8 depth of substitute behaves like a natural number. With machine integers also in its splicer, substitute panics exactly if one of the texts that are built on the way (after each replacement, also in values) has 2^63 bytes or more, and gives otherwise what it gives with unbounded integers; so both builds agree. A document has at most as many instructions as bytes.", "quantifier": "all texts, spans, histories of splices, depths; both ways to treat overflow", "why_tests_cant": "Overflow needs huge numbers and arbitrary histories of splices; builds differ in how they treat it.", "anchors": ["src/splicer.rs:Splicer::splice", "src/splicer.rs:Span::adjust_offsets", "src/splicer.rs:Span::relative_span", "src/image.rs:substitute"]}
{"id": "C81", "title": "All the ways in which a line can be wrong", "statement": "There is a complete list of the ways in which a line can be malformed: it starts with something that is neither a letter nor a hash; it is a word alone; it is an unknown word (or a keyword that is not followed by what starts its arguments) with unfinished text; RUN, CMD or ENTRYPOINT has unfinished shell text, or something after the array; FROM has something else than an alias after the image, or something after the alias; ARG has something else than a value after the name, or something after the value; COPY has a line continuation after its last argument; LABEL has something after a single value, or something that is no pair; ENV has something after a quoted text, unfinished text, or something that is no pair. Text is unfinished if a line of it is continued by a backslash and the next line is empty or has nothing in front of another backslash. A document is rejected if and only if it consists of well-formed lines and then a malformed one, and the place is unique. After a keyword or word there is exactly one of: the end of the line, shell text, unfinished text. Without a backslash no text is unfinished, so an unknown instruction with an argument without a backslash is never rejected.", "quantifier": "all texts", "why_tests_cant": "Completeness of a list of errors is a statement about all texts.", "anchors": ["src/dockerfile_parser.pest:dockerfile", "src/dockerfile_parser.rs:Dockerfile::parse"]}
{"id": "C82", "title": "How large a document can get", "statement": "The texts that are stored in the instructions of a parsed document (contents of strings, components and comments of shell text, elements of arrays, names and values of flags, labels and variables) have together at most as many bytes as the source text, if unquoting never lengthens a text, which is so for enquote::unquote; so do the parts of all its images, and the copies of its global arguments. With the stored source text that is at most four times the source. The number of instructions, fields and parts of fields, that is of spans, is at most three times the number of bytes of the source.", "quantifier": "all texts, all documents", "why_tests_cant": "That memory stays linear in the input is a statement about all inputs; a construct that stores something twice goes unnoticed in tests of results.", "anchors": ["src/dockerfile_parser.rs:Dockerfile::parse", "src/image.rs:ImageRef::parse", "src/util.rs:parse_string"]}
{"id": "C83", "title": "How much work the parts after the parser take", "statement": "parse_any_breakable on the pair of a shell text with k components moves components between vectors exactly k(k+3)/2 times, so its work is quadratic in the number of lines. Stages::new compares j+1 names for a stage whose parent is stage j, none for a stage made from scratch, and the names of all earlier stages for another image: at most k(k-1)/2 for k stages, and exactly that when no stage after the first is made from scratch or from a stage other than the one before it. n splices that succeed look at exactly n(n-1)/2 offsets and build texts of at most n times the bytes of the document and all replacements. When a splice panics after k that succeeded, k(k+1)/2 offsets have been looked at. relative_span looks at the bytes up to the start of the span, that is min(start+1, length).", "quantifier": "all texts, documents, histories of splices and spans", "why_tests_cant": "Counts of steps are not part of any result, and a bound for all sizes is not a finite number of cases.", "anchors": ["src/util.rs:parse_any_breakable_inner", "src/stage.rs:Stages::new", "src/splicer.rs:Splicer::splice", "src/splicer.rs:Span::relative_span"]}
{"id": "C84", "title": "Which word makes which instruction", "statement": "Every instruction of a parsed document starts with a word of letters, and it is determined by this word and the text after it: if the word is one of the eight keywords (in any casing) and the text after it starts like the arguments of this keyword then the instruction is of this kind; otherwise it is a MiscInstruction with the word as its name. The arguments start with a blank or a line continuation; LABEL and ENV need nothing more; RUN, CMD and ENTRYPOINT need something after the space in the line; ARG needs a letter; FROM needs, after flags, a character of an image; COPY needs, after flags, two arguments. So it is not true that only unknown words become MiscInstructions: each keyword does in some text that is accepted, and such a FROM makes no stage.", "quantifier": "all texts, all instructions of the document", "why_tests_cant": "The dispatch is by ordered choice over everything that may follow the word.", "anchors": ["src/dockerfile_parser.pest:step", "src/dockerfile_parser.pest:misc", "src/dockerfile_parser.rs:Instruction"]}
{"id": "C85", "title": "Which texts in quotes can be read", "statement": "enquote::unquote reads a text exactly if it starts and ends with the same of the three quotes and what is between them is a sequence of characters other than that quote and the backslash, and of escapes: a backslash with one of \\ \" ' ` a b f n r t v, with three octal digits below 256, with x and two hexadecimal digits, with u and four or U and eight hexadecimal digits of a character (of the digits after x, u and U the first may be a plus sign); and then the value is these characters and what the escapes stand for. Otherwise the error is about the first thing that is wrong. A text that the grammar takes for a text in quotes can only be wrong in its escapes (the grammar lets any character follow a backslash). A document never gives the error about unknown quotes, and there are documents for each of the others; in a label, an escaped backslash at the end of a line is taken for a line continuation, which gives errors about the end of the text or about a quote inside.", "quantifier": "all texts, all documents", "why_tests_cant": "The relation between two independent descriptions of escapes (grammar and enquote) is over all texts.", "anchors": ["src/util.rs:parse_string", "src/util.rs:clean_escaped_breaks", "src/instructions/label.rs:Label::from_record", "src/dockerfile_parser.pest:escape"]}
{"id": "C86", "title": "Formatting with options", "statement": "With {} the Display texts are those of the other properties. A width, a precision, a fill, an alignment or a sign has no effect on a BreakableString, an ImageRef and a StageParent that is an image or scratch; a SpannedString is cut and filled up as a str, and a StageParent that is a stage is filled up as a number; so a width lines up the numbers of stages but not the parents of stages in general. {:?} (without width and sign) is the text of C67 for every public type, and {:#?} is this text in several lines: joining the lines gives the text, the lines are indented by four blanks for each open bracket, and different instructions, documents and lists of stages have different texts.", "quantifier": "all values of the public types, all options", "why_tests_cant": "Options and values are unbounded; that strings with brackets, commas and line feeds do not disturb the layout is a claim about all strings.", "anchors": ["src/util.rs:Display for SpannedString", "src/util.rs:Display for BreakableString", "src/image.rs:Display for ImageRef", "src/stage.rs:Display for StageParent", "src/splicer.rs:Debug for Span"]}
{"id": "C87", "title": "Machine integers of 32-bit targets", "statement": "The statements of C80 hold with the integers of a 32-bit target and 2^31 in place of 2^63: any history of splices gives what it gives with unbounded integers, including panics, if the length of the text and the numbers in the spans stay below 2^31 when the lengths of all new texts are added; for spans of a parsed document it is enough that the text and the new texts have less than 2^31 bytes together. On a fresh splicer, numbers in a span from 2^31 on count as 0, and splice panics exactly if the span that results is no range of the text. relative_span does not overflow for spans that do not end before their start. substitute panics exactly if one of the texts that are built on the way has 2^31 bytes or more, and gives otherwise what it gives with unbounded integers. Both builds agree. So a document that is small enough for the smaller target is treated alike on both.", "quantifier": "all texts, spans, histories of splices, depths; both ways to treat overflow", "why_tests_cant": "Tests run on one target; overflow needs huge numbers and arbitrary histories of splices.", "anchors": ["src/splicer.rs:Splicer::splice", "src/splicer.rs:Span::adjust_offsets", "src/splicer.rs:Span::relative_span", "src/image.rs:substitute"]}
{"id": "C88", "title": "A reader that works line by line", "statement": "Cut a text into physical lines, join a line that ends with a backslash (and blanks) with the next one, and leave out blank lines and comment lines after the first line of such a logical line. If, in an accepted document, every text in quotes has a backslash before each of its line breaks (and does not end in a line that starts with #), and the text of RUN, CMD, ENTRYPOINT, ENV and unknown instructions does not start with a comment and does not end, after a continuation, with a comment or a blank line, then the logical lines other than blank lines and comments are, one by one and in order, the instructions: an instruction starts after the blanks at the start of its logical line and ends in front of blanks at its end; the logical line on a single line consists of the words of the instruction with blanks or nothing between them; and for shell text and unknown instructions what Display gives is the logical line after the keyword. In particular this holds for every accepted document without backslashes, quotes and number signs. It does not hold for all documents (a blank line after a continuation in shell text ends the instruction; a comment in place of arguments takes in the next line; a text in quotes may go over lines), and a continuation separates words for the library but not on the single line.", "quantifier": "all accepted documents", "why_tests_cant": "Relates two independent readers over all documents; the exceptions are found by trying to prove it.", "anchors": ["src/util.rs:Display for BreakableString", "src/util.rs:parse_any_breakable", "src/dockerfile_parser.pest:any_breakable", "src/dockerfile_parser.pest:line_continuation"]}
{"id": "C89", "title": "What is not supported", "statement": "Parser directives have no effect: after any blank lines and comment lines at the beginning, such as `# escape=`, the rest is read as without them, and all positions are moved by their length; two such beginnings of the same length give the same instructions with the same spans. A byte order mark at the beginning, or any character that is neither a letter nor a hash at the start of a line, is a syntax error, as is a word alone in its line. So a here-document (`RUN <<word`, lines that can stand for themselves, `word` alone) is rejected. The array form of COPY is not understood: written as one word, as in `COPY [\"a\",\"b\"]`, it is taken for an unknown instruction with the whole array as its arguments; with a last word that starts with a quote and ends with something else, as in `COPY [\"a\", \"b\"]`, it is an error about unmatched quotes.", "quantifier": "all texts, all directives, all words", "why_tests_cant": "No choice of directives shows that none has an effect; the rejected and misread forms are infinite families.", "anchors": ["src/dockerfile_parser.pest:comment", "src/dockerfile_parser.pest:misc", "src/dockerfile_parser.pest:copy", "src/util.rs:parse_string", "README.md:Limitations"]}
{"id": "C90", "title": "Mixed line ends", "statement": "Line feeds, Windows line ends (a carriage return and a line feed) and single carriage returns may be mixed in one text. Every text is rejected by the grammar if and only if it is with a line feed in place of each line end. If none of the strings of a document is written in quotes across two lines, the document is the same with line feeds for all line ends, and the other way round, and so for any two texts that differ in their line ends only; the positions move by one byte for each Windows line end before them. A text without quotes gives the same result, document or error, but for the positions. With a line break inside of quotes this does not hold: the value contains the line end as it is written.", "quantifier": "all texts, with any mixture of line ends", "why_tests_cant": "Every line end of a file may be one of three, in every place of the grammar where a line can end.", "anchors": ["src/dockerfile_parser.pest:NEWLINE", "src/dockerfile_parser.pest:comment", "src/dockerfile_parser.pest:line_continuation", "src/util.rs:parse_any_breakable"]}
{"id": "C91", "title": "How the forms of an instruction are told apart", "statement": "In every document the text decides the form of each instruction. The arguments of RUN, CMD and ENTRYPOINT are in exec form if and only if, after the keyword and the space, the text goes on with an array. An ENV is one variable with the rest of the instruction as its value if a name and then space come after the keyword, whatever equals signs come later (`ENV a b=c`, `ENV a =b`); otherwise each variable has its value right after an equals sign. The same holds for LABEL, with names that may be in quotes. An ARG has a value if and only if an equals sign comes right after its name. What COPY and FROM have as flags is written as a flag, and the first source and the image are not. A FROM has no alias if and only if nothing but blanks come after the image in its line.", "quantifier": "all texts that are accepted, all their instructions", "why_tests_cant": "The choice depends on unbounded text after the keyword, with continuations and comments in between.", "anchors": ["src/dockerfile_parser.pest:run", "src/dockerfile_parser.pest:env", "src/dockerfile_parser.pest:label", "src/dockerfile_parser.pest:copy", "src/dockerfile_parser.pest:from", "src/instructions/env.rs", "src/instructions/label.rs", "src/instructions/run.rs"]}
{"id": "C92", "title": "Renaming a stage", "statement": "In every accepted document all stages called `a` can be given the name `b` by splicing: `b` is written at every alias that is `a`, ignoring case, and at the image of every FROM behind such an alias that is `a` (an image `a` before the first such alias is no stage, and stays). If `b` is a name over letters, digits, `_` and `-`, no image or alias of the document is `b` (unless it is `a`), and neither `a` nor `b` is `scratch`, then the splices never panic, the new text is accepted, it has the same instructions but for the new name, and it has the same stages with the same indices, parents and roots; the names of the stages are the same but for `a`, which is now `b`. The stage that was found under the name `a` is found under `b`, and under a third name the same stage is found as before. Each of the conditions on names is needed. (The library gives no meaning to `COPY --from`; these flags are left as they are.)", "quantifier": "all accepted documents, all pairs of names with the conditions", "why_tests_cant": "The number and order of stages, and which names refer to which, are unbounded; the positions of all later fields move.", "anchors": ["src/stage.rs:Stages::new", "src/stage.rs:get_by_name", "src/splicer.rs:splice", "src/instructions/from.rs"]}
{"id": "C93", "title": "Taking out stages and putting them in", "statement": "If the lines of some whole stages are taken out of a document, and no stage behind them is built on one of them, then the rest is accepted and has exactly the other stages: those before are unchanged, those behind keep name, instructions (moved), root, and the stage or image they are built on, and only the numbers of the stages behind the cut change. The global arguments stay the same. The other way round, if the lines of some whole stages are put in between two stages, and none of their names is the image of a stage behind, all the other stages stay in the same way. Without these conditions a stage can come to be built on something else.", "quantifier": "all accepted texts and all cuts between stages, with the conditions of C71 about line breaks and about quotes, arrays and keywords left open before the cut and closed behind it (C105 does without them)", "why_tests_cant": "Any number of stages with any names, with aliases used several times and in any case, and texts of any form.", "anchors": ["src/stage.rs:Stages::new", "src/stage.rs:Stages::get_by_name", "src/dockerfile_parser.rs:parse_dockerfile"]}
{"id": "C94", "title": "Other names for variables", "statement": "The names of variables do not matter. Give the variables of the global arguments other names, no two of them the same one, and write the new names for the old ones in the names and values of the ARGs and in an image (with or without braces): the image resolves to the same image as before, or to none as before, and the variables it uses are the old ones under their new names. For each text there is one with the new names. If the new names are put into the text of a document at these places, the result is accepted and each FROM resolves to what it resolved to before. If two variables get the same name, the image may change.", "quantifier": "all lists of arguments, all images, all one-to-one choices of names, all accepted texts with the edits of C57", "why_tests_cant": "Unbounded texts with any number of references, nested through other variables to any depth.", "anchors": ["src/image.rs:substitute", "src/image.rs:resolve_vars_with_context", "src/image.rs:resolve_vars"]}
{"id": "C95", "title": "Dollar signs, and the parts of an image", "statement": "If a text is cut at a place where no reference can lie (after a character other than a letter, digit, underscore, dollar sign or opening brace, or before one other than a letter, digit, underscore or brace), both pieces are expanded separately, and the references are those of the pieces. So registry, name, tag and digest of an image are expanded separately: the image resolves exactly if each of its parts can be expanded, the text is that of the expanded parts, and these are the parts of the resolved image exactly if they are the parts of an image at all. A backslash or a dollar sign in front of a reference does not protect it. A dollar sign, a brace and a name without a closing brace right after it are no reference: an image like `name:${tag:-3.12}`, for which docker has defaults, stays as it is and does not use the variable.", "quantifier": "all texts, all variables, all depths, all images and documents", "why_tests_cant": "Unbounded texts with references anywhere in the parts of an image, and values that bring new separators.", "anchors": ["src/image.rs:substitute", "src/image.rs:resolve_vars_with_context", "src/image.rs:ImageRef::parse"]}
{"id": "C96", "title": "Blank lines and comments between instructions can be exchanged", "statement": "Blank lines and comment lines that contain no quote and neither of the characters U+0000 and U+001F can be put in at the start of any line that no instruction covers, taken out, or exchanged for others: the new document parses, the instructions in front of the place are the same, those behind are the same but for their positions, which move by the difference of the sizes, stages keep their numbers; if the size does not change, nothing but the content changes. The condition is needed: a comment with a quote can close a quote which an instruction before it left open (the comment then becomes part of a value), taking it out can turn a shell command into an array, and a control character in a comment can keep quotes from being a quoted text.", "quantifier": "all documents, all places at the start of a line that no instruction covers, all blank and comment lines", "why_tests_cant": "Unbounded text before and behind the place; the parser looks ahead across line breaks (open quotes and brackets of instructions far before the place).", "anchors": ["src/dockerfile_parser.pest", "src/dockerfile_parser.rs:parse_dockerfile"]}
{"id": "C97", "title": "Lines commented out and in, put in, taken out, exchanged: the instructions before them do not change", "statement": "In a document in which no keyword is taken for an unknown instruction (before the place): (1) any line that is not a part of a longer instruction can be commented out by a `#` in front of it, whatever it contains; the document still parses, the instructions of the line are gone, those before it are the same and those behind it move by one byte. (2) A `#` at the start of a line can be taken away; if the rest of the document from there is accepted on its own, so is the whole, with the same instructions before. (3) Whole lines without quotes, U+0000 and U+001F can be taken out, put in, or exchanged for other such lines that parse on their own, without a condition on what is around them (quotes and brackets may be left open before them). (4) In general a text at the start of a line, without quotes, U+0000 and U+001F and not ending with a backslash, can be exchanged for another one. The conditions are needed: a COPY without arguments can take its arguments from behind a line that is commented out, and a backslash at the end of the exchanged text can keep a quote from closing one left open before.", "quantifier": "all documents, all places at the start of a line that no instruction covers, all texts", "why_tests_cant": "Unbounded text before and behind the place; the parser looks ahead across line breaks from instructions far before the place.", "anchors": ["src/dockerfile_parser.pest", "src/dockerfile_parser.rs:parse_dockerfile"]}
{"id": "C98", "title": "An instruction replaced or deleted at its span; the name of a stage set, changed or removed", "statement": "In a document in which no keyword before the place is taken for an unknown instruction: (1) splicing a text into the span of an instruction gives the text with it in its place; if neither the old nor the new text has quotes, U+0000, U+001F or a final backslash, and the new text with what is behind it is accepted on its own, then the whole is accepted, the instructions before are the same, and the others are those of the new text and what is behind, moved. (2) Splicing nothing into the span of an instruction deletes it: the others stay, moved. (3) For a FROM, splicing nothing or ` AS b` from the end of the image to the end of the instruction removes, changes or sets its alias; nothing else of the instruction changes, nor any other instruction. (4) If no later FROM has the old or the new name as its image, then the document has the same stages, with the same numbers, parents and roots, and the same names but that one. The conditions are needed: a quote in the new text can close one left open before; a later FROM of the old name becomes a stage built on an image, and one of the new name a stage built on this one.", "quantifier": "all documents, all instructions in them, all new texts and names", "why_tests_cant": "Unbounded text around the place, any new text; what is before the place could look past it.", "anchors": ["src/splicer.rs:splice", "src/dockerfile_parser.pest", "src/instructions/from.rs:FromInstruction", "src/stage.rs:Stages::new"]}
{"id": "C99", "title": "Parts put into instructions and taken out: defaults, flags, variables, labels", "statement": "In a document in which no keyword before the place is taken for an unknown instruction, and for an instruction without quotes, U+0000, U+001F and a final backslash: (1) splicing nothing or `=v` from the end of the name of an ARG to its end removes, changes or sets its default. (2) Splicing ` --n=v` in behind the keyword of a FROM or COPY gives it a further flag, in front of the others, with that name and value. (3) Splicing nothing over a flag and the space in front of it removes it. (4) Splicing ` n=v` in behind the keyword of an ENV or LABEL that has an equals sign behind one of its names gives it a further variable or label, in front of the others. In each case the whole is accepted and the parts of the instruction are as before, moved, but for the one that is set, added or removed; so are all other instructions. Here n is over the characters of such names and v over characters that are not blanks, line breaks, backslashes, quotes, `#`, `=`, `,`, brackets. The places matter: a pair put into an ENV without equals signs makes the text invalid, as does a flag behind the image; behind the paths of a COPY it is a path.", "quantifier": "all documents, all instructions in them, all names and values", "why_tests_cant": "Unbounded text around the place, with line continuations and comments between the parts.", "anchors": ["src/splicer.rs:splice", "src/dockerfile_parser.pest", "src/instructions/from.rs", "src/instructions/arg.rs", "src/instructions/copy.rs", "src/instructions/env.rs", "src/instructions/label.rs"]}
{"id": "C100", "title": "A default written into an ARG, and what the images resolve to", "statement": "Give a global ARG (one in front of the first FROM) of the name n a default v by splicing it in behind the name, or take its default away, in a document in which no keyword before the place is taken for an unknown instruction and that instruction has no quotes, U+0000, U+001F and final backslash; let no later global ARG of that name have a default (when it is taken away: no other one). Then the text is accepted with as many instructions and the same images, n has the default v (or none) and every other variable the one it had, and: (1) an image that does not come to n, directly or through defaults, resolves as before, with the same variables reported, or fails as before; (2) if v has no dollar sign, an image whose only dollar sign belongs to a reference to n, in either form, resolves to its text with v in place of the reference, and just n is reported; (3) with the default taken away, every image that comes to n fails to resolve. Doing the same to an ARG behind the first FROM has no influence on any image.", "quantifier": "all documents, all ARGs in them, all values, all images", "why_tests_cant": "The defaults refer to each other, and any number of other arguments and images may stand around the one that is changed.", "anchors": ["src/image.rs:substitute", "src/image.rs:resolve_vars_with_context", "src/splicer.rs:splice", "src/dockerfile_parser.rs:parse_dockerfile", "src/instructions/arg.rs"]}
{"id": "C101", "title": "Any of the instructions taken out with one splicer", "statement": "Take any set of instructions out of an accepted document, by splicing nothing over each of their spans with one splicer, in any order. If the instructions taken out have no quotes, no U+0000 and U+001F and do not end with a backslash, no keyword is taken for an unknown instruction, and every carriage return of the text is in front of a newline, then no splice panics, the text is that of the document without the texts at these spans, it is accepted, and its instructions are exactly the others, in their order, with everything moved to the left by the number of bytes taken out before it (and with the FROMs numbered anew). If no FROM is among them, then the stages are as before, with the same numbers, names, parents and roots, each with its instructions that were not taken out.", "quantifier": "all documents, all sets of instructions, all orders of splicing", "why_tests_cant": "Any number of instructions, in any order; the bookkeeping of offsets and the parser's look-ahead across lines both matter.", "anchors": ["src/splicer.rs:splice", "src/splicer.rs:adjust_offsets", "src/dockerfile_parser.rs:parse_dockerfile", "src/stage.rs:new", "src/dockerfile_parser.pest"]}
{"id": "C102", "title": "Any of the instructions replaced with one splicer", "statement": "Replace any set of instructions of an accepted document by other texts, by splicing them over the spans with one splicer, in any order. Suppose each new text is accepted on its own, whatever line break is after it, with one or more instructions that end before that line break, and does not begin with a newline; suppose that neither it nor the text it replaces has quotes, U+0000 or U+001F or ends with a backslash, that the line ends where the replaced instruction ends, and that no keyword is taken for an unknown instruction. Then no splice panics, the text is the document with the new texts in place of the old, it is accepted, and its instructions are those of the new texts at the places of the instructions they replace, and the others, moved by the differences of the lengths (with the FROMs numbered anew). A text without carriage returns that is accepted with a line feed after it, with all instructions ending before it, and does not end with a backslash and blanks, is accepted with the same instructions on its own and with the other line breaks after it.", "quantifier": "all documents, all sets of instructions, all new texts, all orders of splicing", "why_tests_cant": "Any number of instructions and any texts; whether a new text stays apart from the lines around it depends on all of them.", "anchors": ["src/splicer.rs:splice", "src/splicer.rs:adjust_offsets", "src/dockerfile_parser.rs:parse_dockerfile", "src/dockerfile_parser.pest"]}
{"id": "C103", "title": "Editing documents in which nothing is left open", "statement": "Call a document settled if every ARG, LABEL or ENV value (or label name) that starts with a quote is a complete quoted string, no shell-form command becomes an array when some text is put behind it, and no keyword is taken for an unknown instruction. (1) A settled text of whole lines can be put in front of every text, without any condition on quotes in it: the result is that of the second text alone, moved, after the instructions of the first. (2) Replace or delete any set of instructions of a settled document by other texts, with one splicer, in any order. Suppose each new text is accepted on its own, whatever line break is after it, with instructions that end before that line break, does not begin with a newline, and is settled; suppose the line ends where an instruction is replaced by a text that is not empty, and a deleted instruction is not all there is between a carriage return and a newline. There is no condition on the texts that are replaced, or on quotes. Then no splice panics, the text is accepted, its instructions are those of the new texts at the places of those they replace and the others, moved, and it is settled again. (3) A settled text without carriage returns and without quoted strings across lines that is accepted with a line feed after it, with all instructions ending before it, and does not end with a backslash and blanks, is accepted with the same instructions on its own and with the other line breaks after it. (4) A command does not become an array if it does not start with a bracket; or if behind a bracket and blanks there is anything but a quote, a bracket or a backslash, as in [ -f x ]; or if there is a quoted string, and behind it and blanks anything but a comma, a bracket or a backslash, as in [ \"$x\" = y ].", "quantifier": "all settled documents, all sets of instructions, all new texts, all orders of splicing", "why_tests_cant": "Whether an unfinished quote, array or keyword line in front of an edit changes its meaning depends on everything that follows; a document can be edited any number of times.", "anchors": ["src/splicer.rs:splice", "src/splicer.rs:adjust_offsets", "src/dockerfile_parser.rs:parse_dockerfile", "src/dockerfile_parser.pest"]}
{"id": "C104", "title": "Parts of instructions edited in documents in which nothing is left open", "statement": "In a settled document (see C103), whatever quotes are in it: (1) the default of an ARG is set, replaced or taken away, a flag is put into a FROM or a COPY behind its keyword or any of its flags is taken out with the space in front of it, and a variable or a label is put into an ENV or a LABEL of the form with equals signs behind its keyword, by one splice; what is put in has names of the characters allowed there and values without blanks, quotes, backslashes and other special characters. (2) Any variable or label is taken out of an ENV or a LABEL that has another one, with the space in front of it, by one splice; if it is the last one, what is in front of it does not end with a backslash. In each case no splice panics, the text is accepted, the instruction is as it was but for this part, with everything behind it moved, the other instructions are as before, moved, and the document is settled again, so that edits can follow one another. (3) These conditions are needed: there are documents in which what is left ends with a backslash, or has no variable, and is refused.", "quantifier": "all settled documents, all instructions of these kinds, all places of the part among the others, all names and values of these kinds", "why_tests_cant": "Texts in quotes and line continuations around the part, any number of other parts, and any document around the instruction.", "anchors": ["src/splicer.rs:splice", "src/dockerfile_parser.rs:parse_dockerfile", "src/instructions/arg.rs:from_record", "src/instructions/env.rs:from_record", "src/instructions/label.rs:from_record", "src/instructions/from.rs:from_record", "src/instructions/copy.rs:from_record", "src/dockerfile_parser.pest"]}
{"id": "C105", "title": "Stages taken out, put in and renamed in documents in which nothing is left open", "statement": "In a settled document (see C103), whatever quotes are in it: (1) the lines of whole stages that no stage behind is built on are taken out, or the lines of whole stages none of whose names is the image of a stage behind are put in between two stages; the text is accepted, is settled again, has the same global arguments, and the other stages are the same, with new numbers (as in C93). (2) The alias of a FROM is set, replaced or taken away by one splice, which does not panic; the text is accepted with that alias and everything else as before, moved, and is settled again. If neither the old nor the new name is the image of a FROM behind, all stages keep parent and root and all other stages their name. (3) If an array is left open before a stage that is taken out, the stages behind it can disappear.", "quantifier": "all settled documents, all cuts between stages, all texts of stages, all FROM instructions and names", "why_tests_cant": "Any number of stages with any names in any case, and texts with quotes and line continuations of any form.", "anchors": ["src/stage.rs:Stages::new", "src/splicer.rs:splice", "src/dockerfile_parser.rs:parse_dockerfile", "src/instructions/from.rs:from_record"]}
{"id": "C106", "title": "Stages put together in any order", "statement": "(1) Lines without a FROM, and the texts of stages (each of whole lines, starting with a FROM and having no other, accepted on its own and settled), put one behind the other, are accepted and settled, have the global arguments of the first text, and exactly one stage for each text, in their order, with the instructions of that text, moved. (2) Every settled document whose instructions all end before its last line break is put together in this way. (3) If the texts are put together in another order, in which two stages are in the same order as before whenever the image of one is the name of the other or both have the name that is the image of a third one, then the stages are the same with the new numbers: name, instructions (moved), the stage or image that it is built on, and root. (4) Without the conditions a stage comes to be built on something else, or disappears.", "quantifier": "all texts of stages, any number of them, all orders", "why_tests_cant": "All permutations of any number of stages with any names and any texts.", "anchors": ["src/stage.rs:Stages::new", "src/stage.rs:Stages::get_by_name", "src/dockerfile_parser.rs:parse_dockerfile", "src/dockerfile_parser.rs:iter_stages"]}
{"id": "C107", "title": "Exactly when lines can be put in front of others", "statement": "(1) A text of whole lines that is accepted, whose instructions end before its last line break, is put in front of another accepted text. The whole is read as the instructions of the first and those of the second, moved, if and only if nothing that is left open in the first is closed in the second: no quotes where a name or value starts, no array where a shell command starts, no arguments of a keyword that was taken for an unknown word. (2) An accepted document can be cut in front of a line without an instruction being on both sides if and only if both parts are accepted, the instructions of the first end before the cut's line break, and nothing left open in the first is closed in the second.", "quantifier": "all pairs of accepted texts, all accepted documents and all line starts in them, every function for unquoting", "why_tests_cant": "All pairs of texts of any length; the converse says that no pair that is read this way fails the condition.", "anchors": ["src/dockerfile_parser.rs:parse_dockerfile", "src/dockerfile_parser.pest:dockerfile", "src/dockerfile_parser.pest:string", "src/dockerfile_parser.pest:string_array"]}
{"id": "C108", "title": "Two lines decide whether quotes are left open", "statement": "Let a text of whole lines be accepted, its instructions end before its last line break, and no array and no arguments of a keyword be left open in it. (1) It can be put in front of every accepted text, the whole being read as the instructions of both, if and only if this is so for the two lines X \" and X '. (2) This is so if and only if at each place where a text in quotes may start there is one, or there is none, whatever text is put behind. (3) The condition about arrays is needed: there is a line with an open array that can be put in front of both lines, but not in front of X \"].", "quantifier": "all such texts, all accepted texts behind them, every function for unquoting", "why_tests_cant": "It reduces a claim about all texts that may come behind to two of them; that these two are enough is itself a claim about all texts.", "anchors": ["src/dockerfile_parser.rs:parse_dockerfile", "src/dockerfile_parser.pest:string", "src/dockerfile_parser.pest:single_quoted_inner", "src/dockerfile_parser.pest:env_pair"]}
{"id": "C109", "title": "Two lines decide whether anything is left open", "statement": "Let a text of whole lines be accepted and its instructions end before its last line break. (1) It can be put in front of every accepted text that starts on a new line, the whole being read as the instructions of both, if and only if this is so for the two lines X \"] and X ']. Nothing else is asked of the text: quotes, arrays and arguments of keywords may be left open in it. (2) Texts that can be put in front of every accepted text and end with a line feed can be put behind each other, any number of them, with an accepted text behind the last: the whole is accepted and its instructions are those of the texts, each moved by what stands before it, the stages being numbered through.", "quantifier": "all such texts, all accepted texts behind them, lists of any length, every function for unquoting", "why_tests_cant": "It reduces a claim about all texts that may come behind to two of them; that these two close whatever any text closes (quotes, arrays with elements and line continuations, flags and words of FROM and COPY) is a claim about all texts.", "anchors": ["src/dockerfile_parser.rs:parse_dockerfile", "src/dockerfile_parser.pest:string", "src/dockerfile_parser.pest:string_array", "src/dockerfile_parser.pest:copy", "src/dockerfile_parser.pest:from"]}
{"id": "C110", "title": "Which texts can be put behind all lines", "statement": "Let a text be accepted. Consider all accepted texts of whole lines whose instructions end before the last line break and in which no keyword is taken for an unknown instruction. (1) The text can be put behind every one of them, the whole being read as the instructions of both, if and only if it does not close quotes: there is no quote in it such that what is before could stand between such quotes. (2) This is so if and only if it can be put behind the two lines ENV a=\"b and ENV a='b. (3) Whether a text closes quotes is found by going through its characters from the left. (4) The condition about keywords is needed: a COPY with one path and a comment behind a continued line is accepted as an unknown instruction, and takes the line behind it as its further paths. (5) Without that condition: the text can be put behind all accepted texts of whole lines whose instructions end before the last line break if and only if it does not close quotes and there are only blank lines and comments in it.", "quantifier": "all accepted texts, all such lines in front, every function for unquoting", "why_tests_cant": "It is about one text behind all others; arrays, values and names in quotes that are left open anywhere in the lines before must be considered together.", "anchors": ["src/dockerfile_parser.rs:parse_dockerfile", "src/dockerfile_parser.pest:string", "src/dockerfile_parser.pest:string_array", "src/dockerfile_parser.pest:env_pair", "src/dockerfile_parser.pest:copy"]}
{"id": "C111", "title": "Which texts have no instructions", "statement": "A text is accepted and has no instructions if and only if there are only blank lines and comments in it. Then the document has the text and nothing else. Whether this is so is found by going through the characters from the left: outside of comments, which go up to the end of the line, there are only spaces, tabs and line breaks.", "quantifier": "all texts, every function for unquoting", "why_tests_cant": "The claim is about all texts in both directions: that no other text is accepted without giving an instruction, and that every such text, with any line breaks and any characters in comments, is accepted.", "anchors": ["src/dockerfile_parser.rs:parse_dockerfile", "src/dockerfile_parser.pest:dockerfile", "src/dockerfile_parser.pest:comment", "src/dockerfile_parser.pest:meta_step"]}
{"id": "C112", "title": "Comments at the end of a document", "statement": "Let a text of whole lines be accepted and its instructions end before its last line break. If blank lines and comments are added behind it that do not close quotes (in particular, if there are no quotes in them), the whole is accepted, and the document is the same but for its text: the same instructions at the same places, the same global arguments. Nothing is asked of the text before: quotes, arrays and arguments of keywords may be left open in it. Conversely, for all blank lines and comments that close quotes there is such a text to which they make a difference; a comment with an apostrophe is one of them. In front of the text blank lines and comments, with or without quotes, only move everything by their length, also with such lines behind it.", "quantifier": "all accepted texts of whole lines, all texts of blank lines and comments, every function for unquoting", "why_tests_cant": "One expects comments to make no difference, and tests with comments agree; the claim says for which comments this is so behind all texts, and that for every other one it fails somewhere.", "anchors": ["src/dockerfile_parser.rs:parse_dockerfile", "src/dockerfile_parser.pest:comment", "src/dockerfile_parser.pest:string", "src/dockerfile_parser.pest:env_pair"]}
