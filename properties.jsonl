{"id": "C01", "title": "Parsing always terminates, and None is final", "statement": "For every input string, repeatedly calling next() on a Parser returns None (or panics) after finitely many calls; every single call returns; after None every later call returns None. This holds through errors: an Err item never makes the iterator loop.", "quantifier": "all input strings, all macro definitions they contain, all placements of expansions in memory", "why_tests_cant": "Termination depends on a measure over arbitrary macro programs and arbitrary nesting; finitely many samples cannot show there is no looping input.", "anchors": ["src/parser.rs:Parser::next", "src/parser.rs:InnerParser::parse", "src/parser/lex.rs:token"]}
{"id": "C02", "title": "Begin/End events are balanced when parsing succeeds", "statement": "If iterating the Parser to the end yields no Err item, the Ok events form a balanced sequence: every End closes an earlier Begin and every Begin is closed.", "quantifier": "all input strings whose parse yields no Err", "why_tests_cant": "Nesting is built from arbitrary recursive inputs, macro expansion, script reordering and argument reordering.", "anchors": ["src/parser.rs:Parser::next", "src/parser/primitives.rs:handle_primitive", "src/event.rs:Event"]}
{"id": "C03", "title": "An End event never appears without an open Begin, even after errors", "statement": "At every point of the item stream, including after any number of Err items, the number of End events seen so far is at most the number of Begin events seen so far.", "quantifier": "all input strings, all prefixes of the item stream", "why_tests_cant": "Error recovery keeps partially staged events; the number of failure points is unbounded.", "anchors": ["src/parser.rs:Parser::next", "src/parser/primitives.rs"]}
{"id": "C04", "title": "Script and Visual events are followed by the documented number of elements", "statement": "In an error-free event stream each Script(Subscript|Superscript) is followed by 2 elements, SubSuperscript by 3, Visual SquareRoot/Negation by 1, Root/Fraction by 2, inside the same group, an element being a Content, Space, StateChange, a Begin..End group, or a Script/Visual with its own operands.", "quantifier": "all input strings whose parse yields no Err", "why_tests_cant": "The operand structure depends on every primitive and on every way of nesting them as arguments.", "anchors": ["src/event.rs:Event", "src/event.rs:Visual", "src/event.rs:ScriptType", "src/parser.rs:InnerParser::parse", "src/parser/primitives.rs:handle_primitive"]}
{"id": "C05", "title": "Operands of scripts come out as base, subscript, superscript", "statement": "Whatever order the source writes ^ and _ in, the events of the base come first, then those of the subscript, then those of the superscript, with nothing lost, duplicated or left uninitialised by the in-place reordering of the instruction stack.", "quantifier": "all staged event lists and all script positions within them", "why_tests_cant": "The reordering uses unsafe set_len on spare capacity; every index pattern must be covered.", "anchors": ["src/parser.rs:Parser::next", "src/parser.rs:ScriptDescriptor"]}
{"id": "C06", "title": "Parsing never panics", "statement": "No call to next() panics, for any input string.", "quantifier": "all input strings", "why_tests_cant": "A panic can hide behind any byte pattern (multi-byte characters at slice positions, escapes at the end of input, numeric overflow).", "anchors": ["src/parser/lex.rs", "src/parser/macros.rs:expand_definition_in", "src/parser.rs", "src/parser/primitives.rs"]}
{"id": "C07", "title": "Building an error report never panics or slices inside a character", "statement": "When parsing fails, constructing the ParserError finds the failing position inside the innermost relevant macro expansion or the input, all context bounds lie within the string they index, in order, and on character boundaries.", "quantifier": "all input strings, all stacks of macro expansions, all placements of expansions in memory", "why_tests_cant": "Bounds are computed by byte arithmetic over arbitrary multi-byte text and chains of expansions; an unsafe unwrap_unchecked relies on it.", "anchors": ["src/parser/error.rs:ParserError::new", "src/parser/error.rs:floor_char_boundary", "src/parser.rs:SpanStack::reach_original_call_site"]}
{"id": "C08", "title": "Macro expansion limits are enforced", "statement": "At no time are more than 64 nested expansions active, an expansion is performed only while fewer than 1 MiB of expansion text has been produced, and a run of consecutive expansions without consuming other input ends with the recursion-limit error or a non-macro token.", "quantifier": "all input strings and macro programs", "why_tests_cant": "Self-reproducing and mutually recursive macros form an infinite family.", "anchors": ["src/parser.rs:MAX_EXPANSION_DEPTH", "src/parser.rs:MAX_EXPANSION_BYTES", "src/parser.rs:InnerParser::parse", "src/parser.rs:SpanStack"]}
{"id": "C09", "title": "Storage used by macro expansion is bounded by the limit", "statement": "The bytes allocated in Storage during a parse are bounded by the documented 1 MiB limit plus one expansion.", "quantifier": "all input strings", "why_tests_cant": "Needs an accounting argument over all executions.", "anchors": ["src/parser.rs:InnerParser::parse", "src/parser/macros.rs:try_expand_in", "src/parser/storage.rs:Storage"]}
{"id": "C10", "title": "Alignments and line breaks only occur where the group allows them", "statement": "Alignment and NewLine events occur only directly inside a group that is an alignment environment, and between two NewLine events (or group ends) an environment contains at most as many Alignment events as its column specification allows.", "quantifier": "all input strings, all prefixes before the first Err", "why_tests_cant": "Depends on counters threaded through arbitrary nesting and argument parsing.", "anchors": ["src/event.rs:EnvironmentFlow", "src/parser.rs:AlignmentCount", "src/parser/primitives.rs:handle_char_token"]}
{"id": "C11", "title": "Array groups always have a column", "statement": "Every Begin(Array(cols)) emitted has non-empty cols containing at least one Column entry; column specifications map one character to one entry in order.", "quantifier": "all input strings and all events of their streams", "why_tests_cant": "The documented invariant of the public Grouping::Array type must hold for every column specification string.", "anchors": ["src/event.rs:Grouping::Array", "src/parser/primitives.rs:array_environment"]}
{"id": "C12", "title": "Group contents are split exactly at the matching closer", "statement": "The content of a braced, bracketed, \\left or environment group followed by its closer and the remaining text is exactly the original text; the content is balanced with respect to the group's own delimiters (ignoring escaped characters and comments), and no shorter prefix qualifies; failure occurs only if there is no such split.", "quantifier": "all input strings, all group kinds", "why_tests_cant": "A scanning loop over arbitrary text with escapes, comments and nesting.", "anchors": ["src/parser/lex.rs:group_content", "src/event.rs:GroupingKind"]}
{"id": "C13", "title": "Tokens are never whitespace, comments, backslash or percent, and reading one always makes progress", "statement": "Reading a token skips leading whitespace and whole comments, yields a control sequence or a character that is neither whitespace, backslash nor percent, and leaves a strictly shorter suffix of the input; so the internal-error panics for backslash and percent are unreachable.", "quantifier": "all input strings", "why_tests_cant": "Interleavings of comments and whitespace are unbounded.", "anchors": ["src/parser/lex.rs:token", "src/parser/primitives.rs:handle_char_token"]}
{"id": "C14", "title": "Control sequence names are maximal letter runs or one character", "statement": "After a backslash the name is the longest run of ASCII letters, or, if the next character is not an ASCII letter, exactly that character; the whitespace after it is skipped; only an empty remainder is an error.", "quantifier": "all input strings", "why_tests_cant": "Byte-count versus char-count arithmetic over arbitrary Unicode text.", "anchors": ["src/parser/lex.rs:rhs_control_sequence", "src/parser/lex.rs:control_sequence"]}
{"id": "C15", "title": "Number literals are maximal and never end in a separator", "statement": "Outside argument position, a digit starts one Number event holding the longest run of digits, dots and commas, minus a final dot or comma when the run ends in one; in argument position it holds exactly one digit; the rest of the input is untouched.", "quantifier": "all input strings starting with a digit", "why_tests_cant": "Unbounded literals and boundary positions.", "anchors": ["src/parser/primitives.rs:handle_char_token"]}
{"id": "C16", "title": "Macro parameters are validated at definition time, so expansion never refers to a missing argument", "statement": "A definition is accepted only if its parameters are #1..#n in order with n at most 9 and its replacement text refers only to 1..n (\\def), or to 1..count (\\newcommand); expanding an accepted definition never indexes outside its argument list.", "quantifier": "all definitions and all call sites", "why_tests_cant": "Relates definition-time validation with use-time indexing for all texts.", "anchors": ["src/parser/macros.rs:define", "src/parser/macros.rs:parse_replacement_text", "src/parser/macros.rs:expand_replacement"]}
{"id": "C17", "title": "Macro expansion substitutes exactly", "statement": "The text after a successful expansion is the replacement text with ## read as #, each #i replaced by the i-th argument as written (a braced argument keeps its braces, a control sequence keeps its backslash), followed by exactly the input not consumed by the arguments.", "quantifier": "all replacement texts, argument lists and remaining inputs", "why_tests_cant": "String rewriting over arbitrary texts.", "anchors": ["src/parser/macros.rs:parse_replacement_text", "src/parser/macros.rs:expand_replacement", "src/parser/macros.rs:expand_definition_in"]}
{"id": "C18", "title": "Expansion does not merge tokens", "statement": "The first token read after expanding a macro is the first token of its replacement, and a control word ending the replacement is not extended by letters that follow the call.", "quantifier": "all macros and following inputs", "why_tests_cant": "Involves all pairs of replacement texts and following texts.", "anchors": ["src/parser/macros.rs:expand_replacement", "src/parser/macros.rs:expand_definition_in", "src/parser/lex.rs:rhs_control_sequence"]}
{"id": "C19", "title": "newcommand, renewcommand and providecommand respect existing definitions", "statement": "\\newcommand of an existing macro and \\renewcommand of a missing one are errors and leave all macros unchanged; \\providecommand of an existing macro leaves all macros unchanged; a successful definition changes exactly the named macro.", "quantifier": "all macro tables and command texts", "why_tests_cant": "Frame condition over all tables.", "anchors": ["src/parser/primitives.rs:new_command", "src/parser/macros.rs:insert_command", "src/parser/macros.rs:contains"]}
{"id": "C20", "title": "let and futurelet alias exactly one token", "statement": "\\let assigns the named control sequence the next token (after an optional =) and \\futurelet the second next token without consuming either; other macros are unchanged.", "quantifier": "all inputs and macro tables", "why_tests_cant": "Frame condition over all tables and inputs.", "anchors": ["src/parser/lex.rs:let_assignment", "src/parser/lex.rs:futurelet_assignment", "src/parser/macros.rs:assign"]}
{"id": "C21", "title": "Colours resolve deterministically by the documented rules", "statement": "A colour is accepted iff it is # followed by three two-digit hexadecimal bytes, or an exact-case dvips name, or (otherwise) a case-insensitive CSS name; the resulting triple is the one specified.", "quantifier": "all colour strings", "why_tests_cant": "Infinite set of strings including non-ASCII.", "anchors": ["src/parser/lex.rs:color", "src/parser/tables.rs:dvipsnames_color", "src/parser/tables.rs:primitive_color"]}
{"id": "C22", "title": "Dimensions are read exactly", "statement": "Signs multiply, the number is the decimal written, the unit is the following two letters, at most one following space is consumed, and anything else is an error.", "quantifier": "all strings", "why_tests_cant": "Infinite grammar.", "anchors": ["src/parser/lex.rs:dimension", "src/parser/lex.rs:floating_point", "src/parser/lex.rs:dimension_unit"]}
{"id": "C23", "title": "left/right pairs delimit the text between them", "statement": "\\left d1 X \\right d2, where X contains no \\left or \\right control word, produces one LeftRight group containing X, for every X.", "quantifier": "all contents X", "why_tests_cant": "All contents, in particular those with control words that begin with the letters left or right.", "anchors": ["src/parser/lex.rs:group_content", "src/parser/primitives.rs:handle_primitive"]}
{"id": "C24", "title": "begingroup/endgroup behaves like braces", "statement": "\\begingroup X \\endgroup produces the same events as {X}.", "quantifier": "all contents X", "why_tests_cant": "All contents and continuations.", "anchors": ["src/event.rs:GroupingKind::opening_str", "src/parser/primitives.rs:handle_primitive"]}
{"id": "C25", "title": "Blank input produces nothing", "statement": "An input consisting of whitespace and comments only yields no items.", "quantifier": "all such inputs", "why_tests_cant": "Unbounded family.", "anchors": ["src/parser.rs:Parser::next", "src/parser/lex.rs:token"]}
{"id": "C26", "title": "Plain characters produce one event each, in order", "statement": "An input of letters yields exactly one Ordinary event per letter, in order, with nothing else; interspersed whitespace changes nothing.", "quantifier": "all such inputs", "why_tests_cant": "Unbounded family.", "anchors": ["src/parser.rs:Parser::next", "src/parser/primitives.rs:handle_char_token"]}
{"id": "C27", "title": "Braces wrap the events of their content", "statement": "Parsing {X} for a balanced X yields Begin(Normal), then the events X yields inside a group, then End.", "quantifier": "all balanced X", "why_tests_cant": "Compositionality over all contents.", "anchors": ["src/parser.rs:Parser::next", "src/parser/primitives.rs:handle_char_token"]}
{"id": "C28", "title": "Rendering an error-free parse never panics", "statement": "push_mathml on a Parser whose items are all Ok does not panic.", "quantifier": "all inputs that parse without error, all render configurations", "why_tests_cant": "Index arithmetic over array column lists depends on every row of every nested array.", "anchors": ["src/mathml.rs:array_newline", "src/mathml.rs:array_align", "src/mathml.rs:write_event"]}
{"id": "C29", "title": "Rendering any parse never panics, including parses with errors", "statement": "push_mathml on any Parser does not panic, whatever errors the input contains.", "quantifier": "all inputs, all render configurations", "why_tests_cant": "Error recovery mixes staged events of several commands.", "anchors": ["src/mathml.rs:array_align", "src/mathml.rs:write", "src/parser.rs:Parser::next"]}
{"id": "C30", "title": "Rendered output has balanced tags", "statement": "For an event stream in which groups are balanced and operands complete, the rendered string is a sequence of tags and text in which every opened tag is closed in order, ending with </math>.", "quantifier": "all such event streams, all render configurations", "why_tests_cant": "Tag closing is driven by counters over arbitrary nesting.", "anchors": ["src/mathml.rs:write", "src/mathml.rs:write_event", "src/mathml.rs:write_content"]}
{"id": "C31", "title": "MathML script and fraction elements have exactly their operands as children", "statement": "In rendered output msub/msup/mfrac/mroot/munder/mover have exactly two element children and msubsup/munderover exactly three.", "quantifier": "all error-free inputs", "why_tests_cant": "Extra spacing elements depend on surrounding context.", "anchors": ["src/mathml.rs:write_content", "src/mathml.rs:write"]}
{"id": "C32", "title": "Text content is escaped losslessly", "statement": "The characters written for a Text event contain no raw <, > and no & that is not part of an entity, and unescaping them gives back the (trimmed, font-mapped) text.", "quantifier": "all text strings and fonts", "why_tests_cant": "All strings.", "anchors": ["src/mathml.rs:write_escaped", "src/mathml.rs:write_content"]}
{"id": "C33", "title": "Input text cannot inject markup", "statement": "Every < in the rendered output that begins a tag is written by the renderer itself; text taken from the input, from error messages or from the annotation cannot introduce a tag.", "quantifier": "all inputs and configurations", "why_tests_cant": "All strings.", "anchors": ["src/mathml.rs:write_content", "src/mathml.rs:write_event", "src/mathml.rs:write"]}
{"id": "C34", "title": "Renderer lookahead is transparent", "statement": "Peeking any number of events ahead neither loses, duplicates nor reorders events: the events consumed are exactly the input sequence.", "quantifier": "all event sequences and all interleavings of peeks and nexts", "why_tests_cant": "All interleavings.", "anchors": ["src/mathml.rs:ManyPeek", "src/mathml.rs:next_atom"]}
{"id": "C35", "title": "Renderer state changes are scoped to their group", "statement": "After a balanced group has been rendered, the font, colour and style state is what it was before the group.", "quantifier": "all balanced event groups", "why_tests_cant": "Arbitrary nesting.", "anchors": ["src/mathml.rs:write_event", "src/mathml.rs:handle_state_change", "src/event.rs:StateChange"]}
{"id": "C36", "title": "State changes are reset at alignments, line breaks and environment starts, except style", "statement": "After an Alignment or NewLine event or on entering an environment, font and colours are reset to default, while a Style change is maintained across all groups.", "quantifier": "all event streams", "why_tests_cant": "All histories of state changes.", "anchors": ["src/event.rs:StateChange", "src/mathml.rs:write_event"]}
{"id": "C37", "title": "Font mapping is total and matches the Unicode mathematical alphabets", "statement": "Mapping any character in any font yields a valid character; letters, Greek letters and digits map to the code point Unicode assigns to that letter in that alphabet; all other characters are unchanged; the mapping is injective on letters.", "quantifier": "all fonts and all characters", "why_tests_cant": "1.1 million characters times 16 fonts, with hand-written offsets.", "anchors": ["src/mathml.rs:Font::map_char"]}
{"id": "C38", "title": "Math styles follow the documented table", "statement": "For Latin and Greek letters, should-be-upright agrees with the table in the MathStyle documentation for all four styles.", "quantifier": "all styles and all characters in the four documented ranges", "why_tests_cant": "Whole ranges.", "anchors": ["src/config.rs:MathStyle::should_be_upright"]}
{"id": "C39", "title": "Output is framed by one math element and appended to the target string", "statement": "push_mathml only appends to the string; what it appends starts with <math display=\"..\" and ends with </math>, for any items including errors.", "quantifier": "all item streams, configurations and initial strings for which rendering returns", "why_tests_cant": "All streams.", "anchors": ["src/mathml.rs:push_mathml", "src/mathml.rs:write"]}
{"id": "C40", "title": "A failing writer leaves a prefix of the full rendering", "statement": "If the writer given to write_mathml fails at any write, an error is returned and the bytes written so far are a prefix of what a non-failing writer would have received.", "quantifier": "all item streams, configurations and failure points", "why_tests_cant": "Every crash point of every stream.", "anchors": ["src/mathml.rs:write_mathml", "src/mathml.rs:write"]}
{"id": "C41", "title": "Only valid UTF-8 is written", "statement": "Every sequence of bytes written by the renderer is valid UTF-8, as push_mathml's unsafe use of the string's bytes requires.", "quantifier": "all item streams", "why_tests_cant": "Text is cut at byte positions by the escaping loop.", "anchors": ["src/mathml.rs:push_mathml", "src/mathml.rs:write_escaped"]}
{"id": "C42", "title": "Relation contents fit in eight bytes", "statement": "encode_utf8_to_buf with a buffer of at least 8 bytes never panics and returns exactly the UTF-8 encoding of the one or two characters.", "quantifier": "all characters and pairs of characters", "why_tests_cant": "All pairs of characters.", "anchors": ["src/event.rs:RelationContent::encode_utf8_to_buf", "src/mathml.rs:write_content"]}
{"id": "C43", "title": "The last limits modifier wins", "statement": "A sequence of \\limits and \\nolimits after an operator that allows them sets the script position according to the last one; without any, the default position is kept.", "quantifier": "all sequences of modifiers with any whitespace between them", "why_tests_cant": "Unbounded sequences.", "anchors": ["src/parser/lex.rs:limit_modifiers", "src/parser.rs:InnerParser::parse"]}
{"id": "C44", "title": "Horizontal lines are all recorded in order", "statement": "The lines recorded at the start of an environment or after a line break are exactly the maximal leading sequence of \\hline and \\hdashline, in order, and nothing else is consumed.", "quantifier": "all inputs", "why_tests_cant": "Unbounded sequences.", "anchors": ["src/parser/lex.rs:horizontal_lines", "src/event.rs:EnvironmentFlow::StartLines"]}
{"id": "C45", "title": "Dimensions are displayed in the documented CSS units", "statement": "Displaying a dimension gives the CSS length documented for its TeX unit, and always a unit CSS knows.", "quantifier": "all dimension values and units", "why_tests_cant": "All values.", "anchors": ["src/event.rs:Dimension"]}
{"id": "C46", "title": "Errors in one command do not corrupt later output", "statement": "After an Err item, the following events are the events of the remaining input (as if the failed command had produced nothing).", "quantifier": "all inputs and all failure points", "why_tests_cant": "Every failure point.", "anchors": ["src/parser.rs:Parser::next"]}
{"id": "C47", "title": "Script parsing rejects double scripts and otherwise consumes at most one of each", "statement": "After a base, at most one subscript and one superscript are attached; a further ^ or _ directly following is reported as a double script error.", "quantifier": "all inputs", "why_tests_cant": "All arrangements of scripts.", "anchors": ["src/parser.rs:InnerParser::parse"]}
{"id": "C48", "title": "\\def reads exactly the macro written", "statement": "\\def takes a control sequence, the parameter text up to the first opening brace (containing no closing brace and no percent sign), and a balanced replacement text in braces; it succeeds exactly when these are present and fit together, defines that macro and no other, consumes nothing else and emits no event. When it fails all macros keep their meaning, and it never panics.", "quantifier": "all input texts after \\def, all macro contexts, all parser states", "why_tests_cant": "The parameter text and the replacement text are arbitrary strings; tests sample a handful.", "anchors": ["src/parser/lex.rs:definition", "src/parser/macros.rs:define", "src/parser/primitives.rs:handle_primitive"]}
{"id": "C49", "title": "Environments open the documented group and end at their own \\end", "statement": "\\begin{name} with its arguments opens the group documented for that name, with the documented number of alignments per line, style and surrounding delimiters; its content extends to the matching \\end{name} of the same name, nested environments of that name included. A \\begin that succeeds is always of this form, and an unknown name is an error that emits nothing.", "quantifier": "all environment names, argument texts, contents and parser states", "why_tests_cant": "33 environments with free-form arguments and arbitrary nested content.", "anchors": ["src/parser/primitives.rs:handle_primitive", "src/parser/primitives.rs:array_environment", "src/event.rs:GroupingKind"]}
{"id": "C50", "title": "Characters and named symbols have the documented class", "statement": "Every character without special meaning yields one event that shows that character (a prime, a minus sign and an asterisk operator for ', - and *), with the documented class for ASCII characters and the ordinary class for letters of other scripts; named delimiters, operators and synonyms emit what their names say.", "quantifier": "all texts of plain characters, all Unicode characters, all parser states", "why_tests_cant": "The whole of Unicode, in every position.", "anchors": ["src/parser/primitives.rs:handle_char_token", "src/parser/tables.rs:is_binary", "src/parser/tables.rs:is_relation", "src/parser/tables.rs:control_sequence_delimiter_map"]}
{"id": "C51", "title": "Integer constants are read exactly", "statement": "A constant in decimal, octal, hexadecimal or character notation is read with its exact value and consumes exactly its text (with one optional space); \\char emits the character with that code, up to 255.", "quantifier": "all input texts", "why_tests_cant": "All numbers and notations.", "anchors": ["src/parser/lex.rs:unsigned_integer", "src/parser/lex.rs:decimal", "src/parser/lex.rs:hexadecimal", "src/parser/lex.rs:octal"]}
{"id": "C52", "title": "Commands named after letters emit those letters", "statement": "The commands named after the Greek letters emit the letters of the Unicode Greek block, so that fonts apply to them, and other named letters emit the character they are named after.", "quantifier": "all Greek letter names, all parser states", "why_tests_cant": "Confusable characters look the same in expected outputs.", "anchors": ["src/parser/primitives.rs:handle_primitive"]}
{"id": "C53", "title": "The rendered document is the MathML tree of the formula", "statement": "For every well-formed sequence of events, the text appended to the target is exactly the serialisation of a MathML tree defined by recursion on the structure of the formula: one element per content, script, fraction, root and group, tables with rows and cells, with attributes from the current font, style and colours, operators classified by their neighbours, and spaces and function application operators where they belong.", "quantifier": "all formula trees of any depth, all renderer configurations, all clean inputs parsed without error", "why_tests_cant": "Expected outputs in tests fix single formulas; the combinations of nesting, state, neighbours and tables are unbounded.", "anchors": ["src/mathml.rs:MathmlWriter::write", "src/mathml.rs:MathmlWriter::write_event", "src/mathml.rs:push_mathml"]}
{"id": "C54", "title": "Operators are classified as binary or ordinary by TeX's rules", "statement": "In the rendered document, a symbol that can be a binary operator is an operator element (mo) exactly if TeX's rules on the classes of the neighbouring atoms make it a binary operator, and an identifier element (mi) otherwise; scripts count as their base, fractions and groups as operands, and spaces and changes of state are passed over.", "quantifier": "all formulas, all positions in them, all operators and all renderer configurations", "why_tests_cant": "The class depends on unboundedly many elements on the left (a run of operators alternates) and on whatever follows after spaces and state changes; tests show a few neighbours.", "anchors": ["src/mathml.rs:MathmlWriter::write_event", "src/mathml.rs:MathmlWriter::set_previous_atom", "src/mathml.rs:Atom"]}
{"id": "C55", "title": "What a formula in LaTeX stands for, from its text to its MathML", "statement": "A grammar on source texts says which tree a text stands for: symbols, numbers, groups, subscripts and superscripts with their limits, fractions, roots, accents, delimiters of variable size, fonts, colours, spaces, classes, over and under constructions, text, tables and environments, each rule as a LaTeX manual states it. For every text and every tree related by it, the parser yields exactly the events of the tree, in order and without an error; hence a text stands for at most one sequence of events; and when the tree lies in the part that the renderer handles faithfully, the rendered document is the one that the specification of documents gives for the tree.", "quantifier": "all source texts, all trees, all derivations of the grammar of any size and depth, all parser settings and all renderer configurations", "why_tests_cant": "Formulas nest without bound and every construct can be an argument, a base or a script of every other one. The meaning is compositional only if every handler leaves the parser's hidden state (pending scripts, limit modifiers, argument flags, column counts, staged instructions) as its neighbours expect, which no sample of formulas shows.", "anchors": ["src/parser.rs:Parser", "src/parser.rs:InnerParser", "src/parser/primitives.rs:handle_primitive", "src/parser/primitives.rs:handle_char_token", "src/parser/lex.rs:argument", "src/mathml.rs:push_mathml"]}
{"id": "C56", "title": "A call of a macro stands for its replacement", "statement": "In a document, a definition gives a macro its meaning from there on, and a call of a macro stands for the text that replaces it, with the arguments put in, wherever in the formula the call is made: the events are those of the formula in which every call is replaced by hand. The only other outcome is the error that reports that the limits on expansions are reached, and up to that error the events are right.", "quantifier": "all documents of any length and any mixture of definitions and calls, calls inside replacements and inside groups, scripts, cells and arguments, all parser settings", "why_tests_cant": "An expansion is a new text in which the rest of the group continues, so an expansion changes where every later token is read from, including the ones of later calls. That this never shows in the events, at any nesting of calls, groups and tables and for any sequence of redefinitions, is a statement about unboundedly many states of the parser.", "anchors": ["src/parser.rs:InnerParser::parse", "src/parser/macros.rs:MacroContext::try_expand_in", "src/parser/macros.rs:MacroContext", "src/parser/primitives.rs:handle_primitive", "src/parser.rs:Parser::next"]}
{"id": "C57", "title": "Command names have their standard meaning", "statement": "Every command name of the standard tables (LaTeX, AMS, unicode-math: symbols, operators, relations, arrows, large operators, accents, spaces, fonts, styles, delimiter sizes, fractions) emits exactly its documented character with its documented class and limits behaviour, in every context; names outside the tables are refused as unknown.", "quantifier": "all names of the tables, all contexts of use, all parser states; for the last part, all strings as names", "why_tests_cant": "there are about 750 names, and a test would compare the table of the program with a copy of itself; here the tables are written from the documentation and the whole table and all contexts are covered.", "anchors": ["src/parser/primitives.rs:handle_primitive", "src/parser/tables.rs:control_sequence_delimiter_map"]}
{"id": "C58", "title": "A symbol may be typed as a character", "statement": "A relation or binary operator typed directly as its Unicode character produces the same event as its command; the same is expected of large operators.", "quantifier": "all symbols of the standard tables, all contexts of use", "why_tests_cant": "the classes of typed characters come from ranges of code points and those of commands from a list of names; only a comparison of the whole tables shows that they agree.", "anchors": ["src/parser/primitives.rs:handle_char_token", "src/parser/tables.rs:is_binary", "src/parser/tables.rs:is_relation"]}
{"id": "C59", "title": "An error report shows the text around the place of the error", "statement": "The context of every error item shows, line by line, the part of the source from twelve bytes before to twelve bytes after the place where parsing goes on (cut only between characters, marked when something precedes), and below it a window around each macro call that leads there; the displayed error is its message, which names the mistake, on one line and then this context.", "quantifier": "all inputs without macro definitions and all errors in them; with macros: all states and errors whose place is nested in the expansions; all kinds of errors for the messages", "why_tests_cant": "The window depends on the position of the error, on character boundaries, on line ends and on the nesting of macro calls; a sample of inputs does not show that no report points elsewhere.", "anchors": ["src/parser/error.rs:ParserError::new", "src/parser/error.rs:write_context_str", "src/parser/error.rs:floor_char_boundary", "src/parser/error.rs:ErrorKind", "src/parser.rs:SpanStack"]}
{"id": "C60", "title": "The first mistake of a text is reported, after the events of what precedes it", "statement": "A text that is right up to some place and then makes one of the listed mistakes (a missing or malformed argument, delimiter, length, number, colour, text, group or environment; a group that is not closed; an unknown or unbalanced command; a stray special character; a misplaced alignment or line break; two scripts of the same kind; a definition of an existing or a redefinition of a missing macro) yields exactly the events of what precedes and then an error of the kind that names the mistake. No text is both right and wrong, and none has two different first mistakes.", "quantifier": "all texts and all derivations of the grammar of formulas and of mistakes, at the start of the input or of any group or cell reached, any configuration", "why_tests_cant": "Mistakes combine with every context: arguments of arguments, scripts, nested groups, remaining alignments of a table; tests show single messages only.", "anchors": ["src/parser/primitives.rs:handle_primitive", "src/parser/primitives.rs:handle_char_token", "src/parser/state.rs", "src/parser/lex.rs", "src/parser/error.rs:ErrorKind", "src/parser.rs:Parser::next"]}
{"id": "C61", "title": "The parser accepts exactly the texts of the grammar of formulas", "statement": "A text that defines no macros and avoids a short list of constructs (scripts directly on an alignment or line break, a font command applied to one of these, a signed number in a colour, counts of columns that do not fit) is parsed without errors exactly when the grammar of formulas gives it a reading, and the events are then those of the reading. Every other such text makes the iterator return an error (or panic).", "quantifier": "all texts that meet the conditions, any length and nesting, with overflow checks enabled", "why_tests_cant": "That nothing outside the documented language is accepted is a statement about all texts; tests can only try some wrong ones.", "anchors": ["src/parser.rs:Parser::next", "src/parser.rs:parse", "src/parser/primitives.rs:handle_primitive", "src/parser/primitives.rs:handle_char_token", "src/parser/state.rs", "src/parser/lex.rs"]}
{"id": "C62", "title": "What the parser does at any text is what the specification of effects says", "statement": "Whatever text the parser comes to before the first error, in whatever group or cell and with whatever macros: the element at its start, or the replacement of the macro call there, either gives exactly one error, of the kind the specification names, or takes exactly the part of the text the specification says, leaving the definitions it says and everything below untouched. Apart from a panic and the limit for expansions there is no other possibility, and the first error of every input comes about in this way.", "quantifier": "all inputs, valid or not, with definitions and calls of macros; all states reached before the first error; any configuration for one direction, overflow checks enabled for the other", "why_tests_cant": "It is a complete description: every text has one effect. Tests pin the effect of single texts and cannot show that no other error or extent is possible.", "anchors": ["src/parser.rs:Parser::next", "src/parser.rs:parse", "src/parser/primitives.rs:handle_primitive", "src/parser/primitives.rs:handle_char_token", "src/parser/macros.rs:MacroContext::try_expand_in", "src/parser/macros.rs:define", "src/parser/state.rs", "src/parser/lex.rs"]}
{"id": "C63", "title": "The amount of output is bounded by the amount of text", "statement": "An input without macro definitions of n characters gives at most 16n+1 items, errors included, and after as many internal steps the iterator is at its end; the instructions it keeps waiting are within the same bound. With macros the bound is sixteen for each character of the input and each byte of the expansions performed, and the expansions performed are together at most 1 MiB plus (b + 1 MiB)(b + 1 MiB + 4) bytes for an input of b bytes. So no input makes the parser run for a time exponential in its length.", "quantifier": "all inputs, valid or not, all states reached, any configuration", "why_tests_cant": "It is a bound on all inputs; a test shows the amount of output of one input, and nested or self-calling macros could make it grow with the depth of nesting.", "anchors": ["src/parser.rs:Parser::next", "src/parser.rs:parse", "src/parser.rs:MAX_EXPANSION_BYTES", "src/parser/macros.rs:MacroContext::try_expand_in", "src/parser/primitives.rs:handle_primitive"]}
{"id": "C64", "title": "The length of the rendering is bounded by the size of what is rendered, and by the length of the source", "statement": "Rendering a sequence of events and errors gives at most 1024 characters for each unit of its size (one for each item, each character of a text, number, function name or error message, each column and each line), plus 1024 for each item and each column or separator of the widest array, plus 256 and the annotation. This holds however the items are nested, balanced or not. What the parser makes of a source is never larger than the source and the expansions in it, so that the rendering of a source of n characters without definitions, with the reports of its errors, has at most 1024 (16 n + 1) (2 n + 400) + 256 characters besides the annotation, and that of a source with definitions and without errors is bounded in the same way when n includes the expansions. The factor for the widest array is needed: every line of an array repeats the separators, and no multiple of the length of the input bounds the rendering of all inputs.", "quantifier": "all sequences of items, all sources, all stages of parsing, all configurations that show a number with at most 64 characters; for the last sentence all factors and configurations", "why_tests_cant": "The bound has to hold for all sequences and nestings; a test measures single ones, and that no factor is enough is a statement about all factors.", "anchors": ["src/mathml.rs:push_mathml", "src/mathml.rs:MathmlWriter::write_event", "src/mathml.rs:Environment", "src/event.rs:ArrayColumn", "src/parser.rs:Parser", "src/parser/error.rs:ParserError"]}
{"id": "C65", "title": "The rendered document is well-formed XML with MathML's content model", "statement": "The rendering of a well-formed sequence of events is one math element in well-formed XML: attributes are quoted, separated by white space and different from each other, start and end tags match, text contains no bare < or &, no unknown entity, no ]]> and no character that XML forbids; and only token elements contain text, only tables rows, only rows cells.", "quantifier": "all well-formed sequences of events, all clean inputs, all configurations whose annotation is XML text", "why_tests_cant": "Expected outputs are compared as strings; that every combination of attributes, classes and characters gives a document a parser of XML accepts is a statement about all trees.", "anchors": ["src/mathml.rs:MathmlWriter::write_event", "src/mathml.rs:MathmlWriter::write_content", "src/mathml.rs:MathmlWriter::open_tag", "src/mathml.rs:write_escaped"]}
{"id": "C66", "title": "A build with overflow checks gives the same results as one without, unless it panics", "statement": "The items parsed from an input, the errors with their reports and the rendered string or the bytes given to a writer are the same whether arithmetic overflow panics (debug builds) or wraps (release builds); the only difference is that the checked build may panic with an overflow, and then what it has given so far is a prefix of what the unchecked build gives.", "quantifier": "all inputs, all numbers of calls to the iterator, all sequences of events and errors, all render configurations, all writers", "why_tests_cant": "The tests run in one build profile. That no other arithmetic or assertion makes the profiles differ is a statement about every path of the parser and the renderer.", "anchors": ["src/parser/lex.rs:unsigned_integer", "src/parser/primitives.rs:array_environment", "src/parser/macros.rs:Macro", "src/mathml.rs:MathmlWriter"]}
{"id": "C67", "title": "The result does not depend on where texts lie in memory", "statement": "The items parsed from an input and the reports of its errors do not depend on the addresses at which the input and the texts of macro expansions happen to be stored, so that the same input gives the same result in every run of the program.", "quantifier": "all inputs, all numbers of calls to the iterator, all pairs of layouts of the texts in memory", "why_tests_cant": "A test sees the one layout that its allocator chose. The parser compares addresses to find the text of an error, and that these comparisons cannot be observed is a statement about every layout.", "anchors": ["src/parser.rs:SpanStack::reach_original_call_site", "src/parser/error.rs:ParserError::new", "src/parser/storage.rs:Storage", "src/parser/macros.rs:MacroContext::try_expand_in"]}
{"id": "C68", "title": "Definitions that are not used change nothing", "statement": "Putting macro definitions before a text does not change the events it yields, if the names defined are not names of commands, and the text is parsed without errors on its own and does not define these names itself.", "quantifier": "all sequences of definitions with any of the defining commands, all texts, all builds, all memory layouts in which allocated texts do not overlap", "why_tests_cant": "Every handler runs with a larger macro table, and every lookup in it, including the checks that a name is new, has to come out the same. That no text observes the additional entries is a statement about all texts.", "anchors": ["src/parser/macros.rs:MacroContext::try_expand_in", "src/parser/macros.rs:MacroContext::contains", "src/parser/primitives.rs:new_command", "src/parser.rs:InnerParser::parse"]}
{"id": "C69", "title": "Colours in the output are the colours asked for", "statement": "The colour of the frame around an error message is the configured error colour, and the colours of texts, borders and backgrounds are the ones given by the events, when the output is read by the rules of CSS.", "quantifier": "all colours, all states of the renderer", "why_tests_cant": "The tests look at a few colours; that every one of the 16777216 colours is written so that it is read back as itself is a statement about all of them.", "anchors": ["src/mathml.rs:MathmlWriter::write_event", "src/mathml.rs:MathmlWriter::open_tag", "src/config.rs:RenderConfig"]}
{"id": "C70", "title": "Nothing is lost in the rendering", "statement": "When rendering returns, every content, group, script, root, fraction and space and the message of every error among the rendered items appears in the output, in the order of the items, whether or not the items are balanced or complete.", "quantifier": "all sequences of events and errors, all configurations", "why_tests_cant": "The renderer looks ahead, takes items in several places and recovers from errors; that no item is dropped in any sequence is a statement about all sequences.", "anchors": ["src/mathml.rs:MathmlWriter::write", "src/mathml.rs:MathmlWriter::write_event", "src/mathml.rs:MathmlWriter::write_content", "src/mathml.rs:ManyPeek"]}
{"id": "C71", "title": "The texts in events come from the source", "statement": "The text carried by a Text, Number or Function event stands in the source in one piece, unless it is the name of a function with its own command (\\sin) or the space that does not break. With definitions, every character of it occurs in the source or is a brace. Both hold at every moment of the iteration, errors included.", "quantifier": "all inputs, all configurations, all prefixes of the item stream", "why_tests_cant": "Texts pass through arguments, groups, recovered errors and macro expansions; that no combination makes up or mixes characters is a statement about all inputs.", "anchors": ["src/parser/primitives.rs:InnerParser::handle_primitive", "src/parser/primitives.rs:InnerParser::handle_char_token", "src/parser/primitives.rs:InnerParser::text_argument", "src/parser/macros.rs:MacroContext::try_expand_in"]}
{"id": "C72", "title": "Definitions count only through what they mean", "statement": "Take two inputs that begin with definitions and go on with the same text. If the same names are defined in both, and every macro call that the first definitions allow is replaced by the same text under the second ones, then an error-free parse of the first input gives exactly the same events for the second input. In particular `\\newcommand{\\name}[k]{...}` can be written as `\\def\\name#1...#k{...}` and back, definitions of different names can be put in any order, and a definition that is overwritten can be left out.", "quantifier": "all pairs of inputs that begin with any number of definitions and share the rest; all names, parameter texts and replacement texts; all remaining texts, including those with further definitions; all memory layouts in which allocated texts do not overlap", "why_tests_cant": "The claim compares parses of unboundedly many pairs of inputs, with arbitrary macros calling each other and arbitrary further definitions in the rest of the text.", "anchors": ["src/parser/macros.rs:MacroContext", "src/parser/macros.rs:try_expand_in", "src/parser/primitives.rs:handle_primitive", "src/parser/lex.rs:definition"]}
{"id": "C73", "title": "A definition made inside a group stays in force after the group", "statement": "Definitions are global: a group that contains only definitions, written with braces or with \\left...\\right, followed by a text gives the begin and the end of the group and then exactly the events that the same definitions followed by the text give without the group. So a definition made in a group overwrites an outer definition of the same name for the rest of the input, unlike in TeX.", "quantifier": "all lists of definitions (\\def, \\let, \\newcommand and so on), all following texts; white space and comments before the group; all memory layouts in which allocated texts do not overlap", "why_tests_cant": "The claim compares parses of unboundedly many pairs of inputs, with arbitrary macros calling each other and arbitrary further definitions after the group.", "anchors": ["src/parser/macros.rs:MacroContext", "src/parser.rs:Parser::next", "src/parser/primitives.rs:handle_primitive"]}
{"id": "C74", "title": "A text followed by another text gives the events of the one and then the events of the other", "statement": "When a text without definitions parses without errors, and nothing at its end goes on in the text that follows, the events of the two texts together are the events of the first text and then what the second text gives alone: the same events, the same errors (but for the excerpts shown) and the same panics. Nothing at its end goes on when: comments are closed, text commands have their text in braces, there is no \\buildrel; the second text does not start with white space, a script or limits, nor with a letter after a control word, with a digit, full stop or comma after a number, with a full stop or comma after \\dots, or with a letter or digit after \\char or a length with stretch. So a program can put formulas together by putting their texts together. White space and comments before a text mean nothing.", "quantifier": "all pairs of texts that meet at such a place; the second one with arbitrary definitions (then without errors), or with arbitrary errors (then without definitions)", "why_tests_cant": "The claim compares parses of unboundedly many pairs of texts; every command that reads ahead could break it in some pair.", "anchors": ["src/parser.rs:Parser::next", "src/parser/primitives.rs:handle_primitive", "src/parser/lex.rs:argument", "src/parser/lex.rs:dimension"]}
{"id": "C75", "title": "Parts of a formula are rendered as they are rendered alone", "statement": "The MathML of a formula is put together from the MathML of its parts: a group in braces is a row with what its content is rendered as alone, \\left...\\right adds the stretchy delimiters, scripts, fractions, roots and negations with operands in braces contain the rows of their operands in order, and environments contain in each cell what the cell is rendered as alone. The parts before and after a relation or a punctuation mark are rendered as they are alone, with the mark between them, when the first part changes neither font nor colours nor style outside of groups and does not end in a function name.", "quantifier": "all trees of events that the renderer supports (see C53), all settings of the renderer, all targets; for sources: all texts of the grammar that meet as in C74", "why_tests_cant": "The renderer keeps state and looks ahead over the whole stream of events, so that any part could in principle change any other; the claim is about all pairs of parts.", "anchors": ["src/mathml.rs:MathmlWriter", "src/mathml.rs:push_mathml"]}
{"id": "C76", "title": "The value of a dimension is the decimal number written, up to rounding", "statement": "A dimension such as `-1.25em` is read with the sign, the unit and the value that are written: the magnitude is finite and differs from the decimal number written by no more than the rounding of the single steps of the calculation in single precision; whole numbers below 2^24 are exact, and numbers with few digits are rounded at most twice. The number that is displayed in CSS is the exact conversion of that number, up to the same kind of error.", "quantifier": "all texts of dimensions, with digits of any number before and after the decimal point, all units", "why_tests_cant": "The errors of all digit strings cannot be enumerated; the calculation works digit by digit, so that errors add up and divisor and dividend may overflow separately.", "anchors": ["src/parser/lex.rs:floating_point", "src/parser/lex.rs:dimension", "src/event.rs:Dimension"]}
{"id": "C77", "title": "Calls nest to a depth linear in the text while it is parsed", "statement": "While a text is parsed, the recursive functions of the parser call themselves to a depth that is at most linear in the length of the text and of the expansions of macros; there is no infinite recursion. There is no constant bound: a text of n commands that yield nothing, of n commands one the argument of the other, or of n lines of comments needs n nested calls, so that a long enough text can use up the stack of a thread.", "quantifier": "all texts, all states reached by asking for events, all depths", "why_tests_cant": "Whether the stack overflows depends on the length of the text and the size of the stack; a test shows neither a bound for all texts nor that a bound does not exist.", "anchors": ["src/parser.rs:Parser::next", "src/parser.rs:InnerParser::handle_argument", "src/parser/lex.rs:token"]}
{"id": "C78", "title": "Everyday formulas in LaTeX become the same formulas in MathML", "statement": "A formula built from Latin and Greek letters, letters in bold, script, double-struck, Fraktur, sans-serif, monospace and bold italic alphabets, symbols such as the sign for infinity, decimal numbers, words, groups, fractions, roots with or without an index, accents, paired delimiters, matrices, distinctions of cases, sub- and superscripts with or without braces, sums, products, unions, integrals and the like with both limits or the lower one, functions such as the sine, leading signs and the usual operations, relations and punctuation between operands is parsed without an error when it is written in LaTeX, and rendering the events gives, in the document, exactly the MathML of that formula: nested in the same way, signs between operands as operators and leading signs as identifiers, functions set apart by thin spaces, letters upright or italic by the style of the document, and the limits of large operators other than integrals above and below in display style only.", "quantifier": "all formulas of this kind, nested to any depth and of any length (matrices with at most 65536 columns, cases with at most two, no sign right after the limits of a large operator), all configurations of parser and renderer", "why_tests_cant": "The formulas are nested without bound, and every construct may be inside every other. A test shows the output of one formula.", "anchors": ["src/parser.rs:Parser::next", "src/parser/primitives.rs:handle_primitive", "src/mathml.rs:push_mathml"]}
{"id": "C79", "title": "Different everyday formulas are rendered differently", "statement": "Two formulas of the kind of C78 whose LaTeX differs are never rendered as the same document: the MathML tells the formula, with every index, exponent, fence, sign and letter. A formula whose document is seen can be written down again from the document alone.", "quantifier": "all pairs of formulas built from letters, numbers, words, groups, fractions, roots, accents, fences, matrices, cases, scripts, large operators, functions and signs, nested to any depth; all configurations of the parser, and the same configuration of the renderer for both", "why_tests_cant": "It compares infinitely many pairs of documents. A test can show that two given formulas differ.", "anchors": ["src/mathml.rs:push_mathml", "src/parser.rs:Parser::next"]}
{"id": "C80", "title": "White space between the parts of a formula does not matter", "statement": "White space of any kind and length between the parts of an everyday formula (before and after it, around braces, between a command and its arguments, around signs, scripts, cells and rows) changes neither the events nor the rendered MathML.", "quantifier": "all formulas of the kind of C78, nested to any depth; all choices of white space at each place, different from place to place; all configurations of the parser and the renderer", "why_tests_cant": "The choices of white space multiply with the size of the formula; a test can only try some layouts of some formulas.", "anchors": ["src/parser/lex.rs:token", "src/parser/lex.rs:argument", "src/parser/lex.rs:optional_argument", "src/parser.rs:Parser::next", "src/parser/primitives.rs:handle_char_token"]}
{"id": "C81", "title": "The documents of everyday formulas are well-formed", "statement": "For an everyday formula in any layout, the rendered document opens and closes elements of MathML in order, and every element for which MathML prescribes a number of children (fractions, roots with an index, scripts, limits, accents) has exactly that number.", "quantifier": "all formulas of the kind of C78, nested to any depth; all layouts of the kind of C80; all configurations of the parser and the renderer, as long as the annotation has no `<`", "why_tests_cant": "A test looks at the documents of some formulas; a wrong number of children can come from any combination of constructs at any depth.", "anchors": ["src/mathml.rs:push_mathml", "src/mathml.rs:MathmlWriter::write_event", "src/parser.rs:Parser::next"]}
