{
 "claims": [
  {
   "property": "C01",
   "status": "proved",
   "theorems": [
    "PL.Props.C01_terminates",
    "PL.Props.C01_call_returns",
    "PL.Props.C01_finite",
    "PL.Props.C01_fused"
   ],
   "note": "For every input, every placement of expansions in memory, with and without overflow checks: iteration ends, every call returns or panics, only finitely many items, None is final."
  },
  {
   "property": "C02",
   "status": "proved",
   "theorems": [
    "PL.Props.C02_balanced"
   ],
   "note": "For every input whose items are all Ok."
  },
  {
   "property": "C03",
   "status": "proved",
   "theorems": [
    "PL.Props.C03_no_unmatched_end",
    "PL.Props.C03_not_closed"
   ],
   "note": "For every input and every prefix of its items, errors included. A group may stay open after an error (C03_not_closed)."
  },
  {
   "property": "C04",
   "status": "partial",
   "theorems": [
    "PL.Props.C04_grammar_partial",
    "PL.Props.C04_operands_partial",
    "PL.Props.C04_false"
   ],
   "note": "False for inputs that give no base or operand, or put an alignment or line break in operand position (C04_false). Proved for every input without those constructs (Clean): no macro definitions, \\relax, \\pmod, \\buildrel, root index, scripts directly on & or a line break, font command applied to & or a line break. Also proved for every text of the grammar of C56, with macro definitions and calls, whose tree has the right number of operands."
  },
  {
   "property": "C05",
   "status": "proved",
   "theorems": [
    "PL.Props.C05_reorder",
    "PL.Props.C05_scripts"
   ],
   "note": "For every staged list and every place of the operands in it (C05_reorder), and for every state in which scripts are attached (C05_scripts): each operand only adds to what is staged, and the stack receives script, base, subscript, superscript."
  },
  {
   "property": "C06",
   "status": "partial",
   "theorems": [
    "PL.Props.C06_panics_partial",
    "PL.Props.C06_ascii_partial",
    "PL.Props.C06_false"
   ],
   "note": "False (C06_false shows each kind of panic). Proved for every input: the only panics are arithmetic overflow in checked builds, slicing through a multi-byte character, an index panic in macro expansion, and the assertion of the error report after an earlier error with macros; so ASCII inputs without macro definitions never panic without overflow checks."
  },
  {
   "property": "C07",
   "status": "partial",
   "theorems": [
    "PL.Props.C07_touching",
    "PL.Props.C07_first_error",
    "PL.Props.C07_false",
    "PL.Props.C07_slices",
    "PL.Props.C07_position",
    "PL.Props.C07_placed"
   ],
   "note": "Proved: the first error of every input, and every error of an input without macro definitions, is reported without panic; once the place is found the slices are within bounds and on character boundaries; if texts lie apart in memory the place found is the right text and offset, and up to the first error also if texts touch as in the arena (C07_touching). False after an earlier error (C07_false: the assertion fails)."
  },
  {
   "property": "C08",
   "status": "proved",
   "theorems": [
    "PL.Props.C08_depth",
    "PL.Props.C08_expansions",
    "PL.Props.C08_sequential"
   ],
   "note": "For every input: at most 64 active expansions; every expansion is performed within both limits; consecutive expansions end, at the limits with the recursion error. Sequential calls count as nested (C08_sequential)."
  },
  {
   "property": "C09",
   "status": "partial",
   "theorems": [
    "PL.Props.C09_bound_partial",
    "PL.Props.C09_false"
   ],
   "note": "False as claimed (C09_false: for every factor K there is an input that allocates more than 1 MiB plus K times its length, because refused expansions are allocated before the check). Proved for every input as long as no recursion error has been returned: allocated text stays below 1 MiB plus one performed expansion."
  },
  {
   "property": "C10",
   "status": "partial",
   "theorems": [
    "PL.Props.C10_grammar_partial",
    "PL.Props.C10_flows_partial",
    "PL.Props.C10_flows_clean_partial",
    "PL.Props.C10_false"
   ],
   "note": "Proved for every input before the first error, where plain braces inside an environment (which a font command opens around its argument) count as part of it; directly in the environment for Clean inputs and for every text of the grammar of C56, with macros. False otherwise (C10_false)."
  },
  {
   "property": "C11",
   "status": "proved",
   "theorems": [
    "PL.Props.C11_array_column",
    "PL.Props.C11_columns",
    "PL.Props.C11_columns_accepted"
   ],
   "note": "For every input and event; the mapping of accepted column specifications for every text, and acceptance for every text shorter than the 16-bit counter allows."
  },
  {
   "property": "C12",
   "status": "proved",
   "theorems": [
    "PL.Props.C12_split",
    "PL.Props.C12_exact",
    "PL.Props.C12_unique",
    "PL.Props.C12_fail",
    "PL.Props.C12_no_panic",
    "PL.Props.C12_braces"
   ],
   "note": "For every text and every kind of group, against the specification Split; braces also by counting."
  },
  {
   "property": "C13",
   "status": "proved",
   "theorems": [
    "PL.Props.C13_char",
    "PL.Props.C13_cs",
    "PL.Props.C13_progress",
    "PL.Props.C13_fail",
    "PL.Props.C13_no_panic"
   ],
   "note": "For every text."
  },
  {
   "property": "C14",
   "status": "proved",
   "theorems": [
    "PL.Props.C14_name",
    "PL.Props.C14_total",
    "PL.Props.C14_fail",
    "PL.Props.C14_no_panic"
   ],
   "note": "For every text."
  },
  {
   "property": "C15",
   "status": "proved",
   "theorems": [
    "PL.Props.C15_number",
    "PL.Props.C15_unique",
    "PL.Props.C15_argument",
    "PL.Props.C15_may_end_in_separator"
   ],
   "note": "For every text starting with a digit, in both positions. The title's short form (never ends in a separator) is false for runs such as `1..` (C15_may_end_in_separator); the statement as given is proved."
  },
  {
   "property": "C16",
   "status": "proved",
   "theorems": [
    "PL.Props.C16_def_accepts",
    "PL.Props.C16_at_most_nine",
    "PL.Props.C16_command_accepts",
    "PL.Props.C16_define_no_panic",
    "PL.Props.C16_def_expand",
    "PL.Props.C16_command_expand"
   ],
   "note": "For every definition text and every call site: acceptance is characterised by the specification ReplText, and expansion of an accepted definition does not index outside its arguments."
  },
  {
   "property": "C17",
   "status": "partial",
   "theorems": [
    "PL.Props.C17_def",
    "PL.Props.C17_command",
    "PL.Props.C17_command_default",
    "PL.Props.C17_alias",
    "PL.Props.C17_open_bracket_loses_text_partial"
   ],
   "note": "Substitution is exact for \\def and \\newcommand macros and aliases, for every call. Not as claimed: an optional argument opened by [ and never closed swallows the input (witness)."
  },
  {
   "property": "C18",
   "status": "partial",
   "theorems": [
    "PL.Props.C18_false",
    "PL.Props.C18_false_parse",
    "PL.Props.C18_char_partial",
    "PL.Props.C18_cs_partial"
   ],
   "note": "False as claimed (C18_false, C18_false_parse): a control word ending the replacement is extended by following letters. Proved when the replacement ends in a non-letter or the following text does not start with a letter."
  },
  {
   "property": "C19",
   "status": "proved",
   "theorems": [
    "PL.Props.C19_errors",
    "PL.Props.C19_new_existing",
    "PL.Props.C19_renew_missing",
    "PL.Props.C19_success",
    "PL.Props.C19_accepts"
   ],
   "note": "For every macro table and text: refusal and errors leave the table unchanged, success has exactly the stated effect, and exactly the texts {\\name}[n]{rt} and {\\name}[n][d]{rt} (and one degenerate form with an open bracket) succeed. The code requires [n]; \\newcommand{\\a}{x} is an error."
  },
  {
   "property": "C20",
   "status": "proved",
   "theorems": [
    "PL.Props.C20_let",
    "PL.Props.C20_futurelet",
    "PL.Props.C20_errors",
    "PL.Props.C20_frame"
   ],
   "note": "For every state: success is characterised by the specifications LetText and FutureText, with the exact resulting state."
  },
  {
   "property": "C21",
   "status": "partial",
   "theorems": [
    "PL.Props.C21_colour_partial",
    "PL.Props.C21_false",
    "PL.Props.C21_no_panic_partial",
    "PL.Props.C21_panics"
   ],
   "note": "Exact for every string without `+`, against the CSS table written down independently. False with `+` (C21_false: `#+f+f+f`), and `#` with a split multi-byte character panics (C21_panics)."
  },
  {
   "property": "C22",
   "status": "partial",
   "theorems": [
    "PL.Props.C22_accepts",
    "PL.Props.C22_reads_partial",
    "PL.Props.C22_panics_only",
    "PL.Props.C22_false",
    "PL.Props.C22_empty_number"
   ],
   "note": "Acceptance, value, unit and consumed text are exact for every text; a dimension followed by white space of more than one byte panics instead (C22_false, C22_panics_only). An empty number is accepted as zero (C22_empty_number)."
  },
  {
   "property": "C23",
   "status": "partial",
   "theorems": [
    "PL.Props.C23_left_right_partial",
    "PL.Props.C23_false",
    "PL.Props.C23_false_dot",
    "PL.Props.C23_definitions_partial",
    "PL.Props.C23_definitions"
   ],
   "note": "False as claimed: a control word starting with \\right, such as \\rightarrow, closes the pair (C23_false), and a space before the full stop after \\right is an error (C23_false_dot). Proved for every content whose matching text \\right is the closing command, in any context, with an error-free content: with everything that follows if there are no definitions (C23_left_right_partial), and with definitions up to the end of the pair, with the macros that hold after it (C23_definitions, for texts that lie as in the arena; C23_definitions_partial for any addresses: the limit for expansions may be reported earlier)."
  },
  {
   "property": "C24",
   "status": "partial",
   "theorems": [
    "PL.Props.C24_actual_partial",
    "PL.Props.C24_letters",
    "PL.Props.C24_false",
    "PL.Props.C24_definitions_partial",
    "PL.Props.C24_definitions"
   ],
   "note": "False as claimed (C24_false): the text \\end closes the group and the letters `group` are parsed. Proved for every content and continuation without definitions what is produced instead: the group followed by the events of `group Y`. With definitions: the group, and the macros that hold after it (C24_definitions, for texts that lie as in the arena; C24_definitions_partial for any addresses)."
  },
  {
   "property": "C25",
   "status": "proved",
   "theorems": [
    "PL.Props.C25_blank"
   ],
   "note": "For every input consisting of white space and comments (BlankEnd), under every configuration."
  },
  {
   "property": "C26",
   "status": "proved",
   "theorems": [
    "PL.Props.C26_plain",
    "PL.Props.C26_letters"
   ],
   "note": "For every text of letters and white space, and more generally for every text of non-special characters, white space and comments."
  },
  {
   "property": "C27",
   "status": "partial",
   "theorems": [
    "PL.Props.C27_braces",
    "PL.Props.C27_panics",
    "PL.Props.C27_sequence",
    "PL.Props.C27_definitions_partial",
    "PL.Props.C27_leaves_partial",
    "PL.Props.C27_mistake_partial",
    "PL.Props.C27_panics_definitions_partial",
    "PL.Props.C27_definitions",
    "PL.Props.C27_leaves",
    "PL.Props.C27_mistake",
    "PL.Props.C27_panics_definitions",
    "PL.Props.C27_after_error_false"
   ],
   "note": "Without macro definitions: every content and continuation, with errors or panics in either (C27_braces, C27_panics, C27_sequence). With definitions, for texts that lie as in the arena: the events of a content without errors, its first error (the limit for expansions included) or its panic, and the macros it leaves for the text after the group (C27_definitions, C27_leaves, C27_mistake, C27_panics_definitions). After the first error of a text with definitions the claim is false, because what is parsed then depends on the addresses (C27_after_error_false). For other layouts the limit for expansions may be reported earlier (the theorems with _partial)."
  },
  {
   "property": "C28",
   "status": "partial",
   "theorems": [
    "PL.Props.C28_events",
    "PL.Props.C28_clean_partial",
    "PL.Props.C28_false",
    "PL.Props.C28_grammar_partial"
   ],
   "note": "For every well-formed event stream and every configuration (C28_events), hence for every clean input that parses without error. False in general (C28_false): \\relax^2 in an array cell parses without error and makes the renderer index out of the columns. Also for texts of the grammar of C56, with macros, whose tree has the right number of operands."
  },
  {
   "property": "C29",
   "status": "partial",
   "theorems": [
    "PL.Props.C29_items_partial",
    "PL.Props.C29_parse_partial",
    "PL.Props.C29_false"
   ],
   "note": "False as claimed (C29_false: after an error inside a nested array, an alignment has no column and panics). Proved for every item stream and every parse, errors and truncation included: apart from alignments in arrays, and with overflow checks in an alignat of at least 32767 pairs, rendering returns."
  },
  {
   "property": "C30",
   "status": "partial",
   "theorems": [
    "PL.Props.C30_balanced_partial",
    "PL.Props.C30_false",
    "PL.Props.C30_grammar_partial"
   ],
   "note": "For every well-formed event stream whose unescaped contents, and the annotation, contain no <. False otherwise (C30_false: a<b is written without escape). Also for texts of the grammar of C56, with macros, whose tree has the right number of operands."
  },
  {
   "property": "C31",
   "status": "partial",
   "theorems": [
    "PL.Props.C31_children_partial",
    "PL.Props.C31_false"
   ],
   "note": "For every well-formed event stream in which no operand is a function name, a bare state change or a space without width. False otherwise (C31_false: \\frac\\sin x, a\\sin^2, \\frac\\bf x)."
  },
  {
   "property": "C32",
   "status": "proved",
   "theorems": [
    "PL.Props.C32_escape",
    "PL.Props.C32_text"
   ],
   "note": "for every text, font, configuration and renderer state"
  },
  {
   "property": "C33",
   "status": "partial",
   "theorems": [
    "PL.Props.C33_message",
    "PL.Props.C33_marked_partial",
    "PL.Props.C33_false",
    "PL.Props.C33_input_partial",
    "PL.Props.C33_input_false"
   ],
   "note": "False as claimed (C33_false: operator names, relations, error contexts and the annotation are not escaped). Proved for every item stream, errors included: if those are without `<`, every `<` of the output begins a tag of the renderer's vocabulary, whatever the text contents; error messages have a `<` only in their context. C33_input_partial: for every text without `<`, \\lt, \\char and definitions, and every prefix of its parse, every `<` of the output begins a tag of the renderer; C33_input_false: none of these conditions can be left out (a definition can put \\lt together)."
  },
  {
   "property": "C34",
   "status": "proved",
   "theorems": [
    "PL.Props.C34_interleavings",
    "PL.Props.C34_looks",
    "PL.Props.C34_transparent",
    "PL.Props.C34_consumed"
   ],
   "note": "Any interleaving of peeks and takes; next_atom and peek_first depend on the remaining items only; rendering after having peeked any number of items gives the same outcome; every function takes items off the front only and none is left at the end."
  },
  {
   "property": "C35",
   "status": "partial",
   "theorems": [
    "PL.Props.C35_scoped_partial",
    "PL.Props.C35_false"
   ],
   "note": "From any renderer state, for every group with complete operands, allowed alignments and arrays with a column. False for groups that are merely balanced (C35_false: {\\bf\\relax^2}x renders x bold)."
  },
  {
   "property": "C36",
   "status": "partial",
   "theorems": [
    "PL.Props.C36_cells",
    "PL.Props.C36_environments",
    "PL.Props.C36_style_false"
   ],
   "note": "Reset of font and colours proved from any state, for alignments, line breaks and environments. The documented exception for the style is false (C36_style_false: the style is reset too)."
  },
  {
   "property": "C37",
   "status": "partial",
   "theorems": [
    "PL.Props.C37_alphabets_partial",
    "PL.Props.C37_total",
    "PL.Props.C37_unchanged",
    "PL.Props.C37_injective_partial",
    "PL.Props.C37_false"
   ],
   "note": "the alphabets agree with the standard's chart for every letter except those listed in C37_false (a few letterlike symbols: the tool writes unassigned code points), and are injective apart from the same letters; totality proved without exception"
  },
  {
   "property": "C38",
   "status": "proved",
   "theorems": [
    "PL.Props.C38_table",
    "PL.Props.C38_output"
   ],
   "note": "all four styles and all characters of the documented ranges, and the letter written for an identifier"
  },
  {
   "property": "C39",
   "status": "proved",
   "theorems": [
    "PL.Props.C39_frame",
    "PL.Props.C39_math"
   ],
   "note": "frame and root element of the output for every configuration and item stream"
  },
  {
   "property": "C40",
   "status": "proved",
   "theorems": [
    "PL.Props.C40_prefix"
   ],
   "note": "writing to a limited writer gives a prefix of the unlimited output, for every stream and configuration, including streams on which rendering panics"
  },
  {
   "property": "C41",
   "status": "proved",
   "theorems": [
    "PL.Props.C41_escape",
    "PL.Props.C41_output"
   ],
   "note": "the byte-level escape equals the UTF-8 encoding of the character-level escape and its output is well formed UTF-8"
  },
  {
   "property": "C42",
   "status": "proved",
   "theorems": [
    "PL.Props.C42_encode"
   ],
   "note": "For all characters and buffers of at least 8 bytes, against the UTF-8 encoder of Lean's library."
  },
  {
   "property": "C43",
   "status": "partial",
   "theorems": [
    "PL.Props.C43_words",
    "PL.Props.C43_limits",
    "PL.Props.C43_exists",
    "PL.Props.C43_not_allowed",
    "PL.Props.C43_script_partial",
    "PL.Props.C43_false",
    "PL.Props.C43_longer_word"
   ],
   "note": "The modifiers are read exactly and the last one decides (C43_limits); the position reaches the script event when the script is a group (C43_script_partial). False in general: an operator in the script overwrites the position (C43_false)."
  },
  {
   "property": "C44",
   "status": "proved",
   "theorems": [
    "PL.Props.C44_newline_spacing",
    "PL.Props.C44_newline_plain",
    "PL.Props.C44_begin",
    "PL.Props.C44_words",
    "PL.Props.C44_lines",
    "PL.Props.C44_newline",
    "PL.Props.C44_longer_word"
   ],
   "note": "The lexer records exactly the maximal sequence, for every text; at handler level for every line break (with and without spacing) and every environment with its arguments. Words are recognised as text (C44_longer_word). A line break with an unclosed bracket after it, which loses the rest of the text, is C44_newline_plain."
  },
  {
   "property": "C45",
   "status": "partial",
   "theorems": [
    "PL.Props.C45_units_partial",
    "PL.Props.C45_mu_false",
    "PL.Props.C45_sp_false",
    "PL.Props.C45_sp_consistent"
   ],
   "note": "Exact for all units but mu and sp. False for mu (unknown CSS unit, C45_mu_false) and, against the documented table, for sp (C45_sp_false: factor 72)."
  },
  {
   "property": "C46",
   "status": "partial",
   "theorems": [
    "PL.Props.C46_staged",
    "PL.Props.C46_lost",
    "PL.Props.C46_leftovers",
    "PL.Props.C46_false_group",
    "PL.Props.C46_stray_step",
    "PL.Props.C46_rest_partial",
    "PL.Props.C46_nested_partial",
    "PL.Props.C46_stray",
    "PL.Props.C46_false"
   ],
   "note": "False as claimed (C46_false: events staged before the failure come out with the next command; C46_false_group: even after the end of the group). C46_staged says for every state what staged events change: the step is the one without them, and they come first, or second behind the event of a script. C46_lost: at the end of the input they are lost. C46_leftovers, for inputs without definitions: the items after an error are those of the remaining text with the staged events inserted once at such a place. Whenever nothing is left staged the following items are those of the remaining text, and stray commands and characters leave nothing behind, at every place."
  },
  {
   "property": "C47",
   "status": "proved",
   "theorems": [
    "PL.Props.C47_attached",
    "PL.Props.C47_double_same",
    "PL.Props.C47_double_third"
   ],
   "note": "For every state: attachment happens in exactly two ways and no script character directly follows; a repeated or third script directly following is the double script error. (`a^b ^c`, with white space, is a different error.)"
  },
  {
   "property": "C48",
   "status": "proved",
   "theorems": [
    "PL.Props.C48_def",
    "PL.Props.C48_effect",
    "PL.Props.C48_errors"
   ],
   "note": "C48_def characterises success exactly through the specification DefCommand; C48_effect says when the texts fit together and that no other macro changes; C48_errors covers failure."
  },
  {
   "property": "C49",
   "status": "proved",
   "theorems": [
    "PL.Props.C49_begin",
    "PL.Props.C49_only",
    "PL.Props.C49_unknown"
   ],
   "note": "C49_begin: every documented form succeeds with the documented instructions. C49_only: every success is of this form, or has degenerate arguments (counts that do not fit 16 bits), with the content delimited by the same name. C49_unknown: other names are errors."
  },
  {
   "property": "C50",
   "status": "proved",
   "theorems": [
    "PL.Props.C50_ascii",
    "PL.Props.C50_shows",
    "PL.Props.C50_ordinary",
    "PL.Props.C50_synonyms",
    "PL.Props.C50_operators",
    "PL.Props.C50_delimiters"
   ],
   "note": "ASCII classes, shown characters for all of Unicode, ordinary class outside the blocks of operators; named operators, delimiters and synonyms in every state."
  },
  {
   "property": "C51",
   "status": "proved",
   "theorems": [
    "PL.Props.C51_integer",
    "PL.Props.C51_unique",
    "PL.Props.C51_char"
   ],
   "note": "Exact in both directions through the specification IntConst; values beyond 64 bits panic with overflow checks and wrap without."
  },
  {
   "property": "C52",
   "status": "partial",
   "theorems": [
    "PL.Props.C52_greek_partial",
    "PL.Props.C52_false",
    "PL.Props.C52_game_false"
   ],
   "note": "False as claimed (C52_false: \\mu emits the micro sign U+00B5, to which no font applies; C52_game_false: \\Game emits gimel). Proved for all other Greek letters."
  },
  {
   "property": "C53",
   "status": "partial",
   "theorems": [
    "PL.Props.C53_tree_partial",
    "PL.Props.C53_intended_partial",
    "PL.Props.C53_covers",
    "PL.Props.C53_parsed_partial",
    "PL.Props.C53_false_sized",
    "PL.Props.C53_false_space",
    "PL.Props.C53_false_negated",
    "PL.Props.C53_false_equation",
    "PL.Props.C53_false_lines"
   ],
   "note": "The text is given exactly for every tree of a well-formed sequence of events (C53_covers: each has one), four constructs (sized delimiters, spaces without width, negated binary operators, line breaks in equations) as the renderer writes them and with the horizontal lines it loses; C53_intended: trees without these are written as they should be. Not covered: sequences of events that are not well-formed. Witnesses: the C53_false theorems."
  },
  {
   "property": "C54",
   "status": "partial",
   "theorems": [
    "PL.Props.C54_list_partial",
    "PL.Props.C54_tex_partial",
    "PL.Props.C54_false_fence",
    "PL.Props.C54_false_script",
    "PL.Props.C54_false_limits"
   ],
   "note": "Proved against TeX's rules 5 and 6 on the classes of the whole list, for elements whose class is not ambiguous. False after a fence such as \\vert, after a relation with a script in braces, and after a sum with limits in braces (C54_false_*)."
  },
  {
   "property": "C55",
   "status": "proved",
   "theorems": [
    "PL.Props.C55_meaning",
    "PL.Props.C55_unique",
    "PL.Props.C55_document"
   ],
   "note": "For every derivation of the grammar in Spec/Formula.lean (69 rules, one soundness lemma each in Lemmas/Formula). Texts with definitions and calls of macros are in C56. Inputs with errors are in C60. The document part holds for regular trees, see C53."
  },
  {
   "property": "C56",
   "status": "partial",
   "theorems": [
    "PL.Props.C56_meaning_partial",
    "PL.Props.C56_agrees_partial",
    "PL.Props.C56_document_partial",
    "PL.Props.C56_by_hand_partial",
    "PL.Props.C56_arguments_false",
    "PL.Props.C56_redefined_false",
    "PL.Props.C56_script_false",
    "PL.Props.C56_scope_false",
    "PL.Props.C56_newcommand_false",
    "PL.Props.C56_script_after_definition_false"
   ],
   "note": "Proved for every derivation of the grammar of C55 extended by definitions (\\def, \\let, \\futurelet, \\newcommand and its relatives, outside of groups) and by calls as elements of a sequence, at the top or inside groups, scripts and cells. Not as claimed (witnesses): a call as an argument or script without braces is not expanded; a replacement that begins with a script gets an empty base; definitions in groups are global; \\let binds late; a script after \\newcommand has no base. The merging of tokens at the end of a replacement is C18."
  },
  {
   "property": "C57",
   "status": "partial",
   "theorems": [
    "PL.Props.C57_symbols_partial",
    "PL.Props.C57_false",
    "PL.Props.C57_operators",
    "PL.Props.C57_words",
    "PL.Props.C57_bmod_false",
    "PL.Props.C57_approximated_false",
    "PL.Props.C57_accents",
    "PL.Props.C57_under",
    "PL.Props.C57_accents_false",
    "PL.Props.C57_spaces",
    "PL.Props.C57_fonts",
    "PL.Props.C57_boldsymbol",
    "PL.Props.C57_changes",
    "PL.Props.C57_text",
    "PL.Props.C57_sizes",
    "PL.Props.C57_fractions",
    "PL.Props.C57_commands",
    "PL.Props.C57_names",
    "PL.Props.C57_unknown"
   ],
   "note": "The whole tables of Spec/Symbols.lean, about 700 names, in every context. Not as documented (C57_false, with what each gets instead): 31 symbols, among them \\colon, \\ldotp, \\cdotp (no punctuation), \\dagger, \\ddagger, \\triangleleft (no operators), \\asymp (a binary operator), \\ncong (≆ for ≇), \\Game (gimel); \\overline is not stretched and \\overparen does not take its scripts above (C57_accents_false)."
  },
  {
   "property": "C58",
   "status": "partial",
   "theorems": [
    "PL.Props.C58_relations_partial",
    "PL.Props.C58_binaries_partial",
    "PL.Props.C58_false"
   ],
   "note": "Proved for all relations but \\backepsilon and all binary operators but fourteen. False (C58_false): \\lessdot, \\lhd, † and others are relations when typed, and ∑, ∫ and all other large operators are ordinary when typed, so that their scripts are no limits."
  },
  {
   "property": "C59",
   "status": "partial",
   "theorems": [
    "PL.Props.C59_nested_partial",
    "PL.Props.C59_window",
    "PL.Props.C59_false",
    "PL.Props.C59_false_width",
    "PL.Props.C59_text",
    "PL.Props.C59_words",
    "PL.Props.C59_false_braces"
   ],
   "note": "Proved: the exact report for every error in inputs without definitions; for macros the exact report when places are nested in the replacement texts; display and wording of messages. False (shown): a place behind the replacement text of an earlier macro is reported at a wrong offset; the underline counts bytes; two messages show doubled braces."
  },
  {
   "property": "C60",
   "status": "proved",
   "theorems": [
    "PL.Props.C60_first",
    "PL.Props.C60_anywhere",
    "PL.Props.C60_plain",
    "PL.Props.C60_unique",
    "PL.Props.C60_wrong"
   ],
   "note": "For every derivation of the rules in Spec/Mistakes.lean (68 rules, one lemma each in Lemmas/Formula/Mistakes.lean) on top of the grammar of C55 and C56. With macros the limit on expansions may come first. Inside of groups (C60_anywhere) for inputs without definitions, also after earlier errors. Not covered: mistakes in the texts of definitions and in the arguments of macro calls (C48, C17, C19), numbers and colours with characters outside of ASCII."
  },
  {
   "property": "C61",
   "status": "proved",
   "theorems": [
    "PL.Props.C61_release",
    "PL.Props.C61_exact",
    "PL.Props.C61_accepts",
    "PL.Props.C61_rejects",
    "PL.Props.C61_front"
   ],
   "note": "Both directions, for regular texts (Spec/Regular.lean) and overflow checks on (with wrapping arithmetic \\char accepts numbers beyond 2^64). C61_rejects: what the grammar does not read ends in an error or a panic. C61_release: without overflow checks the same, or a build with checks panics with an overflow."
  },
  {
   "property": "C62",
   "status": "proved",
   "theorems": [
    "PL.Props.C62_wrong",
    "PL.Props.C62_right",
    "PL.Props.C62_either",
    "PL.Props.C62_run",
    "PL.Props.C62_first",
    "PL.Props.C62_unique",
    "PL.Props.C62_after",
    "PL.Props.C62_later",
    "PL.Props.C62_later_either"
   ],
   "note": "Acts (Spec/Call.lean, Spec/Effect.lean) covers every text. C62_wrong and C62_right hold for every configuration; C62_either, C62_run and C62_first need overflow checks, since \\char then reads numbers exactly. The limit for expansions and panics stay possible outcomes of a step. C62_later and C62_later_either are the same for the states after errors, in inputs without definitions."
  },
  {
   "property": "C63",
   "status": "proved",
   "theorems": [
    "PL.Props.C63_steps",
    "PL.Props.C63_expansions",
    "PL.Props.C63_ends",
    "PL.Props.C63_linear"
   ],
   "note": "Steps counts the activations of next, its calls to itself included. Time spent inside one activation is not modelled."
  },
  {
   "property": "C64",
   "status": "proved",
   "theorems": [
    "PL.Props.C64_events",
    "PL.Props.C64_document",
    "PL.Props.C64_expanded",
    "PL.Props.C64_bound",
    "PL.Props.C64_false"
   ],
   "note": "Colours are bytes (a hypothesis in the model, where they are natural numbers; in Rust it is the type)."
  },
  {
   "property": "C65",
   "status": "partial",
   "theorems": [
    "PL.Props.C65_grammar_partial",
    "PL.Props.C65_tree_partial",
    "PL.Props.C65_partial",
    "PL.Props.C65_parsed_partial",
    "PL.Props.C65_false_ampersand",
    "PL.Props.C65_false_less",
    "PL.Props.C65_false_sized",
    "PL.Props.C65_false_space",
    "PL.Props.C65_false_entity",
    "PL.Props.C65_false_char"
   ],
   "note": "Proved for sequences without raw special characters outside of text, without sized delimiters and without spaces that have no width. For these the claim is false: `\\&`, `a<b`, `\\big(`, `\\mathstrut`, `\\char0` and, in XML documents, text with white space at an end (`C65_false_*`). Also for texts of the grammar of C56, with macros, whose tree has the right number of operands."
  },
  {
   "property": "C66",
   "status": "proved",
   "theorems": [
    "PL.Props.C66_items",
    "PL.Props.C66_yields",
    "PL.Props.C66_checked",
    "PL.Props.C66_rendering",
    "PL.Props.C66_wraps"
   ],
   "note": "The second case occurs (C66_wraps): \\char18446744073709551681 is A in a release build."
  },
  {
   "property": "C67",
   "status": "partial",
   "theorems": [
    "PL.Props.C67_apart",
    "PL.Props.C67_no_macros",
    "PL.Props.C67_stacked_partial",
    "PL.Props.C67_false",
    "PL.Props.C67_upward"
   ],
   "note": "Proved: equal runs if no two texts touch; equal runs for every layout if the input defines no macros; for layouts as in the arena (a later text may end where an earlier one begins) equal runs up to and including the report of the first error. False after an error (C67_false: with texts apart the parser panics, with texts touching it reports the error in the wrong text). C67_upward: a text that begins where an earlier one ends would already change the first report."
  },
  {
   "property": "C68",
   "status": "proved",
   "theorems": [
    "PL.Props.C68_unused_partial",
    "PL.Props.C68_unused",
    "PL.Props.C68_plain",
    "PL.Props.C68_false"
   ],
   "note": "C68_unused, for memory layouts as in the arena (the input does not touch the expansions and these do not overlap, see C67); C68_plain for texts that define nothing, with any layout; C68_unused_partial for texts with macros and any layout: the same events, or the limit for expansions is reached. C68_false shows that the conditions on the names are needed: redefined commands, \\providecommand, and names that a macro of the text puts together."
  },
  {
   "property": "C69",
   "status": "partial",
   "theorems": [
    "PL.Props.C69_frame",
    "PL.Props.C69_rgb",
    "PL.Props.C69_error",
    "PL.Props.C69_style",
    "PL.Props.C69_false"
   ],
   "note": "Proved for the colours of texts, borders and backgrounds (C69_rgb, C69_style). False for the error colour (C69_false), which is written without leading zeros; C69_frame says exactly for which colours it is right: those with all components at least 16, black, and blue."
  },
  {
   "property": "C70",
   "status": "proved",
   "theorems": [
    "PL.Props.C70_kept",
    "PL.Props.C70_needed"
   ],
   "note": "A content counts as shown when the inside of its element appears, with its characters or their forms in a mathematical alphabet (C37)."
  },
  {
   "property": "C71",
   "status": "proved",
   "theorems": [
    "PL.Props.C71_part",
    "PL.Props.C71_characters",
    "PL.Props.C71_pieces",
    "PL.Props.C71_twice"
   ],
   "note": "`C71_pieces`: with definitions a text need not stand in the source in one piece. `C71_twice`: an unbraced argument of \\text (or \\operatorname) carries the rest of the source, which is then read a second time."
  },
  {
   "property": "C72",
   "status": "proved",
   "theorems": [
    "PL.Props.C72_same_partial",
    "PL.Props.C72_same",
    "PL.Props.C72_meaning",
    "PL.Props.C72_newcommand_partial",
    "PL.Props.C72_order_partial",
    "PL.Props.C72_last_partial",
    "PL.Props.C72_newcommand",
    "PL.Props.C72_order",
    "PL.Props.C72_last",
    "PL.Props.C72_script_false"
   ],
   "note": "C72_meaning, for builds with overflow checks and memory layouts as in the arena (the input does not touch the expansions and these do not overlap, see C67). C72_newcommand, C72_order and C72_last are the stated cases. C72_same and the theorems marked partial hold for any layout: C72_same if both inputs are parsed without errors, the others unless the limit for expansions is reached. C72_script_false: \\newcommand and \\def differ directly before a script."
  },
  {
   "property": "C73",
   "status": "proved",
   "theorems": [
    "PL.Props.C73_braces",
    "PL.Props.C73_left_right",
    "PL.Props.C73_local_false"
   ],
   "note": "C73_braces and C73_left_right, for builds with overflow checks and memory layouts as in the arena (see C67); the text after the group must not begin with a script. C73_local_false: definitions are not local to the group as they are in TeX."
  },
  {
   "property": "C74",
   "status": "partial",
   "theorems": [
    "PL.Props.C74_concat",
    "PL.Props.C74_errors",
    "PL.Props.C74_panics",
    "PL.Props.C74_meaning",
    "PL.Props.C74_document",
    "PL.Props.C74_blank",
    "PL.Props.C74_text_false",
    "PL.Props.C74_needed"
   ],
   "note": "C74_concat, C74_errors, C74_panics, C74_meaning, C74_document and C74_blank prove it under the stated conditions, with overflow checks. The code needs one condition that TeX does not need: a text command without braces takes the whole text that follows it (C74_text_false). C74_needed shows that conditions on the end of the first text are needed."
  },
  {
   "property": "C75",
   "status": "proved",
   "theorems": [
    "PL.Props.C75_separated",
    "PL.Props.C75_group",
    "PL.Props.C75_delimited",
    "PL.Props.C75_script",
    "PL.Props.C75_visual",
    "PL.Props.C75_table",
    "PL.Props.C75_source",
    "PL.Props.C75_needed"
   ],
   "note": "C75_separated, C75_group, C75_delimited, C75_script, C75_visual, C75_table; C75_source from the text, with C74. Equations with line breaks and lost lines are excluded, see C53. C75_needed: a part that ends in a function name or changes the state does change what follows."
  },
  {
   "property": "C76",
   "status": "partial",
   "theorems": [
    "PL.Props.C76_near_partial",
    "PL.Props.C76_whole",
    "PL.Props.C76_short",
    "PL.Props.C76_shown",
    "PL.Props.C76_rounds",
    "PL.Props.C76_overflow",
    "PL.Props.C76_false",
    "PL.Props.C76_lost",
    "PL.Props.C76_infinite"
   ],
   "note": "C76_near_partial: up to 37 digits before and after the point; C76_whole, C76_short: exact or at most two roundings; C76_shown: conversion of units (36 and 32 digits); C76_rounds, C76_overflow: the rounding of the model is to a nearest number of 24 binary digits. The claim fails for longer numerals: C76_false (40 or more digits after the point give NaN), C76_lost (39 digits after the point are dropped), C76_infinite. Between 37 and 39 digits nothing is claimed."
  },
  {
   "property": "C77",
   "status": "proved",
   "theorems": [
    "PL.Props.C77_calls",
    "PL.Props.C77_calls_unbounded",
    "PL.Props.C77_arguments",
    "PL.Props.C77_arguments_unbounded",
    "PL.Props.C77_comments",
    "PL.Props.C77_comments_unbounded"
   ],
   "note": "C77_calls, C77_arguments, C77_comments: linear bounds for calls of `next`, the handler of arguments and `token`; C77_calls_unbounded, C77_arguments_unbounded, C77_comments_unbounded: no constant bound. The recursion of `parse` at an expansion is at most as deep as the limit on expansions (C08). The size of a stack frame, and so of the stack, is not modelled; the compiler may turn some of these calls into loops."
  },
  {
   "property": "C78",
   "status": "proved",
   "theorems": [
    "PL.Props.C78_expression"
   ],
   "note": "C78_expression: by induction over the formula, on the grammar of C55 and the documents of C53. The formula is a tree of its own (`Spec/Expression`) with two printers, one for LaTeX and one for MathML. The classification of capital letters beyond ASCII is a parameter (`TellsCapitals`: as in C38, and no symbol or accent is a capital). A sign right after the limits of a large operator is excluded: there the renderer takes it for a binary operator (C54_false_limits). Scripts are groups in braces or a single letter or digit (`x^2`). Operations and relations are those of two lists in `Spec/Expression`, without the commands that begin with `left` or `right`. Letters in other alphabets are those of a table by the Unicode names, without the capital I in Fraktur, for which the renderer writes another letter (C37_false)."
  },
  {
   "property": "C79",
   "status": "proved",
   "theorems": [
    "PL.Props.C79_different",
    "PL.Props.C79_exists"
   ],
   "note": "C79_different, from C78 and a reader of MathML that gives the LaTeX back (`Lemmas/ExpressionBack`, by induction over the formula). C79_exists: every such formula has a document. Spellings such as `\\to` and `\\rightarrow` are outside: each formula has one spelling in `Spec/Expression`."
  },
  {
   "property": "C80",
   "status": "partial",
   "theorems": [
    "PL.Props.C80_spaces_partial",
    "PL.Props.C80_none",
    "PL.Props.C80_false_scripts",
    "PL.Props.C80_false_end"
   ],
   "note": "C80_spaces_partial: for all formulas of C78 and all layouts, but no white space between a subscript and a superscript and none within \\begin{matrix} and \\end{matrix}. There the claim is false: C80_false_scripts (`x_{1} ^{2}` has a superscript on an empty group), C80_false_end (`\\end {matrix}` is not recognised). C80_none: without white space the text is that of C78."
  },
  {
   "property": "C81",
   "status": "proved",
   "theorems": [
    "PL.Props.C81_wellformed",
    "PL.Props.C81_annotation"
   ],
   "note": "C81_wellformed; C81_annotation: the condition on the annotation is needed, because it is copied without escapes. C30 and C31 say the same of streams of events under conditions on the events; here there is no condition on the events."
  }
 ]
}