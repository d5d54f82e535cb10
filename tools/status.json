{
 "C12": [
  "proved",
  "For every text and every kind of group, against the specification Split; braces also by counting."
 ],
 "C13": [
  "proved",
  "For every text."
 ],
 "C14": [
  "proved",
  "For every text."
 ],
 "C16": [
  "proved",
  "For every definition text and every call site: acceptance is characterised by the specification ReplText, and expansion of an accepted definition does not index outside its arguments."
 ],
 "C17": [
  "partial",
  "Substitution is exact for \\def and \\newcommand macros and aliases, for every call. Not as claimed: an optional argument opened by [ and never closed swallows the input (witness)."
 ],
 "C18": [
  "partial",
  "False as claimed (C18_false, C18_false_parse): a control word ending the replacement is extended by following letters. Proved when the replacement ends in a non-letter or the following text does not start with a letter."
 ],
 "C15": [
  "proved",
  "For every text starting with a digit, in both positions. The title's short form (never ends in a separator) is false for runs such as `1..` (C15_may_end_in_separator); the statement as given is proved."
 ],
 "C21": [
  "partial",
  "Exact for every string without `+`, against the CSS table written down independently. False with `+` (C21_false: `#+f+f+f`), and `#` with a split multi-byte character panics (C21_panics)."
 ],
 "C22": [
  "partial",
  "Acceptance, value, unit and consumed text are exact for every text; a dimension followed by white space of more than one byte panics instead (C22_false, C22_panics_only). An empty number is accepted as zero (C22_empty_number)."
 ],
 "C42": [
  "proved",
  "For all characters and buffers of at least 8 bytes, against the UTF-8 encoder of Lean's library."
 ],
 "C43": [
  "partial",
  "The modifiers are read exactly and the last one decides (C43_limits); the position reaches the script event when the script is a group (C43_script_partial). False in general: an operator in the script overwrites the position (C43_false)."
 ],
 "C44": [
  "proved",
  "The lexer records exactly the maximal sequence, for every text; at handler level for every line break (with and without spacing) and every environment with its arguments. Words are recognised as text (C44_longer_word). A line break with an unclosed bracket after it, which loses the rest of the text, is C44_newline_plain."
 ],
 "C45": [
  "partial",
  "Exact for all units but mu and sp. False for mu (unknown CSS unit, C45_mu_false) and, against the documented table, for sp (C45_sp_false: factor 72)."
 ],
 "C01": [
  "proved",
  "For every input, every placement of expansions in memory, with and without overflow checks: iteration ends, every call returns or panics, only finitely many items, None is final."
 ],
 "C02": [
  "proved",
  "For every input whose items are all Ok."
 ],
 "C03": [
  "proved",
  "For every input and every prefix of its items, errors included. A group may stay open after an error (C03_not_closed)."
 ],
 "C04": [
  "partial",
  "False for inputs that give no base or operand, or put an alignment or line break in operand position (C04_false). Proved for every input without those constructs (Clean): no macro definitions, \\relax, \\pmod, \\buildrel, root index, scripts directly on & or a line break, font command applied to & or a line break. Also proved for every text of the grammar of C56, with macro definitions and calls, whose tree has the right number of operands."
 ],
 "C06": [
  "partial",
  "False (C06_false shows each kind of panic). Proved for every input: the only panics are arithmetic overflow in checked builds, slicing through a multi-byte character, an index panic in macro expansion, and the assertion of the error report after an earlier error with macros; so ASCII inputs without macro definitions never panic without overflow checks."
 ],
 "C07": [
  "partial",
  "Proved: the first error of every input, and every error of an input without macro definitions, is reported without panic; once the place is found the slices are within bounds and on character boundaries; if texts lie apart in memory the place found is the right text and offset, and up to the first error also if texts touch as in the arena (C07_touching). False after an earlier error (C07_false: the assertion fails)."
 ],
 "C08": [
  "proved",
  "For every input: at most 64 active expansions; every expansion is performed within both limits; consecutive expansions end, at the limits with the recursion error. Sequential calls count as nested (C08_sequential)."
 ],
 "C10": [
  "partial",
  "Proved for every input before the first error, where plain braces inside an environment (which a font command opens around its argument) count as part of it; directly in the environment for Clean inputs and for every text of the grammar of C56, with macros. False otherwise (C10_false)."
 ],
 "C11": [
  "proved",
  "For every input and event; the mapping of accepted column specifications for every text, and acceptance for every text shorter than the 16-bit counter allows."
 ],
 "C05": [
  "proved",
  "For every staged list and every place of the operands in it (C05_reorder), and for every state in which scripts are attached (C05_scripts): each operand only adds to what is staged, and the stack receives script, base, subscript, superscript."
 ],
 "C47": [
  "proved",
  "For every state: attachment happens in exactly two ways and no script character directly follows; a repeated or third script directly following is the double script error. (`a^b ^c`, with white space, is a different error.)"
 ],
 "C19": [
  "proved",
  "For every macro table and text: refusal and errors leave the table unchanged, success has exactly the stated effect, and exactly the texts {\\name}[n]{rt} and {\\name}[n][d]{rt} (and one degenerate form with an open bracket) succeed. The code requires [n]; \\newcommand{\\a}{x} is an error."
 ],
 "C20": [
  "proved",
  "For every state: success is characterised by the specifications LetText and FutureText, with the exact resulting state."
 ],
 "C25": [
  "proved",
  "For every input consisting of white space and comments (BlankEnd), under every configuration."
 ],
 "C26": [
  "proved",
  "For every text of letters and white space, and more generally for every text of non-special characters, white space and comments."
 ],
 "C23": [
  "partial",
  "False as claimed: a control word starting with \\right, such as \\rightarrow, closes the pair (C23_false), and a space before the full stop after \\right is an error (C23_false_dot). Proved for every content whose matching text \\right is the closing command, in any context, with an error-free content: with everything that follows if there are no definitions (C23_left_right_partial), and with definitions up to the end of the pair, with the macros that hold after it (C23_definitions, for texts that lie as in the arena; C23_definitions_partial for any addresses: the limit for expansions may be reported earlier)."
 ],
 "C24": [
  "partial",
  "False as claimed (C24_false): the text \\end closes the group and the letters `group` are parsed. Proved for every content and continuation without definitions what is produced instead: the group followed by the events of `group Y`. With definitions: the group, and the macros that hold after it (C24_definitions, for texts that lie as in the arena; C24_definitions_partial for any addresses)."
 ],
 "C27": [
  "partial",
  "Without macro definitions: every content and continuation, with errors or panics in either (C27_braces, C27_panics, C27_sequence). With definitions, for texts that lie as in the arena: the events of a content without errors, its first error (the limit for expansions included) or its panic, and the macros it leaves for the text after the group (C27_definitions, C27_leaves, C27_mistake, C27_panics_definitions). After the first error of a text with definitions the claim is false, because what is parsed then depends on the addresses (C27_after_error_false). For other layouts the limit for expansions may be reported earlier (the theorems with _partial)."
 ],
 "C09": [
  "partial",
  "False as claimed (C09_false: for every factor K there is an input that allocates more than 1 MiB plus K times its length, because refused expansions are allocated before the check). Proved for every input as long as no recursion error has been returned: allocated text stays below 1 MiB plus one performed expansion."
 ],
 "C46": [
  "partial",
  "False as claimed (C46_false: events staged before the failure come out with the next command; C46_false_group: even after the end of the group). C46_staged says for every state what staged events change: the step is the one without them, and they come first, or second behind the event of a script. C46_lost: at the end of the input they are lost. C46_leftovers, for inputs without definitions: the items after an error are those of the remaining text with the staged events inserted once at such a place. Whenever nothing is left staged the following items are those of the remaining text, and stray commands and characters leave nothing behind, at every place."
 ],
 "C37": [
  "partial",
  "the alphabets agree with the standard's chart for every letter except those listed in C37_false (a few letterlike symbols: the tool writes unassigned code points), and are injective apart from the same letters; totality proved without exception"
 ],
 "C38": [
  "proved",
  "all four styles and all characters of the documented ranges, and the letter written for an identifier"
 ],
 "C39": [
  "proved",
  "frame and root element of the output for every configuration and item stream"
 ],
 "C40": [
  "proved",
  "writing to a limited writer gives a prefix of the unlimited output, for every stream and configuration, including streams on which rendering panics"
 ],
 "C41": [
  "proved",
  "the byte-level escape equals the UTF-8 encoding of the character-level escape and its output is well formed UTF-8"
 ],
 "C32": [
  "proved",
  "for every text, font, configuration and renderer state"
 ],
 "C28": [
  "partial",
  "For every well-formed event stream and every configuration (C28_events), hence for every clean input that parses without error. False in general (C28_false): \\relax^2 in an array cell parses without error and makes the renderer index out of the columns. Also for texts of the grammar of C56, with macros, whose tree has the right number of operands."
 ],
 "C30": [
  "partial",
  "For every well-formed event stream whose unescaped contents, and the annotation, contain no <. False otherwise (C30_false: a<b is written without escape). Also for texts of the grammar of C56, with macros, whose tree has the right number of operands."
 ],
 "C31": [
  "partial",
  "For every well-formed event stream in which no operand is a function name, a bare state change or a space without width. False otherwise (C31_false: \\frac\\sin x, a\\sin^2, \\frac\\bf x)."
 ],
 "C34": [
  "proved",
  "Any interleaving of peeks and takes; next_atom and peek_first depend on the remaining items only; rendering after having peeked any number of items gives the same outcome; every function takes items off the front only and none is left at the end."
 ],
 "C35": [
  "partial",
  "From any renderer state, for every group with complete operands, allowed alignments and arrays with a column. False for groups that are merely balanced (C35_false: {\\bf\\relax^2}x renders x bold)."
 ],
 "C36": [
  "partial",
  "Reset of font and colours proved from any state, for alignments, line breaks and environments. The documented exception for the style is false (C36_style_false: the style is reset too)."
 ],
 "C29": [
  "partial",
  "False as claimed (C29_false: after an error inside a nested array, an alignment has no column and panics). Proved for every item stream and every parse, errors and truncation included: apart from alignments in arrays, and with overflow checks in an alignat of at least 32767 pairs, rendering returns."
 ],
 "C33": [
  "partial",
  "False as claimed (C33_false: operator names, relations, error contexts and the annotation are not escaped). Proved for every item stream, errors included: if those are without `<`, every `<` of the output begins a tag of the renderer's vocabulary, whatever the text contents; error messages have a `<` only in their context. C33_input_partial: for every text without `<`, \\lt, \\char and definitions, and every prefix of its parse, every `<` of the output begins a tag of the renderer; C33_input_false: none of these conditions can be left out (a definition can put \\lt together)."
 ],
 "C48": [
  "proved",
  "C48_def characterises success exactly through the specification DefCommand; C48_effect says when the texts fit together and that no other macro changes; C48_errors covers failure."
 ],
 "C49": [
  "proved",
  "C49_begin: every documented form succeeds with the documented instructions. C49_only: every success is of this form, or has degenerate arguments (counts that do not fit 16 bits), with the content delimited by the same name. C49_unknown: other names are errors."
 ],
 "C50": [
  "proved",
  "ASCII classes, shown characters for all of Unicode, ordinary class outside the blocks of operators; named operators, delimiters and synonyms in every state."
 ],
 "C51": [
  "proved",
  "Exact in both directions through the specification IntConst; values beyond 64 bits panic with overflow checks and wrap without."
 ],
 "C52": [
  "partial",
  "False as claimed (C52_false: \\mu emits the micro sign U+00B5, to which no font applies; C52_game_false: \\Game emits gimel). Proved for all other Greek letters."
 ],
 "C53": [
  "partial",
  "The text is given exactly for every tree of a well-formed sequence of events (C53_covers: each has one), four constructs (sized delimiters, spaces without width, negated binary operators, line breaks in equations) as the renderer writes them and with the horizontal lines it loses; C53_intended: trees without these are written as they should be. Not covered: sequences of events that are not well-formed. Witnesses: the C53_false theorems."
 ],
 "C54": [
  "partial",
  "Proved against TeX's rules 5 and 6 on the classes of the whole list, for elements whose class is not ambiguous. False after a fence such as \\vert, after a relation with a script in braces, and after a sum with limits in braces (C54_false_*)."
 ],
 "C55": [
  "proved",
  "For every derivation of the grammar in Spec/Formula.lean (69 rules, one soundness lemma each in Lemmas/Formula). Texts with definitions and calls of macros are in C56. Inputs with errors are in C60. The document part holds for regular trees, see C53."
 ],
 "C56": [
  "partial",
  "Proved for every derivation of the grammar of C55 extended by definitions (\\def, \\let, \\futurelet, \\newcommand and its relatives, outside of groups) and by calls as elements of a sequence, at the top or inside groups, scripts and cells. Not as claimed (witnesses): a call as an argument or script without braces is not expanded; a replacement that begins with a script gets an empty base; definitions in groups are global; \\let binds late; a script after \\newcommand has no base. The merging of tokens at the end of a replacement is C18."
 ],
 "C57": [
  "partial",
  "The whole tables of Spec/Symbols.lean, about 700 names, in every context. Not as documented (C57_false, with what each gets instead): 31 symbols, among them \\colon, \\ldotp, \\cdotp (no punctuation), \\dagger, \\ddagger, \\triangleleft (no operators), \\asymp (a binary operator), \\ncong (≆ for ≇), \\Game (gimel); \\overline is not stretched and \\overparen does not take its scripts above (C57_accents_false)."
 ],
 "C58": [
  "partial",
  "Proved for all relations but \\backepsilon and all binary operators but fourteen. False (C58_false): \\lessdot, \\lhd, † and others are relations when typed, and ∑, ∫ and all other large operators are ordinary when typed, so that their scripts are no limits."
 ],
 "C59": [
  "partial",
  "Proved: the exact report for every error in inputs without definitions; for macros the exact report when places are nested in the replacement texts; display and wording of messages. False (shown): a place behind the replacement text of an earlier macro is reported at a wrong offset; the underline counts bytes; two messages show doubled braces."
 ],
 "C60": [
  "proved",
  "For every derivation of the rules in Spec/Mistakes.lean (68 rules, one lemma each in Lemmas/Formula/Mistakes.lean) on top of the grammar of C55 and C56. With macros the limit on expansions may come first. Inside of groups (C60_anywhere) for inputs without definitions, also after earlier errors. Not covered: mistakes in the texts of definitions and in the arguments of macro calls (C48, C17, C19), numbers and colours with characters outside of ASCII."
 ],
 "C61": [
  "proved",
  "Both directions, for regular texts (Spec/Regular.lean) and overflow checks on (with wrapping arithmetic \\char accepts numbers beyond 2^64). C61_rejects: what the grammar does not read ends in an error or a panic. C61_release: without overflow checks the same, or a build with checks panics with an overflow."
 ],
 "C62": [
  "proved",
  "Acts (Spec/Call.lean, Spec/Effect.lean) covers every text. C62_wrong and C62_right hold for every configuration; C62_either, C62_run and C62_first need overflow checks, since \\char then reads numbers exactly. The limit for expansions and panics stay possible outcomes of a step. C62_later and C62_later_either are the same for the states after errors, in inputs without definitions."
 ],
 "C63": [
  "proved",
  "Steps counts the activations of next, its calls to itself included. Time spent inside one activation is not modelled."
 ],
 "C64": [
  "proved",
  "Colours are bytes (a hypothesis in the model, where they are natural numbers; in Rust it is the type)."
 ],
 "C65": [
  "partial",
  "Proved for sequences without raw special characters outside of text, without sized delimiters and without spaces that have no width. For these the claim is false: `\\&`, `a<b`, `\\big(`, `\\mathstrut`, `\\char0` and, in XML documents, text with white space at an end (`C65_false_*`). Also for texts of the grammar of C56, with macros, whose tree has the right number of operands."
 ],
 "C66": [
  "proved",
  "The second case occurs (C66_wraps): \\char18446744073709551681 is A in a release build."
 ],
 "C67": [
  "partial",
  "Proved: equal runs if no two texts touch; equal runs for every layout if the input defines no macros; for layouts as in the arena (a later text may end where an earlier one begins) equal runs up to and including the report of the first error. False after an error (C67_false: with texts apart the parser panics, with texts touching it reports the error in the wrong text). C67_upward: a text that begins where an earlier one ends would already change the first report."
 ],
 "C68": [
  "proved",
  "C68_unused, for memory layouts as in the arena (the input does not touch the expansions and these do not overlap, see C67); C68_plain for texts that define nothing, with any layout; C68_unused_partial for texts with macros and any layout: the same events, or the limit for expansions is reached. C68_false shows that the conditions on the names are needed: redefined commands, \\providecommand, and names that a macro of the text puts together."
 ],
 "C69": [
  "partial",
  "Proved for the colours of texts, borders and backgrounds (C69_rgb, C69_style). False for the error colour (C69_false), which is written without leading zeros; C69_frame says exactly for which colours it is right: those with all components at least 16, black, and blue."
 ],
 "C70": [
  "proved",
  "A content counts as shown when the inside of its element appears, with its characters or their forms in a mathematical alphabet (C37)."
 ],
 "C71": [
  "proved",
  "`C71_pieces`: with definitions a text need not stand in the source in one piece. `C71_twice`: an unbraced argument of \\text (or \\operatorname) carries the rest of the source, which is then read a second time."
 ],
 "C72": [
  "proved",
  "C72_meaning, for builds with overflow checks and memory layouts as in the arena (the input does not touch the expansions and these do not overlap, see C67). C72_newcommand, C72_order and C72_last are the stated cases. C72_same and the theorems marked partial hold for any layout: C72_same if both inputs are parsed without errors, the others unless the limit for expansions is reached. C72_script_false: \\newcommand and \\def differ directly before a script."
 ],
 "C73": [
  "proved",
  "C73_braces and C73_left_right, for builds with overflow checks and memory layouts as in the arena (see C67); the text after the group must not begin with a script. C73_local_false: definitions are not local to the group as they are in TeX."
 ],
 "C74": [
  "partial",
  "C74_concat, C74_errors, C74_panics, C74_meaning, C74_document and C74_blank prove it under the stated conditions, with overflow checks. The code needs one condition that TeX does not need: a text command without braces takes the whole text that follows it (C74_text_false). C74_needed shows that conditions on the end of the first text are needed."
 ],
 "C75": [
  "proved",
  "C75_separated, C75_group, C75_delimited, C75_script, C75_visual, C75_table; C75_source from the text, with C74. Equations with line breaks and lost lines are excluded, see C53. C75_needed: a part that ends in a function name or changes the state does change what follows."
 ],
 "C76": [
  "partial",
  "C76_near_partial: up to 37 digits before and after the point; C76_whole, C76_short: exact or at most two roundings; C76_shown: conversion of units (36 and 32 digits); C76_rounds, C76_overflow: the rounding of the model is to a nearest number of 24 binary digits. The claim fails for longer numerals: C76_false (40 or more digits after the point give NaN), C76_lost (39 digits after the point are dropped), C76_infinite. Between 37 and 39 digits nothing is claimed."
 ],
 "C77": [
  "proved",
  "C77_calls, C77_arguments, C77_comments: linear bounds for calls of `next`, the handler of arguments and `token`; C77_calls_unbounded, C77_arguments_unbounded, C77_comments_unbounded: no constant bound. The recursion of `parse` at an expansion is at most as deep as the limit on expansions (C08). The size of a stack frame, and so of the stack, is not modelled; the compiler may turn some of these calls into loops."
 ],
 "C78": [
  "proved",
  "C78_expression: by induction over the formula, on the grammar of C55 and the documents of C53. The formula is a tree of its own (`Spec/Expression`) with two printers, one for LaTeX and one for MathML. The classification of capital letters beyond ASCII is a parameter (`TellsCapitals`: as in C38, and no symbol or accent is a capital). A sign right after the limits of a large operator is excluded: there the renderer takes it for a binary operator (C54_false_limits). Scripts are groups in braces or a single letter or digit (`x^2`). Operations and relations are those of two lists in `Spec/Expression`, without the commands that begin with `left` or `right`. Letters in other alphabets are those of a table by the Unicode names, without the capital I in Fraktur, for which the renderer writes another letter (C37_false)."
 ],
 "C79": [
  "proved",
  "C79_different, from C78 and a reader of MathML that gives the LaTeX back (`Lemmas/ExpressionBack`, by induction over the formula). C79_exists: every such formula has a document. Spellings such as `\\to` and `\\rightarrow` are outside: each formula has one spelling in `Spec/Expression`."
 ],
 "C80": [
  "partial",
  "C80_spaces_partial: for all formulas of C78 and all layouts, but no white space between a subscript and a superscript and none within \\begin{matrix} and \\end{matrix}. There the claim is false: C80_false_scripts (`x_{1} ^{2}` has a superscript on an empty group), C80_false_end (`\\end {matrix}` is not recognised). C80_none: without white space the text is that of C78."
 ],
 "C81": [
  "proved",
  "C81_wellformed; C81_annotation: the condition on the annotation is needed, because it is copied without escapes. C30 and C31 say the same of streams of events under conditions on the events; here there is no condition on the events."
 ]
}