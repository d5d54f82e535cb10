# A formal model of pulldown-latex in Lean 4

The source modelled is `/repo` (rust, crate `pulldown-latex`), read as text. It is never
built or run here. All line numbers below and in the Lean comments refer to that commit.

## Trusted base

* Lean 4.33.0's kernel. No axioms are added. Theorems depend on at most `propext`,
  `Classical.choice` and `Quot.sound` (checked with `#print axioms`).
* No `sorry`, `admit`, `native_decide`, `bv_decide`, `implemented_by` or `unsafe`.
  `decide +kernel` is evaluation in the kernel; it is used for concrete witnesses and for finite
  tables checked in full.
* The hand translation from Rust to Lean. Each definition cites file and lines. The tables of
  names (primitives, delimiters, fonts) are produced from the Rust text by the
  scripts in `tools/` (`gen_prims.py`, `gen_tables.py`, `gen_font.py`); the generated Lean files
  are committed.
* As a check of the translation, `tools/conform.py` runs the model (parser and renderer) on the
  335 formulas whose renderings are recorded in `/repo/tests/out`: 329 agree to the character. The
  other six recordings are older than the source (`\boldsymbol` with Greek letters now gives bold
  italic letters; `\frac25` now reads one digit per argument). This is a test, not part of any proof.
* `Verif/Check/UnitTests.lean` repeats the unit tests of `src/parser.rs`, `src/parser/lex.rs`,
  `src/parser/macros.rs` and `tests/errors.rs` on the model, with the expectations recorded there;
  all agree. These are tests too; no property refers to them.

## What is modelled

| Rust | Lean module | remarks |
| --- | --- | --- |
| `parser/lex.rs` | `Verif/Model/Lex.lean` | all functions except the dead `integer` |
| `parser/tables.rs` | `Verif/Model/Tables.lean` (generated) | complete |
| `parser/macros.rs` | `Verif/Model/Macros.lean` | complete |
| `parser/primitives.rs` | `Verif/Model/PrimTable.lean` (generated), `Verif/Model/Prim.lean`, `Verif/Model/Primitives.lean` | complete |
| `parser.rs`, `parser/state.rs` | `Verif/Model/Parser.lean` | complete |
| `parser/error.rs` | `Verif/Model/Error.lean`, `Verif/Model/Display.lean` | construction of the error, context, messages |
| `event.rs` | `Verif/Model/Event.lean`, `Verif/Model/Relation.lean` | complete |
| `mathml.rs`, `config.rs` | `Verif/Model/Mathml.lean`, `Verif/Model/Font.lean` | complete |

Not modelled: `Debug` output, doc examples, `parser/storage.rs` beyond "an arena that never moves
strings" (addresses are a parameter of the model; C67 states which layouts give the same results;
for C09 the bytes of the stored texts are counted, not the overhead of the arena), the
size of the call stack (C77 counts nested calls), allocation failure.

`primitives.rs` 742-745 (`\strut`) builds `Space` without the field `depth`, which does not compile
as it stands. The model takes the depth to be absent.

## Representation choices (where the model simplifies)

* Strings are `List Char`. Rust's byte scans compare bytes with ASCII bytes or
  whole strings, so scanning characters visits the same positions. Where Rust slices at a byte
  position that may fall inside a character, the model has an explicit panic outcome.
* A Rust `&str` into the input or into an expansion is `Sl`: an allocation number, the end offset
  in bytes, and the characters. The address check of `reach_original_call_site` is parametric in the
  placement of the allocations in memory (`Cfg.addr`).
* A panic is a value, an error is a value; the state reached is kept
  in both cases, because iteration continues after an error.
* `Cfg.overflowChecks` and `RCfg.checks`: debug builds panic on arithmetic overflow, release builds
  wrap. Theorems hold for both values.
* `f32` values are exact decimals in the parser and in the renderer; the sign of zero and the `Display` of floats are not modelled
  (the printing function is the parameter `RCfg.fmt`). Rounding, infinities and NaN are modelled apart from them in `Model/F32`, and
  C76 relates the two.
* `char::is_uppercase` beyond ASCII is the parameter `RCfg.isUpper`.
* The `u32` nesting counter of `group_content` is a natural number (inputs over 4 GiB are out of scope).
* Recursion (`handle_argument` → `handle_primitive` → ...) and loops are modelled with fuel; that the
  fuel is never exhausted is proved.
* A writer is a number of bytes it accepts before failing (`none`: never fails); a call of `write` that
  is accepted partly ends the rendering as `write_all` does.

## Layout

* `Verif/Model`: the model, function by function.
* `Verif/Spec`: the specifications. They do not use the functions under test, only the types of the model and simple
  predicates on them (events,
  white space, dimensions).
* `Verif/Lemmas`: helper lemmas. `Lemmas/Render` is about the renderer: weakest preconditions of the writer
  monad (`Wp`), lookahead (`Peek`), groups and tables (`Groups`, `Array`, `Flows`), the main loop (`Loop`, `Sim`),
  arbitrary items (`Any`), the exact text (`Exact`, `ExactTable`, `ExactTree`, `ExactDoc`, `Trees`), classes of atoms (`Classes`).
  `Lemmas/Formula` is about the grammar: what a handler leaves (`After`, `Runs` in `Base`), the meaning of a judgement for the parser
  (`Sound`), the rules (`Commands`, `Operands`, `Fractions`, `Elements`), executions in which expansions are moves of their own and how they end
  (`Outcome`), the macros that are stored (`Definitions`) and the induction (`Main`). The converse inverts the handlers (`Inverse`, `Complete`) and the runs
  (`Converse`). Mistakes are treated in `Absent` and `Mistakes`; the exact effect of every text in `Needs`, `Readers`, `Begin`, `Defining` (readers of arguments
  and definitions, with all their errors), `Exactly` (tokens), `Element` (scripts), `Call` (macros) and `Steps`.
* `Verif/Props`: the theorems claimed, named `Cnn_...`, each with a concrete case.
* `tools/manifest.py` writes `MANIFEST.json` from the theorem names and `tools/status.json`.
* `seeded/LOG.jsonl`: the mutation tests.

## Properties and how they are proved

| id | what is modelled / how proved |
| --- | --- |
| C01 | `next` as a step machine; termination by a lexicographic measure (remaining expansion budget, weight of pending text), proved for all states |
| C02 | invariant over the step machine: emitted ++ pending events are balanced; independent spec `Balanced` |
| C03 | depth invariant kept through errors |
| C04 | spec `WF` grammar. False in general (witnesses: `\relax^2`, `\pmod`, ...); partial theorem for inputs without the offending commands (`Clean`), and for texts of the grammar with macros whose tree is complete (Spec/Counts.lean, Props/Grammar.lean) |
| C05 | model of the rotation loop on slots `Option Instr`; result equals base ++ sub ++ sup |
| C06 | False (witnesses). Partial: classification of panics, and panic freedom for inputs outside the classes |
| C07 | invariant "every pending slice lies in the input or an active expansion" ⇒ error construction total |
| C08 | invariant on the span stack and byte counter |
| C09 | False: allocation happens before the check; witness family. Partial: bound until the first recursion error |
| C10 | invariant on counters; font groups violate the "where" part; witness and partial |
| C11 | invariant on emitted events |
| C12 | scanner spec independent of the loop |
| C13, C14, C15 | lexer lemmas |
| C16, C17, C48 | spec of parameter and replacement texts as an independent grammar and substitution |
| C18 | False: witness and partial theorem |
| C19, C20 | frame theorems on the macro table |
| C21 | table lookup against the CSS table + hex spec; panic witness |
| C22, C51 | decimal, octal and hexadecimal specs |
| C23, C24 | False: witnesses; partial theorems for what is produced |
| C25, C26, C27 | run of the step machine; simulation between a group's content inside and outside; with definitions (`Shift`, `Beside`, `Nested`) up to the first error |
| C28 | invariant relating the renderer's environment stack with the stream grammar (`Doc`) |
| C29 | False: witness; partial for arbitrary items |
| C30, C31 | tag scanner automaton as spec; simulation |
| C32, C33 | unescape round trip; injection witness; partial for arbitrary items, and for texts without the character and the commands that write it (`NoTag`, `Lemmas/NoTag.lean`, `NoTagStep.lean`) |
| C34 | refinement of the peekable by a list |
| C35, C36 | invariant on the state stack |
| C37 | Unicode chart as spec, whole-range kernel checks |
| C38 | whole-range |
| C39, C40, C41, C42 | writer monad laws |
| C43, C44 | lexer lemmas |
| C45 | False for mu: witness + partial |
| C46 | False: witnesses; the exact relation between a step with and without staged events (`Staged`, `Leftovers`) gives what comes out instead |
| C47 | parser lemma |
| C49 | every environment against a table of its events |
| C50, C52 | characters and named symbols against tables by class |
| C53 | the document as a function of a formula tree; the main loop simulated on trees |
| C54 | TeX's rules for binary operators on lists of classes; the running class compared with the renderer's |
| C55 | a grammar on texts (`Spec/Formula.lean`), inductively defined; one soundness lemma per rule (`Lemmas/Formula`), then induction on derivations |
| C56 | the same grammar with calls and definitions (`Spec/Expansion.lean`); expansions are split off from `parse` and a walk with them is simulated |
| C57, C58 | tables of names and characters written from the documentation of LaTeX, AMS and unicode-math (`Spec/Symbols.lean`), compared with the tables of the program by kernel computation over all entries |
| C59 | windows of the text, relational lines, stack of calls (`Spec/Report.lean`); table of the words a message must have |
| C60 | which mistake a text makes at its start, and its kind (`Spec/Mistakes.lean`), inductively defined next to the grammar; one lemma per rule |
| C61 | converse of C55 for texts meeting `Spec/Regular.lean`: inversion of every handler (`Lemmas/Formula/Inverse.lean`, `Complete.lean`), then induction on the number of rounds of a run without errors (`Converse.lean`) |
| C62 | the effect of every text, right or wrong (`Spec/Effect.lean`, `Spec/Call.lean`): every reader either succeeds or has one error, by induction on the fuel of the token handler and on the rounds of expansion |
| C63 | a weight of the waiting instructions that every step decreases, growing only with expansions; an expansion is at most quadratic in the texts it is made from |
| C64 | a potential of the renderer (`Lemmas/Render/Cost.lean`): what is written, 64 for every open environment and a charge for every waiting item never grows; the array with n separators and n lines for the lower bound; for the bound in the source, every event of a handler fits the text it reads (`Lemmas/Fits.lean`), together with C59 and C63 |
| C65 | a grammar of XML (`Spec/Xml.lean`) written from the productions of the recommendation; induction over the trees of C53 (`Lemmas/Xml.lean`); for the counterexamples a reader of markup that accepts every document (`Lemmas/XmlScan.lean`) |
| C66 | a relation between computations, equal unless the first panics with an overflow, kept by every combinator and handler (`Lemmas/Builds.lean`, `Lemmas/Render/Builds.lean`) |
| C67 | handlers do not read addresses (`handleToken_addr`, `atom_cfg`, `tryExpand_cfg`); the search for the place of an error gives the same entry whether ends are inclusive or not, because before the first error the text of an error is in the most recent expansion or its beginning lies strictly inside (`Lemmas/Layout.lean`) |
| C68 | one-directional simulation: a handler that succeeds does the same with more macros below those in the table unless it binds one of their names (`MoreAt`, `Lemmas/More.lean`); a call of an additional macro would be an unknown command without it (`Lemmas/Wider.lean`) |
| C69 | CSS Color 4 notations as a separate reader (`Spec/Shade.lean`); digits of a byte by cases, arithmetic by omega |
| C70 | partial-correctness rules for the writer: what a function writes and which items it takes (`Tells`, `Takes`; `Lemmas/Render/Tells.lean`, `Takes.lean`) |
| C71 | a property of texts that holds for their parts is kept by every handler (`Froms`, `Lemmas/Origin.lean`, `OriginStep.lean`); expansions keep properties of characters |
| C72 | `Lemmas/Swap`, `Lemmas/Exchange`: the parser run with two contexts of macros in step (`Serves`); `Spec/Exchange`: `Covers` compares the calls allowed by two sets of definitions. `Lemmas/Pin`, `Lemmas/Level`, `Lemmas/March`: the two runs also have the same expansions at the same depth, so that the limits are reached together (also for C68, `Lemmas/Roomier`). With overflow checks. |
| C73 | `Lemmas/March` for two parsers that are at the same text with macros that mean the same; `Opens` (C27) for the group. With overflow checks. |
| C74 | `Spec/Joint`: conditions on the two texts; `Lemmas/Formula/Joint`: readings of a text are readings when something follows; then `Lemmas/March` and `Lemmas/Sim` for the second text. With overflow checks. |
| C75 | `Spec/Parts`: `steady`, `awaits`, `framed`; `Lemmas/Parts`: what the class before and after an element changes in its markup; then C53. |
| C76 | `Model/F32`: the calculations of `floating_point` and of the conversion of units with IEEE rounding; `Spec/Rounding`: `Near`, `Exact`; `Lemmas/F32`, `Lemmas/F32Exact`: one rounding, then an induction over the digits that counts roundings. |
| C77 | `Spec/Depth`: `CallTo`, a call of `next` with the number of calls nested in it; the fuel of the handlers is their depth of calls |
| C78 | `Spec/Expression`: trees with the printers `source` and `mathml`; `Lemmas/Expression`: where groups end; `Lemmas/ExpressionReads`: the source is read as the tree; then the tree is rendered, by induction |
| C79 | `Lemmas/ExpressionBack`: a function from MathML to LaTeX, a left inverse of `mathml` up to `source`; with C78, documents are equal only for equal LaTeX |
| C80 | `Spec/Spaced`: the LaTeX of an expression with a gap at each place, given by a function from paths; `Lemmas/Spaced`: it is read as the expression, by induction over it |
| C81 | `Props/Tidy`: the MathML of each part of an expression is a known number of elements, by induction over it; with C80 and the frame of C30 |

Properties found false are recorded with a witness theorem (the concrete input and the outcome of the
model), and a `_partial` theorem states the largest part that was proved.

## Where the code disagrees with what its users may expect

Parsing:

* Panics: `\def\a#1x{}\a b\` (index); an integer constant followed by a non-ASCII character; `\kern1em` followed by
  white space of more than one byte; the colour `#aéaaa`; `\newcommand{\a}[0][x]{y}\a`; the assertion of the error report after
  an earlier error with macros; arithmetic overflow in debug builds (C06, C07, C21, C22).
* `\relax^2`, `\pmod`, `\buildrel` and others give scripts or visuals with missing operands (C04), on which the renderer
  can panic (C28).
* `\rightarrow` closes `\left` (C23); `\begingroup ...\endgroup` leaves the letters `group` (C24); a control word that ends a
  macro's replacement is extended by letters that follow the call (C18); `[` without `]` swallows the input (C17).
* `next`, the handler of arguments and `token` are recursive where a loop would do, so that `\relax\relax…`, `\not\not…` or many lines of comments need a stack as deep as
  the text is long (C77).
* White space between two scripts detaches the second: `x_{1} ^{2}` is `x_{1}{}^{2}`; and `\end {matrix}` does not end the environment (C80).
* Refused macro expansions are allocated first, so the memory bound does not hold after a recursion error (C09).
* Events staged before an error come out with the next command (C46). An operator in a script overwrites the position of the
  limits (C43). `\mu` is the micro sign, `\Game` is gimel (C52).
* A macro as an argument or script without braces is not expanded (`x^\a`, `\frac\a2` are errors), and a redefined command keeps its first meaning there;
  a replacement that begins with a script does not attach to the element before; definitions are global; `\let` binds late; `\newcommand` needs `[n]`
  and a name in braces, and a script right after it has no base (C56).
* 31 symbols have another character or class than documented (C57_false), `\overline` is not stretchy (C57_accents_false), and large operators typed as
  characters are ordinary (C58_false).
* Behind the replacement text of a macro a place is computed as `lower_bound + call.start` instead of `lower_bound - expansion_length + call.end`: the report
  of a later error can show a different part of the input, or nothing of what failed (C59_false). Underlines count bytes (C59_false_width), and two messages
  contain `{{` and `}}` because `write_str` does not format (C59_false_braces).

Rendering:

* Operator names, relations, error contexts and the annotation are not escaped (C30, C33).
* `\frac\sin x`, `\frac\bf x`: elements with the wrong number of children (C31).
* After an error in a nested array, an alignment can panic (C29).
* Sized delimiters: no space between two attributes; `\strut`: a space without tag; negated binary operators are
  classified by themselves; lines in equations and the first `\hline` of `dcases` and the like are lost (C53).
* An operator after a fence (`\vert x\vert+y`) is not taken as binary, one after a relation with a script in braces
  (`=^{a}-b`) or after a sum with limits in braces (`\sum_{i}^{n}-x`) is (C54).
* `mu` is not a CSS unit (C45). Some letterlike symbols map to unassigned code points (C37).
* The style is reset at alignments although documented otherwise (C36).
* Changes of font in a group with missing operands leak (C35).
* C76: a dimension with 40 digits or more after the decimal point is NaN if the first 39 of them are large enough for an overflow, as in `\kern0.3333…em`: dividend and divisor are both
  infinite. With 39 digits they may be dropped. Numbers from `2¹²⁸` on are infinite. All of them are displayed as such (`NaNem`, `infem`).
