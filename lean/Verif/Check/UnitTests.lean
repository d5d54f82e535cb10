import Verif.Props.Stream
import Verif.Props.Output
set_option autoImplicit false
/-!
# The unit tests of the repository

The inputs and expectations of the tests in `src/parser.rs` 529-, `src/parser/lex.rs` 522-, `src/parser/macros.rs` 382- and `tests/errors.rs`, run on
the model. They are tests of the translation, not proofs of properties.
-/
namespace PL.Check
open PL PL.Lex PL.Macros PL.Props

/-- The events of a parse without errors. -/
def eventsOf (inp : Str) : Option (List Event) :=
  match run cf0 400 (State.init inp) with
  | (its, .done) => its.mapM fun
    | .ok e => some e
    | .err _ _ => none
  | _ => none

/-- The parse ends, with an error among the items. -/
def fails (inp : Str) : Bool :=
  match run cf0 400 (State.init inp) with
  | (its, .done) => its.any fun
    | .ok _ => false
    | .err _ _ => true
  | _ => false

/-- The parse ends without panic. -/
def ends (inp : Str) : Bool :=
  match run cf0 400 (State.init inp) with
  | (_, .done) => true
  | _ => false

def ord (c : Char) : Event := .content (.ordinary c false)
def num (s : Str) : Event := .content (.number s)

/-! ### parser.rs -/

/-- `substr_instructions` -/
example : eventsOf c!"\\bar{y}" = some [.script .sup .aboveBelow, .begin_ .normal, ord 'y', .end_, ord '‾'] := by decide +kernel
/-- `subsuperscript` -/
example : eventsOf c!"a^{1+3}_2" = some [.script .subSup .right, ord 'a', num c!"2", .begin_ .normal, num c!"1", .content (.binaryOp '+' false), num c!"3", .end_] := by
  decide +kernel
/-- `subscript_torture` -/
example : eventsOf c!"a_{5_{5_{5_{5_{5_{5_{5_{5_{5_{5_{5_5}}}}}}}}}}}" = some ([.script .sub .right, ord 'a'] ++
    (List.replicate 11 [.begin_ .normal, .script .sub .right, num c!"5"]).flatten ++ [num c!"5"] ++ List.replicate 11 .end_) := by decide +kernel
/-- `fraction` -/
example : eventsOf c!"\\frac{1}{2}_2^4" = some [.script .subSup .right, .visual (.fraction none), .begin_ .normal, num c!"1", .end_, .begin_ .normal, num c!"2",
    .end_, num c!"2", num c!"4"] := by decide +kernel
/-- `multidigit_number` -/
example : eventsOf c!"123" = some [num c!"123"] := by decide +kernel
/-- `non_greedy_number_argument` -/
example : eventsOf c!"\\frac12" = some [.visual (.fraction none), num c!"1", num c!"2"] := by decide +kernel
/-- `non_greedy_number_argument_sqrt` -/
example : eventsOf c!"\\sqrt12" = some [.visual .squareRoot, num c!"1", num c!"2"] := by decide +kernel
/-- `non_greedy_decimal_argument` -/
example : eventsOf c!"\\frac1.5{x}" = some [.visual (.fraction none), num c!"1", .content (.punctuation '.'), num c!"5", .begin_ .normal, ord 'x', .end_] := by
  decide +kernel
/-- `error` -/
example : ((run cf0 400 (State.init c!"\\def\\blah#1#2{\\fra#1#2} \\def\\abc#1{\\blah{a}#1} \\abc{b}")).1.head?.map fun
    | .ok _ => false
    | .err _ _ => true) = some true := by decide +kernel
/-- `no_limits` -/
example : eventsOf c!"\\lim \\nolimits _{x \\to 0} f(x)" = some [.script .sub .right, .content (.function c!"lim"), .begin_ .normal, ord 'x',
    .content (.relation '→' none false), num c!"0", .end_, ord 'f', .content (.delimiter '(' none .open_), ord 'x', .content (.delimiter ')' none .close)] := by
  decide +kernel
/-- `expansions_in_groups`: the expansions are left after the first error. -/
example : (match run cf0 25 (State.init c!"\\def\\abc#1{#1} {\\abc{a} + \\abc{b}} = c \\shoulderror") with
    | (its, .more s) => its.any (fun
      | .ok _ => false
      | .err _ _ => true) && s.sp.exps.isEmpty
    | (_, .done) => true
    | _ => false) = true := by decide +kernel

/-! ### lex.rs -/

/-- `signs` and `no_signs` -/
example : signs c!"  +    +-   \\test" = .ok (-1) c!"\\test" ∧ signs c!"\\mycommand" = .ok 1 c!"\\mycommand" := by decide +kernel
/-- `definition_texbook` -/
example : definition c!"\\cs AB#1#2C$#3\\$ {#3{ab#1}#1 c##\\x #2}" = .ok (c!"cs", c!"AB#1#2C$#3\\$ ", c!"#3{ab#1}#1 c##\\x #2") [] := by decide +kernel
/-- `complex_definition` -/
example : definition c!"\\foo #1\\test#2#{##\\####2#2 \\{{\\}} \\{\\{\\{} 5 + 5 = 10" =
    .ok (c!"foo", c!"#1\\test#2#", c!"##\\####2#2 \\{{\\}} \\{\\{\\{") c!" 5 + 5 = 10" := by decide +kernel
/-- `let_assignment` -/
example : letAssignment c!"\\foo = \\bar" = .ok (c!"foo", .cs c!"bar") [] := by decide +kernel
/-- `futurelet_assignment` -/
example : (match futureletAssignment c!"\\foo\\bar\\baz blah" with
    | .ok (n, t, r) _ => n == c!"foo" && t == .cs c!"baz" && r == c!"\\bar\\baz blah"
    | _ => false) = true := by decide +kernel
/-- `dimension` -/
example : dimension c!"1.2pt" = .ok ⟨⟨12, 10⟩, .pt⟩ [] := by decide +kernel
/-- `complex_glue` -/
example : glue c!"1.2 pt plus 3.4pt minus 5.6pt nope" = .ok (⟨⟨12, 10⟩, .pt⟩, some ⟨⟨34, 10⟩, .pt⟩, some ⟨⟨56, 10⟩, .pt⟩) c!"nope" := by decide +kernel
/-- `dimension_or_braced_bare`, `dimension_or_braced_with_braces` -/
example : dimensionOrBraced c!"1em rest" = .ok ⟨⟨1, 1⟩, .em⟩ c!"rest" ∧ dimensionOrBraced c!"{1em} rest" = .ok ⟨⟨1, 1⟩, .em⟩ c!" rest" := by decide +kernel
/-- `glue_or_braced_with_braces` -/
example : glueOrBraced c!"{1.2pt plus 3pt minus 1pt} rest" = .ok (⟨⟨12, 10⟩, .pt⟩, some ⟨⟨3, 1⟩, .pt⟩, some ⟨⟨1, 1⟩, .pt⟩) c!" rest" := by decide +kernel
/-- `numbers`, without the signs, which only the unused `integer` reads -/
example : unsignedInteger cf0 c!"123 -" = .ok 123 c!"-" ∧ unsignedInteger cf0 c!"\"AEF24 --" = .ok 716580 c!"--" ∧
    unsignedInteger cf0 c!"'3475 `" = .ok 1853 c!"`" ∧ unsignedInteger cf0 c!"`\\a -.47" = .ok 97 c!" -.47" ∧
    floatingPoint c!" -.47" = .ok ⟨-47, 100⟩ [] := by decide +kernel
/-- `dvipsnames_colors` -/
example : color c!"Apricot" = .some (0xFB, 0xB9, 0x82) ∧ color c!"Bittersweet" = .some (0xC0, 0x4F, 0x17) ∧ color c!"BlueGreen" = .some (0x00, 0xB3, 0xB8) ∧
    color c!"WildStrawberry" = .some (0xEE, 0x29, 0x67) ∧ color c!"YellowOrange" = .some (0xFA, 0xA2, 0x1A) ∧ color c!"Blue" = .some (0x2D, 0x2F, 0x92) ∧
    color c!"blue" = .some (0, 0, 255) ∧ color c!"#FBB982" = .some (0xFB, 0xB9, 0x82) ∧ color c!"NotARealColor" = .none := by decide +kernel
/-- `group_content` -/
example : (match groupContent .normal c!"this { { is a test } to see if { the content parsing { of this } } } works }" with
    | .ok g _ => g == c!"this { { is a test } to see if { the content parsing { of this } } } works "
    | _ => false) = true := by decide +kernel

/-! ### macros.rs -/

/-- The definition a successful `define` leaves. -/
def defined (name params body : Str) : Option Definition :=
  match define [] name params body with
  | .ok m => m.get name
  | .error _ => none


/-- `no_params` -/
example : defined c!"foo" [] c!"\\this {} is a ## test" = some (.macro_ ⟨none, [], false, [.str c!"\\this {} is a #", .str c!" test"]⟩) := by decide +kernel
/-- `with_params` -/
example : defined c!"foo" c!"this#1test#2. should #" c!"\\this {} is a ## test#1" = some (.macro_ ⟨some c!"this", [some c!"test", some c!". should "], true,
    [.str c!"\\this {} is a #", .str c!" test", .param 1]⟩) := by decide +kernel
/-- `texbook` -/
example : defined c!"cs" c!"AB#1#2C$#3\\$ " c!"#3{ab#1}#1 c##\\x #2" = some (.macro_ ⟨some c!"AB", [none, some c!"C$", some c!"\\$ "], false,
    [.param 3, .str c!"{ab", .param 1, .str c!"}", .param 1, .str c!" c#", .str c!"\\x ", .param 2]⟩) := by decide +kernel
/-- `brace_delim_no_text` -/
example : defined c!"foo" c!"#" c!"2 + 2 = 4" = some (.macro_ ⟨none, [], true, [.str c!"2 + 2 = 4"]⟩) := by decide +kernel

/-! ### tests/errors.rs -/

/-- `double_scripts` -/
example : [c!"a^b^c", c!"a_b_c", c!"a^b_c^d", c!"a_b^c_d", c!"a^b_c_d", c!"a_b^c_d^e"].all fails = true := by decide +kernel
/-- `invalid_escape_sequence` -/
example : fails ('5' :: '\\' :: Char.ofNat 0x6eb :: c!"%") = true := by decide +kernel
/-- `space_missing_groups`, `braced_dimension_trailing_garbage`, `mkern_mskip_non_mu_units` -/
example : [c!"\\Space 1em{2ex}{0pt}", c!"\\Space{1em} 2ex{0pt}", c!"\\Space{1em}{2ex} 0pt", c!"\\kern{1em foo}", c!"\\hskip{1em garbage}", c!"\\mkern{1em}",
    c!"\\mskip{1em plus 1em}"].all fails = true := by decide +kernel
/-- `comments`, `macro_param_overflow`, `error_context_char_boundary`, `suffix_bounds_check` (`macro_recursion_limit` was run with `#eval` only: sixty-four expansions are too many for the kernel) -/
example : [c!"{%", c!"\\def\\]#" ++ Char.ofNat 0x1d :: c!"{}", c!"\\newcommand{\\foo}[1]{#1}\\foo{x}\\foo}[1]{#1}\\foo{x}^]_跷:",
    Char.ofNat 0 :: c!"\\def\\]a#1  {}f\\]ar3c%\\"].all ends = true := by decide +kernel

/-- The rendering of what the parser yields (the text of errors is left empty). -/
def rendered (inp : Str) : Option Str :=
  match run cf0 400 (State.init inp) with
  | (its, .done) =>
    match Mathml.pushMathml rc0 (its.map fun
      | .ok e => .ok e
      | .err _ _ => .err []) [] with
    | .ok t => some t
    | _ => none
  | _ => none

/-- `error_rendering`, `error_rendering_unclosed_environment`, `newline_in_unexpected_env` -/
example : [c!"\\errors \\should \\render", c!"\\symit\\" ++ Char.ofNat 0 :: c!"D",
    c!"\\begin{matrix} \\" ++ Char.ofNat 0x1d :: c!"\\\\\\frac}1\\\\]\\\\\\\\\\]\\end{matrix}"].all (fun i => (rendered i).isSome) = true := by decide +kernel
/-- `escapes_html_special_chars` -/
example : [(c!"\\text{a < b > c & d}", c!"a &lt; b &gt; c &amp; d"), (c!"\\text{<>&}", c!"&lt;&gt;&amp;"), (c!"\\text{<<&&>>}", c!"&lt;&lt;&amp;&amp;&gt;&gt;"),
    (c!"\\text{plain}", c!"plain")].all (fun (i, o) =>
      match rendered i with
      | some t => (List.range t.length).any fun k => o.isPrefixOf (t.drop k)
      | none => false) = true := by decide +kernel

end PL.Check
