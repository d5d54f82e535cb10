import Verif.Spec.Formula
set_option autoImplicit false
/-!
# The standard meaning of command names

Tables of LaTeX, AMS and unicode-math command names: which character a name shows and of which class it is. They are written from the documentation of
these packages ("Short Math Guide for LaTeX", the table of unicode-math), not from the program.
-/
namespace PL.Spec

/-- Symbols of the class Ord. Dots are of the class Inner, for which there is no event of its own. -/
def ordSymbols : List (Str × Nat) := [
  (c!"epsilon", 0x03F5), (c!"varepsilon", 0x03B5), (c!"phi", 0x03D5), (c!"varphi", 0x03C6), (c!"vartheta", 0x03D1), (c!"varkappa", 0x03F0),
  (c!"varrho", 0x03F1), (c!"varsigma", 0x03C2), (c!"varpi", 0x03D6), (c!"varDelta", 0x1D6E5), (c!"varTheta", 0x1D6E9), (c!"varLambda", 0x1D6EC),
  (c!"varXi", 0x1D6EF), (c!"varPi", 0x1D6F1), (c!"varSigma", 0x1D6F4), (c!"varUpsilon", 0x1D6F6), (c!"varPhi", 0x1D6F7), (c!"varPsi", 0x1D6F9),
  (c!"varOmega", 0x1D6FA), (c!"aleph", 0x2135), (c!"beth", 0x2136), (c!"gimel", 0x2137), (c!"daleth", 0x2138), (c!"digamma", 0x03DD),
  (c!"eth", 0x00F0), (c!"ell", 0x2113), (c!"nabla", 0x2207), (c!"partial", 0x2202), (c!"Finv", 0x2132), (c!"Game", 0x2141), (c!"hbar", 0x210F),
  (c!"hslash", 0x210F), (c!"imath", 0x0131), (c!"jmath", 0x0237), (c!"Im", 0x2111), (c!"Re", 0x211C), (c!"wp", 0x2118), (c!"Bbbk", 0x1D55C),
  (c!"Angstrom", 0x212B), (c!"ldots", 0x2026), (c!"dotso", 0x2026), (c!"dotsc", 0x2026), (c!"mathellipsis", 0x2026), (c!"cdots", 0x22EF),
  (c!"dotsi", 0x22EF), (c!"dotsm", 0x22EF), (c!"dotsb", 0x22EF), (c!"ddots", 0x22F1), (c!"iddots", 0x22F0), (c!"vdots", 0x22EE), (c!"infty", 0x221E),
  (c!"checkmark", 0x2713), (c!"ballotx", 0x2717), (c!"angle", 0x2220), (c!"measuredangle", 0x2221), (c!"sphericalangle", 0x2222), (c!"Box", 0x25A1),
  (c!"square", 0x25A1), (c!"blacksquare", 0x25A0), (c!"top", 0x22A4), (c!"bot", 0x22A5), (c!"triangledown", 0x25BD), (c!"blacktriangle", 0x25B4),
  (c!"blacktriangledown", 0x25BE), (c!"vartriangle", 0x25B5), (c!"triangle", 0x25B3), (c!"lozenge", 0x25CA), (c!"blacklozenge", 0x29EB),
  (c!"mho", 0x2127), (c!"bigstar", 0x2605), (c!"diagdown", 0x27CD), (c!"diagup", 0x27CB), (c!"maltese", 0x2720), (c!"P", 0x00B6), (c!"S", 0x00A7),
  (c!"copyright", 0x00A9), (c!"circledR", 0x00AE), (c!"circledS", 0x24C8), (c!"clubsuit", 0x2663), (c!"diamondsuit", 0x2662),
  (c!"heartsuit", 0x2661), (c!"spadesuit", 0x2660), (c!"varclubsuit", 0x2667), (c!"vardiamondsuit", 0x2666), (c!"varheartsuit", 0x2665),
  (c!"cent", 0x00A2), (c!"pounds", 0x00A3), (c!"mathsterling", 0x00A3), (c!"yen", 0x00A5), (c!"euro", 0x20AC), (c!"degree", 0x00B0),
  (c!"permil", 0x2030), (c!"lq", 0x2018), (c!"rq", 0x2019), (c!"female", 0x2640), (c!"male", 0x2642), (c!"sun", 0x263C), (c!"leftmoon", 0x263E),
  (c!"rightmoon", 0x263D), (c!"flat", 0x266D), (c!"natural", 0x266E), (c!"sharp", 0x266F), (c!"QED", 0x220E), (c!"diameter", 0x2300),
  (c!"leftouterjoin", 0x27D5), (c!"rightouterjoin", 0x27D6), (c!"fullouterjoin", 0x27D7), (c!"concavediamond", 0x27E1),
  (c!"concavediamondtickleft", 0x27E2), (c!"concavediamondtickright", 0x27E3), (c!"whitesquaretickleft", 0x27E4), (c!"whitesquaretickright", 0x27E5),
  (c!"prime", 0x2032), (c!"dprime", 0x2033), (c!"trprime", 0x2034), (c!"qprime", 0x2057), (c!"backprime", 0x2035), (c!"backdprime", 0x2036),
  (c!"backtrprime", 0x2037), (c!"forall", 0x2200), (c!"exists", 0x2203), (c!"complement", 0x2201), (c!"nexists", 0x2204), (c!"neg", 0x00AC),
  (c!"lnot", 0x00AC), (c!"emptyset", 0x2205), (c!"varnothing", 0x2205), (c!"backslash", 0x005C), (c!"#", 0x0023), (c!"&", 0x0026), (c!"$", 0x0024),
  (c!"_", 0x005F), (c!"varGamma", 0x1D6E4), (c!"idotsin", 0x22EF), (c!"Bot", 0x2AEB), (c!"blacktriangleleft", 0x25C0),
  (c!"blacktriangleright", 0x25B6), (c!"varspadesuit", 0x2664), (c!"astrosun", 0x2609), (c!"smiley", 0x263A), (c!"lightning", 0x21AF),
  (c!"%", 0x0025), (c!"Diamond", 0x25C7), (c!"|", 0x2016)]

/-- Binary operators. -/
def binSymbols : List (Str × Nat) := [
  (c!"cdot", 0x22C5), (c!"centerdot", 0x22C5), (c!"circ", 0x2218), (c!"bullet", 0x2219), (c!"circledast", 0x229B), (c!"circledcirc", 0x229A),
  (c!"circleddash", 0x229D), (c!"bigcirc", 0x25EF), (c!"leftthreetimes", 0x22CB), (c!"rightthreetimes", 0x22CC), (c!"ltimes", 0x22C9),
  (c!"rtimes", 0x22CA), (c!"rhd", 0x22B3), (c!"lhd", 0x22B2), (c!"unlhd", 0x22B4), (c!"unrhd", 0x22B5), (c!"amalg", 0x2A3F), (c!"ast", 0x2217),
  (c!"lor", 0x2228), (c!"vee", 0x2228), (c!"land", 0x2227), (c!"wedge", 0x2227), (c!"setminus", 0x2216), (c!"smallsetminus", 0x2216),
  (c!"Cup", 0x22D3), (c!"Cap", 0x22D2), (c!"doublecap", 0x22D2), (c!"cup", 0x222A), (c!"cap", 0x2229), (c!"sqcup", 0x2294), (c!"sqcap", 0x2293),
  (c!"uplus", 0x228E), (c!"lessdot", 0x22D6), (c!"gtrdot", 0x22D7), (c!"barwedge", 0x22BC), (c!"veebar", 0x22BB), (c!"doublebarwedge", 0x2A5E),
  (c!"curlyvee", 0x22CE), (c!"curlywedge", 0x22CF), (c!"sslash", 0x2AFD), (c!"div", 0x00F7), (c!"pm", 0x00B1), (c!"mp", 0x2213), (c!"times", 0x00D7),
  (c!"divideontimes", 0x22C7), (c!"boxdot", 0x22A1), (c!"boxminus", 0x229F), (c!"boxplus", 0x229E), (c!"boxtimes", 0x22A0), (c!"odot", 0x2299),
  (c!"ominus", 0x2296), (c!"oplus", 0x2295), (c!"otimes", 0x2297), (c!"oslash", 0x2298), (c!"dotplus", 0x2214), (c!"parr", 0x214B),
  (c!"intercal", 0x22BA), (c!"wr", 0x2240), (c!"diamond", 0x22C4), (c!"star", 0x22C6), (c!"dagger", 0x2020), (c!"dag", 0x2020),
  (c!"ddagger", 0x2021), (c!"ddag", 0x2021), (c!"bigtriangleup", 0x25B3), (c!"bigtriangledown", 0x25BD), (c!"triangleleft", 0x25C1),
  (c!"triangleright", 0x25B7), (c!"circledvert", 0x29B6), (c!"blackhourglass", 0x29D7), (c!"circlehbar", 0x29B5), (c!"operp", 0x29B9),
  (c!"boxast", 0x29C6), (c!"boxbox", 0x29C8), (c!"boxcircle", 0x29C7), (c!"Otimes", 0x2A37), (c!"otimeshat", 0x2A36), (c!"triangletimes", 0x2A3B),
  (c!"triangleminus", 0x2A3A), (c!"triangleplus", 0x2A39), (c!"lozengeminus", 0x27E0), (c!"obar", 0x233D), (c!"obslash", 0x29B8), (c!"odiv", 0x2A38),
  (c!"circledequal", 0x229C), (c!"ogreaterthan", 0x29C1), (c!"olessthan", 0x29C0), (c!"circledparallel", 0x29B7), (c!"hourglass", 0x29D6),
  (c!"And", 0x0026), (c!"with", 0x0026)]

/-- Relations and arrows. -/
def relSymbols : List (Str × Nat) := [
  (c!"therefore", 0x2234), (c!"because", 0x2235), (c!"backepsilon", 0x03F6), (c!"subset", 0x2282), (c!"supset", 0x2283), (c!"mapsto", 0x21A6),
  (c!"implies", 0x27F9), (c!"impliedby", 0x27F8), (c!"iff", 0x27FA), (c!"mid", 0x2223), (c!"to", 0x2192), (c!"gets", 0x2190), (c!"in", 0x2208),
  (c!"isin", 0x2208), (c!"ni", 0x220B), (c!"owns", 0x220B), (c!"notni", 0x220C), (c!"notin", 0x2209), (c!"eqcirc", 0x2256), (c!"lessgtr", 0x2276),
  (c!"smile", 0x2323), (c!"frown", 0x2322), (c!"minuscolon", 0x2239), (c!"eqqcolon", 0x2255), (c!"lesssim", 0x2272), (c!"sqsubset", 0x228F),
  (c!"sqsupset", 0x2290), (c!"sqsubseteq", 0x2291), (c!"sqsupseteq", 0x2292), (c!"ll", 0x226A), (c!"lll", 0x22D8), (c!"llless", 0x22D8),
  (c!"gg", 0x226B), (c!"ggg", 0x22D9), (c!"gggtr", 0x22D9), (c!"approx", 0x2248), (c!"thickapprox", 0x2248), (c!"eqdef", 0x225D), (c!"lt", 0x003C),
  (c!"gt", 0x003E), (c!"stareq", 0x225B), (c!"approxeq", 0x224A), (c!"eqsim", 0x2242), (c!"measeq", 0x225E), (c!"arceq", 0x2258),
  (c!"Subset", 0x22D0), (c!"Supset", 0x22D1), (c!"eqslantgtr", 0x2A96), (c!"eqslantless", 0x2A95), (c!"models", 0x22A7), (c!"subseteq", 0x2286),
  (c!"supseteq", 0x2287), (c!"subseteqq", 0x2AC5), (c!"supseteqq", 0x2AC6), (c!"backcong", 0x224C), (c!"equiv", 0x2261), (c!"multimap", 0x22B8),
  (c!"multimapboth", 0x29DF), (c!"multimapinv", 0x27DC), (c!"fallingdotseq", 0x2252), (c!"risingdotseq", 0x2253), (c!"succ", 0x227B),
  (c!"prec", 0x227A), (c!"succapprox", 0x2AB8), (c!"precapprox", 0x2AB7), (c!"succcurlyeq", 0x227D), (c!"preccurlyeq", 0x227C), (c!"succeq", 0x2AB0),
  (c!"preceq", 0x2AAF), (c!"succsim", 0x227F), (c!"precsim", 0x227E), (c!"backsim", 0x223D), (c!"backsimeq", 0x22CD), (c!"ge", 0x2265),
  (c!"geq", 0x2265), (c!"geqq", 0x2267), (c!"geqslant", 0x2A7E), (c!"le", 0x2264), (c!"leq", 0x2264), (c!"leqq", 0x2266), (c!"leqslant", 0x2A7D),
  (c!"origof", 0x22B6), (c!"imageof", 0x22B7), (c!"between", 0x226C), (c!"bumpeq", 0x224F), (c!"Bumpeq", 0x224E), (c!"parallel", 0x2225),
  (c!"perp", 0x27C2), (c!"circeq", 0x2257), (c!"pitchfork", 0x22D4), (c!"gtrapprox", 0x2A86), (c!"lessapprox", 0x2A85), (c!"thicksim", 0x223C),
  (c!"sim", 0x223C), (c!"simeq", 0x2243), (c!"gtreqless", 0x22DB), (c!"lesseqgtr", 0x22DA), (c!"gtreqqless", 0x2A8C), (c!"lesseqqgtr", 0x2A8B),
  (c!"gtrless", 0x2277), (c!"gtrsim", 0x2273), (c!"trianglelefteq", 0x22B4), (c!"trianglerighteq", 0x22B5), (c!"coloneqq", 0x2254),
  (c!"colonequals", 0x2254), (c!"Coloneqq", 0x2A74), (c!"coloncolonequals", 0x2A74), (c!"triangleq", 0x225C), (c!"propto", 0x221D),
  (c!"varpropto", 0x221D), (c!"questeq", 0x225F), (c!"cong", 0x2245), (c!"vartriangleleft", 0x22B2), (c!"vartriangleright", 0x22B3),
  (c!"curlyeqprec", 0x22DE), (c!"curlyeqsucc", 0x22DF), (c!"vdash", 0x22A2), (c!"dashv", 0x22A3), (c!"vDash", 0x22A8), (c!"Vdash", 0x22A9),
  (c!"Vvdash", 0x22AA), (c!"dblcolon", 0x2237), (c!"coloncolon", 0x2237), (c!"ratio", 0x2236), (c!"vcentcolon", 0x2236), (c!"doteq", 0x2250),
  (c!"Doteq", 0x2251), (c!"doteqdot", 0x2251), (c!"veeeq", 0x225A), (c!"wedgeq", 0x2259), (c!"eqeq", 0x2A75), (c!"bowtie", 0x22C8),
  (c!"Join", 0x22C8), (c!"asymp", 0x224D), (c!"gnapprox", 0x2A8A), (c!"lnapprox", 0x2A89), (c!"gneq", 0x2A88), (c!"lneq", 0x2A87),
  (c!"gneqq", 0x2269), (c!"lneqq", 0x2268), (c!"gnsim", 0x22E7), (c!"lnsim", 0x22E6), (c!"ngtr", 0x226F), (c!"nless", 0x226E), (c!"ngeq", 0x2271),
  (c!"nleq", 0x2270), (c!"nsubset", 0x2284), (c!"nsupset", 0x2285), (c!"nsubseteq", 0x2288), (c!"nsupseteq", 0x2289), (c!"subsetneq", 0x228A),
  (c!"supsetneq", 0x228B), (c!"subsetneqq", 0x2ACB), (c!"supsetneqq", 0x2ACC), (c!"precnapprox", 0x2AB9), (c!"succnapprox", 0x2ABA),
  (c!"precneqq", 0x2AB5), (c!"succneqq", 0x2AB6), (c!"precnsim", 0x22E8), (c!"succnsim", 0x22E9), (c!"nprec", 0x2280), (c!"nsucc", 0x2281),
  (c!"npreceq", 0x22E0), (c!"nsucceq", 0x22E1), (c!"nmid", 0x2224), (c!"nparallel", 0x2226), (c!"nsim", 0x2241), (c!"ncong", 0x2247),
  (c!"ne", 0x2260), (c!"neq", 0x2260), (c!"ntriangleleft", 0x22EA), (c!"ntriangleright", 0x22EB), (c!"ntrianglelefteq", 0x22EC),
  (c!"ntrianglerighteq", 0x22ED), (c!"nvdash", 0x22AC), (c!"nvDash", 0x22AD), (c!"nVdash", 0x22AE), (c!"nVDash", 0x22AF),
  (c!"circlearrowleft", 0x21BA), (c!"circlearrowright", 0x21BB), (c!"curvearrowleft", 0x21B6), (c!"curvearrowright", 0x21B7),
  (c!"leftarrow", 0x2190), (c!"uparrow", 0x2191), (c!"rightarrow", 0x2192), (c!"downarrow", 0x2193), (c!"leftrightarrow", 0x2194),
  (c!"updownarrow", 0x2195), (c!"nwarrow", 0x2196), (c!"nearrow", 0x2197), (c!"searrow", 0x2198), (c!"swarrow", 0x2199), (c!"nleftarrow", 0x219A),
  (c!"nrightarrow", 0x219B), (c!"twoheadleftarrow", 0x219E), (c!"twoheadrightarrow", 0x21A0), (c!"leftarrowtail", 0x21A2),
  (c!"rightarrowtail", 0x21A3), (c!"mapsfrom", 0x21A4), (c!"hookleftarrow", 0x21A9), (c!"hookrightarrow", 0x21AA), (c!"looparrowleft", 0x21AB),
  (c!"looparrowright", 0x21AC), (c!"leftrightsquigarrow", 0x21AD), (c!"nleftrightarrow", 0x21AE), (c!"Lsh", 0x21B0), (c!"Rsh", 0x21B1),
  (c!"leftharpoonup", 0x21BC), (c!"leftharpoondown", 0x21BD), (c!"upharpoonright", 0x21BE), (c!"restriction", 0x21BE), (c!"upharpoonleft", 0x21BF),
  (c!"rightharpoonup", 0x21C0), (c!"rightharpoondown", 0x21C1), (c!"downharpoonright", 0x21C2), (c!"downharpoonleft", 0x21C3),
  (c!"rightleftarrows", 0x21C4), (c!"leftrightarrows", 0x21C6), (c!"leftleftarrows", 0x21C7), (c!"upuparrows", 0x21C8),
  (c!"rightrightarrows", 0x21C9), (c!"downdownarrows", 0x21CA), (c!"leftrightharpoons", 0x21CB), (c!"rightleftharpoons", 0x21CC),
  (c!"nLeftarrow", 0x21CD), (c!"nLeftrightarrow", 0x21CE), (c!"nRightarrow", 0x21CF), (c!"Leftarrow", 0x21D0), (c!"Uparrow", 0x21D1),
  (c!"Rightarrow", 0x21D2), (c!"Downarrow", 0x21D3), (c!"Leftrightarrow", 0x21D4), (c!"Updownarrow", 0x21D5), (c!"Lleftarrow", 0x21DA),
  (c!"Rrightarrow", 0x21DB), (c!"rightsquigarrow", 0x21DD), (c!"leadsto", 0x21DD), (c!"dashleftarrow", 0x21E0), (c!"dashrightarrow", 0x21E2),
  (c!"longleftarrow", 0x27F5), (c!"longrightarrow", 0x27F6), (c!"longleftrightarrow", 0x27F7), (c!"Longleftarrow", 0x27F8),
  (c!"Longrightarrow", 0x27F9), (c!"Longleftrightarrow", 0x27FA), (c!"longmapsto", 0x27FC), (c!"strictif", 0x297D), (c!"strictfi", 0x297C),
  (c!"Perp", 0x2AEB), (c!"coh", 0x2322), (c!"sincoh", 0x2323), (c!"Dash", 0x22AB)]

/-- Relations in small size. -/
def smallRelSymbols : List (Str × Nat) := [
  (c!"shortmid", 0x2223), (c!"shortparallel", 0x2225), (c!"nshortmid", 0x2224), (c!"nshortparallel", 0x2226), (c!"smallsmile", 0x2323),
  (c!"smallfrown", 0x2322)]

/-- Relations of two characters: with a variation selector, or next to each other. -/
def pairRelSymbols : List (Str × Nat × Nat) := [
  (c!"varsubsetneq", 0x228A, 0xFE00), (c!"varsupsetneq", 0x228B, 0xFE00), (c!"varsubsetneqq", 0x2ACB, 0xFE00), (c!"varsupsetneqq", 0x2ACC, 0xFE00),
  (c!"lvertneqq", 0x2268, 0xFE00), (c!"gvertneqq", 0x2269, 0xFE00), (c!"coloneq", 0x3A, 0x2212), (c!"colonminus", 0x3A, 0x2212),
  (c!"Coloneq", 0x2237, 0x2212), (c!"coloncolonminus", 0x2237, 0x2212), (c!"Eqcolon", 0x2212, 0x2237), (c!"minuscoloncolon", 0x2212, 0x2237),
  (c!"Eqqcolon", 0x3D, 0x2237), (c!"colonapprox", 0x3A, 0x2248), (c!"approxcolon", 0x2248, 0x3A), (c!"Colonapprox", 0x2237, 0x2248),
  (c!"coloncolonapprox", 0x2237, 0x2248), (c!"approxcoloncolon", 0x2248, 0x2237), (c!"colonsim", 0x3A, 0x223C), (c!"Colonsim", 0x2237, 0x223C),
  (c!"coloncolonsim", 0x2237, 0x223C)]

/-- Punctuation. -/
def punctSymbols : List (Str × Nat) := [
  (c!"ldotp", 0x002E), (c!"cdotp", 0x00B7), (c!"colon", 0x003A)]

/-- Large operators whose scripts are limits in display style. -/
def sumSymbols : List (Str × Nat) := [
  (c!"sum", 0x2211), (c!"prod", 0x220F), (c!"coprod", 0x2210), (c!"bigvee", 0x22C1), (c!"bigwedge", 0x22C0), (c!"bigcup", 0x22C3),
  (c!"bigcap", 0x22C2), (c!"biguplus", 0x2A04), (c!"bigoplus", 0x2A01), (c!"bigotimes", 0x2A02), (c!"bigodot", 0x2A00), (c!"bigsqcup", 0x2A06),
  (c!"bigsqcap", 0x2A05), (c!"bigtimes", 0x2A09), (c!"intop", 0x222B)]

/-- Integral signs: their scripts stay at the side. -/
def integralSymbols : List (Str × Nat) := [
  (c!"int", 0x222B), (c!"iint", 0x222C), (c!"iiint", 0x222D), (c!"iiiint", 0x2A0C), (c!"oint", 0x222E), (c!"oiint", 0x222F), (c!"oiiint", 0x2230),
  (c!"intcap", 0x2A19), (c!"intcup", 0x2A1A), (c!"varointclockwise", 0x2232), (c!"intclockwise", 0x2231), (c!"pointint", 0x2A15),
  (c!"rppolint", 0x2A12), (c!"scpolint", 0x2A13), (c!"intlarhk", 0x2A17), (c!"sqint", 0x2A16), (c!"intx", 0x2A18), (c!"intbar", 0x2A0D),
  (c!"intBar", 0x2A0E), (c!"fint", 0x2A0F)]

/-- All symbols that stand for themselves. -/
def symbolTable : List (Str × Content) :=
  ordSymbols.map (fun (n, c) => (n, .ordinary (Char.ofNat c) false)) ++ binSymbols.map (fun (n, c) => (n, .binaryOp (Char.ofNat c) false)) ++
  relSymbols.map (fun (n, c) => (n, .relation (Char.ofNat c) none false)) ++
  smallRelSymbols.map (fun (n, c) => (n, .relation (Char.ofNat c) none true)) ++
  pairRelSymbols.map (fun (n, c, d) => (n, .relation (Char.ofNat c) (some (Char.ofNat d)) false)) ++
  punctSymbols.map (fun (n, c) => (n, .punctuation (Char.ofNat c)))

/-- Names that do not get their standard symbol, with what they get. `\dagger`, `\triangleleft` and others are no operators, `\backepsilon` and `\ratio`
are no relations, `\asymp` is a binary operator, `\colon`, `\ldotp` and `\cdotp` are no punctuation; `\ncong` is the sign ≆ instead of ≇, and
`\Game` is the letter gimel. The others are similar signs. -/
def deviations : List (Str × Content) := [
  (c!"Game", .ordinary (Char.ofNat 0x2137) false), (c!"blacktriangle", .ordinary (Char.ofNat 0x25B2) false),
  (c!"blacktriangledown", .ordinary (Char.ofNat 0x25BC) false), (c!"vartriangle", .ordinary (Char.ofNat 0x25B3) false),
  (c!"diagdown", .ordinary (Char.ofNat 0x2572) false), (c!"diagup", .ordinary (Char.ofNat 0x2571) false), (c!"rq", .ordinary (Char.ofNat 0x2032) false),
  (c!"varnothing", .ordinary (Char.ofNat 0x2300) false), (c!"Diamond", .ordinary (Char.ofNat 0x25CA) false), (c!"|", .ordinary (Char.ofNat 0x2225) false),
  (c!"centerdot", .binaryOp (Char.ofNat 0xB7) false), (c!"ast", .binaryOp (Char.ofNat 0x2A) false), (c!"barwedge", .binaryOp (Char.ofNat 0x2305) false),
  (c!"dagger", .ordinary (Char.ofNat 0x2020) false), (c!"dag", .ordinary (Char.ofNat 0x2020) false), (c!"ddagger", .ordinary (Char.ofNat 0x2021) false),
  (c!"ddag", .ordinary (Char.ofNat 0x2021) false), (c!"bigtriangleup", .ordinary (Char.ofNat 0x25B3) false),
  (c!"bigtriangledown", .ordinary (Char.ofNat 0x25BD) false), (c!"triangleleft", .ordinary (Char.ofNat 0x25C3) false),
  (c!"triangleright", .ordinary (Char.ofNat 0x25B9) false), (c!"backepsilon", .ordinary (Char.ofNat 0x3F6) false),
  (c!"models", .relation (Char.ofNat 0x22A8) none false), (c!"ratio", .ordinary (Char.ofNat 0x3A) false), (c!"vcentcolon", .ordinary (Char.ofNat 0x3A) false),
  (c!"asymp", .binaryOp (Char.ofNat 0x224D) false), (c!"ncong", .relation (Char.ofNat 0x2246) none false),
  (c!"smallfrown", .relation (Char.ofNat 0x2322) none false), (c!"ldotp", .binaryOp (Char.ofNat 0x2E) false), (c!"cdotp", .binaryOp (Char.ofNat 0xB7) false),
  (c!"colon", .ordinary (Char.ofNat 0x3A) false)]

/-- Accents above: name, character, whether it is as wide as what it is on, and whether scripts go above and below it. -/
def accentTable : List (Str × Nat × Bool × Bool) := [
  (c!"acute", 0xB4, false, false), (c!"bar", 0x203E, false, false), (c!"breve", 0x2D8, false, false), (c!"check", 0x2C7, false, false),
  (c!"dot", 0x2D9, false, false), (c!"ddot", 0xA8, false, false), (c!"grave", 0x60, false, false), (c!"hat", 0x5E, false, false),
  (c!"tilde", 0x7E, false, false), (c!"vec", 0x2192, false, false), (c!"mathring", 0x2DA, false, false), (c!"overleftarrow", 0x2190, true, false),
  (c!"overrightarrow", 0x2192, true, false), (c!"Overrightarrow", 0x21D2, true, false), (c!"overleftrightarrow", 0x2194, true, false),
  (c!"overleftharpoon", 0x21BC, true, false), (c!"overrightharpoon", 0x21C0, true, false), (c!"widecheck", 0x2C7, true, false),
  (c!"widehat", 0x5E, true, false), (c!"widetilde", 0x7E, true, false), (c!"wideparen", 0x23DC, true, false), (c!"overgroup", 0x23E0, true, true),
  (c!"overbrace", 0x23DE, true, true), (c!"overbracket", 0x23B4, true, true)]

/-- Accents below; all are wide. -/
def underTable : List (Str × Nat × Bool) := [
  (c!"underbar", 0x5F, false), (c!"underline", 0x5F, false), (c!"underleftarrow", 0x2190, false), (c!"underrightarrow", 0x2192, false),
  (c!"underleftrightarrow", 0x2194, false), (c!"undergroup", 0x23E1, true), (c!"underbrace", 0x23DF, true), (c!"underparen", 0x23DD, true),
  (c!"underbracket", 0x23B5, true)]

/-- Horizontal spaces in mathematical units, eighteen to the em. -/
def spaceTable : List (Str × Int) := [(c!",", 3), (c!"thinspace", 3), (c!":", 4), (c!">", 4), (c!"medspace", 4), (c!";", 5), (c!"thickspace", 5),
  (c!"enspace", 9), (c!"quad", 18), (c!"qquad", 36), (c!"!", -3), (c!"negthinspace", -3), (c!"negmedspace", -4), (c!"negthickspace", -5)]

/-- Commands that change the font of their argument. -/
def fontTable : List (Str × Option Font) := [
  (c!"bf", some .bold), (c!"bfup", some .bold), (c!"cal", some .script), (c!"it", some .italic), (c!"rm", some .upRight), (c!"up", some .upRight),
  (c!"sf", some .sansSerif), (c!"sfup", some .sansSerif), (c!"tt", some .monospace), (c!"bb", some .doubleStruck), (c!"bbit", some .doubleStruckItalic),
  (c!"frak", some .fraktur), (c!"bfcal", some .boldScript), (c!"sfit", some .sansSerifItalic), (c!"bfit", some .boldItalic),
  (c!"bffrak", some .boldFraktur), (c!"bfsfup", some .boldSansSerif), (c!"bfsfit", some .sansSerifBoldItalic), (c!"normal", none)]

/-- Commands that change the font of what follows. -/
def oldFontTable : List (Str × Font) := [(c!"bf", .bold), (c!"cal", .script), (c!"it", .italic), (c!"rm", .upRight), (c!"sf", .sansSerif), (c!"tt", .monospace)]

/-- Text in a font. -/
def textTable : List (Str × Font) := [(c!"rm", .upRight), (c!"bf", .bold), (c!"it", .italic), (c!"sf", .sansSerif), (c!"tt", .monospace)]

/-- Sizes of delimiters: each name alone, and with `l`, `r`, `m`. -/
def sizeTable : List (Str × DelimSize) := [(c!"big", .big), (c!"Big", .BIG), (c!"bigg", .bigg), (c!"Bigg", .BIGG)]

def sides : List Str := [[], c!"l", c!"r", c!"m"]

/-- Styles. -/
def styleTable : List (Str × Style) := [(c!"display", .display), (c!"text", .text), (c!"script", .script), (c!"scriptscript", .scriptScript)]

/-- Fractions: delimiters, whether there is a bar, and the style. -/
def fractionTable : List (Str × Option (Char × Char) × Bool × Option Style) := [
  (c!"frac", none, true, none), (c!"dfrac", none, true, some .display), (c!"cfrac", none, true, some .display), (c!"tfrac", none, true, some .text),
  (c!"binom", some ('(', ')'), false, none), (c!"dbinom", some ('(', ')'), false, some .display), (c!"tbinom", some ('(', ')'), false, some .text)]

/-- Commands with a rule of their own. -/
def commandTable : List (Str × Prim) := [
  (c!"operatorname", .operatorname), (c!"pmod", .pmod), (c!"mathord", .atom .ord), (c!"mathop", .atom .op), (c!"mathbin", .atom .bin),
  (c!"mathrel", .atom .rel), (c!"mathopen", .atom .open_), (c!"mathclose", .atom .close), (c!"mathpunct", .atom .punct), (c!"mathinner", .atom .inner),
  (c!"dots", .dots), (c!"color", .color), (c!"textcolor", .textcolor), (c!"colorbox", .colorbox), (c!"fcolorbox", .fcolorbox), (c!"left", .left),
  (c!"middle", .middle), (c!"right", .unbalanced), (c!"smallint", .smallint), (c!"kern", .kern), (c!"hskip", .hskip), (c!"mkern", .mkern),
  (c!"mskip", .mskip), (c!"hspace", .hspace), (c!"Space", .space3), (c!"xleftarrow", .xarrow '←'), (c!"xrightarrow", .xarrow '→'),
  (c!"genfrac", .genfrac), (c!"overset", .overset .sup), (c!"stackrel", .overset .sup), (c!"underset", .overset .sub), (c!"buildrel", .buildrel),
  (c!"substack", .substack), (c!"sideset", .sideset), (c!"sqrt", .sqrt), (c!"surd", .surd), (c!"not", .not_), (c!"cancel", .not_), (c!"char", .char),
  (c!"relax", .relax), (c!"begingroup", .begingroup), (c!"endgroup", .unbalanced), (c!"begin", .begin_), (c!"end", .unbalanced), (c!"\\", .newline),
  (c!"cr", .newline), (c!"def", .def_), (c!"let", .let_), (c!"futurelet", .futurelet), (c!"newcommand", .newcommand (some false)),
  (c!"renewcommand", .newcommand (some true)), (c!"providecommand", .newcommand none)]

/-- Binary operators that are not ones when typed as characters, with what they are: relations by default, and ordinary. The ampersand cannot be typed. -/
def typedRelations : List Str := [c!"rhd", c!"lhd", c!"unlhd", c!"unrhd", c!"lessdot", c!"gtrdot", c!"dagger", c!"dag", c!"ddagger", c!"ddag"]
def typedOrdinary : List Str := [c!"bigcirc", c!"doublebarwedge", c!"parr", c!"circlehbar"]

/-- The operators of two words, which have limits. -/
def twoWords : List (Str × Str) := [(c!"liminf", c!"lim inf"), (c!"limsup", c!"lim sup")]

/-- Negated relations with a slanted or a double line, and the relations with a plain one for which they are taken. -/
def approximated : List (Str × Str) := [(c!"ngeqslant", c!"ngeq"), (c!"ngeqq", c!"ngeq"), (c!"nleqslant", c!"nleq"), (c!"nleqq", c!"nleq"),
  (c!"nsubseteqq", c!"nsubseteq"), (c!"nsupseteqq", c!"nsupseteq")]

/-- Names that are in none of the tables: signs without a standard, approximations, and the names treated elsewhere. -/
def otherNames : List Str := [c!"overline", c!"overparen", c!"boldsymbol", c!"~", c!"nobreakspace", c!"mathstrut", c!"strut", c!"sgn", c!"bmod", c!"liminf",
  c!"limsup", c!"eqcolon", c!"leftmodels", c!"Earth", c!"standardstate", c!"scoh", c!"ngeqslant", c!"ngeqq", c!"nleqslant", c!"nleqq", c!"nsubseteqq",
  c!"nsupseteqq", c!"text"]

/-- All names. -/
def knownNames : List Str :=
  symbolTable.map Prod.fst ++ sumSymbols.map Prod.fst ++ integralSymbols.map Prod.fst ++ accentTable.map Prod.fst ++ underTable.map Prod.fst ++
  spaceTable.map Prod.fst ++ fontTable.map (c!"math" ++ ·.1) ++ fontTable.map (c!"sym" ++ ·.1) ++ oldFontTable.map Prod.fst ++
  textTable.map (c!"text" ++ ·.1) ++ sizeTable.flatMap (fun p => sides.map (p.1 ++ ·)) ++ styleTable.map (·.1 ++ c!"style") ++
  fractionTable.map Prod.fst ++ commandTable.map Prod.fst ++ operatorNames ++ greekNames.filterMap id ++ upperGreekNames.filterMap id ++ otherNames

end PL.Spec
