import Verif.Model.Event
set_option autoImplicit false
/-!
# Well-formed XML with the content model of MathML

The productions are those of XML 1.0 (Char, CharData, EntityRef, Attribute, STag, ETag, EmptyElemTag, element), without
comments, processing instructions and CDATA sections. The content model is that of MathML: token elements contain
text and no elements, tables contain rows, rows contain cells, and all other elements contain elements and no text.
-/
namespace PL.Spec.Xml

/-- Char, production 2. -/
def isChar (c : Char) : Bool :=
  c.toNat = 9 || c.toNat = 10 || c.toNat = 13 || (0x20 ≤ c.toNat && c.toNat ≤ 0xD7FF) ||
  (0xE000 ≤ c.toNat && c.toNat ≤ 0xFFFD) || (0x10000 ≤ c.toNat && c.toNat ≤ 0x10FFFF)

/-- Characters and references to the entities `E`. -/
inductive Chars (E : List Str) : Str → Prop
  | nil : Chars E []
  | char {c s} : isChar c = true → c ≠ '<' → c ≠ '&' → Chars E s → Chars E (c :: s)
  | entity {n s} : n ∈ E → Chars E s → Chars E ('&' :: (n ++ ';' :: s))

/-- Text: characters and references, without the end of a CDATA section. -/
def Text (E : List Str) (s : Str) : Prop := Chars E s ∧ ¬ c!"]]>" <:+: s

/-- The attributes of an element: their names are different, and the values contain nothing special. -/
structure Attributes (as : List (Str × Str)) : Prop where
  names : ∀ a ∈ as, a.1 ≠ [] ∧ ∀ c ∈ a.1, c.isLower = true
  values : ∀ a ∈ as, ∀ c ∈ a.2, isChar c = true ∧ c ≠ '<' ∧ c ≠ '&' ∧ c ≠ '"'
  different : (as.map Prod.fst).Nodup

/-- White space, a name, and a value in quotes. -/
def quoted (a : Str × Str) : Str := c!" " ++ a.1 ++ c!"=\"" ++ a.2 ++ c!"\""

def startTag (name : Str) (as : List (Str × Str)) : Str := c!"<" ++ name ++ as.flatMap quoted ++ c!">"

def endTag (name : Str) : Str := c!"</" ++ name ++ c!">"

def emptyTag (name : Str) (as : List (Str × Str)) : Str := c!"<" ++ name ++ as.flatMap quoted ++ c!" />"

/-- The elements that contain text. -/
def tokens : List Str := [c!"mi", c!"mn", c!"mo", c!"mtext", c!"annotation"]

/-- The elements of formulas. -/
def presentation : List Str := [c!"mi", c!"mn", c!"mo", c!"mtext", c!"mspace", c!"mrow", c!"mtable", c!"msqrt", c!"mroot",
  c!"mfrac", c!"msub", c!"msup", c!"msubsup", c!"munder", c!"mover", c!"munderover"]

/-- The elements that an element can contain. -/
def children (name : Str) : List Str :=
  if name = c!"mtable" then [c!"mtr"]
  else if name = c!"mtr" then [c!"mtd"]
  else if name = c!"math" then c!"semantics" :: presentation
  else if name = c!"semantics" then [c!"mrow", c!"annotation"]
  else presentation

/-- A sequence of elements with names in `N`. -/
inductive Elements (E : List Str) : List Str → Str → Prop
  | nil {N} : Elements E N []
  | token {N name as t rest} : name ∈ N → name ∈ tokens → Attributes as → Text E t → Elements E N rest →
      Elements E N (startTag name as ++ t ++ endTag name ++ rest)
  | node {N name as inner rest} : name ∈ N → name ∉ tokens → name ≠ c!"mspace" → Attributes as → Elements E (children name) inner →
      Elements E N rest → Elements E N (startTag name as ++ inner ++ endTag name ++ rest)
  | empty {N as rest} : c!"mspace" ∈ N → Attributes as → Elements E N rest → Elements E N (emptyTag c!"mspace" as ++ rest)

/-- A document: one `math` element. -/
def Document (E : List Str) (s : Str) : Prop :=
  ∃ as inner, Attributes as ∧ Elements E (children c!"math") inner ∧ s = startTag c!"math" as ++ inner ++ endTag c!"math"

/-- The entities that XML declares. -/
def xmlEntities : List Str := [c!"amp", c!"lt", c!"gt", c!"quot", c!"apos"]

/-- With the no-break space that HTML declares as well. -/
def htmlEntities : List Str := c!"nbsp" :: xmlEntities

/-! ## Events that can be written -/

/-- The character may stand in text. -/
def plain (c : Char) : Bool := isChar c && c != '<' && c != '&'

def plainContent (E : List Str) : Content → Bool
  | .text t => t.all isChar && (decide (c!"nbsp" ∈ E) || !(t.head?.any isWs || t.getLast?.any isWs))
  | .number t => t.all plain && !t.contains '>'
  | .function t => t.all plain && !t.contains '>'
  | .ordinary c _ => plain c
  | .largeOp c _ => plain c
  | .binaryOp c _ => plain c
  | .relation c second _ => plain c && second.all plain
  | .delimiter c size _ => plain c && size.isNone
  | .punctuation c => plain c

/-- Special characters occur in text only, delimiters have no size, and spaces have a width. -/
def plainEvent (E : List Str) : Event → Bool
  | .content c => plainContent E c
  | .begin_ (.leftRight l r) => l.all plain && r.all plain
  | .space w _ _ => w.isSome
  | _ => true

end PL.Spec.Xml
