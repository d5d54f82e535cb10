import Verif.Model.Parser
import Verif.Model.Mathml
import Verif.Model.Relation
import Verif.Props.Lexing
import Verif.Props.Macros
import Verif.Props.Values
import Verif.Props.Stream
import Verif.Lemmas.Report
import Verif.Lemmas.Unstage
import Verif.Props.Scripts
import Verif.Props.Defs
import Verif.Props.Plain
import Verif.Props.Groups
import Verif.Props.Storage
import Verif.Props.Recovery
import Verif.Props.Lines
import Verif.Props.Output
import Verif.Props.Fonts
import Verif.Props.Text
import Verif.Props.Balanced
import Verif.Props.Scoped
import Verif.Props.Anything
import Verif.Props.Def
import Verif.Props.Integers
import Verif.Props.Environments
import Verif.Props.Characters
import Verif.Props.Document
import Verif.Props.Classes
import Verif.Props.Formula
import Verif.Props.Mistakes
import Verif.Props.Meaning
import Verif.Props.Symbols
import Verif.Props.Report
import Verif.Props.Complete
import Verif.Props.Effect
import Verif.Props.Nested
import Verif.Props.Leftovers
import Verif.Props.Linear
import Verif.Spec.Size
import Verif.Lemmas.Render.Cost
import Verif.Lemmas.Render.CostDoc
import Verif.Lemmas.Calm
import Verif.Lemmas.Fits
import Verif.Lemmas.FitsStep
import Verif.Props.Size
import Verif.Props.EndToEnd
import Verif.Check.UnitTests
import Verif.Spec.Xml
import Verif.Lemmas.Xml
import Verif.Lemmas.XmlScan
import Verif.Props.Xml
import Verif.Spec.Counts
import Verif.Lemmas.Formula.Shape
import Verif.Lemmas.Formula.Reading
import Verif.Props.Grammar
import Verif.Lemmas.Builds
import Verif.Lemmas.Render.Builds
import Verif.Props.Builds
import Verif.Lemmas.Layout
import Verif.Props.Layout
import Verif.Lemmas.More
import Verif.Lemmas.Wider
import Verif.Spec.Preamble
import Verif.Props.Preamble
import Verif.Spec.Shade
import Verif.Props.Shades
import Verif.Spec.Kept
import Verif.Lemmas.Render.Tells
import Verif.Lemmas.Render.Takes
import Verif.Props.Kept
import Verif.Spec.Origin
import Verif.Lemmas.Origin
import Verif.Lemmas.OriginStep
import Verif.Props.Origin
import Verif.Lemmas.NoTag
import Verif.Lemmas.NoTagStep
import Verif.Props.NoMarkup
import Verif.Lemmas.Swap
import Verif.Lemmas.Exchange
import Verif.Spec.Exchange
import Verif.Props.Exchange
import Verif.Lemmas.Pin
import Verif.Lemmas.Level
import Verif.Lemmas.Roomier
import Verif.Lemmas.March
import Verif.Lemmas.Beside
import Verif.Props.Global
import Verif.Spec.Joint
import Verif.Lemmas.Formula.Joint
import Verif.Props.Concat
import Verif.Spec.Parts
import Verif.Lemmas.Parts
import Verif.Props.Parts
import Verif.Model.F32
import Verif.Spec.Rounding
import Verif.Lemmas.F32
import Verif.Lemmas.F32Exact
import Verif.Props.Rounding
import Verif.Spec.Depth
import Verif.Props.Depth
import Verif.Spec.Expression
import Verif.Lemmas.Expression
import Verif.Lemmas.ExpressionReads
import Verif.Props.Expression
import Verif.Lemmas.ExpressionBack
import Verif.Props.Faithful
import Verif.Spec.Spaced
import Verif.Lemmas.Spaced
import Verif.Props.Spaced
import Verif.Props.Tidy
