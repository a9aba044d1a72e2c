import Verif.Model.Basic
import Verif.Model.TypeBucket
import Verif.Model.Line
import Verif.Model.CreateTokens
import Verif.Model.X
import Verif.Model.Selection
import Verif.Model.Display
import Verif.Model.Resolvers
import Verif.Model.Currency
import Verif.Demo.World
import Verif.Demo.Replay
import Verif.Demo.Laws
import Verif.Demo.Examples
import Verif.Spec.History
import Verif.Spec.Laws
import Verif.Spec.Tokenize
import Verif.Spec.Store
import Verif.Spec.Match
import Verif.Spec.Select
import Verif.Spec.Display
import Verif.Spec.Resolve
import Verif.Spec.Amount
import Verif.Spec.Compose
import Verif.Spec.Pipeline
import Verif.Spec.Observe
import Verif.Spec.EndToEnd
import Verif.Spec.Docs
import Verif.Spec.Piecewise
import Verif.Spec.Local
import Verif.Spec.Sentences
import Verif.Spec.Phrase
import Verif.Spec.Loops
import Verif.Spec.Case
import Verif.Spec.Fuse
import Verif.Spec.Show
import Verif.Model.Debug
import Verif.Spec.Again
import Verif.Spec.Positions
import Verif.Spec.Refine
import Verif.Spec.Program
import Verif.Spec.UserMatch
import Verif.Spec.Uax29
import Verif.Spec.Grammar
import Verif.Model.Callback
import Verif.Spec.Callback
import Verif.Spec.Written
import Verif.Spec.WrittenIn
import Verif.Model.Sink
import Verif.Spec.Sink
import Verif.Model.Stateful
import Verif.Spec.Stateful
import Verif.Spec.Layers
import Verif.Spec.Represent
import Verif.Props.Tokenize
import Verif.Props.Store
import Verif.Props.Match
import Verif.Props.Select
import Verif.Props.Display
import Verif.Props.Resolve
import Verif.Props.Amount
import Verif.Props.Algebra
import Verif.Props.Compose
import Verif.Props.Pipeline
import Verif.Props.Observe
import Verif.Props.EndToEnd
import Verif.Props.Docs
import Verif.Props.Piecewise
import Verif.Props.Unambiguous
import Verif.Props.Local
import Verif.Props.Sentences
import Verif.Props.Phrase
import Verif.Props.Loops
import Verif.Props.Laws
import Verif.Props.Case
import Verif.Props.Fuse
import Verif.Props.Show
import Verif.Props.Again
import Verif.Props.Cut
import Verif.Props.Positions
import Verif.Props.Debug
import Verif.Props.Refine
import Verif.Props.Delimiters
import Verif.Props.Program
import Verif.Props.UserMatch
import Verif.Props.Uax29
import Verif.Props.Grammar
import Verif.Props.Callback
import Verif.Props.Written
import Verif.Props.WrittenIn
import Verif.Props.Sink
import Verif.Props.Stateful
import Verif.Props.Layers
import Verif.Props.Represent
import Verif.Props.DebugTokens
import Verif.Props.TokenLines
import Verif.Props.View
import Verif.Props.Recurse
import Verif.Spec.Reference
import Verif.Lemmas.Reference
import Verif.Props.Reference
import Verif.Model.Direction
import Verif.Spec.Direction
import Verif.Lemmas.Direction
import Verif.Props.Direction
import Verif.Spec.Width
import Verif.Lemmas.Width
import Verif.Props.Width
import Verif.Spec.Count
import Verif.Lemmas.Count
import Verif.Props.Count
import Verif.Spec.Longest
import Verif.Props.Longest
import Verif.Spec.Rewrite
import Verif.Lemmas.Rewrite
import Verif.Props.Rewrite
import Verif.Spec.Cfg
import Verif.Demo.Cfg
import Verif.Lemmas.Cfg
import Verif.Props.Cfg
import Verif.Spec.Ways
import Verif.Lemmas.Ways
import Verif.Props.Ways
import Verif.Spec.Structure
import Verif.Lemmas.Structure
import Verif.Demo.Structure
import Verif.Props.Structure
import Verif.Spec.Once
import Verif.Lemmas.Once
import Verif.Props.Once
import Verif.Spec.Window
import Verif.Lemmas.Window
import Verif.Lemmas.WindowExpr
import Verif.Lemmas.WindowOnce
import Verif.Lemmas.WindowExcept
import Verif.Props.Window
import Verif.Lemmas.OnceSize
import Verif.Props.OnceSize
import Verif.Spec.Exceptions
import Verif.Lemmas.Exceptions
import Verif.Lemmas.Strata
import Verif.Demo.Exceptions
import Verif.Props.Exceptions
import Verif.Spec.OnceExcept
import Verif.Lemmas.OnceExcept
import Verif.Props.OnceExcept
import Verif.Spec.Mirror
import Verif.Lemmas.Mirror
import Verif.Demo.Mirror
import Verif.Props.Mirror
import Verif.Spec.Priority
import Verif.Lemmas.Priority
import Verif.Demo.Priority
import Verif.Props.Priority
import Verif.Spec.Scan
import Verif.Lemmas.Scan
import Verif.Demo.Scan
import Verif.Props.Scan
import Verif.Spec.Edges
import Verif.Lemmas.Edges
import Verif.Demo.Edges
import Verif.Props.Edges
import Verif.Model.Entry
import Verif.Spec.Entry
import Verif.Lemmas.Entry
import Verif.Props.Entry
import Verif.Spec.Edit
import Verif.Lemmas.Edit
import Verif.Props.Edit
import Verif.Spec.Given
import Verif.Lemmas.Given
import Verif.Props.Given
import Verif.Spec.Beside
import Verif.Lemmas.Beside
import Verif.Props.Beside
import Verif.Lemmas.Parts
import Verif.Spec.Parts
import Verif.Lemmas.PartsRun
import Verif.Props.Parts
import Verif.Spec.Document
import Verif.Lemmas.Document
import Verif.Props.Document
import Verif.Spec.Wall
import Verif.Lemmas.Wall
import Verif.Lemmas.WallExcept
import Verif.Lemmas.WallText
import Verif.Props.Wall
import Verif.Spec.DocumentShow
import Verif.Lemmas.DocumentShow
import Verif.Props.DocumentShow
import Verif.Spec.ManySentences
import Verif.Lemmas.ManySentences
import Verif.Props.ManySentences
import Verif.Lemmas.EditDocument
import Verif.Props.EditDocument
import Verif.Spec.Together
import Verif.Lemmas.Together
import Verif.Props.Together
import Verif.Spec.Steps
import Verif.Lemmas.Steps
import Verif.Props.Steps
import Verif.Props.EditSteps
import Verif.Spec.ShowSteps
import Verif.Lemmas.ShowSteps
import Verif.Props.ShowSteps
import Verif.Spec.Silent
import Verif.Lemmas.Silent
import Verif.Props.Silent
import Verif.Props.Recut
import Verif.Spec.Sliced
import Verif.Lemmas.Sliced
import Verif.Props.Sliced
import Verif.Spec.SlicedSteps
import Verif.Lemmas.SlicedSteps
import Verif.Props.SlicedSteps
import Verif.Props.SlicedEdit
import Verif.Axioms
