import Verif.Model.Autocomplete
import Verif.Model.Base
import Verif.Model.Caret
import Verif.Model.Combinators
import Verif.Model.Component
import Verif.Model.DefaultGrammar
import Verif.Model.Display
import Verif.Model.Edit
import Verif.Model.Editor
import Verif.Model.Effort
import Verif.Model.Focus
import Verif.Model.Grid
import Verif.Model.Handler
import Verif.Model.Json
import Verif.Model.Layout
import Verif.Model.MathML
import Verif.Model.Modules
import Verif.Model.Names
import Verif.Model.Page
import Verif.Model.Parser
import Verif.Model.Picture
import Verif.Model.Render
import Verif.Model.Syntax
import Verif.Model.Tree
import Verif.Model.Utils
import Verif.Model.Walk
import Verif.Spec.AnyRow
import Verif.Spec.Autocomplete
import Verif.Spec.Brackets
import Verif.Spec.BracketsSwap
import Verif.Spec.Calm
import Verif.Spec.Clipboard
import Verif.Spec.Closed
import Verif.Spec.Component
import Verif.Spec.Depth
import Verif.Spec.Display
import Verif.Spec.Dom
import Verif.Spec.Drawing
import Verif.Spec.Edit
import Verif.Spec.Effort
import Verif.Spec.EndToEnd
import Verif.Spec.Endings
import Verif.Spec.Erase
import Verif.Spec.EraseAll
import Verif.Spec.Expression
import Verif.Spec.Grid
import Verif.Spec.Grids
import Verif.Spec.Handler
import Verif.Spec.History
import Verif.Spec.Idle
import Verif.Spec.JsonText
import Verif.Spec.KeyWrite
import Verif.Spec.Keyboard
import Verif.Spec.Keys
import Verif.Spec.Layout
import Verif.Spec.Locality
import Verif.Spec.Loosest
import Verif.Spec.MathML
import Verif.Spec.Modules
import Verif.Spec.Move
import Verif.Spec.Notation
import Verif.Spec.OneToken
import Verif.Spec.Page
import Verif.Spec.PageFormed
import Verif.Spec.Path
import Verif.Spec.Pending
import Verif.Spec.Picture
import Verif.Spec.Readable
import Verif.Spec.Reload
import Verif.Spec.Rename
import Verif.Spec.Render
import Verif.Spec.Shortest
import Verif.Spec.Size
import Verif.Spec.Spaces
import Verif.Spec.Subst
import Verif.Spec.Syntax
import Verif.Spec.Tokens
import Verif.Spec.Track
import Verif.Spec.UndoKeys
import Verif.Spec.Words
import Verif.Spec.Writable
import Verif.Proof.AnyEnd
import Verif.Proof.AnyNodes
import Verif.Proof.AnyRow
import Verif.Proof.AnyTotal
import Verif.Proof.AnyTree
import Verif.Proof.Autocorrect
import Verif.Proof.Basic
import Verif.Proof.Brackets
import Verif.Proof.BracketsNames
import Verif.Proof.BracketsPage
import Verif.Proof.BracketsSwap
import Verif.Proof.BracketsWithin
import Verif.Proof.Calm
import Verif.Proof.CaretMove
import Verif.Proof.Click
import Verif.Proof.ClickRow
import Verif.Proof.Clipboard
import Verif.Proof.Closed
import Verif.Proof.Combinators
import Verif.Proof.Component
import Verif.Proof.Congruence
import Verif.Proof.DefaultGrammar
import Verif.Proof.DeleteReport
import Verif.Proof.Depth
import Verif.Proof.Display
import Verif.Proof.DisplayTree
import Verif.Proof.Dom
import Verif.Proof.DomInjective
import Verif.Proof.DomMarks
import Verif.Proof.Drawing
import Verif.Proof.Edit
import Verif.Proof.Effort
import Verif.Proof.EffortAny
import Verif.Proof.EffortBound
import Verif.Proof.EffortFree
import Verif.Proof.EffortGrowth
import Verif.Proof.EffortPoints
import Verif.Proof.EndToEnd
import Verif.Proof.Erase
import Verif.Proof.EraseAll
import Verif.Proof.EraseKeys
import Verif.Proof.ErrorFree
import Verif.Proof.ErrorTrees
import Verif.Proof.Events
import Verif.Proof.Expression
import Verif.Proof.Fills
import Verif.Proof.Focus
import Verif.Proof.Grid
import Verif.Proof.Grids
import Verif.Proof.GridsMathML
import Verif.Proof.GridsTotal
import Verif.Proof.Handler
import Verif.Proof.HandlerLeft
import Verif.Proof.History
import Verif.Proof.Idle
import Verif.Proof.Json
import Verif.Proof.JsonClip
import Verif.Proof.JsonNodes
import Verif.Proof.JsonText
import Verif.Proof.JsonValues
import Verif.Proof.KeySelect
import Verif.Proof.KeyWrite
import Verif.Proof.Keyboard
import Verif.Proof.Layout
import Verif.Proof.Locality
import Verif.Proof.LocalityRender
import Verif.Proof.Loosest
import Verif.Proof.Made
import Verif.Proof.Matches
import Verif.Proof.MathML
import Verif.Proof.MathMLMeaning
import Verif.Proof.Modules
import Verif.Proof.ModulesMore
import Verif.Proof.ModulesOrder
import Verif.Proof.Move
import Verif.Proof.Nesting
import Verif.Proof.Notation
import Verif.Proof.NotationConverse
import Verif.Proof.NotationErrors
import Verif.Proof.NotationRules
import Verif.Proof.NotationTokens
import Verif.Proof.NotationUnique
import Verif.Proof.OneToken
import Verif.Proof.Order
import Verif.Proof.Page
import Verif.Proof.ParseMono
import Verif.Proof.ParseTotal
import Verif.Proof.Pending
import Verif.Proof.PendingSteps
import Verif.Proof.Picture
import Verif.Proof.Press
import Verif.Proof.Range
import Verif.Proof.ReadBack
import Verif.Proof.Readable
import Verif.Proof.ReadableSplit
import Verif.Proof.Reload
import Verif.Proof.Remove
import Verif.Proof.Rename
import Verif.Proof.RenamePage
import Verif.Proof.Render
import Verif.Proof.RenderClean
import Verif.Proof.RenderMade
import Verif.Proof.RenderSpace
import Verif.Proof.Rewrite
import Verif.Proof.ScriptCell
import Verif.Proof.Shortest
import Verif.Proof.Size
import Verif.Proof.SizeClean
import Verif.Proof.SizeDom
import Verif.Proof.SizeSharp
import Verif.Proof.Spaces
import Verif.Proof.Splice
import Verif.Proof.Step
import Verif.Proof.Subst
import Verif.Proof.Symbols
import Verif.Proof.Tokens
import Verif.Proof.Total
import Verif.Proof.TreeKeep
import Verif.Proof.TreeNames
import Verif.Proof.UndoKeys
import Verif.Proof.WalkDepth
import Verif.Proof.Words
import Verif.Proof.Writable
import Verif.Props.AllEnds
import Verif.Props.AllPanics
import Verif.Props.AnyRow
import Verif.Props.Autocomplete
import Verif.Props.Autocorrect
import Verif.Props.Brackets
import Verif.Props.BracketsPage
import Verif.Props.BracketsSwap
import Verif.Props.Calm
import Verif.Props.Click
import Verif.Props.ClickDrawn
import Verif.Props.ClickRow
import Verif.Props.Clipboard
import Verif.Props.Closed
import Verif.Props.Combinators
import Verif.Props.Component
import Verif.Props.Congruence
import Verif.Props.Delete
import Verif.Props.DeleteReport
import Verif.Props.Depth
import Verif.Props.Display
import Verif.Props.Dom
import Verif.Props.Drawing
import Verif.Props.Edit
import Verif.Props.Effort
import Verif.Props.EndToEnd
import Verif.Props.Ends
import Verif.Props.Erase
import Verif.Props.EraseAll
import Verif.Props.Events
import Verif.Props.Exceptions
import Verif.Props.Expression
import Verif.Props.GridRange
import Verif.Props.GridView
import Verif.Props.Grids
import Verif.Props.History
import Verif.Props.Idle
import Verif.Props.JsonText
import Verif.Props.KeyWrite
import Verif.Props.Keyboard
import Verif.Props.Layout
import Verif.Props.Locality
import Verif.Props.Loosest
import Verif.Props.MathML
import Verif.Props.Modules
import Verif.Props.Move
import Verif.Props.Names
import Verif.Props.Notation
import Verif.Props.NotationConverse
import Verif.Props.OneToken
import Verif.Props.Page
import Verif.Props.PageFormed
import Verif.Props.Parse
import Verif.Props.Pending
import Verif.Props.Picture
import Verif.Props.Position
import Verif.Props.Range
import Verif.Props.Reach
import Verif.Props.Readable
import Verif.Props.Reload
import Verif.Props.Rename
import Verif.Props.Render
import Verif.Props.RendererSetup
import Verif.Props.Rewrite
import Verif.Props.Selection
import Verif.Props.Shortest
import Verif.Props.Size
import Verif.Props.Spaces
import Verif.Props.Subst
import Verif.Props.Track
import Verif.Props.Typing
import Verif.Props.UndoKeys
import Verif.Props.Utils
import Verif.Props.Words
import Verif.Props.Writable
import Verif.Check.RepoTests
