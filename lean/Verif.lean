import Verif.Model.Lexer
import Verif.Spec.Units
import Verif.Spec.Lexical
import Verif.Spec.Text
import Verif.Spec.Limits
import Verif.Props.C17
import Verif.Props.TokenFacts
import Verif.Lemmas.Number
import Verif.Lemmas.UrlKeyword
import Verif.Lemmas.Eval
import Verif.Lemmas.EvalUrl
import Verif.Lemmas.Dispatch
import Verif.Lemmas.Units
import Verif.Lemmas.Cover
import Verif.Lemmas.Numeric
import Verif.Lemmas.ScanCover
import Verif.Lemmas.Guards
import Verif.Props.Stream
import Verif.Props.Lexical1
import Verif.Lemmas.Classify
import Verif.Props.Lexical2
import Verif.Props.Lexical3
import Verif.Props.Lexical4
import Verif.Spec.Decode
import Verif.Model.Cursor
import Verif.Lemmas.Escape
import Verif.Lemmas.Decode
import Verif.Props.Decode
import Verif.Model.Sink
import Verif.Spec.Serialize
import Verif.Props.Sink
import Verif.Model.Parser
import Verif.Model.Prog
import Verif.Spec.Stream
import Verif.Props.Parser
import Verif.Model.Grammar
import Verif.Model.Rules
import Verif.Lemmas.TokenStream
import Verif.Lemmas.Programs
import Verif.Props.Grammar
import Verif.Spec.Brackets
import Verif.Lemmas.Balanced
import Verif.Props.ComponentValues
import Verif.Model.Specificity
import Verif.Spec.Specificity
import Verif.Props.Specificity
import Verif.Model.Lsp.ErrorCode
import Verif.Model.Lsp.Message
import Verif.Model.Lsp.Server
import Verif.Model.Lsp.Document
import Verif.Spec.Lsp
import Verif.Props.LspMessage
import Verif.Props.LspServer
import Verif.Props.LspTokens
import Verif.Props.LspDocument
import Verif.Props.LspThread
import Verif.Model.Nth
import Verif.Spec.AnB
import Verif.Lemmas.SaneTokens
import Verif.Props.Nth
import Verif.Props.Pairs
import Verif.Model.Features
import Verif.Lemmas.Writes
import Verif.Spec.Comparison
import Verif.Props.Features
import Verif.Spec.SheetText
import Verif.Props.Rules
import Verif.Props.Modes
import Verif.Props.Nodes
import Verif.Props.Shapes
import Verif.Spec.JsonRpc
import Verif.Props.LspConform
import Verif.Spec.Float
import Verif.Lemmas.Float
import Verif.Props.Float
import Verif.Props.Conditions
import Verif.Spec.Separate
import Verif.Lemmas.Swap
import Verif.Lemmas.SwapScan
import Verif.Props.Separate
import Verif.Props.Total
import Verif.Props.Returns
import Verif.Props.ReturnsMore
import Verif.Model.SelectorNames
import Verif.Model.Selectors
import Verif.Model.Lists
import Verif.Model.Properties
import Verif.Model.Media
import Verif.Model.AtRules
import Verif.Lemmas.Wp
import Verif.Props.Selectors
import Verif.Props.SelectorList
import Verif.Props.SelectorReturns
import Verif.Props.SelectorLabels
import Verif.Props.SelectorShape
import Verif.Props.SelectorAccepts
import Verif.Lemmas.Saves
import Verif.Lemmas.SelectorModes
import Verif.Lemmas.CssParts
import Verif.Spec.CssText
import Verif.Lemmas.Kept
import Verif.Props.CssSheet
import Verif.Props.CssSheetRules
import Verif.Props.CssNothingLost
import Verif.Model.ValueDef
import Verif.Model.Images
import Verif.Model.Definitions
import Verif.Spec.Values
import Verif.Spec.ValueOrder
import Verif.Lemmas.ValueSaves
import Verif.Props.CssRealValues
import Verif.Spec.ValueSyntax
import Verif.Spec.CssValues
import Verif.Spec.Declarations
import Verif.Lemmas.Reads
import Verif.Lemmas.EveryDeclaration
import Verif.Props.ValueSound
import Verif.Props.CssValueSound
import Verif.Spec.RuleLabels
import Verif.Props.RuleLabels
import Verif.Spec.ValueForms
import Verif.Lemmas.ValueModes
import Verif.Props.ValueForms
import Verif.Spec.ValueAccepts
import Verif.Lemmas.Yields
import Verif.Lemmas.Heads
import Verif.Lemmas.Complete
import Verif.Lemmas.CompleteDefs
import Verif.Lemmas.CompleteParser
import Verif.Lemmas.CompleteHand
import Verif.Lemmas.CompleteTypes
import Verif.Lemmas.ClearTokens
import Verif.Props.ValueAccepts
import Verif.Spec.DefSyntax
import Verif.Props.DefSyntax
import Verif.Lemmas.Steps
import Verif.Spec.RawValues
import Verif.Lemmas.Raw
import Verif.Lemmas.Walks
import Verif.Spec.DeclSyntax
import Verif.Spec.AtRuleSyntax
import Verif.Spec.SheetSyntax
import Verif.Lemmas.DeclWalks
import Verif.Lemmas.ListWalks
import Verif.Lemmas.AtRuleWalks
import Verif.Lemmas.GroupWalks
import Verif.Props.SheetSamples
import Verif.Props.SheetAccepts
import Verif.Spec.Touch
import Verif.Lemmas.Touch
import Verif.Spec.MediaSyntax
import Verif.Lemmas.MediaYields
import Verif.Props.MediaAccepts
import Verif.Props.Readable
import Verif.Lemmas.SelectorStrict
import Verif.Lemmas.ValueStrict
import Verif.Lemmas.ValueStrict2
import Verif.Lemmas.ValueStrict3
import Verif.Lemmas.ValueStrict4
import Verif.Lemmas.RuleStrict
import Verif.Props.SheetReturns
import Verif.Model.Highlight
import Verif.Spec.Highlight
import Verif.Lemmas.Marks
import Verif.Lemmas.VisitMarks
import Verif.Lemmas.Visits
import Verif.Props.Highlight
import Verif.Props.HighlightSheet
import Verif.Lemmas.Tidy
import Verif.Lemmas.TidyParts
import Verif.Lemmas.TidyValues
import Verif.Model.Build
import Verif.Spec.Build
import Verif.Props.Build
import Verif.Model.Wasm
import Verif.Spec.Wasm
import Verif.Lemmas.Blames
import Verif.Props.Wasm
import Verif.Model.Lsp.Session
import Verif.Model.Lsp.RealSession
import Verif.Spec.LspSession
import Verif.Props.LspSession
import Verif.Props.LspThreads
import Verif.Props.LspRealSession
import Verif.Props.BuildAgain
import Verif.Model.Counters
import Verif.Spec.Counters
import Verif.Lemmas.CompleteStripes
import Verif.Props.Counters
import Verif.Model.Quantities
import Verif.Spec.Quantities
import Verif.Props.Quantities
import Verif.Spec.UnknownRules
import Verif.Props.UnknownRules
