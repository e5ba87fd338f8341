import Verif.Lemmas.AccountTypes
import Verif.Lemmas.Append
import Verif.Lemmas.AppendParse
import Verif.Lemmas.AppendPrinted
import Verif.Lemmas.BinarySearch
import Verif.Lemmas.Blind
import Verif.Lemmas.BlindGrammar
import Verif.Lemmas.BlindParse
import Verif.Lemmas.BlindRead
import Verif.Lemmas.BlindWhole
import Verif.Lemmas.Bracketed
import Verif.Lemmas.Callbacks
import Verif.Lemmas.Check
import Verif.Lemmas.Cut
import Verif.Lemmas.CutFile
import Verif.Lemmas.CutsComplete
import Verif.Lemmas.Decimal
import Verif.Lemmas.DirectiveComplete
import Verif.Lemmas.Duplicates
import Verif.Lemmas.ExprGrammar
import Verif.Lemmas.FileComplete
import Verif.Lemmas.FileRuns
import Verif.Lemmas.FileSound
import Verif.Lemmas.FirstLine
import Verif.Lemmas.Forward
import Verif.Lemmas.Frame
import Verif.Lemmas.GrammarComplete
import Verif.Lemmas.GrammarConsumes
import Verif.Lemmas.GrammarSound
import Verif.Lemmas.GrammarTerminals
import Verif.Lemmas.InPlace
import Verif.Lemmas.InPlaceParse
import Verif.Lemmas.InPlaceRead
import Verif.Lemmas.InPlaceSources
import Verif.Lemmas.LeftOut
import Verif.Lemmas.LexLines
import Verif.Lemmas.LexPanics
import Verif.Lemmas.LexText
import Verif.Lemmas.LexTokens
import Verif.Lemmas.Lexemes
import Verif.Lemmas.Lexer
import Verif.Lemmas.LexerTests
import Verif.Lemmas.Lexes
import Verif.Lemmas.Located
import Verif.Lemmas.LocatedGrammar
import Verif.Lemmas.LocatedParse
import Verif.Lemmas.LocatedPragma
import Verif.Lemmas.Logos
import Verif.Lemmas.Maps
import Verif.Lemmas.Messages
import Verif.Lemmas.Names
import Verif.Lemmas.NoPanic
import Verif.Lemmas.Parser
import Verif.Lemmas.Passage
import Verif.Lemmas.Path
import Verif.Lemmas.Patterns
import Verif.Lemmas.Pragma
import Verif.Lemmas.PragmaContext
import Verif.Lemmas.PragmaData
import Verif.Lemmas.PragmaReports
import Verif.Lemmas.PragmaSplice
import Verif.Lemmas.PrintDirective
import Verif.Lemmas.PrintFile
import Verif.Lemmas.PrintMetadata
import Verif.Lemmas.PrintParse
import Verif.Lemmas.PrintTokens
import Verif.Lemmas.PrintWhole
import Verif.Lemmas.Printing
import Verif.Lemmas.Provenance
import Verif.Lemmas.ProvenanceGrammar
import Verif.Lemmas.ProvenanceParse
import Verif.Lemmas.ReadOrigin
import Verif.Lemmas.ReadOutcome
import Verif.Lemmas.Reads
import Verif.Lemmas.Recovery
import Verif.Lemmas.Regex
import Verif.Lemmas.Revise
import Verif.Lemmas.ReviseFile
import Verif.Lemmas.ReviseRead
import Verif.Lemmas.ReviseSort
import Verif.Lemmas.ReviseText
import Verif.Lemmas.RootName
import Verif.Lemmas.SameDirective
import Verif.Lemmas.SameTrans
import Verif.Lemmas.SampleFile
import Verif.Lemmas.Sort
import Verif.Lemmas.Sources
import Verif.Lemmas.Spans
import Verif.Lemmas.Steady
import Verif.Lemmas.Success
import Verif.Lemmas.SurroundFile
import Verif.Lemmas.SurroundMeta
import Verif.Lemmas.SurroundRegion
import Verif.Lemmas.SurroundRun
import Verif.Lemmas.SurroundTag
import Verif.Lemmas.SurroundText
import Verif.Lemmas.SwapPartition
import Verif.Lemmas.Text
import Verif.Lemmas.Ties
import Verif.Lemmas.Understood
import Verif.Lemmas.UnsetBack
import Verif.Lemmas.UnsetOptions
import Verif.Lemmas.UnsetRun
import Verif.Lemmas.WholeParse
import Verif.Lemmas.WriteReport
import Verif.Lemmas.Written
import Verif.Lemmas.WrittenText
import Verif.Model.AccountTypes
import Verif.Model.Ast
import Verif.Model.Basic
import Verif.Model.Callbacks
import Verif.Model.Chars
import Verif.Model.Check
import Verif.Model.Context
import Verif.Model.Decimal
import Verif.Model.Display
import Verif.Model.Dump
import Verif.Model.Entry
import Verif.Model.Getters
import Verif.Model.Grammar
import Verif.Model.Lexer
import Verif.Model.Logos
import Verif.Model.Messages
import Verif.Model.Names
import Verif.Model.Options
import Verif.Model.Parse
import Verif.Model.Parser
import Verif.Model.Path
import Verif.Model.Pragma
import Verif.Model.Regex
import Verif.Model.Report
import Verif.Model.Run
import Verif.Model.Sort
import Verif.Model.Sources
import Verif.Model.Spans
import Verif.Model.Text
import Verif.Model.Token
import Verif.Model.WriteReport
import Verif.Props.Append
import Verif.Props.AppendAgain
import Verif.Props.Callbacks
import Verif.Props.Check
import Verif.Props.CostSpec
import Verif.Props.Display
import Verif.Props.Dump
import Verif.Props.DumpAppend
import Verif.Props.Expr
import Verif.Props.ExprGrammar
import Verif.Props.Found
import Verif.Props.Getters
import Verif.Props.Grammar
import Verif.Props.InPlace
import Verif.Props.Layout
import Verif.Props.Lexemes
import Verif.Props.Lexer
import Verif.Props.Locations
import Verif.Props.Logos
import Verif.Props.Messages
import Verif.Props.Names
import Verif.Props.OptionDecoding
import Verif.Props.Options
import Verif.Props.Order
import Verif.Props.Parse
import Verif.Props.Passage
import Verif.Props.Pragma
import Verif.Props.Recovery
import Verif.Props.Report
import Verif.Props.Revised
import Verif.Props.RootName
import Verif.Props.Run
import Verif.Props.SetIn
import Verif.Props.Sources
import Verif.Props.Success
import Verif.Props.Surround
import Verif.Props.Synthetic
import Verif.Props.Text
import Verif.Props.Unset
import Verif.Props.WriteReport
import Verif.Spec.AccountTypes
import Verif.Spec.Append
import Verif.Spec.Callbacks
import Verif.Spec.Check
import Verif.Spec.CostSpec
import Verif.Spec.Display
import Verif.Spec.Expr
import Verif.Spec.ExprGrammar
import Verif.Spec.Found
import Verif.Spec.Getters
import Verif.Spec.Grammar
import Verif.Spec.InPlace
import Verif.Spec.Layout
import Verif.Spec.Lexemes
import Verif.Spec.Lexer
import Verif.Spec.Locations
import Verif.Spec.Logos
import Verif.Spec.Messages
import Verif.Spec.Names
import Verif.Spec.Options
import Verif.Spec.Order
import Verif.Spec.Panics
import Verif.Spec.Parse
import Verif.Spec.Passage
import Verif.Spec.Pragma
import Verif.Spec.Recovery
import Verif.Spec.Regex
import Verif.Spec.Revised
import Verif.Spec.RootName
import Verif.Spec.Sources
import Verif.Spec.Success
import Verif.Spec.Surround
import Verif.Spec.Unset
import Verif.Spec.WriteReport
import Verif.Spec.Written
