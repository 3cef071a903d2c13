import Verif.Props.Tokenizer
import Verif.Props.Parser
import Verif.Props.NodeEnds
import Verif.Props.Transform
import Verif.Props.Expander
import Verif.Props.Codegen
import Verif.Props.Plugins
import Verif.Props.Pipeline
import Verif.Props.Project
import Verif.Props.Cli
import Verif.Props.Server
import Verif.Props.Editor
import Verif.Props.Paragraphs
import Verif.Props.Wire
import Verif.Props.Main
import Verif.Props.Written
import Verif.Props.Accepted
import Verif.Props.Edits
import Verif.Props.Rebuild
import Verif.Props.Session
import Verif.Props.Opened
import Verif.Props.Fresh
import Verif.Props.DebugText
import Verif.Props.Expressed
import Verif.Props.Resources
import Verif.Props.Clear
import Verif.Spec.Unused
import Verif.Proof.Unused
import Verif.Props.Unused
import Verif.Spec.Questions
import Verif.Proof.Questions
import Verif.Props.Questions
import Verif.Spec.Blank
import Verif.Proof.Blank
import Verif.Proof.BlankText
import Verif.Props.Blank
import Verif.Props.Layout
import Verif.Props.Kept
import Verif.Props.Parts
import Verif.Spec.Compose
import Verif.Proof.Compose
import Verif.Proof.ComposeText
import Verif.Proof.ComposeGen
import Verif.Proof.ComposeCases
import Verif.Proof.ComposeWritten
import Verif.Props.Compose
import Verif.Spec.Rename
import Verif.Proof.Rename
import Verif.Props.Rename
import Verif.Spec.Nesting
import Verif.Proof.Nesting
import Verif.Proof.Sized
import Verif.Props.Nesting
import Verif.Model.Show
import Verif.Spec.Show
import Verif.Proof.Show
import Verif.Props.Show
import Verif.Spec.Config
import Verif.Proof.ConfigRead
import Verif.Props.Config
import Verif.Spec.Crash
import Verif.Proof.Crash
import Verif.Props.Crash
import Verif.Props.Stops
import Verif.Props.Lsp
import Verif.Props.BadInput
import Verif.Props.Decided
import Verif.Props.Clean
import Verif.Props.Unicode
import Verif.Props.Again
import Verif.Props.ReadBack
import Verif.Props.Sources
import Verif.Props.CallDoc
import Verif.Props.Order
import Verif.Props.Balance
import Verif.Proof.Offered
import Verif.Props.Offered
import Verif.Conform
import Verif.Spec.Filter
import Verif.Proof.Filter
import Verif.Props.Filter
import Verif.Model.ParserSteps
import Verif.Spec.ParserSteps
import Verif.Proof.ParserSteps
import Verif.Props.ParserSteps
import Verif.Props.TransformSteps
import Verif.Props.ReadSteps
import Verif.Props.Repair
import Verif.Props.Doubled
import Verif.Props.Reword
import Verif.Props.Walk
import Verif.Props.Saved
import Verif.Props.WalkCst
import Verif.Spec.Words
import Verif.Proof.WordsTok
import Verif.Proof.WordsTree
import Verif.Proof.WordsRun
import Verif.Props.Words
import Verif.Spec.Output
import Verif.Proof.Output
import Verif.Props.Output
import Verif.Spec.EachDoc
import Verif.Props.EachDoc
import Verif.Props.CallCount
import Verif.Proof.TransFew
import Verif.Props.Twice
import Verif.Proof.Units
import Verif.Props.Units
import Verif.Spec.Lines
import Verif.Proof.Lines
import Verif.Props.Lines
import Verif.Proof.TransMost
import Verif.Props.Most
import Verif.Spec.Exchange
import Verif.Proof.Exchange
import Verif.Props.Exchange
import Verif.Spec.Crossed
import Verif.Proof.Crossed
import Verif.Props.Crossed
import Verif.Spec.Reports
import Verif.Proof.Reports
import Verif.Props.Reports
import Verif.Spec.Outline
import Verif.Proof.Outline
import Verif.Props.Outline
import Verif.Props.Outcome
import Verif.Props.Lexed
import Verif.Props.Below
