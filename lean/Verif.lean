import Verif.Model.Str
import Verif.Model.Escape
import Verif.Model.Config
import Verif.Model.Doc
import Verif.Model.OutEscape
import Verif.Model.Multiline
import Verif.Model.Output
import Verif.Model.Errors
import Verif.Model.Ast
import Verif.Model.Lexer
import Verif.Model.Grammar
import Verif.Model.Parse
import Verif.Model.Build
import Verif.Model.Transform
import Verif.Model.Metadata
import Verif.Model.Infer
import Verif.Model.Convert
import Verif.Model.Path
import Verif.Model.Cli
import Verif.Model.Reporter
import Verif.Model.CliRun
import Verif.Model.Wasm
import Verif.Model.JsClass
import Verif.Model.KeyValue
import Verif.Props.Escape
import Verif.Props.Multiline
import Verif.Props.Convert
import Verif.Props.Document
import Verif.Props.Ranges
import Verif.Props.Grammar
import Verif.Props.PlainText
import Verif.Props.Paragraphs
import Verif.Props.Infer
import Verif.Props.Transform
import Verif.Props.Output
import Verif.Props.Pieces
import Verif.Props.Files
import Verif.Props.Cli
import Verif.Props.Wasm
import Verif.Props.JsClass
import Verif.Props.Plan
import Verif.Props.KeyValue
import Verif.Props.Structure
import Verif.Props.Parse
import Verif.Props.Source
import Verif.Props.Selectors
import Verif.Props.Metadata
import Verif.Props.Layout
import Verif.Props.RepoTestsA
import Verif.Props.RepoTestsB
import Verif.Props.RepoTestsC
import Verif.Spec.Same
import Verif.Proofs.Same
import Verif.Proofs.SameBuild
import Verif.Proofs.SameTree
import Verif.Proofs.SameOut
import Verif.Props.Same
import Verif.Spec.Writing
import Verif.Proofs.WriteLex
import Verif.Proofs.WriteSel
import Verif.Proofs.WriteOut
import Verif.Proofs.WriteSem
import Verif.Proofs.WriteElem
import Verif.Proofs.WriteNode
import Verif.Proofs.WriteParse
import Verif.Props.Writing
import Verif.Model.Demo
import Verif.Spec.Demo
import Verif.Proofs.Demo
import Verif.Props.Demo
import Verif.Spec.Page
import Verif.Proofs.Page
import Verif.Props.Page
import Verif.Spec.Partial
import Verif.Proofs.Partial
import Verif.Props.Partial
import Verif.Spec.Schedule
import Verif.Proofs.Schedule
import Verif.Props.Schedule
import Verif.Props.RepoTestsCli
import Verif.Spec.Stopped
import Verif.Proofs.Stopped
import Verif.Props.Stopped
import Verif.Model.CliMain
import Verif.Props.CliMain
import Verif.Props.RepoTestsJs
import Verif.Props.WrittenPage
import Verif.Props.Instances
import Verif.Props.Messages
import Verif.Props.CliAll
import Verif.Props.Json
import Verif.Props.Slices
import Verif.Props.Sink
import Verif.Props.Parts
import Verif.Props.PartsErrors
import Verif.Props.Blank
import Verif.Props.Block
import Verif.Props.Accepted
import Verif.Props.ErrorOrder
import Verif.Props.Size
import Verif.Props.View
import Verif.Props.LineEnds
import Verif.Props.Margins
import Verif.Props.Indented
import Verif.Props.Outline
import Verif.Props.BlankLines
import Verif.Props.Settings
import Verif.Props.Trail
import Verif.Props.Configured
import Verif.Props.Alike
import Verif.Props.Forms
import Verif.Props.MetadataText
