import Verif.Model.Basic
import Verif.Model.Scanner
import Verif.Props.Alike
import Verif.Props.SpacingRun
import Verif.Props.Spacing
import Verif.Props.Edit
import Verif.Props.Form
import Verif.Props.Weave
import Verif.Props.Looks
import Verif.Props.LooksSource
import Verif.Props.Location
import Verif.Props.Scanner
import Verif.Props.ScannerText
import Verif.Props.ScannerLocal
import Verif.Props.ScannerReturns
import Verif.Model.Metadata
import Verif.Model.Inline
import Verif.Model.Block
import Verif.Model.Asg
import Verif.Model.Parser
import Verif.Model.Cli
import Verif.Model.Render
import Verif.Props.Cli
import Verif.Props.Render
import Verif.Props.Ranges
import Verif.Props.Metadata
import Verif.Props.AttrMixed
import Verif.Props.Attrlist
import Verif.Props.Graph
import Verif.Props.Parser
import Verif.Props.After
import Verif.Props.Attributes
import Verif.Props.Include
import Verif.Props.Verbatim
import Verif.Props.Paragraphs
import Verif.Props.Outline
import Verif.Props.Spans
import Verif.Props.Returns
import Verif.Props.Lexical
import Verif.Model.Docx
import Verif.Model.Html
import Verif.Spec.Word
import Verif.Spec.Markup
import Verif.Props.Docx
import Verif.Props.Html
import Verif.Spec.Origin
import Verif.Proof.OriginScan
import Verif.Proof.Origin
import Verif.Proof.OriginBlock
import Verif.Proof.OriginParser
import Verif.Proof.OriginUse
import Verif.Props.Ordinary
import Verif.Props.Origin
import Verif.Spec.Rich
import Verif.Spec.RichDoc
import Verif.Spec.Sketch
import Verif.Proof.RichScan
import Verif.Proof.RichParse
import Verif.Proof.RichGraph
import Verif.Proof.RichSteps
import Verif.Proof.RichFeed
import Verif.Proof.RichArgs
import Verif.Proof.RichTag
import Verif.Proof.RichBox
import Verif.Proof.RichTable
import Verif.Proof.Cont
import Verif.Proof.ContFeed
import Verif.Proof.RichAttach
import Verif.Proof.RichDlist
import Verif.Proof.RichFrame
import Verif.Proof.RichDoc
import Verif.Proof.RichCheck
import Verif.Props.Rich
import Verif.Props.RichBoxes
import Verif.Props.RichInlines
import Verif.Props.RichImages
import Verif.Props.RichTables
import Verif.Props.RichDlists
import Verif.Spec.Book
import Verif.Proof.RichRemark
import Verif.Proof.RichInclude
import Verif.Props.RichBooks
import Verif.Props.RichComments
import Verif.Proof.RichClosed
import Verif.Proof.RichCode
import Verif.Props.RichCode
import Verif.Props.RichVerbatim
import Verif.Proof.RichOut
import Verif.Spec.RichPage
import Verif.Proof.RichPage
import Verif.Props.RichPages
import Verif.Spec.Dom
import Verif.Proof.Dom
import Verif.Spec.RichDom
import Verif.Proof.RichDom
import Verif.Props.Dom
import Verif.Props.DomText
import Verif.Spec.Ink
import Verif.Proof.Ink
import Verif.Proof.RichInk
import Verif.Props.Ink
import Verif.Spec.JsonRead
import Verif.Proof.JsonRead
import Verif.Props.JsonOnce
import Verif.Props.JsonRead
import Verif.Proof.TeraProgs
import Verif.Proof.TeraKit
import Verif.Proof.TeraInline
import Verif.Proof.TeraBlock
import Verif.Proof.TeraTable
import Verif.Proof.Tera
import Verif.Props.Tera
import Verif.Spec.Kinds
import Verif.Proof.KindsScan
import Verif.Proof.KindsBlock
import Verif.Proof.Kinds
import Verif.Props.Kinds
import Verif.Spec.Filled
import Verif.Proof.FilledSteps
import Verif.Proof.Filled
import Verif.Props.Filled
import Verif.Model.Run
import Verif.Model.Message
import Verif.Proof.Wider
import Verif.Props.Run
import Verif.Spec.Shape
import Verif.Proof.ShapeScan
import Verif.Proof.Shape
import Verif.Props.Shape
import Verif.Props.Whole
import Verif.Props.Before
import Verif.Props.Blame
import Verif.Props.Messages
import Verif.Props.RichAttach
import Verif.Model.Json
import Verif.Model.Tera
import Verif.Model.Templates
import Verif.Spec.Json
import Verif.Proof.Json
import Verif.Proof.JsonGraph
import Verif.Props.Json
import Verif.Spec.Places
import Verif.Proof.Places
import Verif.Proof.PlacesParser
import Verif.Props.Places
import Verif.Spec.Covers
import Verif.Props.Covers
import Verif.Props.Absent
