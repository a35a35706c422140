import Verif.Model.Main
import Verif.Model.NodeHeap
import Verif.Props.Escape
import Verif.Props.Uri
import Verif.Props.LineEndings
import Verif.Props.Smart
import Verif.Props.Compose
import Verif.Props.HtmlSafe
import Verif.Props.NodeProps
import Verif.Props.Parsed
import Verif.Props.ParsedHtml
import Verif.Props.Unescape
import Verif.Props.Lines
import Verif.Props.Code
import Verif.Props.Labels
import Verif.Props.Origin
import Verif.Props.Rst
import Verif.Props.Reads
import Verif.Props.Source
import Verif.Props.Refs
import Verif.Props.Nest
import Verif.Props.Concat
import Verif.Props.Item
import Verif.Props.Document
import Verif.Props.Phrase
import Verif.Props.First
import Verif.Props.SmartDoc
import Verif.Props.HtmlTree
import Verif.Props.JsonRead
import Verif.Props.Lazy
import Verif.Props.Blank
import Verif.Props.RstTree
import Verif.Props.Tabs
import Verif.Props.Size
import Verif.Props.Spelling
import Verif.Props.Reuse
import Verif.Props.Ends
import Verif.Props.Merge
import Verif.Props.DocRefs
import Verif.Props.Write
import Verif.Props.Quotes
import Verif.Props.Delims
import Verif.Props.Dump
import Verif.Props.Positions
import Verif.Props.SafeParts
import Verif.Props.Walks
import Verif.Props.Stream
import Verif.Props.Uses
import Verif.Props.Soft
import Verif.Check.Spec01
import Verif.Check.Spec02
import Verif.Check.Spec03
import Verif.Check.Spec04
import Verif.Check.Spec05
import Verif.Check.Spec06
import Verif.Check.Spec07
import Verif.Check.Spec08
import Verif.Check.Spec09
import Verif.Check.Spec10
import Verif.Check.Rst01
import Verif.Check.Unit01
