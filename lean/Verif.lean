import Verif.Props.Stacked
import Verif.Props.BlankLines
import Verif.Props.ParaLines
import Verif.Props.ItemWhole
import Verif.Props.Found
import Verif.Props.Texts
import Verif.Props.InText
import Verif.Props.ItemMarks
import Verif.Props.DefEntries
import Verif.Props.ItemBlocks
import Verif.Props.ItemLines
import Verif.Props.ListNest
import Verif.Props.ListWhole
import Verif.Props.Whole
import Verif.Props.PlainStarts
import Verif.Props.Quotes
import Verif.Props.DefStarts
import Verif.Props.FenceStarts
import Verif.Props.BlockStarts
import Verif.Props.LineStarts
import Verif.Props.LinkRead
import Verif.Props.Lost
import Verif.Props.Options
import Verif.Props.Places
import Verif.Props.Crlf
import Verif.Props.Numbers
import Verif.Props.HtmlFails
import Verif.Props.Cost
import Verif.Props.Parse
import Verif.Props.Blocks
import Verif.Props.Elements
import Verif.Props.Tables
import Verif.Props.Lists
import Verif.Props.Inline
import Verif.Props.Equality
import Verif.Props.Hash
import Verif.Props.VimwikiOut
import Verif.Props.Wasm
import Verif.Props.Paths
import Verif.Props.Hints
import Verif.Props.Html
import Verif.Props.Cli
import Verif.Props.RoundTrip
import Verif.Props.HtmlShow
import Verif.Props.Inspect
import Verif.Props.Serde
import Verif.Props.Links
import Verif.Props.Moved
import Verif.Props.Template
import Verif.Props.Convert
import Verif.Props.Copy
import Verif.Props.Children
import Verif.Props.Macros
import Verif.Props.Quote
import Verif.Tests.Parsers
import Verif.Tests.VimwikiOut
import Verif.Tests.HtmlOut
import Verif.Tests.Pages
