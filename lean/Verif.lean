import Verif.Model.Data
import Verif.Model.Includes
import Verif.Model.Parse
import Verif.Props.Url
import Verif.Props.Depth
import Verif.Props.Data
import Verif.Props.Preproc
import Verif.Props.Lexer
import Verif.Props.Includes
import Verif.Props.LexerShape
import Verif.Props.LexLines
import Verif.Props.Parse
import Verif.Props.Text
import Verif.Props.Html
import Verif.Props.HtmlRun
import Verif.Props.HtmlText
import Verif.Props.Safe
import Verif.Props.Markup
import Verif.Props.MarkupOut
import Verif.Props.Values
import Verif.Props.Ids
import Verif.Props.Owned
import Verif.Props.MarkupMore
import Verif.Props.Pipeline
import Verif.Props.Conditional
import Verif.Props.Meta
import Verif.Props.Serde
import Verif.Props.Wasm
import Verif.Props.Names
import Verif.Props.Blowup
import Verif.Props.IncludeDoc
import Verif.Props.Bibliography
import Verif.Props.Format
import Verif.Props.HardBreak
import Verif.Props.Whitespace
import Verif.Props.PageJson
import Verif.Props.RawText
import Verif.Props.Scored
import Verif.Props.SerdeRead
import Verif.Props.Tags
import Verif.Props.Comments
import Verif.Props.Reads
import Verif.Props.Limits
