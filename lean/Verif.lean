import Verif.Model.Expand
import Verif.Props.Style
import Verif.Props.Formatter
import Verif.Props.Text
import Verif.Props.Ansi
import Verif.Props.Html
import Verif.Props.Io
import Verif.Props.Std
import Verif.Props.Grammar
import Verif.Props.Macro
import Verif.Props.MacroArgs
import Verif.Props.MacroNl
import Verif.Props.MacroStyle
import Verif.Props.Api
import Verif.Props.Failure
import Verif.Props.FailureIo
import Verif.Props.MacroCall
import Verif.Props.StdParity
import Verif.Props.Compose
import Verif.Props.Propagate
import Verif.Props.Deliver
import Verif.Props.Spelling
import Verif.Props.Terminates
import Verif.Props.NoPanic
import Verif.Props.Lines
import Verif.Props.IoBytes
import Verif.Props.Borrow
import Verif.Props.Front
import Verif.Props.Inline
import Verif.Props.Accumulate
import Verif.Props.Prefix
import Verif.Props.Parts
import Verif.Props.Nested
import Verif.Props.Attrless
import Verif.Props.Browser
import Verif.Props.IoText
import Verif.Props.Vt
import Verif.Props.Css
import Verif.Props.Cut
import Verif.Props.CutWhole
import Verif.Props.Hygiene
import Verif.Props.Compiles
import Verif.Props.Whole
import Verif.Props.Ownership
import Verif.Props.Debug
import Verif.Props.Lifetime
import Verif.Props.Field
import Verif.Props.Buffered
import Verif.Props.Shared
import Verif.Props.CarryOn
import Verif.Props.Calls
import Verif.Props.RawNames
import Verif.Props.Dropped
import Verif.Props.StdCall
import Verif.Props.Mistake
import Verif.Props.Features
import Verif.Props.Types
import Verif.Props.SharedWriter
import Verif.Props.Clones
import Verif.Props.Normal
import Verif.Props.InFormatter
import Verif.Props.InTurn
import Verif.Props.Live
import Verif.Props.Killed
import Verif.Props.Stained
import Verif.Props.Pre
import Verif.Props.Tail
import Verif.Props.Xml
import Verif.Props.Place
import Verif.Props.Pick
import Verif.Props.Search
import Verif.Props.Partly
import Verif.Props.SearchIo
import Verif.Props.Edit
import Verif.Props.Samples
import Verif.Props.Recompose
import Verif.Props.Replace
import Verif.Props.ReplaceIo
import Verif.Props.Policy
import Verif.Props.Convert
import Verif.Props.DebugMore
import Verif.Props.Adaptor
import Verif.Props.AdaptorIo
import Verif.Props.DebugIo
import Verif.Props.Quoted
import Verif.Props.Arrange
import Verif.Props.Charset
import Verif.Props.Buffer
import Verif.RepoTests
