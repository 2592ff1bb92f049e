import Verif.Props.Varint
import Verif.Props.Header
import Verif.Props.RoundTrip
import Verif.Props.Struct
import Verif.Props.Choice
import Verif.Props.Compat
import Verif.Props.Robust
import Verif.Props.Memory
import Verif.Props.TypeScript
import Verif.Props.Validator
import Verif.Props.Identifier
import Verif.Props.Modules
import Verif.Props.Tokenizer
import Verif.Props.Parser
import Verif.Props.Format
import Verif.Props.Loader
import Verif.Props.Driver
import Verif.Props.Listing
import Verif.Props.Names
import Verif.Props.Io
import Verif.Props.Evolution
import Verif.Props.EndToEnd
import Verif.Props.Violations
import Verif.Props.LoadErrors
import Verif.Props.Exact
import Verif.Props.Depth
import Verif.Props.Truncation
import Verif.Props.Scopes
import Verif.Props.TsTruncation
import Verif.Props.GeneratedRust
import Verif.Props.GeneratedFile
import Verif.Props.GeneratedTypeScript
import Verif.Props.GeneratedTsFile
import Verif.Props.TsStack
import Verif.Props.TsIntegers
import Verif.Props.TsValues
import Verif.Props.RustRuntime
import Verif.Props.AcrossLanguages
import Verif.Props.GeneratedDevices
import Verif.Props.RustTypes
import Verif.Props.RustTyping
import Verif.Props.TsTypes
import Verif.Props.SameCode
import Verif.Props.Connections
import Verif.Props.Crash
import Verif.Props.RustMoves
import Verif.Props.ExactPrograms
import Verif.Props.Report
import Verif.Props.Rollout
import Verif.Props.Main
import Verif.Props.OneWay
import Verif.Props.Messages
