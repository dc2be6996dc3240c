import Verif.Audit
import Verif.Model.ArgReader
import Verif.Model.Args
import Verif.Model.ArrayLib
import Verif.Model.Backtrace
import Verif.Model.Basic
import Verif.Model.Branch
import Verif.Model.Checksum
import Verif.Model.Chrono
import Verif.Model.Codec
import Verif.Model.Compile
import Verif.Model.Compound
import Verif.Model.Conf
import Verif.Model.CowHashMap
import Verif.Model.CowString
import Verif.Model.CowVector
import Verif.Model.Csv
import Verif.Model.Dictionary
import Verif.Model.Dirs
import Verif.Model.Double
import Verif.Model.Env
import Verif.Model.Exec
import Verif.Model.ExecCode
import Verif.Model.Files
import Verif.Model.Format
import Verif.Model.Gc
import Verif.Model.GcAuto
import Verif.Model.Globals
import Verif.Model.HashTable
import Verif.Model.Ini
import Verif.Model.IntOps
import Verif.Model.Io
import Verif.Model.Json
import Verif.Model.JsonReal
import Verif.Model.Lexer
import Verif.Model.LinearBuffer
import Verif.Model.Log
import Verif.Model.Logf
import Verif.Model.MemPool
import Verif.Model.Modules
import Verif.Model.NumExp
import Verif.Model.NumTables
import Verif.Model.NumText
import Verif.Model.Numeric
import Verif.Model.Operators
import Verif.Model.Optional
import Verif.Model.Order
import Verif.Model.Parser
import Verif.Model.Pipe
import Verif.Model.Print
import Verif.Model.Random
import Verif.Model.RealText
import Verif.Model.Refcnt
import Verif.Model.Remove
import Verif.Model.Rod
import Verif.Model.SeqOps
import Verif.Model.Slice
import Verif.Model.Source
import Verif.Model.StaticVector
import Verif.Model.StrFind
import Verif.Model.StrMap
import Verif.Model.StrSearch
import Verif.Model.Stream
import Verif.Model.Subscript
import Verif.Model.Syntax
import Verif.Model.Teardown
import Verif.Model.Uchar
import Verif.Model.Utf
import Verif.Model.Uuid
import Verif.Model.Value
import Verif.Model.Variant
import Verif.Model.Zlib
import Verif.Proof.ArgReader
import Verif.Proof.ArrayRotate
import Verif.Proof.ArraySort
import Verif.Proof.Backtrace
import Verif.Proof.Chrono
import Verif.Proof.Codec
import Verif.Proof.CodecUrl
import Verif.Proof.Compile
import Verif.Proof.ConfAccept
import Verif.Proof.ConfLex
import Verif.Proof.ConfNum
import Verif.Proof.ConfParse
import Verif.Proof.ConfSafe
import Verif.Proof.ConfSound
import Verif.Proof.CowHashMap
import Verif.Proof.CowString
import Verif.Proof.CowStringState
import Verif.Proof.CowVector
import Verif.Proof.Csv
import Verif.Proof.DeferSpec
import Verif.Proof.Dictionary
import Verif.Proof.Dirs
import Verif.Proof.Exec
import Verif.Proof.ExecDemo
import Verif.Proof.ExecFlow
import Verif.Proof.ExecTrace
import Verif.Proof.Files
import Verif.Proof.Format
import Verif.Proof.Gc
import Verif.Proof.GcAuto
import Verif.Proof.GcCollect
import Verif.Proof.GcTerm
import Verif.Proof.Globals
import Verif.Proof.HashTable
import Verif.Proof.Ini
import Verif.Proof.IniText
import Verif.Proof.IntOps
import Verif.Proof.Io
import Verif.Proof.JsonExact
import Verif.Proof.JsonLexeme
import Verif.Proof.JsonLoad
import Verif.Proof.JsonNum
import Verif.Proof.JsonRead
import Verif.Proof.JsonReal
import Verif.Proof.JsonSafe
import Verif.Proof.JsonShape
import Verif.Proof.JsonString
import Verif.Proof.JsonToken
import Verif.Proof.JsonWrite
import Verif.Proof.Jump
import Verif.Proof.JumpRun
import Verif.Proof.LexExact
import Verif.Proof.LexExactInt
import Verif.Proof.LexExactNum
import Verif.Proof.LexExactText
import Verif.Proof.Lexer
import Verif.Proof.LexerLoop
import Verif.Proof.LexerNum
import Verif.Proof.LexerReload
import Verif.Proof.LexerSpells
import Verif.Proof.LexerTokens
import Verif.Proof.Log
import Verif.Proof.MemPool
import Verif.Proof.NumText
import Verif.Proof.Opt
import Verif.Proof.OptBind
import Verif.Proof.OptExpr
import Verif.Proof.OptGen
import Verif.Proof.OptSim
import Verif.Proof.OptState
import Verif.Proof.OptStmt
import Verif.Proof.Order
import Verif.Proof.ParserComplete
import Verif.Proof.ParserSound
import Verif.Proof.Pipe
import Verif.Proof.Print
import Verif.Proof.RealAccuracy
import Verif.Proof.RealCast
import Verif.Proof.RealDecimal
import Verif.Proof.RealDecimal2
import Verif.Proof.RealDigits
import Verif.Proof.RealLayout
import Verif.Proof.RealLiteral
import Verif.Proof.RealNearest
import Verif.Proof.RealPrint
import Verif.Proof.RefStack
import Verif.Proof.Refcnt
import Verif.Proof.Remove
import Verif.Proof.RemoveLoop
import Verif.Proof.Rod
import Verif.Proof.Safe
import Verif.Proof.SafeGen
import Verif.Proof.SafeInd
import Verif.Proof.SafeNode
import Verif.Proof.SafeRun
import Verif.Proof.SafeStep
import Verif.Proof.Scope
import Verif.Proof.ScopeRun
import Verif.Proof.ScriptComplete
import Verif.Proof.ScriptSound
import Verif.Proof.Source
import Verif.Proof.StaticVector
import Verif.Proof.StrFind
import Verif.Proof.StrMap
import Verif.Proof.StrSearch
import Verif.Proof.Subscript
import Verif.Proof.Syntax
import Verif.Proof.SyntaxEnds
import Verif.Proof.SyntaxMono
import Verif.Proof.SyntaxQuiet
import Verif.Proof.SyntaxWithin
import Verif.Proof.Teardown
import Verif.Proof.Uchar
import Verif.Proof.Utf
import Verif.Proof.ValueSame
import Verif.Proof.Variant
import Verif.Proof.Zlib
import Verif.Proof.ZlibToy
import Verif.Props.ArgReader
import Verif.Props.Args
import Verif.Props.ArrayLib
import Verif.Props.Backtrace
import Verif.Props.Checksum
import Verif.Props.Chrono
import Verif.Props.Codec
import Verif.Props.CodecExact
import Verif.Props.Compare
import Verif.Props.Compound
import Verif.Props.Conf
import Verif.Props.CowHashMap
import Verif.Props.CowString
import Verif.Props.CowVector
import Verif.Props.Csv
import Verif.Props.Dictionary
import Verif.Props.Dirs
import Verif.Props.Env
import Verif.Props.ExecCalls
import Verif.Props.ExecCode
import Verif.Props.ExecDefer
import Verif.Props.ExecEach
import Verif.Props.ExecExpr
import Verif.Props.ExecFlow
import Verif.Props.Files
import Verif.Props.Format
import Verif.Props.Gc
import Verif.Props.GcAuto
import Verif.Props.Globals
import Verif.Props.Ini
import Verif.Props.IniText
import Verif.Props.IntOps
import Verif.Props.Io
import Verif.Props.Json
import Verif.Props.JsonExact
import Verif.Props.Jump
import Verif.Props.LexExact
import Verif.Props.Lexer
import Verif.Props.LinearBuffer
import Verif.Props.Log
import Verif.Props.Logf
import Verif.Props.MemPool
import Verif.Props.Modules
import Verif.Props.NumExp
import Verif.Props.NumText
import Verif.Props.Numeric
import Verif.Props.Operators
import Verif.Props.Opt
import Verif.Props.Optional
import Verif.Props.Order
import Verif.Props.Parser
import Verif.Props.Pipe
import Verif.Props.Print
import Verif.Props.Random
import Verif.Props.RealLiteral
import Verif.Props.RealText
import Verif.Props.Refcnt
import Verif.Props.Remove
import Verif.Props.Rod
import Verif.Props.Safe
import Verif.Props.Scope
import Verif.Props.Script
import Verif.Props.SeqOps
import Verif.Props.Slice
import Verif.Props.Source
import Verif.Props.StaticVector
import Verif.Props.StrFind
import Verif.Props.StrMap
import Verif.Props.StrSearch
import Verif.Props.Stream
import Verif.Props.Subscript
import Verif.Props.Syntax
import Verif.Props.Teardown
import Verif.Props.Uchar
import Verif.Props.Utf
import Verif.Props.Uuid
import Verif.Props.Variant
import Verif.Props.Zlib
import Verif.Spec.Backtrace
import Verif.Spec.Chrono
import Verif.Spec.Conf
import Verif.Spec.CowString
import Verif.Spec.Defer
import Verif.Spec.Dirs
import Verif.Spec.Env
import Verif.Spec.Files
import Verif.Spec.Flow
import Verif.Spec.Format
import Verif.Spec.GcAuto
import Verif.Spec.Globals
import Verif.Spec.Grammar
import Verif.Spec.Ini
import Verif.Spec.IniText
import Verif.Spec.Io
import Verif.Spec.Json
import Verif.Spec.JsonReal
import Verif.Spec.JsonText
import Verif.Spec.Jump
import Verif.Spec.LexExact
import Verif.Spec.Lexical
import Verif.Spec.Log
import Verif.Spec.MemPool
import Verif.Spec.Opt
import Verif.Spec.Optional
import Verif.Spec.Order
import Verif.Spec.Overload
import Verif.Spec.Print
import Verif.Spec.RealLiteral
import Verif.Spec.RealText
import Verif.Spec.Refcnt
import Verif.Spec.Remove
import Verif.Spec.RfcNumber
import Verif.Spec.Rod
import Verif.Spec.Safe
import Verif.Spec.Scope
import Verif.Spec.Script
import Verif.Spec.StaticVector
import Verif.Spec.StrFind
import Verif.Spec.StrMap
import Verif.Spec.Stream
import Verif.Spec.Syntax
import Verif.Spec.Teardown
import Verif.Spec.Uchar
import Verif.Spec.Variant
import Verif.Spec.Zlib
