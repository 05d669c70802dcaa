import Verif.Model.Loaders
import Verif.Model.Writer
import Verif.Model.TreeIO
import Verif.Props.Low
import Verif.Props.WriterLayout
import Verif.Props.WriterCalls
import Verif.Props.ParseWritten
import Verif.Props.Loading
import Verif.Props.ParserHistory
import Verif.Props.Skipping
import Verif.Props.Sources
import Verif.Props.Tree
import Verif.Props.TreeIO
import Verif.Props.PlainSources
import Verif.Props.Iterators
import Verif.Props.Handlers
import Verif.Props.Chunked
import Verif.Props.Files
import Verif.Props.Macros
import Verif.Props.Decision
import Verif.Props.Failed
import Verif.Props.Attribute
import Verif.Props.Reference
import Verif.Props.ErrorApi
import Verif.Props.Typed
import Verif.Props.AnySource
import Verif.Props.Crash
import Verif.Props.Torn
import Verif.Props.Walk
import Verif.Props.TreeEq
import Verif.Props.Mixed
import Verif.Props.Flush
import Verif.Props.Debug
import Verif.Props.Size
import Verif.Props.ShortReads
import Verif.Props.Injective
import Verif.Props.ShortWrites
import Verif.Props.AnyLoader
import Verif.Props.Within
import Verif.Props.Dump
import Verif.Props.Unread
import Verif.Props.Draft
import Verif.Props.Outline
import Verif.Props.Edited
import Verif.Props.Inflate
import Verif.Props.Select
import Verif.Props.Standing
import Verif.Props.Written
import Verif.Props.Memory
import Verif.Props.Buffered
import Verif.Props.Stream
import Verif.Props.Prompt
import Verif.Props.Bomb
import Verif.Props.Gaps
import Verif.Props.Symbols
import Verif.Props.Resting
import Verif.Props.Unsteady
import Verif.Props.Growing
import Verif.Props.AnyDest
import Verif.Props.BufCrash
import Verif.Props.BufRead
import Verif.Props.Component
import Verif.Props.Relay
import Verif.Props.Passage
import Verif.Props.Shaky
import Verif.Props.Mishaps
