import Verif.Bits.Props
import Verif.Arith.Props
import Verif.HashTable.Props
import Verif.Hash.Props
import Verif.Str.Props
import Verif.PQueue.Props
import Verif.IList.Props
import Verif.RefPtr.Props
import Verif.SharedLib.Props
import Verif.RefTS.Props
import Verif.AtomicRef.Props
import Verif.Function.Props
import Verif.Maybe.Props
import Verif.FixedArray.Props
import Verif.Raii.Props
import Verif.Flags.Props
import Verif.Vec.Props
import Verif.ThreadLocal.Props
import Verif.Mutex.Props
import Verif.Num.Props
import Verif.ArgParser.Props
import Verif.ArgParser.Props2
import Verif.ArgParser.PropsUsage
import Verif.Rewriter.Props
import Verif.ArgParser.PropsLine
import Verif.ArgParser.PropsBuild
import Verif.RefTS.PropsOrder
import Verif.AtomicRef.PropsOrder
import Verif.Os.Props
import Verif.Flags.PropsEnum
import Verif.Storage.Props
import Verif.Thread.Props
import Verif.AtomicRef.PropsWeak
import Verif.Bits.PropsTarget
import Verif.ThreadLocal.PropsExtra
import Verif.Str.PropsMsvc
import Verif.RefPtr.PropsCopy
import Verif.IList.PropsCopy
import Verif.SharedLib.PropsFull
import Verif.Raii.PropsRef
import Verif.Alloc.Props
import Verif.HashTable.PropsArgs
import Verif.Str.PropsOverlap
import Verif.ThreadLocal.PropsMany
import Verif.PQueue.PropsCmp
import Verif.HashTable.PropsCost
import Verif.HashTable.PropsCalls
import Verif.ArgParser.PropsMany
import Verif.RefPtr.PropsReenter
import Verif.HashTable.PropsReenter
import Verif.Function.PropsReenter
import Verif.Conform.Small
import Verif.Conform.Containers
import Verif.Conform.Programs
import Verif.Restyler.Props
import Verif.Restyler.PropsTool
import Verif.ArgParser.PropsError
import Verif.Hash.PropsRef
import Verif.Hash.PropsHash64
import Verif.Str.PropsStdString
import Verif.AtomicRef.PropsGraph
import Verif.AtomicRef.PropsProgress
import Verif.HashTable.PropsAny
import Verif.ThreadLocal.PropsLossy
import Verif.SharedLib.PropsWindows
import Verif.IList.PropsExact
import Verif.FixedArray.PropsLeak
import Verif.Bits.PropsExact
import Verif.Str.PropsCase
import Verif.ArgParser.PropsExact
import Verif.ArgParser.PropsClient
import Verif.PQueue.PropsAny
import Verif.Maybe.PropsThrows
import Verif.FixedArray.PropsThrows
import Verif.Function.PropsThrows
import Verif.PQueue.PropsThrows
import Verif.HashTable.PropsThrows
import Verif.Raii.PropsExits
import Verif.RefPtr.PropsExact
import Verif.Hash.PropsChars
import Verif.RefPtr.PropsWidth
import Verif.Thread.PropsLife
import Verif.ThreadLocal.PropsWeak
import Verif.Vec.PropsThrows
import Verif.Str.PropsVaList
import Verif.PQueue.PropsItems
import Verif.RefPtr.PropsManual
import Verif.Raii.PropsVoid
import Verif.Str.PropsLocale
import Verif.RefPtr.PropsNewborn
import Verif.Thread.PropsName
import Verif.HashTable.PropsWhich
