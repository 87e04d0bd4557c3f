import Verif.Props.Unicode
import Verif.Props.Lru
import Verif.Props.LruCopy
import Verif.Props.SafeLru
import Verif.Props.Str
import Verif.Props.Num
import Verif.Props.Seq
import Verif.Props.Value
import Verif.Props.Stopwatch
import Verif.Props.StopwatchBits
import Verif.Props.Scope
import Verif.Props.Pool
import Verif.Props.PoolNest
import Verif.Props.PoolFault
import Verif.Props.PoolLife
import Verif.Props.LogText
import Verif.Props.LogBuf
import Verif.Props.Log
import Verif.Props.LogBusy
import Verif.Props.LogCfg
import Verif.Props.LogReenter
import Verif.Props.LruMove
import Verif.Props.LogMacro
import Verif.Props.Float
import Verif.Props.NumText
import Verif.Props.FloatText
import Verif.Props.Locale
import Verif.Props.Literal
import Verif.Props.Alias
import Verif.Props.LogKeep
import Verif.Props.Statics
import Verif.Props.MapInto
import Verif.Props.LogStream
import Verif.Props.Braces
import Verif.Props.LruOrder
import Verif.Props.PoolClock
import Verif.Props.PoolRace
import Verif.Props.PoolSteps
import Verif.Props.LogSteps
import Verif.Props.LogRace
import Verif.Props.LogShare
import Verif.Props.LogRead
import Verif.Props.LogArgs
import Verif.Props.PoolFair
import Verif.Props.LogFault
import Verif.Props.FloatSpecial
import Verif.Props.FloatRange
import Verif.Props.UtfStr
import Verif.Props.LogUtf
import Verif.Props.LogFormat
import Verif.Props.LogWhole
import Verif.Props.LogNames
import Verif.Props.LogDir
import Verif.Props.LogLink
import Verif.Props.LogExit
import Verif.Props.RangeTable
import Verif.Props.Arith
import Verif.Props.Callback
import Verif.Props.LocaleStatic
import Verif.Props.StopwatchReal
import Verif.Props.LruUse
import Verif.Props.UtfOrder
import Verif.Props.LruTable
import Verif.Props.ScopeFault
import Verif.Props.LruWait
import Verif.Props.LruOpt
import Verif.Props.UtfSize
import Verif.Props.LogLimit
import Verif.Props.StrLaws
import Verif.Props.SeqLaws
import Verif.Props.SeqPerm
import Verif.Props.LruLife
import Verif.Props.NumLocale
import Verif.Props.LogWriters
import Verif.Props.SearchLaws
import Verif.Props.Together
import Verif.Props.WordLaws
import Verif.Props.PoolDefault
import Verif.Props.LogLevels
import Verif.Props.LogOutside
import Verif.Props.LogTime
import Verif.Props.PoolOrder
import Verif.Props.PoolExit
