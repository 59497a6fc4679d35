import Verif.Props.Utf8
import Verif.Props.Convert
import Verif.Props.ConvertExact
import Verif.Props.Grapheme
import Verif.Props.Width
import Verif.Props.Word
import Verif.Props.FsArray
import Verif.Props.Script
import Verif.Props.Emoji
import Verif.Props.Run
import Verif.Props.Norm
import Verif.Props.Tables
import Verif.Props.Case
import Verif.Props.ScanAscii
import Verif.Props.Scan
import Verif.Props.ScanChunk
import Verif.Props.ScanWidth
import Verif.Props.Capi
import Verif.Props.TgParser
import Verif.Props.TgRecords
import Verif.Props.TgDerived
import Verif.Props.TgCompose
import Verif.Props.TgCase
import Verif.Lemmas.TgQc
import Verif.Props.TgNorm
import Verif.Props.TgNormSample
import Verif.Props.TgApi
import Verif.Props.TgApi2
import Verif.Props.TgApi3
import Verif.Props.TgNames
import Verif.Props.TgApiSample
import Verif.Spec.UcdRecord
import Verif.Model.TgRow
import Verif.Props.TgRow
import Verif.Props.TgRowSample
import Verif.Spec.UcdEnum
import Verif.Model.TgEnums
import Verif.Props.TgEnums
import Verif.Props.TgEnums2
import Verif.Props.TgEnumsSample
import Verif.Spec.UcdSound
import Verif.Model.Compiled
import Verif.Props.Library
import Verif.Props.LibrarySample
import Verif.Spec.Vector
import Verif.Model.Simd
import Verif.Lemmas.Vector
import Verif.Props.Simd
import Verif.Props.SimdConvert
import Verif.Spec.Cpu
import Verif.Model.SimdDetect
import Verif.Props.SimdDetect
import Verif.Spec.Escape
import Verif.Model.Inspect
import Verif.Model.Query
import Verif.Props.Inspect
import Verif.Props.Inspect2
import Verif.Props.Inspect3
import Verif.Props.Query
import Verif.Props.Query2
import Verif.Spec.Cxx
import Verif.Lemmas.Cxx
import Verif.Lemmas.CxxInit
import Verif.Lemmas.CxxUnique
import Verif.Model.TgEmit
import Verif.Lemmas.TgEmit
import Verif.Lemmas.TgEmit2
import Verif.Lemmas.TgEmit3
import Verif.Lemmas.TgEmit4
import Verif.Props.TgEmit
import Verif.Props.TgEmitRows
import Verif.Lemmas.TablesRange
import Verif.Props.TgEmitFiles
import Verif.Props.TablesExact
import Verif.Props.Utf8Exact
import Verif.Lemmas.ScanWrap
import Verif.Props.ScanWrap
import Verif.Lemmas.ScanCols
import Verif.Props.ScanCols
import Verif.Lemmas.ScanResume
import Verif.Props.ScanResume
import Verif.Model.TgCode
import Verif.Spec.CxxFn
import Verif.Lemmas.CxxFn
import Verif.Lemmas.CxxFn2
import Verif.Lemmas.CxxFn3
import Verif.Lemmas.CxxFn4
import Verif.Lemmas.CxxFn5
import Verif.Lemmas.CxxRun
import Verif.Lemmas.CxxRun2
import Verif.Props.TgCode
import Verif.Props.TgCodeFiles
import Verif.Props.TgCodeSample
import Verif.Props.TgHeader
import Verif.Props.ScanFill
import Verif.Spec.CxxFile
import Verif.Model.TgUcd
import Verif.Lemmas.CxxFile
import Verif.Lemmas.TgUcd
import Verif.Lemmas.TgUcd2
import Verif.Props.TgUcd
import Verif.Props.ScanLines
import Verif.Model.TgFiles
import Verif.Lemmas.TgFiles
import Verif.Props.TgFiles
import Verif.Model.TgMain
import Verif.Props.TgMain
import Verif.Spec.ScanBorder
import Verif.Lemmas.ScanExact
import Verif.Props.ScanExact
import Verif.Props.LibraryScan
import Verif.Model.TgDir
import Verif.Spec.Lines
import Verif.Lemmas.TgLines
import Verif.Props.TgLines
import Verif.Props.TgProgram
import Verif.Props.TgProgramCase
import Verif.Props.TgProgramEnums
import Verif.Props.ScanLine
import Verif.Props.ScanFresh
import Verif.Lemmas.TgComment
import Verif.Lemmas.TgApiData
import Verif.Props.TgProgramApi
import Verif.Lemmas.TgWorld
import Verif.Props.TgProgramWorld
import Verif.Lemmas.ScanTake
import Verif.Props.ScanTake
import Verif.Lemmas.ScanTakeText
import Verif.Props.ScanTakeText
import Verif.Model.Iterators
import Verif.Props.Iterators
import Verif.Props.Instances
import Verif.Lemmas.ScanWrap2
import Verif.Props.ScanWrap2
import Verif.Props.ScanWrap3
import Verif.Props.ScanWrap4
import Verif.Spec.Regex
import Verif.Spec.UcdLoader
import Verif.Model.LoaderFiles
import Verif.Lemmas.Regex
import Verif.Lemmas.Loader
import Verif.Lemmas.LoaderLine
import Verif.Lemmas.LoaderPass
import Verif.Lemmas.LoaderName
import Verif.Props.Loader
import Verif.Props.LoaderAgree
import Verif.Props.LoaderSample
import Verif.Spec.CxxIncludes
import Verif.Props.TgIncludes
import Verif.Spec.LoaderValues
import Verif.Spec.CxxKeywords
import Verif.Props.TgKeywords
import Verif.Props.TgLinesSample
import Verif.Model.Threads
import Verif.Spec.Threads
import Verif.Props.Threads
import Verif.Props.Overloads
import Verif.Spec.NormFull
import Verif.Props.NormFull
import Verif.Props.NormForms
import Verif.Props.QuickCheck
import Verif.Props.Valid
import Verif.Props.ValidFiles
import Verif.Spec.TextLines
import Verif.Props.TextLines
import Verif.Props.TextLinesFiles
import Verif.Props.TextPrefix
import Verif.Props.EmojiPrefix
import Verif.Props.RunPrefix
import Verif.Props.Levels
import Verif.Props.RunClusters
import Verif.Props.WidthPrefix
import Verif.Props.Pieces
import Verif.Props.PieceTitles
import Verif.Props.WidthJoined
