import Verif.Lemmas.Acos
import Verif.Lemmas.Bound
import Verif.Lemmas.FlatMap
import Verif.Lemmas.FlatSet
import Verif.Lemmas.Ieee
import Verif.Lemmas.IeeeLerp
import Verif.Lemmas.LongSum
import Verif.Lemmas.Near
import Verif.Lemmas.Norm
import Verif.Lemmas.Num
import Verif.Lemmas.NumFmt
import Verif.Lemmas.NumRead
import Verif.Lemmas.NumTail
import Verif.Lemmas.NumText
import Verif.Lemmas.PropNode
import Verif.Lemmas.PropPath
import Verif.Lemmas.SettingsFile
import Verif.Lemmas.SharedMutex
import Verif.Lemmas.StdMap
import Verif.Lemmas.Storage
import Verif.Lemmas.Str
import Verif.Lemmas.TimeText
import Verif.Lemmas.Xml
import Verif.Lemmas.XmlCut
import Verif.Lemmas.ZmlDoc
import Verif.Lemmas.ZmlLex
import Verif.Lemmas.ZmlRead
import Verif.Lemmas.ZmlRef
import Verif.Lemmas.ZmlWrite
import Verif.Model.AnglesFl
import Verif.Model.Args
import Verif.Model.Basic
import Verif.Model.Bounded
import Verif.Model.Bounds
import Verif.Model.CharStream
import Verif.Model.Circular
import Verif.Model.CircularIter
import Verif.Model.Color
import Verif.Model.ColorGradient
import Verif.Model.ColorNode
import Verif.Model.ContText
import Verif.Model.ContainerTools
import Verif.Model.Curves
import Verif.Model.CurvesFl
import Verif.Model.DataFile
import Verif.Model.Date
import Verif.Model.DateTime
import Verif.Model.Delayer
import Verif.Model.Dyn
import Verif.Model.Factory
import Verif.Model.FileCache
import Verif.Model.FileSearch
import Verif.Model.FileSteps
import Verif.Model.Files
import Verif.Model.Filter
import Verif.Model.FilterFl
import Verif.Model.FlagSet
import Verif.Model.FlatMap
import Verif.Model.FrameBuf
import Verif.Model.FrameRing
import Verif.Model.Geom
import Verif.Model.GeomReal
import Verif.Model.Glob
import Verif.Model.Handle
import Verif.Model.Hash
import Verif.Model.Ieee
import Verif.Model.IeeeColor
import Verif.Model.IeeeFilter
import Verif.Model.IeeeInterp
import Verif.Model.IeeeRandom
import Verif.Model.IeeeStats
import Verif.Model.Include
import Verif.Model.Indexed
import Verif.Model.Ini
import Verif.Model.IntAverage
import Verif.Model.Interp
import Verif.Model.LabelTable
import Verif.Model.Lexer
import Verif.Model.Listing
import Verif.Model.Log
import Verif.Model.LogFlush
import Verif.Model.LogLock
import Verif.Model.LogSinks
import Verif.Model.LongSum
import Verif.Model.Mat33
import Verif.Model.Math
import Verif.Model.MatrixFl
import Verif.Model.Memo
import Verif.Model.Mt
import Verif.Model.NodeTools
import Verif.Model.Norm
import Verif.Model.NumFns
import Verif.Model.NumText
import Verif.Model.Optional
import Verif.Model.Outcome
import Verif.Model.Own
import Verif.Model.Path
import Verif.Model.PathAlg
import Verif.Model.Plot
import Verif.Model.PnConv
import Verif.Model.PowersFl
import Verif.Model.ProfReport
import Verif.Model.Profiler
import Verif.Model.PropMore
import Verif.Model.PropNode
import Verif.Model.Proxy
import Verif.Model.QuatFast
import Verif.Model.QuatMul
import Verif.Model.Range
import Verif.Model.Recorder
import Verif.Model.Regression
import Verif.Model.Rng
import Verif.Model.SampleFl
import Verif.Model.Scale3
import Verif.Model.Select
import Verif.Model.Settings
import Verif.Model.SettingsFile
import Verif.Model.Shape
import Verif.Model.SharedMutex
import Verif.Model.Side
import Verif.Model.SignedRootFl
import Verif.Model.SmartEnum
import Verif.Model.SmoothClampFl
import Verif.Model.SoftClamp
import Verif.Model.SpecialChars
import Verif.Model.Spline
import Verif.Model.Stats
import Verif.Model.StdMap
import Verif.Model.StopToken
import Verif.Model.Storage
import Verif.Model.StorageText
import Verif.Model.StrMore
import Verif.Model.StrNum
import Verif.Model.StrTools
import Verif.Model.SystemDirs
import Verif.Model.TableText
import Verif.Model.TestCase
import Verif.Model.TestRun
import Verif.Model.TextFiles
import Verif.Model.Ticks
import Verif.Model.Time
import Verif.Model.TimeReal
import Verif.Model.TimeText
import Verif.Model.Timer
import Verif.Model.Tokens
import Verif.Model.TransformFl
import Verif.Model.Twist
import Verif.Model.TypeName
import Verif.Model.TypedIndex
import Verif.Model.UniqueDir
import Verif.Model.Vec
import Verif.Model.Vec4
import Verif.Model.Version
import Verif.Model.Views
import Verif.Model.WavesFl
import Verif.Model.WriteFunction
import Verif.Model.Xml
import Verif.Model.Zml
import Verif.Props.C01_FlatMap
import Verif.Props.C02_FlatSet
import Verif.Props.C03_Init
import Verif.Props.C04_SortedVector
import Verif.Props.C05_IndexedMap
import Verif.Props.C06_IndexedSet
import Verif.Props.C07_LabelVector
import Verif.Props.C08_Storage
import Verif.Props.C09_FindFrame
import Verif.Props.C100_Plot
import Verif.Props.C101_Own
import Verif.Props.C102_Proxy
import Verif.Props.C103_FrameBuf
import Verif.Props.C104_TableText
import Verif.Props.C105_FileSearch
import Verif.Props.C106_PropMore
import Verif.Props.C107_TextFiles
import Verif.Props.C108_ProfReport
import Verif.Props.C109_LogSinks
import Verif.Props.C10_Table
import Verif.Props.C110_CharStream
import Verif.Props.C111_Twist
import Verif.Props.C112_SettingsFile
import Verif.Props.C113_TestRun
import Verif.Props.C114_Ticks
import Verif.Props.C115_Tokens
import Verif.Props.C116_NumFns
import Verif.Props.C116_SignedRoot
import Verif.Props.C117_SmoothClamp
import Verif.Props.C118_LabelTable
import Verif.Props.C119_Between
import Verif.Props.C11_CircularDeque
import Verif.Props.C120_Nan
import Verif.Props.C121_Inside
import Verif.Props.C121_Rounding
import Verif.Props.C122_WrapRounding
import Verif.Props.C123_AverageRounding
import Verif.Props.C124_ByteRounding
import Verif.Props.C125_CollectionText
import Verif.Props.C126_TypeName
import Verif.Props.C127_SpecialChars
import Verif.Props.C128_SystemDirs
import Verif.Props.C129_ColorNode
import Verif.Props.C129_Hsv
import Verif.Props.C12_CircularBuffer
import Verif.Props.C130_FrameRing
import Verif.Props.C131_Accuracy
import Verif.Props.C131_PiecewiseRounding
import Verif.Props.C132_Vec4
import Verif.Props.C133_Elementwise
import Verif.Props.C134_Bounded
import Verif.Props.C135_IntAverage
import Verif.Props.C136_FilterRounding
import Verif.Props.C137_VarianceRounding
import Verif.Props.C138_RandomRounding
import Verif.Props.C139_WriteFunction
import Verif.Props.C13_FlagSet
import Verif.Props.C140_Mersenne
import Verif.Props.C141_Ratio
import Verif.Props.C141_TimeReal
import Verif.Props.C141_Whole
import Verif.Props.C142_Select
import Verif.Props.C143_LogFlush
import Verif.Props.C144_Norm
import Verif.Props.C145_QuatMul
import Verif.Props.C145_Rotate
import Verif.Props.C146_FileSteps
import Verif.Props.C147_QuatFast
import Verif.Props.C148_CircularIter
import Verif.Props.C149_Transform
import Verif.Props.C14_HandleVector
import Verif.Props.C150_LongSum
import Verif.Props.C150_Poly
import Verif.Props.C150_Variance
import Verif.Props.C151_FilterRounding
import Verif.Props.C152_Gradient
import Verif.Props.C153_DateTime
import Verif.Props.C154_Samples
import Verif.Props.C155_LogLock
import Verif.Props.C156_SoftClamp
import Verif.Props.C157_Curves
import Verif.Props.C158_MatrixRounding
import Verif.Props.C159_Powers
import Verif.Props.C15_PropNodeAccess
import Verif.Props.C160_SmoothClamp
import Verif.Props.C161_Angles
import Verif.Props.C162_Waves
import Verif.Props.C16_PropNodeQuery
import Verif.Props.C17_PropNodeMerge
import Verif.Props.C18_PropNodeAccessed
import Verif.Props.C19_PropNodeEq
import Verif.Props.C20_ZmlRoundTrip
import Verif.Props.C21_ZmlTermination
import Verif.Props.C22_ZmlSeparators
import Verif.Props.C23_IniRoundTrip
import Verif.Props.C24_Quoting
import Verif.Props.C24_Small
import Verif.Props.C25_Split
import Verif.Props.C26_Trim
import Verif.Props.C27_Replace
import Verif.Props.C27_Small
import Verif.Props.C28_FindNth
import Verif.Props.C29_IntText
import Verif.Props.C30_VersionOrder
import Verif.Props.C31_VersionText
import Verif.Props.C32_Path
import Verif.Props.C33_Factory
import Verif.Props.C34_FileCache
import Verif.Props.C35_Memoize
import Verif.Props.C36_Log
import Verif.Props.C37_Profiler
import Verif.Props.C38_Settings
import Verif.Props.C39_StopToken
import Verif.Props.C40_Timer
import Verif.Props.C41_Stopwatch
import Verif.Props.C42_Time
import Verif.Props.C43_IntervalChecker
import Verif.Props.C44_Side
import Verif.Props.C45_SmartEnum
import Verif.Props.C46_Optional
import Verif.Props.C47_Hash
import Verif.Props.C48_Integers
import Verif.Props.C49_Wrap
import Verif.Props.C50_Piecewise
import Verif.Props.C51_Regression
import Verif.Props.C53_Median
import Verif.Props.C54_Quat
import Verif.Props.C54_QuatReal
import Verif.Props.C56_Aabb
import Verif.Props.C57_Spline
import Verif.Props.C58_Bounds
import Verif.Props.C59_Delayer
import Verif.Props.C60_Range
import Verif.Props.C61_TestCase
import Verif.Props.C65_Color
import Verif.Props.C65_Unique
import Verif.Props.C66_Includes
import Verif.Props.C67_UniqueDir
import Verif.Props.C68_ContainerTools
import Verif.Props.C69_Glob
import Verif.Props.C70_Slicing
import Verif.Props.C72_NumText
import Verif.Props.C72_Subnormal
import Verif.Props.C73_Euler
import Verif.Props.C74_Distance
import Verif.Props.C75_Solid
import Verif.Props.C76_TimeText
import Verif.Props.C77_PnValues
import Verif.Props.C78_GeomValues
import Verif.Props.C79_TextHelpers
import Verif.Props.C80_ZmlMacros
import Verif.Props.C80_ZmlRef
import Verif.Props.C81_NodeQuery
import Verif.Props.C82_CommandLine
import Verif.Props.C83_Listings
import Verif.Props.C84_OneLineText
import Verif.Props.C85_Filters
import Verif.Props.C86_Paths
import Verif.Props.C87_Matrix
import Verif.Props.C88_Outcomes
import Verif.Props.C89_Dynamic
import Verif.Props.C90_Recorder
import Verif.Props.C91_Small
import Verif.Props.C91_StorageText
import Verif.Props.C92_TypedIndex
import Verif.Props.C93_Date
import Verif.Props.C94_Views
import Verif.Props.C95_DataFile
import Verif.Props.C96_Curves
import Verif.Props.C97_Xml
import Verif.Props.C98_Files
import Verif.Props.C99_Random
import Verif.Spec.Deque
import Verif.Spec.Frames
import Verif.Spec.Ieee
import Verif.Spec.Indexed
import Verif.Spec.Map
import Verif.Spec.Matrix
import Verif.Spec.Num
import Verif.Spec.Xml
import Verif.Spec.Zml
import Verif.Spec.ZmlDoc
import Verif.Spec.ZmlRef
