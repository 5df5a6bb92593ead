import Verif.Lemmas.Tree
import Verif.Props.ActionNames
import Verif.Props.BinSearch
import Verif.Props.BindLaws
import Verif.Props.Bitmap
import Verif.Props.BitmapMisuse
import Verif.Props.BoolRange
import Verif.Props.Branch
import Verif.Props.CString
import Verif.Props.ChainFilter
import Verif.Props.Chance
import Verif.Props.ChanceAccLimit
import Verif.Props.ChanceActions
import Verif.Props.ChanceCalls
import Verif.Props.ChanceClass
import Verif.Props.ChanceComb
import Verif.Props.ChanceCombLimit
import Verif.Props.ChanceDep
import Verif.Props.ChanceDepLimit
import Verif.Props.ChanceDiscard
import Verif.Props.ChanceFilterLimit
import Verif.Props.ChanceFloat
import Verif.Props.ChanceFloatSet
import Verif.Props.ChanceIntervals
import Verif.Props.ChanceLive
import Verif.Props.ChanceOneOf
import Verif.Props.ChanceOrder
import Verif.Props.ChanceRounds
import Verif.Props.ChanceSet
import Verif.Props.ChanceSetAny
import Verif.Props.ChanceSetLimit
import Verif.Props.ChanceSetTest
import Verif.Props.ChanceSettle
import Verif.Props.ChanceTest
import Verif.Props.ChanceTestLimit
import Verif.Props.ChanceUnicode
import Verif.Props.Char
import Verif.Props.Combinator
import Verif.Props.Concurrency
import Verif.Props.ConcurrencyGo
import Verif.Props.ConcurrencySettings
import Verif.Props.Conditions
import Verif.Props.ConstructRefs
import Verif.Props.Containers
import Verif.Props.Context
import Verif.Props.Cost
import Verif.Props.CutOff
import Verif.Props.DiscardFilter
import Verif.Props.Drawing
import Verif.Props.EndToEnd
import Verif.Props.Erasure
import Verif.Props.Factories
import Verif.Props.Faults
import Verif.Props.FaultsData
import Verif.Props.FilterTwice
import Verif.Props.FloatSet
import Verif.Props.Floating
import Verif.Props.Fork
import Verif.Props.ForkTrace
import Verif.Props.Format
import Verif.Props.Handshake
import Verif.Props.Hooks
import Verif.Props.Integral
import Verif.Props.Interleavings
import Verif.Props.LazyShrink
import Verif.Props.ListLike
import Verif.Props.Macro
import Verif.Props.MapCommutes
import Verif.Props.MapDepends
import Verif.Props.MapTest
import Verif.Props.Matrix
import Verif.Props.NegativeSizes
import Verif.Props.Nested
import Verif.Props.NestedCalls
import Verif.Props.NestedTests
import Verif.Props.OneOf
import Verif.Props.Output
import Verif.Props.Ownership
import Verif.Props.PairTuple
import Verif.Props.Percent
import Verif.Props.Pointee
import Verif.Props.Printing
import Verif.Props.Process
import Verif.Props.Property
import Verif.Props.PropertyMake
import Verif.Props.PropertyObject
import Verif.Props.PropertyState
import Verif.Props.QuietHooks
import Verif.Props.Race
import Verif.Props.Recursive
import Verif.Props.Replay
import Verif.Props.Seed
import Verif.Props.Settings
import Verif.Props.ShrinkLaws
import Verif.Props.Shrinkable
import Verif.Props.Signs
import Verif.Props.Simplest
import Verif.Props.SimplestComb
import Verif.Props.Sizes
import Verif.Props.Spawn
import Verif.Props.Stateful
import Verif.Props.StatefulMinimal
import Verif.Props.StatefulSettings
import Verif.Props.Stream
import Verif.Props.StreamPointers
import Verif.Props.Support
import Verif.Props.Throwing
import Verif.Props.TimeLimit
import Verif.Props.Together
import Verif.Props.TupleTest
import Verif.Props.Unicode
import Verif.Props.UnicodeText
import Verif.Props.Verdict
import Verif.Axioms
