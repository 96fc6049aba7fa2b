import Verif.Spec
import Verif.Model.Align
import Verif.Model.AlignShape
import Verif.Model.Api
import Verif.Model.Arrays
import Verif.Model.Basic
import Verif.Model.Bits
import Verif.Model.Blocks
import Verif.Model.Callbacks
import Verif.Model.Calls
import Verif.Model.Capacity
import Verif.Model.Checked
import Verif.Model.Clock
import Verif.Model.Convert
import Verif.Model.Corr
import Verif.Model.CorrBlocks
import Verif.Model.Disk
import Verif.Model.Dispatch
import Verif.Model.Double
import Verif.Model.Effects
import Verif.Model.Enum
import Verif.Model.File
import Verif.Model.Graph
import Verif.Model.Handles
import Verif.Model.Heap
import Verif.Model.HeapBuild
import Verif.Model.History
import Verif.Model.Kabsch
import Verif.Model.Lifetime
import Verif.Model.Matcher
import Verif.Model.MemTest
import Verif.Model.Metric
import Verif.Model.NWApi
import Verif.Model.NWEnum
import Verif.Model.NWGraph
import Verif.Model.NWHeap
import Verif.Model.NWHeapEnum
import Verif.Model.NWHistory
import Verif.Model.NWMemTest
import Verif.Model.NWNested
import Verif.Model.NWSearch
import Verif.Model.Nested
import Verif.Model.Popped
import Verif.Model.Rebuild
import Verif.Model.Recompile
import Verif.Model.Search
import Verif.Model.SetOps
import Verif.Model.Shift
import Verif.Model.SortRule
import Verif.Model.Uninit
import Verif.Model.Units
import Verif.Model.Utils
import Verif.Model.Values
import Verif.Model.Wrappers
import Verif.Lemmas.AWApi
import Verif.Lemmas.AWCtor
import Verif.Lemmas.AWEnum
import Verif.Lemmas.AWEnumBody
import Verif.Lemmas.AWEnumFor
import Verif.Lemmas.AWEnumScan
import Verif.Lemmas.AWHeld
import Verif.Lemmas.AWHeur
import Verif.Lemmas.AWScan
import Verif.Lemmas.AWSearch
import Verif.Lemmas.AWStack
import Verif.Lemmas.AWUpd
import Verif.Lemmas.AWVertex
import Verif.Lemmas.AdjList
import Verif.Lemmas.Align
import Verif.Lemmas.AlignShape
import Verif.Lemmas.AllCliques
import Verif.Lemmas.Api
import Verif.Lemmas.Bare
import Verif.Lemmas.Basic
import Verif.Lemmas.BinaryFind
import Verif.Lemmas.Bits
import Verif.Lemmas.Blocks
import Verif.Lemmas.Budget
import Verif.Lemmas.Callbacks
import Verif.Lemmas.Checked
import Verif.Lemmas.Clean
import Verif.Lemmas.Clique
import Verif.Lemmas.Clock
import Verif.Lemmas.Collect
import Verif.Lemmas.Consume
import Verif.Lemmas.Corr
import Verif.Lemmas.CorrBlocks
import Verif.Lemmas.CorrCount
import Verif.Lemmas.Count
import Verif.Lemmas.Ctor
import Verif.Lemmas.Ctor2
import Verif.Lemmas.Cut
import Verif.Lemmas.CutFile
import Verif.Lemmas.DblRound
import Verif.Lemmas.Disk
import Verif.Lemmas.EXAllCliques
import Verif.Lemmas.EXApi
import Verif.Lemmas.EXBounds
import Verif.Lemmas.EXCalls
import Verif.Lemmas.EXConsume
import Verif.Lemmas.EXDouble
import Verif.Lemmas.EXHeld
import Verif.Lemmas.EXMain
import Verif.Lemmas.EdgeCount
import Verif.Lemmas.EdgeCountExact
import Verif.Lemmas.Effects
import Verif.Lemmas.Enum
import Verif.Lemmas.EnumBody
import Verif.Lemmas.EnumFor
import Verif.Lemmas.EnumKeeps
import Verif.Lemmas.EnumScan
import Verif.Lemmas.Euclid
import Verif.Lemmas.Export
import Verif.Lemmas.File
import Verif.Lemmas.Flip
import Verif.Lemmas.FlipApi
import Verif.Lemmas.FlipEnum
import Verif.Lemmas.FlipNW
import Verif.Lemmas.FlipNWApi
import Verif.Lemmas.FlipNWEnum
import Verif.Lemmas.FlipStack
import Verif.Lemmas.Greedy
import Verif.Lemmas.Handles
import Verif.Lemmas.Heap
import Verif.Lemmas.HeapAny
import Verif.Lemmas.HeapBuild
import Verif.Lemmas.HeapUse
import Verif.Lemmas.Held
import Verif.Lemmas.HeldSearch
import Verif.Lemmas.Heur
import Verif.Lemmas.History
import Verif.Lemmas.Idle
import Verif.Lemmas.Iterated
import Verif.Lemmas.Junk
import Verif.Lemmas.JunkApi
import Verif.Lemmas.JunkEnum
import Verif.Lemmas.Kabsch
import Verif.Lemmas.Late
import Verif.Lemmas.Lifetime
import Verif.Lemmas.Loaders
import Verif.Lemmas.Lock
import Verif.Lemmas.Longer
import Verif.Lemmas.Lost
import Verif.Lemmas.Matching
import Verif.Lemmas.MemTest
import Verif.Lemmas.Metric
import Verif.Lemmas.Mono
import Verif.Lemmas.Moved
import Verif.Lemmas.NWCtor
import Verif.Lemmas.NWCut
import Verif.Lemmas.NWEnum
import Verif.Lemmas.NWEnumBody
import Verif.Lemmas.NWEnumFor
import Verif.Lemmas.NWEnumScan
import Verif.Lemmas.NWExact
import Verif.Lemmas.NWHeap
import Verif.Lemmas.NWHeapAny
import Verif.Lemmas.NWHeapEnum
import Verif.Lemmas.NWHeapEnumAny
import Verif.Lemmas.NWHeapSound
import Verif.Lemmas.NWHeapUse
import Verif.Lemmas.NWHeur
import Verif.Lemmas.NWMemSpec
import Verif.Lemmas.NWMemTest
import Verif.Lemmas.NWNested
import Verif.Lemmas.NWNext
import Verif.Lemmas.NWObj
import Verif.Lemmas.NWRat
import Verif.Lemmas.NWRequests
import Verif.Lemmas.NWRoomExact
import Verif.Lemmas.NWSameLoad
import Verif.Lemmas.NWScan
import Verif.Lemmas.NWSearch
import Verif.Lemmas.NWStack
import Verif.Lemmas.NWUpd
import Verif.Lemmas.NWVertex
import Verif.Lemmas.Nested
import Verif.Lemmas.Popcount
import Verif.Lemmas.Popped
import Verif.Lemmas.PoppedW
import Verif.Lemmas.Radix
import Verif.Lemmas.Rec
import Verif.Lemmas.Recompile
import Verif.Lemmas.Relset
import Verif.Lemmas.Renumber
import Verif.Lemmas.Requests
import Verif.Lemmas.Results
import Verif.Lemmas.Room
import Verif.Lemmas.RoomExact
import Verif.Lemmas.SameLoad
import Verif.Lemmas.Scale
import Verif.Lemmas.ScaleCorr
import Verif.Lemmas.Search
import Verif.Lemmas.SetOps
import Verif.Lemmas.Shift
import Verif.Lemmas.Shown
import Verif.Lemmas.Sort
import Verif.Lemmas.SortRule
import Verif.Lemmas.Stack
import Verif.Lemmas.StackScan
import Verif.Lemmas.StackVertex
import Verif.Lemmas.Stuck
import Verif.Lemmas.Subset
import Verif.Lemmas.Timed
import Verif.Lemmas.Tolerance
import Verif.Lemmas.Upd
import Verif.Lemmas.Values
import Verif.Lemmas.WF
import Verif.Lemmas.WGreedy
import Verif.Lemmas.WRecompile
import Verif.Lemmas.WSpecLemmas
import Verif.Lemmas.Wrappers
import Verif.Props.Align
import Verif.Props.AlignEdge
import Verif.Props.AlignShape
import Verif.Props.Arrays
import Verif.Props.Bounds
import Verif.Props.Capacity
import Verif.Props.Checked
import Verif.Props.Clock
import Verif.Props.Compilers
import Verif.Props.Convert
import Verif.Props.CorrCount
import Verif.Props.CorrLoops
import Verif.Props.Correspondence
import Verif.Props.CutFile
import Verif.Props.Disk
import Verif.Props.Dispatch
import Verif.Props.Effects
import Verif.Props.EffectsMixed
import Verif.Props.Euclid
import Verif.Props.ExportExact
import Verif.Props.FewLost
import Verif.Props.File
import Verif.Props.Handles
import Verif.Props.Heap
import Verif.Props.HeapBuild
import Verif.Props.Idle
import Verif.Props.Invariance
import Verif.Props.Iteration
import Verif.Props.Kabsch
import Verif.Props.Larger
import Verif.Props.Largest
import Verif.Props.Lengths
import Verif.Props.Lifetime
import Verif.Props.Loading
import Verif.Props.Loops
import Verif.Props.MaxClique
import Verif.Props.Maximal
import Verif.Props.MaximalDouble
import Verif.Props.MemTest
import Verif.Props.Memory
import Verif.Props.MemoryExact
import Verif.Props.Metric
import Verif.Props.Mirror
import Verif.Props.NWHeap
import Verif.Props.NWHeapEnum
import Verif.Props.NWMemTest
import Verif.Props.NoMore
import Verif.Props.Object
import Verif.Props.OneVertex
import Verif.Props.OneVertexDouble
import Verif.Props.Order
import Verif.Props.Parts
import Verif.Props.PartsDouble
import Verif.Props.Popped
import Verif.Props.Rebuild
import Verif.Props.RebuildAsked
import Verif.Props.RepoTests
import Verif.Props.Requests
import Verif.Props.Resized
import Verif.Props.SameLoad
import Verif.Props.Sample
import Verif.Props.Shift
import Verif.Props.SortRule
import Verif.Props.Structures
import Verif.Props.Subset
import Verif.Props.Timed
import Verif.Props.Tolerance
import Verif.Props.Uninitialised
import Verif.Props.Units
import Verif.Props.Values
import Verif.Props.Weighted
import Verif.Props.WeightedArith
import Verif.Props.WeightedBounds
import Verif.Props.WeightedCompilers
import Verif.Props.WeightedDouble
import Verif.Props.WeightedHeld
import Verif.Props.WeightedInfo
import Verif.Props.WeightedIteration
import Verif.Props.WeightedMore
import Verif.Props.WeightedNested
import Verif.Props.WeightedObject
import Verif.Props.Wrappers
