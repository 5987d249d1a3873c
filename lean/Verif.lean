import Verif.Base.Post
import Verif.Alloc.Linear
import Verif.Alloc.Malloc
import Verif.Alloc.Fallback
import Verif.Alloc.Overflow
import Verif.Alloc.Freelist
import Verif.Alloc.Cascading
import Verif.Alloc.Ty
import Verif.Spec.History
import Verif.Spec.Demo
import Verif.Props.Memory
import Verif.Props.Reports
import Verif.Props.Linear
import Verif.Alloc.Handles
import Verif.Util.Bits
import Verif.Util.Builder
import Verif.Props.Handles
import Verif.Props.Bits
import Verif.Props.Builders
import Verif.Spec.Strict
import Verif.Spec.Lifo
import Verif.Props.Routing
import Verif.Props.Cascading
import Verif.Props.Construct
import Verif.Conc.Shared
import Verif.Conc.Atomic
import Verif.Conc.Threaded
import Verif.Props.Shared
import Verif.Props.AtomicShared
import Verif.Props.Threaded
import Verif.Alloc.Posix
import Verif.Props.AlignedMalloc
import Verif.Containers.Pool
import Verif.Containers.Vector
import Verif.Containers.VectorSpec
import Verif.Props.Vector
import Verif.Props.VectorOps
import Verif.Props.VectorAlias
import Verif.Containers.Array
import Verif.Props.Array
import Verif.Containers.Objects
import Verif.Containers.BinaryHeap
import Verif.Containers.HeapOrder
import Verif.Containers.BinaryHeapSpec
import Verif.Containers.BinaryHeapOps
import Verif.Props.BinaryHeapRun
import Verif.Props.BinaryHeap
import Verif.Props.TwoPools
import Verif.Props.BinaryHeapAlias
import Verif.Containers.Buffer
import Verif.Props.Buffer
import Verif.Alloc.Move
import Verif.Spec.Moving
import Verif.Props.Move
import Verif.Props.Served
import Verif.Props.Instances
import Verif.Props.ThreadedBlocks
import Verif.Alloc.Copy
import Verif.Props.Copies
import Verif.Conc.Order
import Verif.Props.HappensBefore
import Verif.Props.NullFree
import Verif.Props.BinaryHeapCost
import Verif.Alloc.Equal
import Verif.Spec.Handing
import Verif.Props.Interchange
import Verif.Containers.SharedVector
import Verif.Props.SharedVector
import Verif.Containers.Unchecked
import Verif.Props.Unchecked
import Verif.Conc.CascadingOwns
import Verif.Props.QuietCalls
import Verif.Props.ThreadedOwns
import Verif.Props.VectorStable
import Verif.Alloc.Debug
import Verif.Props.Asserts
import Verif.Props.Aligned
import Verif.Exc.Model
import Verif.Exc.Inv
import Verif.Exc.Containers
import Verif.Props.Noexcept
import Verif.Props.NoexceptContainers
import Verif.Conc.AtomicThreaded
import Verif.Props.AtomicThreaded
import Verif.Alloc.Rebind
import Verif.Props.Rebind
import Verif.Base.Says
import Verif.Spec.Says
import Verif.Spec.Firm
import Verif.Props.Silent
import Verif.Conc.Prog
import Verif.Conc.ProgVector
import Verif.Conc.ProgArray
import Verif.Conc.ProgHeap
import Verif.Spec.Oracle
import Verif.Spec.Crew
import Verif.Props.Crew
import Verif.Containers.Iterate
import Verif.Props.Iterate
import Verif.Containers.BinaryHeapCalls
import Verif.Spec.HeapCalls
import Verif.Spec.Deaf
import Verif.Spec.SaysHeap
import Verif.Props.HeapReports
import Verif.Conc.Body
import Verif.Conc.BodySound
import Verif.Conc.BodySafe
import Verif.Conc.Gang
import Verif.Spec.Gang
import Verif.Props.Gang
import Verif.Alloc.Pointers
import Verif.Props.Pointers
import Verif.Spec.Header
import Verif.Spec.Twin
import Verif.Spec.Ghost
import Verif.Props.Contents
import Verif.Props.SelfMove
import Verif.Props.Global
import Verif.Props.Throws
import Verif.Conc.Local
import Verif.Spec.Depot
import Verif.Spec.Local
import Verif.Props.Local
import Verif.Containers.Pointers
import Verif.Spec.Agree
import Verif.Spec.ContainerPointers
import Verif.Props.ContainerPointers
import Verif.Containers.HeapPointers
import Verif.Spec.HeapPointers
import Verif.Props.HeapPointers
import Verif.Spec.Any
import Verif.Alloc.Narrow
import Verif.Props.Narrow
import Verif.Props.NarrowContainers
import Verif.Alloc.Thrown
import Verif.Props.Thrown
import Verif.Containers.ArrayThrown
import Verif.Props.ArrayThrown
import Verif.Props.Uncaught
import Verif.Alloc.Doors
import Verif.Props.Doors
import Verif.Conc.GangOrder
import Verif.Spec.GangOrder
import Verif.Props.NoRace
import Verif.Alloc.Around
import Verif.Props.Around
import Verif.Props.AroundReport
import Verif.Props.Swap
import Verif.Props.Same
import Verif.Containers.Comparators
import Verif.Props.Comparators
import Verif.Spec.Steady
import Verif.Spec.Asks
import Verif.Props.Enough
import Verif.Props.EnoughThreads
import Verif.Props.Footprint
import Verif.Props.FootprintContainers
import Verif.Props.FootprintThreads
import Verif.Props.GiveBack
import Verif.Props.HeapStable
import Verif.Props.Progress
import Verif.Props.GiveBackThreads
import Verif.Props.Mallocs
import Verif.Props.MallocsThreads
import Verif.Audit
