import Verif.Model.Prog
import Verif.Model.Vec
import Verif.Model.Packed
import Verif.Model.Split
import Verif.Model.Segment
import Verif.Model.TypeInfoMap
import Verif.Model.Collection
import Verif.Model.Traversal
import Verif.Spec.Std
import Verif.Model.Algorithm
import Verif.Lemmas.Runs
import Verif.Lemmas.Vec
import Verif.Lemmas.Split
import Verif.Lemmas.SplitOps
import Verif.Lemmas.SplitMake
import Verif.Lemmas.Segment
import Verif.Lemmas.SegmentOps
import Verif.Spec.State
import Verif.Lemmas.TMap
import Verif.Lemmas.Coll
import Verif.Lemmas.Iter
import Verif.Lemmas.State
import Verif.Lemmas.CollOps
import Verif.Lemmas.CollPos
import Verif.Lemmas.CollRange
import Verif.Lemmas.StatePos
import Verif.Lemmas.CollErase
import Verif.Lemmas.CollAll
import Verif.Lemmas.Traverse
import Verif.Lemmas.Whole
import Verif.Lemmas.WholeColl
import Verif.Lemmas.Keeps
import Verif.Lemmas.KeepsColl
import Verif.Lemmas.History
import Verif.Lemmas.CollMore
import Verif.Lemmas.RangeCopies
import Verif.Lemmas.Rehash
import Verif.Lemmas.AnyPacked
import Verif.Lemmas.GoodHistory
import Verif.Lemmas.Mend
import Verif.Lemmas.MendSplit
import Verif.Lemmas.MendAny
import Verif.Lemmas.MendShrink
import Verif.Lemmas.FullShort
import Verif.Lemmas.Lax
import Verif.Lemmas.RehashSpares
import Verif.Lemmas.Stays
import Verif.Lemmas.CollFail
import Verif.Lemmas.Unharmed
import Verif.Lemmas.Stale
import Verif.Lemmas.Never
import Verif.Lemmas.Short
import Verif.Lemmas.Spares
import Verif.Props.Basic
import Verif.Props.Sample
import Verif.Props.SampleData
import Verif.Props.Registration
import Verif.Props.Insertion
import Verif.Props.SampleFail
import Verif.Props.Exceptions
import Verif.Props.Erasure
import Verif.Props.Traversal
import Verif.Props.Iterators
import Verif.Props.Capacity
import Verif.Lemmas.CopyFail
import Verif.Lemmas.Sim
import Verif.Lemmas.Pieces
import Verif.Lemmas.StdAlg
import Verif.Lemmas.AlgoSim
import Verif.Lemmas.AlgoFind
import Verif.Lemmas.AlgoCount
import Verif.Lemmas.AlgoSearch
import Verif.Lemmas.AlgoCarry
import Verif.Lemmas.AlgoAdjacent
import Verif.Spec.Ranges
import Verif.Lemmas.AlgoUnique
import Verif.Lemmas.AlgoPart
import Verif.Lemmas.AlgoPerm
import Verif.Lemmas.StdPerm
import Verif.Lemmas.StdPure
import Verif.Props.Whole
import Verif.Props.Rehash
import Verif.Lemmas.AlgoCut
import Verif.Lemmas.AlgoCalls
import Verif.Lemmas.StdMap
import Verif.Props.SampleRange
import Verif.Props.Algorithms
import Verif.Props.AlgorithmsMore
import Verif.Props.Restitution
import Verif.Model.Stride
import Verif.Props.Stride
import Verif.Lemmas.Frame
import Verif.Props.SampleRecovery
import Verif.Props.Recovery
import Verif.Model.Reading
import Verif.Props.Reading
import Verif.Model.Writing
import Verif.Lemmas.Leaves
import Verif.Lemmas.KeepsWriting
import Verif.Lemmas.Writing
import Verif.Props.Writing
import Verif.Spec.Machine
import Verif.Lemmas.Refine
import Verif.Lemmas.MachineDet
import Verif.Props.Machine
import Verif.Lemmas.Fair
import Verif.Lemmas.Throws
import Verif.Props.Causes
import Verif.Lemmas.Cost
import Verif.Props.Cost
import Verif.Props.Answers
import Verif.Model.Object
import Verif.Lemmas.Object
import Verif.Props.Object
import Verif.Props.ObjectHint
import Verif.Model.Holder
import Verif.Props.Holder
import Verif.Lemmas.Limits
import Verif.Lemmas.LimitsColl
import Verif.Props.Limits
import Verif.Lemmas.Own
import Verif.Lemmas.OwnColl
import Verif.Props.Own
import Verif.Model.Heap
import Verif.Lemmas.Heap
import Verif.Lemmas.HeapHist
import Verif.Props.Heap
import Verif.Model.Callable
import Verif.Lemmas.Callable
import Verif.Props.Callable
import Verif.Model.Placement
import Verif.Lemmas.Placement
import Verif.Props.Placement
import Verif.Model.NodeReuse
import Verif.Model.MovedFrom
import Verif.Model.Construct
import Verif.Lemmas.NodeReuse
import Verif.Lemmas.MovedFrom
import Verif.Props.NodeReuse
import Verif.Props.MovedFrom
import Verif.Props.Construct
import Verif.Spec.Calls
import Verif.Lemmas.Calls
import Verif.Lemmas.AlgoTally
import Verif.Props.Calls
import Verif.Model.ForEach
import Verif.Spec.Visit
import Verif.Lemmas.ForEach
import Verif.Lemmas.HalfMoved
import Verif.Lemmas.Left
import Verif.Props.ForEach
import Verif.Props.HalfMoved
import Verif.Props.FromRange
import Verif.Model.Interface
import Verif.Props.Interface
import Verif.Props.Overloads
import Verif.Spec.Overloads
import Verif.Model.Work
import Verif.Model.Arith
import Verif.Spec.Work
import Verif.Spec.Arith
import Verif.Lemmas.Work
import Verif.Lemmas.Arith
import Verif.Lemmas.WorkBounds
import Verif.Lemmas.WorkSession
import Verif.Props.Work
import Verif.Props.Arith
import Verif.Model.Counts
import Verif.Lemmas.Counts
import Verif.Props.Counts
import Verif.Model.Effort
import Verif.Spec.Effort
import Verif.Lemmas.Effort
import Verif.Props.Effort
import Verif.Model.Accept
import Verif.Spec.Accept
import Verif.Lemmas.Accept
import Verif.Props.Accept
import Verif.Model.Descriptor
import Verif.Spec.Descriptor
import Verif.Lemmas.Descriptor
import Verif.Props.Descriptor
import Verif.Model.Ranges
import Verif.Lemmas.Ranges
import Verif.Props.Ranges
import Verif.Spec.Follow
import Verif.Lemmas.Follow
import Verif.Props.SampleFollow
import Verif.Props.Follow
import Verif.Model.TypeLists
import Verif.Props.TypeLists
import Verif.Model.Functors
import Verif.Model.IterTypes
import Verif.Props.IterTypes
import Verif.Props.Functors
import Verif.Model.Results
import Verif.Lemmas.Results
import Verif.Props.Results
