import Verif.Go
import Verif.Model.Ints
import Verif.Spec.Ints
import Verif.Lemmas.Ints
import Verif.Props.Ints
import Verif.Model.Decimal
import Verif.Spec.Decimal
import Verif.Lemmas.Decimal
import Verif.Model.Cmp
import Verif.Spec.Order
import Verif.Props.Cmp
import Verif.Model.Int128
import Verif.Spec.Int128
import Verif.Lemmas.Int128
import Verif.Lemmas.I128
import Verif.Lemmas.Shift128
import Verif.Props.Int128
import Verif.Props.Int128All
import Verif.Model.Time
import Verif.Props.Time
import Verif.Model.Option
import Verif.Props.Option
import Verif.Model.OptionHeap
import Verif.Props.OptionHeap
import Verif.Model.Misc
import Verif.Props.Misc
import Verif.Spec.List
import Verif.Model.Vec
import Verif.Props.Vec
import Verif.Props.VecSearch
import Verif.Model.SliceHeap
import Verif.Props.SliceHeap
import Verif.Model.VecDeque
import Verif.Lemmas.VecDeque
import Verif.Props.VecDeque
import Verif.Props.DequeMemory
import Verif.Props.DequeRaw
import Verif.Model.DequeHeap
import Verif.Props.DequeHeap
import Verif.Props.DequeCopy
import Verif.Model.LinkedList
import Verif.Lemmas.LinkedList
import Verif.Props.LinkedList
import Verif.Props.LinkedIter
import Verif.Model.BinaryHeap
import Verif.Props.BinaryHeap
import Verif.Model.HashMap
import Verif.Spec.Map
import Verif.Props.HashMap
import Verif.Props.HashSet
import Verif.Model.BTree
import Verif.Spec.OrdMap
import Verif.Lemmas.OrdMap
import Verif.Lemmas.BTree
import Verif.Lemmas.BTreeInsert
import Verif.Lemmas.BTreeRemove
import Verif.Lemmas.BTreeLost
import Verif.Lemmas.BTreeIter
import Verif.Lemmas.BTreeFill
import Verif.Lemmas.BTreeBig
import Verif.Props.BTreeMap
import Verif.Props.BTreeBig
import Verif.Props.BTreeSet
import Verif.Props.BTreeEq
import Verif.Model.Utf8
import Verif.Model.Str
import Verif.Spec.Unicode
import Verif.Lemmas.Utf8
import Verif.Props.Str
import Verif.Model.Text
import Verif.Lemmas.Text
import Verif.Props.Text
import Verif.Props.StrSearch
import Verif.Props.StrEmpty
import Verif.Props.Format
import Verif.Model.Conc
import Verif.Model.ConcEvents
import Verif.Model.Thread
import Verif.Props.Thread
import Verif.Props.Gokio
import Verif.Props.GokioFs
import Verif.Props.Nested
import Verif.Props.Collect
import Verif.Props.Mutex
import Verif.Model.Os
import Verif.Model.Fs
import Verif.Lemmas.Fs
import Verif.Props.Fs
import Verif.Props.FsTree
import Verif.Props.FsJoin
import Verif.Props.FsElect
import Verif.Model.FsConc
import Verif.Props.FsConc
import Verif.Model.FsUpdate
import Verif.Props.FsUpdate
import Verif.Model.TaskExit
import Verif.Props.TaskExit
import Verif.Props.FsOutcome
import Verif.Props.FsPaths
import Verif.Model.Complex
import Verif.Props.Complex
import Verif.Props.ComplexError
import Verif.Model.SortUnwind
import Verif.Props.SortUnwind
import Verif.Props.DequeMixed
import Verif.Props.DequeAll
import Verif.Props.FloatOrder
import Verif.Props.FloatArith
import Verif.Props.Const
import Verif.Props.Display
import Verif.Props.DisplayNested
import Verif.Model.Assign
import Verif.Props.Assign
import Verif.Model.Io
import Verif.Props.Io
import Verif.Model.Float
import Verif.Lemmas.Float
import Verif.Props.Float
import Verif.Props.BTreeCopy
import Verif.Props.BTreeCopyRemove
import Verif.Model.HeapSlice
import Verif.Props.HeapSlice
import Verif.Props.HeapSelf
import Verif.Props.FloatText
import Verif.Model.Unwind
import Verif.Props.UnwindHeap
import Verif.Props.Unwind
import Verif.Props.Reenter
import Verif.Model.IterHeap
import Verif.Props.IterHeap
import Verif.Model.CollectHeap
import Verif.Props.CollectHeap
import Verif.Props.DequeIterHeap
import Verif.Props.ListIterHeap
import Verif.Model.BTreeUnwind
import Verif.Lemmas.BTreeUnwind
import Verif.Props.BTreeUnwind
import Verif.Props.Counts
import Verif.Lemmas.BTreeAny
import Verif.Props.BTreeAny
import Verif.Model.BTreeSteps
import Verif.Lemmas.BTreeSteps
import Verif.Props.BTreeSteps
import Verif.Lemmas.BTreeAgree
import Verif.Lemmas.BTreeApart
import Verif.Lemmas.BTreeAgreeCmp
import Verif.Props.BTreeSame
import Verif.Props.ZeroValue
import Verif.Props.ForkJoin
import Verif.Props.TaskTree
import Verif.Props.TaskLocks
import Verif.Props.TaskLogic
import Verif.Props.Race
import Verif.Props.RacePrograms
import Verif.Props.ResultState
import Verif.Props.Pipeline
import Verif.Props.Transactions
import Verif.Props.Deadlock
import Verif.Props.Backoff
import Verif.Props.SharedAtomic
import Verif.Props.Abandon
import Verif.Props.Agree
import Verif.Props.FsConfine
import Verif.Props.FsIso
import Verif.Props.FsUndo
import Verif.Model.FsTasks
import Verif.Props.FsApart
import Verif.Props.FsListing
import Verif.Props.FsShare
import Verif.Props.SharedObject
import Verif.Props.TaskData
import Verif.Props.RawOrder
import Verif.Tests.Ops
import Verif.Tests.Sets
import Verif.Tests.Floats
