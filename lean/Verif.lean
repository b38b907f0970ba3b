import Verif.Proofs.Word
import Verif.Proofs.Mem
import Verif.Proofs.Traits
import Verif.Proofs.ArrayInit
import Verif.Proofs.Array
import Verif.Proofs.Struct
import Verif.Proofs.StructInit
import Verif.Proofs.StructAccess
import Verif.Proofs.StructSet
import Verif.Proofs.Clone
import Verif.Proofs.Newtype
import Verif.Proofs.VBox
import Verif.Proofs.SeqHist
import Verif.Proofs.LibType
import Verif.Proofs.Layout
import Verif.Props.Layout
import Verif.Proofs.StrAssign
import Verif.Props.Arrays
import Verif.Props.Str
import Verif.Proofs.NoDrop
import Verif.Props.Boxes
import Verif.Proofs.CloneSpec
import Verif.Props.Clone
import Verif.Proofs.SeqExtend
import Verif.Proofs.SeqZero
import Verif.Props.Seq
import Verif.Props.SeqIndex
import Verif.Props.SeqDemo
import Verif.Props.SeqZero
import Verif.Proofs.StructProps
import Verif.Proofs.Drops
import Verif.Props.Struct
import Verif.Model.Macro
import Verif.Spec.Macro
import Verif.Proofs.Macro
import Verif.Props.Macro
import Verif.Model.MacroSem
import Verif.Spec.MacroSem
import Verif.Spec.Unwind
import Verif.Proofs.MacroSem
import Verif.Proofs.MacroNames
import Verif.Props.MacroSem
import Verif.Props.MacroExamples
import Verif.Spec.Moves
import Verif.Proofs.Moves
import Verif.Props.Moves
import Verif.Props.Debug
import Verif.Model.NewArray
import Verif.Spec.NewArray
import Verif.Proofs.NewArray
import Verif.Props.NewArray
import Verif.Spec.Client
import Verif.Proofs.Client
import Verif.Proofs.ClientSteps
import Verif.Props.Client
import Verif.Props.Header
import Verif.Model.DropPanic
import Verif.Spec.DropPanic
import Verif.Proofs.DropPanic
import Verif.Proofs.DropPanicSet
import Verif.Props.DropPanic
import Verif.Props.LenPanic
import Verif.Model.SeqIter
import Verif.Spec.ItemIter
import Verif.Proofs.SeqIter
import Verif.Props.SeqIter
import Verif.Model.Generics
import Verif.Spec.Generics
import Verif.Proofs.Generics
import Verif.Props.Generics
import Verif.Model.TreeBorrows
import Verif.Model.Borrow
import Verif.Spec.TreeBorrows
import Verif.Spec.Borrow
import Verif.Spec.Cells
import Verif.Proofs.TreeBorrows
import Verif.Proofs.BorrowGrow
import Verif.Proofs.BorrowTypes
import Verif.Proofs.BorrowAgg
import Verif.Proofs.BorrowAccess
import Verif.Proofs.BorrowRefs
import Verif.Proofs.BorrowInit
import Verif.Props.Borrow
import Verif.Props.BorrowDemo
import Verif.Props.BorrowCells
import Verif.Props.BorrowCellsDemo
import Verif.Spec.Pin
import Verif.Props.Pin
import Verif.Model.Unpin
import Verif.Props.Unpin
import Verif.Props.ByValue
import Verif.Props.Scopes
import Verif.Props.Dispatch
import Verif.Spec.Allocs
import Verif.Props.Allocs
import Verif.Model.AutoTraits
import Verif.Spec.Threads
import Verif.Props.Threads
import Verif.Spec.Controls
import Verif.Props.Controls
import Verif.Model.LayoutEq
import Verif.Props.LayoutEq
import Verif.Model.Paths
import Verif.Spec.Paths
import Verif.Proofs.Paths
import Verif.Props.Paths
import Verif.Props.LenTime
import Verif.Props.StdContracts
import Verif.Props.StackedBorrows
import Verif.Props.NewtypeDrop
import Verif.Props.DocExamples
import Verif.Model.UserCode
import Verif.Spec.UserCode
import Verif.Proofs.UserSim
import Verif.Proofs.UserReplay
import Verif.Proofs.UserAgg
import Verif.Proofs.UserLeaf
import Verif.Proofs.UserTop
import Verif.Props.UserCode
import Verif.Model.UserDrop
import Verif.Spec.UserDrop
import Verif.Proofs.UserDrop
import Verif.Proofs.UserBoxes
import Verif.Props.UserDrop
import Verif.Spec.ClientPanic
import Verif.Proofs.ClientPanic
import Verif.Props.ClientPanic
import Verif.Props.Encapsulation
import Verif.Spec.Sized
import Verif.Props.Sized
import Verif.Proofs.UserSet
import Verif.Props.UserSet
import Verif.Model.Variance
import Verif.Spec.Variance
import Verif.Props.Variance
import Verif.Model.StackedDrop
import Verif.Proofs.StackedDrop
import Verif.Props.Memory
import Verif.Model.Containers
import Verif.Spec.Containers
import Verif.Proofs.Containers
import Verif.Props.Containers
import Verif.Model.Arena
import Verif.Spec.Arena
import Verif.Proofs.Arena
import Verif.Proofs.ArenaInit
import Verif.Proofs.ArenaOps
import Verif.Proofs.ArenaNew
import Verif.Proofs.ArenaSteps
import Verif.Proofs.ArenaSeq
import Verif.Props.Arena
import Verif.Props.ArenaSeq
import Verif.Model.StackedSeq
import Verif.Proofs.StackedSeq
import Verif.Proofs.StackedFrame
import Verif.Props.StackedSeq
