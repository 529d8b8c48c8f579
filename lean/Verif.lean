import Verif.Base.F64
import Verif.Base.Out
import Verif.Lemmas.Alloc
import Verif.Lemmas.Alone
import Verif.Lemmas.Blocks
import Verif.Lemmas.Cap
import Verif.Lemmas.Cells
import Verif.Lemmas.Control
import Verif.Lemmas.ControlSafe
import Verif.Lemmas.Data
import Verif.Lemmas.Deriv
import Verif.Lemmas.DerivAny
import Verif.Lemmas.DerivAssign
import Verif.Lemmas.DerivControl
import Verif.Lemmas.DerivDual
import Verif.Lemmas.DerivPiece
import Verif.Lemmas.DerivReal
import Verif.Lemmas.DerivSeed
import Verif.Lemmas.DerivSelf
import Verif.Lemmas.DerivStore
import Verif.Lemmas.Eval
import Verif.Lemmas.Exist
import Verif.Lemmas.F64
import Verif.Lemmas.Fails
import Verif.Lemmas.Heap
import Verif.Lemmas.Interp
import Verif.Lemmas.MachAssign
import Verif.Lemmas.MachBor
import Verif.Lemmas.MachExec
import Verif.Lemmas.MachFrame
import Verif.Lemmas.MachFun
import Verif.Lemmas.MachInv
import Verif.Lemmas.MachReady
import Verif.Lemmas.MachSafe
import Verif.Lemmas.MachSub
import Verif.Lemmas.MachWrite
import Verif.Lemmas.MatSubset
import Verif.Lemmas.Naive
import Verif.Lemmas.Names
import Verif.Lemmas.Numeric
import Verif.Lemmas.ProgBor
import Verif.Lemmas.ProgOwn
import Verif.Lemmas.Rejects
import Verif.Lemmas.Scope
import Verif.Lemmas.SexpOwn
import Verif.Lemmas.Step
import Verif.Lemmas.Store
import Verif.Lemmas.StoreSafe
import Verif.Lemmas.StoreSpec
import Verif.Lemmas.Strong
import Verif.Lemmas.Subset
import Verif.Model.Alloc
import Verif.Model.At
import Verif.Model.BorrowSEXP
import Verif.Model.Condition
import Verif.Model.Control
import Verif.Model.Deriv
import Verif.Model.DerivAlloc
import Verif.Model.DerivControl
import Verif.Model.DerivF64
import Verif.Model.Distri
import Verif.Model.DistriLock
import Verif.Model.Examples
import Verif.Model.Expr
import Verif.Model.Heap
import Verif.Model.Held
import Verif.Model.HeldRead
import Verif.Model.Helper
import Verif.Model.Interp
import Verif.Model.Machine
import Verif.Model.MatSubset
import Verif.Model.Print
import Verif.Model.RCall
import Verif.Model.RIface
import Verif.Model.RefLoop
import Verif.Model.Reflect
import Verif.Model.Store
import Verif.Model.Subset
import Verif.Model.Threads
import Verif.Model.Traits
import Verif.Model.Typed
import Verif.Model.Utils
import Verif.Props.Alloc
import Verif.Props.AllocSeq
import Verif.Props.Alone
import Verif.Props.Append
import Verif.Props.Assign
import Verif.Props.At
import Verif.Props.BorrowSEXP
import Verif.Props.BubbleSort
import Verif.Props.ColonConst
import Verif.Props.ColonDouble
import Verif.Props.Commute
import Verif.Props.CommuteControl
import Verif.Props.CommuteX
import Verif.Props.Condition
import Verif.Props.Construct
import Verif.Props.Control
import Verif.Props.ControlMemory
import Verif.Props.ControlSafe
import Verif.Props.Data
import Verif.Props.Deriv
import Verif.Props.DerivAlloc
import Verif.Props.DerivControl
import Verif.Props.DerivDims
import Verif.Props.DerivInit
import Verif.Props.DerivPiece
import Verif.Props.DerivPlain
import Verif.Props.DerivRound
import Verif.Props.Distri
import Verif.Props.DistriLock
import Verif.Props.Expr
import Verif.Props.FailedAlloc
import Verif.Props.Fibonacci
import Verif.Props.Frac
import Verif.Props.Frame
import Verif.Props.Fusion
import Verif.Props.Held
import Verif.Props.HeldRead
import Verif.Props.Helper
import Verif.Props.Interp
import Verif.Props.InterpRound
import Verif.Props.Length
import Verif.Props.Lens
import Verif.Props.Machine
import Verif.Props.Masks
import Verif.Props.MatSubset
import Verif.Props.Memory
import Verif.Props.Missing
import Verif.Props.Move
import Verif.Props.NumProg
import Verif.Props.Order
import Verif.Props.OtherIndex
import Verif.Props.Print
import Verif.Props.Program
import Verif.Props.Push
import Verif.Props.Pushdown
import Verif.Props.RCall
import Verif.Props.RIface
import Verif.Props.RefLoop
import Verif.Props.Reflect
import Verif.Props.Round
import Verif.Props.RoundError
import Verif.Props.SexpOwn
import Verif.Props.Shape
import Verif.Props.Store
import Verif.Props.Strong
import Verif.Props.SubAssign
import Verif.Props.Subset
import Verif.Props.Swap
import Verif.Props.SwapControl
import Verif.Props.Threads
import Verif.Props.Traits
import Verif.Props.Typed
import Verif.Props.Vector
import Verif.Props.Violations
import Verif.Props.Witness
import Verif.Spec.Alloc
import Verif.Spec.Alone
import Verif.Spec.Append
import Verif.Spec.Cells
import Verif.Spec.Control
import Verif.Spec.ControlSafe
import Verif.Spec.Data
import Verif.Spec.Deriv
import Verif.Spec.DerivControl
import Verif.Spec.DerivPlain
import Verif.Spec.Dual
import Verif.Spec.Eval
import Verif.Spec.Held
import Verif.Spec.History
import Verif.Spec.Index
import Verif.Spec.Interp
import Verif.Spec.MatIndex
import Verif.Spec.NumProg
import Verif.Spec.Numeric
import Verif.Spec.Order
import Verif.Spec.Plug
import Verif.Spec.Program
import Verif.Spec.Pushdown
import Verif.Spec.RCall
import Verif.Spec.RefLoop
import Verif.Spec.SexpOwn
import Verif.Spec.Shape
import Verif.Spec.Store
import Verif.Spec.Typed
import Verif.Tests.Allocation
import Verif.Tests.Calculations
import Verif.Tests.Stores
