import Verif.Model.Expr

/-!
# Vectors (`Vec`) and programs over them

`/repo/include/etr_bits/Vector/{VectorClass,Constructors,AssignmentOperator}.hpp` and
`Core/Borrow.hpp`.  The state is the heap plus all vector objects; an object has two slots, `d`
(`(x, false)`) and `temp` (`(x, true)`), VectorClass.hpp 18-19.  Objects get fresh identifiers, which
are never reused; slots of identifiers that do not (or no longer) exist hold the default object.
`bor x` says that `d` of `x` is a `Borrow` (otherwise it is a `Buffer`).

The element conversion `static_cast<T>` of an assignment is a parameter `conv` (the identity when the
types agree).
-/

namespace ETR

/-- Slot of an object: `(x, false)` is `d`, `(x, true)` is `temp`. -/
abbrev Slot := Nat × Bool

/-- Program state. -/
structure Mach (V : Type) where
  heap : Heap V
  st : Slot → Store
  n : Nat
  bor : Nat → Bool

namespace Mach
variable {V : Type}

/-- Initial state: no objects, empty heap. -/
def start (sched : List Bool := []) : Mach V := ⟨Heap.empty sched, fun _ => {}, 0, fun _ => false⟩

/-- Run an operation of the store in slot `x`. -/
def onSlot {α : Type} (x : Slot) (m : SM V α) : M (Mach V) α := fun s =>
  let r := m (s.heap, s.st x)
  (r.1, { s with heap := r.2.1, st := fun y => if y = x then r.2.2 else s.st y })

/-- What expressions see: `size()`, `operator[]` (the same for `Buffer`, BaseStore.hpp 281-286, and
`Borrow`, Borrow.hpp 140-145) and the matrix parameter of `d`. -/
def env (s : Mach V) : Env V where
  size x := (s.st (x, false)).sz
  get x i := (s.st (x, false)).get s.heap i
  mp x := (s.st (x, false)).mp

/-- Destruction of a `Vec`: members in reverse order; `~Borrow` does nothing (Borrow.hpp 123),
`~BaseStore` 236-246.  Afterwards the slots hold the default object. -/
def destroy (x : Nat) : M (Mach V) Unit := do
  onSlot (x, true) Store.dtor
  let s ← M.get
  if ¬ s.bor x then onSlot (x, false) Store.dtor
  M.modify (fun s => { s with
    st := fun y => if y.1 = x then {} else s.st y
    bor := fun y => if y = x then false else s.bor y })

/-- Construction of an object with the next identifier.  If the constructor throws, the members
constructed so far are destroyed (a store whose constructor has not finished has no memory yet,
BaseStore.hpp 36-44 and 103-120). -/
def decl (body : Nat → M (Mach V) Unit) : M (Mach V) Unit := fun s =>
  match body s.n { s with n := s.n + 1 } with
  | (.thr e, s') => ((destroy s.n >>= fun _ => M.lift (.thr e)) s')
  | r => r

/-- A temporary object that is destroyed at the end of the full expression, also on a throw. -/
def withTmp (body : Nat → M (Mach V) Unit) : M (Mach V) Unit := fun s =>
  match body s.n { s with n := s.n + 1 } with
  | (.thr e, s') => ((destroy s.n >>= fun _ => M.lift (.thr e)) s')
  | (.ok _, s') => destroy s.n s'
  | r => r

/-- The evaluation loop of an assignment: `temp.resize(otherVec.size())`, then
`temp[i] = static_cast<T>(otherVec[i])`: AssignmentOperator.hpp 52-59, 121-128 (the loops of the other
branches are the same).  `otherVec.size()` depends only on `d` members, which the loop does not
change, so it is evaluated once. -/
def fillTemp (zero : V) (conv : V → Out V) (t : Nat) (e : Expr V) : M (Mach V) Unit := do
  let s ← M.get
  onSlot (t, true) (Store.resize zero (e.size s.env))
  M.forN (e.size s.env) (fun i => do
    let v ← M.reads (fun s => e.el s.env i)
    let w ← M.lift (conv v)
    onSlot (t, true) (Store.set i w))

/-- `if (otherVec.d.im()) d.setMatrix(true, otherVec.d.nr(), otherVec.d.nc())`:
AssignmentOperator.hpp 106-108, 235-237; Constructors.hpp 150-152. -/
def setDims (x : Nat) (e : Expr V) : M (Mach V) Unit := do
  let s ← M.get
  if e.im s.env then
    let r ← M.lift (e.nr s.env)
    let c ← M.lift (e.nc s.env)
    onSlot (x, false) (Store.upd (fun d => { d with mp := ⟨true, r, c⟩ }))

/-- `d.moveit(temp)`: BaseStore.hpp 295-307. -/
def moveTemp (x : Nat) : M (Mach V) Unit :=
  M.modify (fun s =>
    let r := Store.moveit (s.st (x, false)) (s.st (x, true))
    { s with st := fun y => if y = (x, false) then r.1 else if y = (x, true) then r.2 else s.st y })

/-- `x = e` for a `Buffer` vector: AssignmentOperator.hpp 51-60, 120-129, 106-108, 235-237. -/
def assignBuffer (zero : V) (conv : V → Out V) (x : Nat) (e : Expr V) : M (Mach V) Unit := do
  fillTemp zero conv x e
  moveTemp x
  setDims x e

/-- `x = e` for a `Borrow` vector: AssignmentOperator.hpp 61-76, 130-145, 106-108, 235-237.
The second and third use of `otherVec.size()` see the current state. -/
def assignBorrow (zero : V) (conv : V → Out V) (x : Nat) (e : Expr V) : M (Mach V) Unit := do
  let s ← M.get
  M.ass (e.size s.env ≤ (s.st (x, false)).capacity)
    "number of items to replace is not a multiple of replacement length"
  fillTemp zero conv x e
  let s ← M.get
  M.ass ((s.st (x, false)).sz ≤ e.size s.env)
    "size cannot be increased above the size of the borrowed object"
  onSlot (x, false) (Store.upd (fun d => { d with sz := e.size s.env }))
  let s ← M.get
  M.forN (e.size s.env) (fun i => do
    let v ← M.reads (fun s => (s.st (x, true)).get s.heap i)
    onSlot (x, false) (Store.set i v))
  setDims x e

/-- `x = e`. -/
def assign (zero : V) (conv : V → Out V) (x : Nat) (e : Expr V) : M (Mach V) Unit := do
  let s ← M.get
  if s.bor x then assignBorrow zero conv x e else assignBuffer zero conv x e

/-- `x = v` for an arithmetic value (already converted): AssignmentOperator.hpp 19-25, 33-39. -/
def assignScalar (zero : V) (x : Nat) (v : V) : M (Mach V) Unit := do
  let s ← M.get
  if s.bor x then
    onSlot (x, false) (Store.upd (fun d => { d with sz := 1 }))
  else
    onSlot (x, false) (Store.resize zero 1)
  onSlot (x, false) (Store.set 0 v)

/-- `Borrow::resize`: Borrow.hpp 126-133. -/
def borrowResize (newSize : Nat) : SM V Unit := do
  M.ass (newSize ≥ 1) "Size has to be larger than 0"
  let s ← Store.self
  if newSize ≤ s.capacity then
    Store.upd (fun s => { s with sz := newSize })
  else
    M.lift (.thr "Cannot resize Borrow element above size of borrowed object")

/-- `Vec::resize`: VectorClass.hpp 88. -/
def resize (zero : V) (x : Nat) (n : Nat) : M (Mach V) Unit := do
  let s ← M.get
  if s.bor x then onSlot (x, false) (borrowResize n) else onSlot (x, false) (Store.resize zero n)

/-- `d[pos] = v` on a subset of the named vector `x`: SubsetClass.hpp 62-65. -/
def subSet (x : Nat) (ind : List Nat) (pos : Nat) (v : V) : M (Mach V) Unit := do
  let s ← M.get
  let k ← M.lift (modz pos (s.st (x, false)).sz)
  let j ← M.lift (getL ind k)
  onSlot (x, false) (Store.set j v)

/-- `subset(x, ...) = e`: AssignmentOperator.hpp 89-105 (`same`: right-hand side is a subset of the
same type, which may resize the underlying vector) and 158-171.  `temp` belongs to the temporary
subset object `t`.  Setting the matrix flag of the temporary has no effect on `x`. -/
def subAssignBody (zero : V) (conv : V → Out V) (same : Bool) (x : Nat) (ind : List Nat)
    (e : Expr V) (t : Nat) : M (Mach V) Unit := do
  let s ← M.get
  M.ass (e.size s.env = ind.length)
    "number of items to replace is not a multiple of replacement length"
  fillTemp zero conv t e
  let s ← M.get
  if same ∧ (s.st (x, false)).sz < (s.st (t, true)).sz then
    resize zero x (s.st (t, true)).sz
  M.forN ind.length (fun i => do
    let v ← M.reads (fun s => (s.st (t, true)).get s.heap i)
    subSet x ind (i % ind.length) v)

def subAssign (zero : V) (conv : V → Out V) (same : Bool) (x : Nat) (ind : List Nat)
    (e : Expr V) : M (Mach V) Unit := withTmp (subAssignBody zero conv same x ind e)

/-- `subset(x, ...) = v` for an arithmetic value: AssignmentOperator.hpp 15-18, 29-32. -/
def subAssignScalar (x : Nat) (ind : List Nat) (v : V) : M (Mach V) Unit :=
  M.forN ind.length (fun i => subSet x ind i v)

/-- `x[i] = v` (`operator[]`): VectorClass.hpp 40, BaseStore.hpp 288-293, Borrow.hpp 147-152. -/
def setElem (x i : Nat) (v : V) : M (Mach V) Unit := onSlot (x, false) (Store.set i v)

/-- `x.fill(v)`: VectorClass.hpp 87, BaseStore.hpp 147-156, Borrow.hpp 84-93. -/
def fill (x : Nat) (v : V) : M (Mach V) Unit := onSlot (x, false) (Store.fillScalar v)

/-- `x.d.fill(y)` for a named vector `y` of the same element type: BaseStore.hpp 158-159, 175-178,
Borrow.hpp 95-96, 112-115. -/
def fillVec (x y : Nat) : M (Mach V) Unit := do
  let s ← M.get
  onSlot (x, false) (Store.fillVec (s.st (y, false)))

/-- `x.fill(e)` for a vector or an operation `e`: VectorClass.hpp 87.  The parameter of the member function has the type of an
element, so that `e` is converted by `operator RetType` (VectorClass.hpp 43-54) to its first element.  Simplification: the warning that
the conversion prints for logical vectors is left out. -/
def fillFirst (x : Nat) (e : Expr V) : M (Mach V) Unit := do
  let v ← M.reads (fun s => e.el s.env 0)
  fill x v

/-- `x.d.push_back(v)`: BaseStore.hpp 331-348 (deleted for `Borrow`). -/
def pushBack (zero : V) (x : Nat) (v : V) : M (Mach V) Unit :=
  onSlot (x, false) (Store.pushBack zero v)

/-- `x.d = y.d` for different `Buffer` vectors: BaseStore.hpp 130-145. -/
def storeAssign (zero : V) (x y : Nat) : M (Mach V) Unit := do
  let s ← M.get
  onSlot (x, false) (Store.assign zero (s.st (y, false)))

/-! ### Constructors -/

/-- `Vec()`: Constructors.hpp 115. -/
def declDefault : M (Mach V) Unit := decl (fun _ => pure ())

/-- `Vec(SI{n})`: Constructors.hpp 9-10. -/
def declSize (zero : V) (n : Nat) : M (Mach V) Unit :=
  decl (fun x => onSlot (x, false) (Store.ctorSize zero n))

/-- `Vec(s)` for a scalar: Constructors.hpp 102-109 (`d(1)` calls the `int` constructor). -/
def declScalar (zero : V) (v : V) : M (Mach V) Unit :=
  decl (fun x => do
    onSlot (x, false) (Store.ctorInt zero 1)
    onSlot (x, false) (Store.set 0 v))

/-- `Vec(rows, cols)`: Constructors.hpp 118-120; the product wraps. -/
def declMat (zero : V) (r c : Nat) : M (Mach V) Unit :=
  decl (fun x => do
    onSlot (x, false) (Store.ctorSize zero ((r * c) % two64))
    onSlot (x, false) (Store.upd (fun d => { d with mp := ⟨true, r, c⟩ })))

/-- `Vec(rows, cols, value)`: Constructors.hpp 121-125. -/
def declMatVal (zero : V) (r c : Nat) (v : V) : M (Mach V) Unit :=
  decl (fun x => do
    onSlot (x, false) (Store.ctorSize zero ((r * c) % two64))
    onSlot (x, false) (Store.upd (fun d => { d with mp := ⟨true, r, c⟩ }))
    onSlot (x, false) (Store.fillScalar v))

/-- `Vec b = a` (implicit copy constructor): member-wise copy, BaseStore.hpp 36-44; `Borrow`
copies the pointer, Borrow.hpp 29-33. -/
def declCopy (y : Nat) : M (Mach V) Unit :=
  decl (fun x => do
    let s ← M.get
    if s.bor y then
      M.modify (fun s => { s with
        st := fun z => if z = (x, false) then s.st (y, false) else s.st z
        bor := fun z => if z = x then true else s.bor z })
    else
      onSlot (x, false) (Store.copyCtor (s.st (y, false)))
    onSlot (x, true) (Store.copyCtor (s.st (y, true))))

/-- Element-wise construction from another vector, operation or temporary of another element type
(`Buffer` target): Constructors.hpp 127-154, 157-184. -/
def declExpr (zero : V) (conv : V → Out V) (e : Expr V) : M (Mach V) Unit :=
  decl (fun x => do
    let s ← M.get
    if (s.st (x, false)).sz < e.size s.env then
      onSlot (x, false) (Store.resize zero (e.size s.env))
    else
      onSlot (x, false) (Store.upd (fun d => { d with sz := e.size s.env }))
    let s ← M.get
    M.forN (s.st (x, false)).sz (fun i => do
      let v ← M.reads (fun s => e.el s.env i)
      let w ← M.lift (conv v)
      onSlot (x, false) (Store.set i w))
    setDims x e)

/-- A temporary vector `t` with the elements `l`, as the allocation functions make it:
`createRVec` (Allocation/AllocationUtils.hpp 51-56) followed by element writes, e.g. Coca.hpp 106-131. -/
def makeTemp (zero : V) (l : List V) (mp : MP) (t : Nat) : M (Mach V) Unit := do
  onSlot (t, false) (Store.ctorSize zero l.length)
  M.forN l.length (fun i => do
    let v ← M.lift (getL l i)
    onSlot (t, false) (Store.set i v))
  onSlot (t, false) (Store.upd (fun d => { d with mp := mp }))

/-- Construction from a temporary of the same element type: Constructors.hpp 187-213 (the members
`p` and `sz` are exchanged, `allocated` is copied, `capacity` is not). -/
def stealTemp (t x : Nat) : M (Mach V) Unit :=
  M.modify (fun s =>
    let o := s.st (t, false)
    let d := s.st (x, false)
    let d' := { d with allocated := o.allocated, sz := o.sz, p := o.p,
                       mp := if o.mp.im then ⟨true, o.mp.nr, o.mp.nc⟩ else d.mp }
    let o' := { o with sz := d.sz, p := d.p }
    { s with st := fun z => if z = (x, false) then d' else if z = (t, false) then o' else s.st z })

/-- `Vec x = <temporary with elements l>`. -/
def declTemp (zero : V) (l : List V) (mp : MP) : M (Mach V) Unit :=
  withTmp (fun t => do
    makeTemp zero l mp t
    decl (fun x => stealTemp t x))

/-- `Vec(ptr, n)` for a `Buffer`: Constructors.hpp 216-224, reading the caller's memory `p`. -/
def declPtr (zero : V) (p : Ptr) (n : Nat) : M (Mach V) Unit :=
  decl (fun x => do
    onSlot (x, false) (Store.ctorSize zero n)
    M.forN n (fun i => do
      let v ← M.reads (fun s => s.heap.load p i)
      onSlot (x, false) (Store.set i v))
    onSlot (x, false) (Store.upd (fun d => { d with mp := ⟨false, 0, 0⟩ })))

/-- `Vec<T, Borrow<T>>(ptr, n)`: Constructors.hpp 35-37, Borrow.hpp 61-66. -/
def declBorrow (p : Ptr) (n : Nat) : M (Mach V) Unit :=
  decl (fun x =>
    M.modify (fun s => { s with
      st := fun z => if z = (x, false) then { p := p, sz := n, capacity := n, allocated := true }
        else s.st z
      bor := fun z => if z = x then true else s.bor z }))

/-- Memory of the caller comes into existence (an array of the program that uses the library). -/
def callerArray (l : List V) : M (Mach V) Unit :=
  M.modify (fun s => { s with heap := (s.heap.foreign l).1 })

end Mach

/-- The public operations. -/
inductive Cmd (V : Type) where
  | callerArray (l : List V)
  | declDefault
  | declSize (n : Nat)
  | declScalar (v : V)
  | declMat (r c : Nat)
  | declMatVal (r c : Nat) (v : V)
  | declCopy (y : Nat)
  | declExpr (conv : V → Out V) (e : Expr V)
  | declTemp (l : List V) (mp : MP)
  | declPtr (p : Ptr) (n : Nat)
  | declBorrow (p : Ptr) (n : Nat)
  | assign (conv : V → Out V) (x : Nat) (e : Expr V)
  | assignScalar (x : Nat) (v : V)
  | subAssign (conv : V → Out V) (same : Bool) (x : Nat) (ind : List Nat) (e : Expr V)
  | subAssignScalar (x : Nat) (ind : List Nat) (v : V)
  | setElem (x i : Nat) (v : V)
  | resize (x n : Nat)
  | fill (x : Nat) (v : V)
  | fillVec (x y : Nat)
  | pushBack (x : Nat) (v : V)
  | storeAssign (x y : Nat)
  | destroy (x : Nat)

namespace Mach
variable {V : Type}

/-- Execution of one operation. -/
def exec (zero : V) : Cmd V → M (Mach V) Unit
  | .callerArray l => callerArray l
  | .declDefault => declDefault
  | .declSize n => declSize zero n
  | .declScalar v => declScalar zero v
  | .declMat r c => declMat zero r c
  | .declMatVal r c v => declMatVal zero r c v
  | .declCopy y => declCopy y
  | .declExpr conv e => declExpr zero conv e
  | .declTemp l mp => declTemp zero l mp
  | .declPtr p n => declPtr zero p n
  | .declBorrow p n => declBorrow p n
  | .assign conv x e => assign zero conv x e
  | .assignScalar x v => assignScalar zero x v
  | .subAssign conv same x ind e => subAssign zero conv same x ind e
  | .subAssignScalar x ind v => subAssignScalar x ind v
  | .setElem x i v => setElem x i v
  | .resize x n => resize zero x n
  | .fill x v => fill x v
  | .fillVec x y => fillVec x y
  | .pushBack x v => pushBack zero x v
  | .storeAssign x y => storeAssign zero x y
  | .destroy x => destroy x

/-- A history: operations are performed one after the other; an exception is caught by the user
program, which then goes on with the next operation. -/
def runAll (zero : V) : List (Cmd V) → Mach V → Option UB × Mach V
  | [], s => (none, s)
  | c :: cs, s =>
    match exec zero c s with
    | (.ub k, s') => (some k, s')
    | (_, s') => runAll zero cs s'

end Mach
end ETR
