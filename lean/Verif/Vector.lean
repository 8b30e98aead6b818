import Verif.Core

/-!
# Model of `detail::VectorBase` (sequence.hpp 536-903)

`Vector<A>` for non-character `A` inherits everything from `VectorBase` (sequence.hpp 933-960).
The allocator is not modelled beyond "allocate returns a fresh block of raw slots"; allocation
failure is not modelled.  Pointers are a three-valued tag: null, never initialised, or owning the
block `cells`.
-/

namespace Efp

/-- state of the member `Element* _data` (sequence.hpp 900) -/
inductive Ptr where
  | null
  | wild
  | block
  deriving DecidableEq, Repr

/-- A `VectorBase` object: `_data` (pointer state and the block it owns), `_size`, `_capacity`
(sequence.hpp 899-902), plus the execution ledger. -/
structure VecS (α : Type) extends Mem α where
  ptr : Ptr
  size : Nat
  cap : Nat
  deriving DecidableEq, Repr

namespace VecS

variable {α : Type}

/-- `VectorBase()` (sequence.hpp 557) -/
def mk0 (led : Ledger := {}) : VecS α := { cells := [], led := led, ptr := .null, size := 0, cap := 0 }

/-- dereferencing `_data`: null and uninitialised pointers are undefined behaviour -/
def onMem {β : Type} (m : Cpp (Mem α) β) : Cpp (VecS α) β := fun s =>
  match s.ptr with
  | .null => .ub .nullPtr
  | .wild => .ub .wildPtr
  | .block =>
    match m s.toMem with
    | .ok b m' => .ok b { s with toMem := m' }
    | .thrown m' => .thrown { s with toMem := m' }
    | .ub w => .ub w

/-- `AllocatorTraits::construct(_allocator, new_data + i, value)` into a block held by a local
variable (used by `reserve` and `shrink_to_fit`) -/
def constructIn (new : List (Cell α)) (i : Nat) (a : α) : Cpp (VecS α) (List (Cell α)) := fun s =>
  if i < new.length then
    .ok (new.set i (.live a)) { s with led := { s.led with made := s.led.made + 1 } }
  else .ub .oob

/-- first loop of `reserve` (sequence.hpp 721-728) and of `shrink_to_fit` (sequence.hpp 749-756):
move-construct the elements `i, i+1, ...` (`n` of them) into the new block -/
def relocate (k : Kind) : (n i : Nat) → (new : List (Cell α)) → Cpp (VecS α) (List (Cell α))
  | 0, _, new => pure new
  | n + 1, i, new => do
    let a ← onMem (Mem.moveOut k i)
    let new' ← constructIn new i a
    Cpp.modify (fun s => { s with led := { s.led with reloc := s.led.reloc + 1 } })
    relocate k n (i + 1) new'

/-- `for (i = 0; i < _size; ++i) destroy(_data + i)` (e.g. sequence.hpp 576-579, 730-733, 850-853) -/
def destroyAll (k : Kind) : Cpp (VecS α) Unit := fun s =>
  forUp (fun i => onMem (Mem.destroy k i)) 0 s.size s

/-- `AllocatorTraits::deallocate(_allocator, _data, _capacity)`: a null pointer is accepted
(`::operator delete(nullptr)` is a no-op), an uninitialised one is undefined -/
def dealloc : Cpp (VecS α) Unit := fun s =>
  match s.ptr with
  | .null => .ok () s
  | .wild => .ub .wildPtr
  | .block => .ok () { s with led := { s.led with freed := s.led.freed + 1 } }

/-- body of `reserve` / `shrink_to_fit`: allocate `n` slots, relocate, destroy the old elements,
deallocate, install the new block (sequence.hpp 719-739, 746-768) -/
def reallocate (k : Kind) (n : Nat) : Cpp (VecS α) Unit := do
  Cpp.modify (fun s => { s with led := { s.led with alloc := s.led.alloc + 1 } })
  let s ← Cpp.get
  let new ← relocate k s.size 0 (List.replicate n .raw)
  destroyAll k
  dealloc
  Cpp.modify (fun s => { s with ptr := .block, cells := new, cap := n })

/-- `reserve` (sequence.hpp 716-741) -/
def reserve (k : Kind) (n : Nat) : Cpp (VecS α) Unit := fun s =>
  if n > s.cap then reallocate k n s else .ok () s

/-- `resize` (sequence.hpp 707-714): neither constructs nor destroys elements -/
def resize (k : Kind) (n : Nat) : Cpp (VecS α) Unit := do
  let s ← Cpp.get
  if n + 1 > s.cap then reserve k (n + 1)
  Cpp.modify (fun s => { s with size := n })

/-- `shrink_to_fit` (sequence.hpp 743-770) -/
def shrinkToFit (k : Kind) : Cpp (VecS α) Unit := fun s =>
  if s.size < s.cap + 1 then reallocate k (s.size + 1) s else .ok () s

/-- growth step shared by both `push_back`s and `emplace_back` (sequence.hpp 773-775) -/
def growPush (k : Kind) : Cpp (VecS α) Unit := fun s =>
  if s.size + 1 ≥ s.cap then reserve k (if s.size = 0 then 2 else 2 * s.size + 1) s else .ok () s

/-- `push_back` / `emplace_back` with an argument that does not live in the vector
(sequence.hpp 772-805) -/
def pushBack (k : Kind) (a : α) : Cpp (VecS α) Unit := do
  growPush k
  let s ← Cpp.get
  onMem (Mem.construct s.size a)
  Cpp.modify (fun s => { s with size := s.size + 1 })

/-- `v.push_back(v[i])` (sequence.hpp 772-780): the argument is a reference into the own block; if
`reserve` replaced the block, the reference dangles when it is finally read. -/
def pushBackOwn (k : Kind) (i : Nat) : Cpp (VecS α) Unit := do
  let s ← Cpp.get
  growPush k
  let s' ← Cpp.get
  if s'.led.alloc ≠ s.led.alloc then Cpp.ub .wildPtr
  else do
    let a ← onMem (Mem.read i)
    onMem (Mem.construct s'.size a)
    Cpp.modify (fun s => { s with size := s.size + 1 })

/-- `pop_back` (sequence.hpp 807-814) -/
def popBack (k : Kind) : Cpp (VecS α) Unit := do
  let s ← Cpp.get
  if s.size = 0 then Cpp.throw
  else do
    onMem (Mem.destroy k (s.size - 1))
    Cpp.modify (fun s => { s with size := s.size - 1 })

/-- `insert` (sequence.hpp 816-832) -/
def insert (k : Kind) (idx : Nat) (a : α) : Cpp (VecS α) Unit := do
  let s ← Cpp.get
  if idx > s.size then Cpp.throw
  else do
    if s.size + 1 ≥ s.cap then reserve k (if s.cap = 0 then 2 else 2 * s.cap)
    forDown (fun i => do
      let x ← onMem (Mem.moveOut k (i - 1))
      onMem (Mem.assign k i x)) s.size (s.size - idx)
    onMem (Mem.construct idx a)
    Cpp.modify (fun s => { s with size := s.size + 1 })

/-- `erase` (sequence.hpp 834-847) -/
def erase (k : Kind) (idx : Nat) : Cpp (VecS α) Unit := do
  let s ← Cpp.get
  if idx ≥ s.size then Cpp.throw
  else do
    onMem (Mem.destroy k idx)
    forUp (fun i => do
      let x ← onMem (Mem.moveOut k (i + 1))
      onMem (Mem.assign k i x)) idx (s.size - 1 - idx)
    Cpp.modify (fun s => { s with size := s.size - 1 })

/-- `clear` (sequence.hpp 849-855) -/
def clear (k : Kind) : Cpp (VecS α) Unit := do
  destroyAll k
  Cpp.modify (fun s => { s with size := 0 })

/-- `v[i]` as a value (sequence.hpp 672-678): unchecked -/
def at_ (i : Nat) : Cpp (VecS α) α := onMem (Mem.read i)

/-- `v[i] = a` (sequence.hpp 672-674): unchecked -/
def setAt (k : Kind) (i : Nat) (a : α) : Cpp (VecS α) Unit := onMem (Mem.assign k i a)

/-- construct `self[i]` from `other[i]` (sequence.hpp 568-569, 587-588) -/
def copyOne (other : VecS α) (i : Nat) : Cpp (VecS α) Unit := fun s =>
  match at_ i other with
  | .ok a _ => onMem (Mem.construct i a) s
  | .thrown _ => .thrown s
  | .ub w => .ub w

/-- copy loop (sequence.hpp 567-570, 586-589) -/
def copyLoop (other : VecS α) (lo n : Nat) : Cpp (VecS α) Unit := forUp (copyOne other) lo n

/-- copy constructor (sequence.hpp 559-571): when `other._data` is null the member `_data` is never
initialised.  The ledger of the result continues `led`. -/
def copyCtor (other : VecS α) (led : Ledger) : Out (VecS α) Unit :=
  match other.ptr with
  | .wild => .ub .wildPtr
  | .null => .ok () { cells := [], led := led, ptr := .wild, size := other.size, cap := other.cap }
  | .block =>
    copyLoop other 0 other.size
      { cells := List.replicate other.cap .raw, led := { led with alloc := led.alloc + 1 },
        ptr := .block, size := other.size, cap := other.cap }

/-- copy assignment from a distinct object (sequence.hpp 574-592): `_size` is only updated when the
capacity is too small. -/
def copyAssign (k : Kind) (other : VecS α) : Cpp (VecS α) Unit := do
  destroyAll k
  let s ← Cpp.get
  if s.cap < other.size + 1 then resize k other.size
  copyLoop other 0 other.size

/-- copy or move assignment from itself (sequence.hpp 575, 603: guarded by `this != &other`) -/
def assignSelf : Cpp (VecS α) Unit := pure ()

/-- the state a vector is left in after being moved from (sequence.hpp 597-599, 615-617) -/
def movedFrom (other : VecS α) : VecS α := { cells := [], led := other.led, ptr := .null, size := 0, cap := 0 }

/-- move constructor (sequence.hpp 594-600): result and new state of the source -/
def moveCtor (other : VecS α) : VecS α × VecS α := (other, movedFrom other)

/-- move assignment from a distinct object (sequence.hpp 602-621): returns the new source state.
The ledger is that of the target (one execution). -/
def moveAssign (k : Kind) (other : VecS α) : Cpp (VecS α) (VecS α) := do
  destroyAll k
  dealloc
  Cpp.modify (fun s => { s with ptr := other.ptr, cells := other.cells, size := other.size, cap := other.cap })
  let s ← Cpp.get
  pure { movedFrom other with led := s.led }

/-- construct `self[i] = l[i]` for a list of values held elsewhere -/
def fillLoop : (i : Nat) → List α → Cpp (VecS α) Unit
  | _, [] => pure ()
  | i, a :: l => do onMem (Mem.construct i a); fillLoop (i + 1) l

/-- constructors from an initializer list, an `Array` or an `ArrVec` holding the values `l`
(sequence.hpp 623-657): capacity is the size plus one -/
def ofList (l : List α) (led : Ledger := {}) : Out (VecS α) Unit :=
  fillLoop 0 l
    { cells := List.replicate (l.length + 1) .raw, led := { led with alloc := led.alloc + 1 },
      ptr := .block, size := l.length, cap := l.length + 1 }

/-- destructor (sequence.hpp 659-670) -/
def dtor (k : Kind) : Cpp (VecS α) Unit := fun s =>
  match s.ptr with
  | .null => .ok () s
  | .wild => .ub .wildPtr
  | .block => (do
      destroyAll k
      dealloc
      Cpp.modify (fun s => { s with ptr := .null, cells := [] })) s

/-- comparison loop of `operator==` (sequence.hpp 685-689) -/
def eqLoop (eq : α → α → Bool) (other : VecS α) : (i n : Nat) → Cpp (VecS α) Bool
  | _, 0 => pure true
  | i, n + 1 => fun s =>
    match at_ i s with
    | .ok a _ =>
      match at_ i other with
      | .ok b _ => if eq a b then eqLoop eq other (i + 1) n s else .ok false s
      | .thrown _ => .thrown s
      | .ub w => .ub w
    | .thrown _ => .thrown s
    | .ub w => .ub w

/-- `operator==` (sequence.hpp 680-692); `eq a b` is `!(a != b)` of the element type -/
def eqv (eq : α → α → Bool) (other : VecS α) : Cpp (VecS α) Bool := fun s =>
  if s.size ≠ other.size then .ok false s else eqLoop eq other 0 s.size s

/-! ## Histories -/

/-- Client operations on a vector.  `shrinkTo n` is the client code `if (n <= v.size()) v.resize(n);`
and `setElem i a` is `if (i < v.size()) v[i] = a;`. -/
inductive Op (α : Type) where
  | push (a : α)
  | pop
  | insert (i : Nat) (a : α)
  | erase (i : Nat)
  | clear
  | reserve (n : Nat)
  | shrinkToFit
  | shrinkTo (n : Nat)
  | setElem (i : Nat) (a : α)
  deriving Repr

/-- one client operation -/
def Op.run (k : Kind) : Op α → Cpp (VecS α) Unit
  | .push a => pushBack k a
  | .pop => popBack k
  | .insert i a => VecS.insert k i a
  | .erase i => VecS.erase k i
  | .clear => VecS.clear k
  | .reserve n => VecS.reserve k n
  | .shrinkToFit => VecS.shrinkToFit k
  | .shrinkTo n => fun s => if n ≤ s.size then resize k n s else .ok () s
  | .setElem i a => fun s => if i < s.size then setAt k i a s else .ok () s

/-- Run a history; a thrown exception is caught by the client, recorded as `true`, and the history
goes on with the state at the throw.  Undefined behaviour ends everything. -/
def runOps (k : Kind) : List (Op α) → VecS α → Except UB (VecS α × List Bool)
  | [], s => .ok (s, [])
  | op :: ops, s =>
    match op.run k s with
    | .ub w => .error w
    | .ok _ s' => (runOps k ops s').map (fun r => (r.1, false :: r.2))
    | .thrown s' => (runOps k ops s').map (fun r => (r.1, true :: r.2))

/-- A client session: construct a vector by default (`none`) or from values (`some l`), then run a
history on it.  `led` is the ledger of what was executed before. -/
def session (k : Kind) (init : Option (List α)) (ops : List (Op α)) (led : Ledger := {}) :
    Except UB (VecS α × List Bool) :=
  match init with
  | none => runOps k ops (mk0 led)
  | some l =>
    match ofList l led with
    | .ok _ s => runOps k ops s
    | .thrown _ => .error .oob
    | .ub w => .error w

/-- what a client sees by reading `v[0] .. v[n-1]` -/
def readFrom (s : VecS α) : (i n : Nat) → Except UB (List α)
  | _, 0 => .ok []
  | i, n + 1 =>
    match at_ i s with
    | .ok a _ => (readFrom s (i + 1) n).map (fun l => a :: l)
    | .thrown _ => .error .oob
    | .ub w => .error w

/-- what a client sees by reading `v[0] .. v[v.size()-1]` -/
def contents (s : VecS α) : Except UB (List α) := readFrom s 0 s.size

end VecS

end Efp
