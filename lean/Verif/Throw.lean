import Verif.Vector
import Verif.ArrVec
import Verif.Cyclic

/-!
# Operations during which an allocation or an element constructor throws

The other modules assume that allocations and element constructors succeed.  Here the same functions are
modelled with an explicit crash point: the state carries the number of further steps that succeed, and the
step after that throws.  Steps that can throw are allocations, copy constructions and copy assignments of
resource-owning elements, and, only where the parameter `mt` says so, their move constructions.  Trivial
elements never throw.  Destructors never throw.
-/

namespace Efp
namespace Thr

variable {σ α β : Type}

/-- a step that cannot throw by itself -/
def lift (m : Cpp σ β) : Cpp (σ × Nat) β := fun s => (m s.1).mapState (fun x => (x, s.2))

/-- a step that may throw: the crash point is reached when no successful step is left -/
def tick : Cpp (σ × Nat) Unit := fun s =>
  match s.2 with
  | 0 => .thrown s
  | n + 1 => .ok () (s.1, n)

/-- copy construction or copy assignment of an element: may throw for resource-owning elements -/
def tickE (k : Kind) : Cpp (σ × Nat) Unit :=
  match k with
  | .trivial => pure ()
  | .managed => tick

/-- what the caller of a function sees when exceptions must not leave it -/
inductive Call (σ β : Type) where
  | returns (b : β) (s : σ)
  | terminates
  | ub (w : UB)
  deriving DecidableEq, Repr

/-- a function declared `noexcept`: an exception leaving it calls `std::terminate` -/
def noexcept_ : Out σ β → Call σ β
  | .ok b s => .returns b s
  | .thrown _ => .terminates
  | .ub w => .ub w

/-! ## Vector (sequence.hpp 536-903) -/

namespace Vec

open VecS

/-- `AllocatorTraits::allocate`: either throws or produces one more block -/
def allocate : Cpp (VecS α × Nat) Unit := do
  tick
  lift (Cpp.modify (fun s => { s with led := { s.led with alloc := s.led.alloc + 1 } }))

/-- first loop of `reserve` and `shrink_to_fit` (sequence.hpp 721-728, 749-756); `mt`: moving an element may
throw (a throwing move leaves its source as it was) -/
def relocate (mt : Bool) (k : Kind) : (n i : Nat) → (new : List (Cell α)) →
    Cpp (VecS α × Nat) (List (Cell α))
  | 0, _, new => pure new
  | n + 1, i, new => do
    if mt then tickE k
    let a ← lift (onMem (Mem.moveOut k i))
    let new' ← lift (constructIn new i a)
    lift (Cpp.modify (fun s => { s with led := { s.led with reloc := s.led.reloc + 1 } }))
    relocate mt k n (i + 1) new'

/-- body of `reserve` / `shrink_to_fit` (sequence.hpp 719-739, 746-768).  When it throws, the pointer
`new_data` is lost. -/
def reallocate (mt : Bool) (k : Kind) (n : Nat) : Cpp (VecS α × Nat) Unit := do
  allocate
  let s ← lift Cpp.get
  let new ← relocate mt k s.size 0 (List.replicate n .raw)
  lift (destroyAll k)
  lift dealloc
  lift (Cpp.modify (fun s => { s with ptr := .block, cells := new, cap := n }))

/-- `reserve` (sequence.hpp 716-741) -/
def reserve (mt : Bool) (k : Kind) (n : Nat) : Cpp (VecS α × Nat) Unit := fun s =>
  if n > s.1.cap then reallocate mt k n s else .ok () s

/-- `resize` (sequence.hpp 707-714) -/
def resize (mt : Bool) (k : Kind) (n : Nat) : Cpp (VecS α × Nat) Unit := do
  let s ← lift Cpp.get
  if n + 1 > s.cap then reserve mt k (n + 1)
  lift (Cpp.modify (fun s => { s with size := n }))

/-- `shrink_to_fit` (sequence.hpp 743-770) -/
def shrinkToFit (mt : Bool) (k : Kind) : Cpp (VecS α × Nat) Unit := fun s =>
  if s.1.size < s.1.cap + 1 then reallocate mt k (s.1.size + 1) s else .ok () s

/-- `push_back(const Element&)` (sequence.hpp 772-780): the element is constructed before `_size` is
incremented -/
def pushBack (mt : Bool) (k : Kind) (a : α) : Cpp (VecS α × Nat) Unit := do
  let s ← lift Cpp.get
  if s.size + 1 ≥ s.cap then reserve mt k (if s.size = 0 then 2 else 2 * s.size + 1)
  let s ← lift Cpp.get
  tickE k
  lift (onMem (Mem.construct s.size a))
  lift (Cpp.modify (fun s => { s with size := s.size + 1 }))

/-- `insert` (sequence.hpp 816-832) -/
def insert (mt : Bool) (k : Kind) (idx : Nat) (a : α) : Cpp (VecS α × Nat) Unit := do
  let s ← lift Cpp.get
  if idx > s.size then Cpp.throw
  else do
    if s.size + 1 ≥ s.cap then reserve mt k (if s.cap = 0 then 2 else 2 * s.cap)
    forDown (fun i => do
      if mt then tickE k
      let x ← lift (onMem (Mem.moveOut k (i - 1)))
      lift (onMem (Mem.assign k i x))) s.size (s.size - idx)
    tickE k
    lift (onMem (Mem.construct idx a))
    lift (Cpp.modify (fun s => { s with size := s.size + 1 }))

/-- `erase` (sequence.hpp 834-847) -/
def erase (mt : Bool) (k : Kind) (idx : Nat) : Cpp (VecS α × Nat) Unit := do
  let s ← lift Cpp.get
  if idx ≥ s.size then Cpp.throw
  else do
    lift (onMem (Mem.destroy k idx))
    forUp (fun i => do
      if mt then tickE k
      let x ← lift (onMem (Mem.moveOut k (i + 1)))
      lift (onMem (Mem.assign k i x))) idx (s.size - 1 - idx)
    lift (Cpp.modify (fun s => { s with size := s.size - 1 }))

/-- copy loop (sequence.hpp 567-570, 586-589) -/
def copyLoop (k : Kind) (other : VecS α) (lo n : Nat) : Cpp (VecS α × Nat) Unit :=
  forUp (fun i => do tickE k; lift (copyOne other i)) lo n

/-- copy constructor (sequence.hpp 559-571).  When it throws no vector exists: the state of the `.thrown`
outcome only matters for its ledger, nothing can reach the block any more. -/
def copyCtor (k : Kind) (other : VecS α) (led : Ledger) (b : Nat) : Out (VecS α × Nat) Unit :=
  match other.ptr with
  | .wild => .ub .wildPtr
  | .null => .ok () ({ cells := [], led := led, ptr := .wild, size := other.size, cap := other.cap }, b)
  | .block => (do
      allocate
      copyLoop k other 0 other.size)
      ({ cells := List.replicate other.cap .raw, led := led, ptr := .block, size := other.size, cap := other.cap }, b)

/-- fill the fresh block of an initializer-list constructor (sequence.hpp 629-632) -/
def fillLoop (k : Kind) : (i : Nat) → List α → Cpp (VecS α × Nat) Unit
  | _, [] => pure ()
  | i, a :: l => do tickE k; lift (onMem (Mem.construct i a)); fillLoop k (i + 1) l

/-- constructor from an initializer list (sequence.hpp 623-633); as for the copy constructor no vector
exists when it throws -/
def ofList (k : Kind) (l : List α) (led : Ledger) (b : Nat) : Out (VecS α × Nat) Unit :=
  (do allocate; fillLoop k 0 l)
    ({ cells := List.replicate (l.length + 1) .raw, led := led, ptr := .block, size := l.length,
       cap := l.length + 1 }, b)

/-- body of the copy assignment from a distinct object (sequence.hpp 574-592) -/
def copyAssignBody (mt : Bool) (k : Kind) (other : VecS α) : Cpp (VecS α × Nat) Unit := do
  lift (destroyAll k)
  let s ← lift Cpp.get
  if s.cap < other.size + 1 then resize mt k other.size
  copyLoop k other 0 other.size

/-- copy assignment, declared `noexcept` (sequence.hpp 574) -/
def copyAssign (mt : Bool) (k : Kind) (other : VecS α) (s : VecS α) (b : Nat) : Call (VecS α × Nat) Unit :=
  noexcept_ (copyAssignBody mt k other (s, b))

/-- one client operation -/
def run (mt : Bool) (k : Kind) : Op α → Cpp (VecS α × Nat) Unit
  | .push a => pushBack mt k a
  | .pop => lift (popBack k)
  | .insert i a => insert mt k i a
  | .erase i => erase mt k i
  | .clear => lift (VecS.clear k)
  | .reserve n => reserve mt k n
  | .shrinkToFit => shrinkToFit mt k
  | .shrinkTo n => fun s => if n ≤ s.1.size then resize mt k n s else .ok () s
  | .setElem i a => fun s => if i < s.1.size then (do tickE k; lift (setAt k i a)) s else .ok () s

/-- A history of calls, each with its own crash point; the client catches every exception and goes on. -/
def runOps (mt : Bool) (k : Kind) : List (Op α × Nat) → VecS α → Except UB (VecS α × List Bool)
  | [], s => .ok (s, [])
  | (op, b) :: ops, s =>
    match run mt k op (s, b) with
    | .ub w => .error w
    | .ok _ s' => (runOps mt k ops s'.1).map (fun r => (r.1, false :: r.2))
    | .thrown s' => (runOps mt k ops s'.1).map (fun r => (r.1, true :: r.2))

end Vec

/-! ## ArrVec (sequence.hpp 229-478); moves of elements do not throw -/

namespace Av

open AvS

/-- `push_back(const Element&)` (sequence.hpp 373-379): `new (_data + _size++) Element {value}` increments
`_size` before the constructor runs -/
def pushBack (k : Kind) (a : α) : Cpp (AvS α × Nat) Unit := do
  let s ← lift Cpp.get
  if s.size ≥ s.cap then Cpp.throw
  else do
    lift (Cpp.modify (fun s => { s with size := s.size + 1 }))
    tickE k
    lift (onM (Mem.construct s.size a))

/-- `insert` (sequence.hpp 389-404): `_size` is incremented last -/
def insert (k : Kind) (idx : Nat) (a : α) : Cpp (AvS α × Nat) Unit := do
  let s ← lift Cpp.get
  if idx > s.size ∨ s.size = s.cap then Cpp.throw
  else do
    lift (onM (forDown (shiftUpOne k) s.size (s.size - idx)))
    tickE k
    lift (onM (Mem.construct idx a))
    lift (Cpp.modify (fun s => { s with size := s.size + 1 }))

/-- copy loop (sequence.hpp 255-257, 268-270) -/
def copyLoop (k : Kind) (other : AvS α) (lo n : Nat) : Cpp (AvS α × Nat) Unit :=
  forUp (fun i => do tickE k; lift (copyOne other i)) lo n

/-- copy constructor (sequence.hpp 254-258); when it throws no object exists and no destructor runs -/
def copyCtor (k : Kind) (other : AvS α) (b : Nat) : Out (AvS α × Nat) Unit :=
  copyLoop k other 0 other.size
    ({ cells := List.replicate other.cap .raw, size := other.size, cap := other.cap }, b)

/-- copy assignment from a distinct object (sequence.hpp 260-273): `_size` is set before the copies -/
def copyAssign (k : Kind) (other : AvS α) : Cpp (AvS α × Nat) Unit := do
  lift (destroyAll k)
  lift (Cpp.modify (fun s => { s with size := other.size }))
  copyLoop k other 0 other.size

end Av

/-! ## Vcb and Vcq (cyclic.hpp 14-349) -/

namespace Cyc

open Cyclic

/-- `Vcb::push_back` (cyclic.hpp 74-83) -/
def vcbPush (k : Kind) (a : α) : Cpp (VcbS α × Nat) Unit := fun s =>
  (do lift (Vcb.onMem (Mem.destroy k s.1.off))
      lift (Vcb.onMem (Mem.destroy k (s.1.off + s.1.n)))
      tickE k
      lift (Vcb.onMem (Mem.construct s.1.off a))
      tickE k
      lift (Vcb.onMem (Mem.construct (s.1.off + s.1.n) a))
      lift (Cpp.modify (fun t => { t with off := advance t.n t.off }))) s

/-- `Vcq::push_back` of a value outside the queue (cyclic.hpp 276-294) -/
def vcqPush (k : Kind) (a : α) : Cpp (VcqS α × Nat) Unit := fun s =>
  (do lift (Vcq.dropOldest k)
      tickE k
      lift (Vcq.onMem (Mem.construct s.1.wr a))
      tickE k
      lift (Vcq.onMem (Mem.construct (s.1.wr + s.1.n) a))
      lift (Cpp.modify Vcq.pushed)) s

end Cyc

end Thr
end Efp
