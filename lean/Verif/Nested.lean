import Verif.Vector

/-!
# `Vector<Vector<A>>` (sequence.hpp 536-903)

The functions of `VectorBase` once more, for elements that are vectors themselves: constructing, moving and destroying an element
runs the constructors and the destructor of `Vector.lean`.  Inner and outer blocks come from one heap, counted in one ledger.
`made` and `gone` count the elements of the inner vectors.
-/

namespace Efp

/-- a `Vector<Vector<A>>`: pointer state, slots (`none`: no object), `_size`, `_capacity` (sequence.hpp 899-902), and the ledger of
the execution; the ledgers inside the slots are not used -/
structure Nest (α : Type) where
  led : Ledger := {}
  ptr : Ptr := .null
  size : Nat := 0
  cap : Nat := 0
  cells : List (Option (VecS α)) := []
  deriving DecidableEq, Repr

namespace Nest

variable {α : Type}

/-- the object in slot `i` (sequence.hpp 672-678) -/
def slot (i : Nat) : Cpp (Nest α) (VecS α) := fun s =>
  match s.ptr with
  | .null => .ub .nullPtr
  | .wild => .ub .wildPtr
  | .block =>
    match s.cells[i]? with
    | none => .ub .oob
    | some none => .ub .deadRead
    | some (some v) => .ok { v with led := s.led } s

/-- the outcome of a call on the object in slot `i` -/
def store (i : Nat) (s : Nest α) : Out (VecS α) Unit → Out (Nest α) Unit
  | .ok _ v => .ok () { s with led := v.led, cells := s.cells.set i (some v) }
  | .thrown v => .thrown { s with led := v.led, cells := s.cells.set i (some v) }
  | .ub u => .ub u

/-- a member call `v[i].f(..)` (sequence.hpp 672-674) -/
def onSlot (i : Nat) (f : Cpp (VecS α) Unit) : Cpp (Nest α) Unit := fun s =>
  match slot i s with
  | .ok v s => store i s (f v)
  | .thrown s => .thrown s
  | .ub u => .ub u

/-- `AllocatorTraits::construct` with an object just made (allocator.hpp 31-35) -/
def construct (i : Nat) (v : VecS α) : Cpp (Nest α) Unit := fun s =>
  match s.ptr with
  | .null => .ub .nullPtr
  | .wild => .ub .wildPtr
  | .block =>
    if i < s.cells.length then .ok () { s with led := v.led, cells := s.cells.set i (some v) } else .ub .oob

/-- `AllocatorTraits::destroy` (allocator.hpp 37-40): the destructor of the element (sequence.hpp 659-670) -/
def destroy (k : Kind) (i : Nat) : Cpp (Nest α) Unit := fun s =>
  match slot i s with
  | .ok v s =>
    match VecS.dtor k v with
    | .ok _ t => .ok () { s with led := t.led, cells := s.cells.set i none }
    | .thrown _ => .thrown s
    | .ub u => .ub u
  | .thrown s => .thrown s
  | .ub .deadRead => .ub .deadDestroy
  | .ub u => .ub u

/-- `for (i = 0; i < _size; ++i) destroy(_data + i)` (sequence.hpp 730-733, 850-853) -/
def destroyAll (k : Kind) : Cpp (Nest α) Unit := fun s => forUp (destroy k) 0 s.size s

/-- deallocate (sequence.hpp 736, 764, 667) -/
def dealloc : Cpp (Nest α) Unit := fun s =>
  match s.ptr with
  | .null => .ok () s
  | .wild => .ub .wildPtr
  | .block => .ok () { s with led := { s.led with freed := s.led.freed + 1 } }

/-- move-construct the elements `i, i+1, ..` (`n` of them) into the new block (sequence.hpp 721-728, 749-756, 594-600) -/
def relocate : (n i : Nat) → List (Option (VecS α)) → Cpp (Nest α) (List (Option (VecS α)))
  | 0, _, new => pure new
  | n + 1, i, new => fun s =>
    match slot i s with
    | .ok v s =>
      if i < new.length then
        relocate n (i + 1) (new.set i (some (VecS.moveCtor v).1)) { s with cells := s.cells.set i (some (VecS.moveCtor v).2) }
      else .ub .oob
    | .thrown s => .thrown s
    | .ub u => .ub u

/-- body of `reserve` and `shrink_to_fit` (sequence.hpp 719-739, 746-768) -/
def reallocate (k : Kind) (n : Nat) : Cpp (Nest α) Unit := do
  Cpp.modify (fun s => { s with led := { s.led with alloc := s.led.alloc + 1 } })
  let s ← Cpp.get
  let new ← relocate s.size 0 (List.replicate n none)
  destroyAll k
  dealloc
  Cpp.modify (fun s => { s with ptr := .block, cells := new, cap := n })

/-- `reserve` (sequence.hpp 716-741) -/
def reserve (k : Kind) (n : Nat) : Cpp (Nest α) Unit := fun s => if n > s.cap then reallocate k n s else .ok () s

/-- `shrink_to_fit` (sequence.hpp 743-770) -/
def shrinkToFit (k : Kind) : Cpp (Nest α) Unit := fun s =>
  if s.size < s.cap + 1 then reallocate k (s.size + 1) s else .ok () s

/-- growth step of `push_back` and `emplace_back` (sequence.hpp 773-775, 783-785, 794-796) -/
def growPush (k : Kind) : Cpp (Nest α) Unit := fun s =>
  if s.size + 1 ≥ s.cap then reserve k (if s.size = 0 then 2 else 2 * s.size + 1) s else .ok () s

/-- a local `Vector<A> x;` or `Vector<A> x {l..};` (sequence.hpp 557, 623-633) -/
def local_ (init : Option (List α)) (led : Ledger) : Out (VecS α) Unit :=
  match init with
  | none => .ok () (VecS.mk0 led)
  | some l => VecS.ofList l led

/-- construct the new last element and count it (sequence.hpp 778-779, 788-789, 799-804) -/
def addLast (v : VecS α) : Cpp (Nest α) Unit := do
  let s ← Cpp.get
  construct s.size v
  Cpp.modify (fun s => { s with size := s.size + 1 })

/-- `vv.push_back(Vector<A>())` or `vv.push_back(Vector<A> {l..})` (sequence.hpp 782-790): the element is move-constructed from the
temporary, which is then destroyed -/
def pushTemp (k : Kind) (init : Option (List α)) : Cpp (Nest α) Unit := fun s =>
  match local_ init s.led with
  | .ok _ x =>
    (do
      growPush k
      let s ← Cpp.get
      addLast { (VecS.moveCtor x).1 with led := s.led }
      let s ← Cpp.get
      match VecS.dtor k { (VecS.moveCtor x).2 with led := s.led } with
      | .ok _ t => Cpp.modify (fun s => { s with led := t.led })
      | .thrown _ => Cpp.throw
      | .ub u => Cpp.ub u) { s with led := x.led }
  | .thrown _ => .thrown s
  | .ub u => .ub u

/-- `{ const Vector<A> x {l..}; vv.push_back(x); }` (sequence.hpp 772-780): the element is copy-constructed from `x`, which is then
destroyed -/
def pushCopy (k : Kind) (init : Option (List α)) : Cpp (Nest α) Unit := fun s =>
  match local_ init s.led with
  | .ok _ x =>
    (do
      growPush k
      let s ← Cpp.get
      match VecS.copyCtor x s.led with
      | .ok _ v => addLast v
      | .thrown _ => Cpp.throw
      | .ub u => Cpp.ub u
      let s ← Cpp.get
      match VecS.dtor k { x with led := s.led } with
      | .ok _ t => Cpp.modify (fun s => { s with led := t.led })
      | .thrown _ => Cpp.throw
      | .ub u => Cpp.ub u) { s with led := x.led }
  | .thrown _ => .thrown s
  | .ub u => .ub u

/-- `vv.emplace_back()` (sequence.hpp 792-805) -/
def emplaceBack (k : Kind) : Cpp (Nest α) Unit := do
  growPush k
  let s ← Cpp.get
  addLast (VecS.mk0 s.led)

/-- `pop_back` (sequence.hpp 807-814) -/
def popBack (k : Kind) : Cpp (Nest α) Unit := do
  let s ← Cpp.get
  if s.size = 0 then Cpp.throw
  else do
    destroy k (s.size - 1)
    Cpp.modify (fun s => { s with size := s.size - 1 })

/-- `clear` (sequence.hpp 849-855) -/
def clear (k : Kind) : Cpp (Nest α) Unit := do
  destroyAll k
  Cpp.modify (fun s => { s with size := 0 })

/-- `vv[i] = move(vv[j])` (sequence.hpp 602-621) -/
def moveTo (k : Kind) (i j : Nat) : Cpp (Nest α) Unit := fun s =>
  if i = j then .ok () s
  else match slot i s, slot j s with
    | .ok v _, .ok w _ =>
      match VecS.moveAssign k w v with
      | .ok w' v' => .ok () { s with led := v'.led, cells := (s.cells.set i (some v')).set j (some w') }
      | .thrown _ => .thrown s
      | .ub u => .ub u
    | .ub u, _ => .ub u
    | _, .ub u => .ub u
    | _, _ => .thrown s

/-- destructor (sequence.hpp 659-670) -/
def dtor (k : Kind) : Cpp (Nest α) Unit := fun s =>
  match s.ptr with
  | .null => .ok () s
  | .wild => .ub .wildPtr
  | .block => (do
      destroyAll k
      dealloc
      Cpp.modify (fun s => { s with ptr := .null, cells := [] })) s

/-- copy loop of the copy constructor (sequence.hpp 567-570) -/
def copyLoop (other : Nest α) : (n i : Nat) → Cpp (Nest α) Unit
  | 0, _ => pure ()
  | n + 1, i => fun s =>
    match slot i other with
    | .ok v _ =>
      match VecS.copyCtor v s.led with
      | .ok _ w => (do construct i w; copyLoop other n (i + 1)) s
      | .thrown _ => .thrown s
      | .ub u => .ub u
    | .thrown _ => .thrown s
    | .ub u => .ub u

/-- copy constructor (sequence.hpp 559-571) -/
def copyCtor (other : Nest α) : Out (Nest α) Unit :=
  match other.ptr with
  | .wild => .ub .wildPtr
  | .null => .ok () { led := other.led, ptr := .wild, size := other.size, cap := other.cap }
  | .block =>
    copyLoop other other.size 0
      { led := { other.led with alloc := other.led.alloc + 1 }, ptr := .block, size := other.size, cap := other.cap,
        cells := List.replicate other.cap none }

/-- `{ Vector<Vector<A>> ww(vv); }` (sequence.hpp 559-571, 659-670) -/
def copyWhole (k : Kind) : Cpp (Nest α) Unit := fun s =>
  match copyCtor s with
  | .ok _ w =>
    match dtor k w with
    | .ok _ w => .ok () { s with led := w.led }
    | .thrown _ => .thrown s
    | .ub u => .ub u
  | .thrown _ => .thrown s
  | .ub u => .ub u

/-- the steps of a client program.  `call i op` is `if (i < vv.size()) vv[i].op(..)`, `moveTo i j` the same with both indices. -/
inductive NOp (α : Type) where
  | pushTemp (init : Option (List α))
  | pushCopy (init : Option (List α))
  | emplace
  | pop
  | clear
  | reserve (n : Nat)
  | shrinkToFit
  | call (i : Nat) (op : VecS.Op α)
  | moveTo (i j : Nat)
  | copyWhole
  deriving Repr

/-- one step (sequence.hpp 557-855) -/
def NOp.run (k : Kind) : NOp α → Cpp (Nest α) Unit
  | .pushTemp init => Nest.pushTemp k init
  | .pushCopy init => Nest.pushCopy k init
  | .emplace => emplaceBack k
  | .pop => popBack k
  | .clear => Nest.clear k
  | .reserve n => Nest.reserve k n
  | .shrinkToFit => Nest.shrinkToFit k
  | .call i op => fun s => if i < s.size then onSlot i (op.run k) s else .ok () s
  | .moveTo i j => fun s => if i < s.size ∧ j < s.size then Nest.moveTo k i j s else .ok () s
  | .copyWhole => Nest.copyWhole k

/-- a program: exceptions are caught, recorded, and the program goes on (sequence.hpp 557-855) -/
def runAll (k : Kind) : List (NOp α) → Nest α → Except UB (Nest α × List Bool)
  | [], s => .ok (s, [])
  | op :: ops, s =>
    match op.run k s with
    | .ub w => .error w
    | .ok _ s' => (runAll k ops s').map (fun r => (r.1, false :: r.2))
    | .thrown s' => (runAll k ops s').map (fun r => (r.1, true :: r.2))

/-- what a client reads from `vv[i][..]`, `i` from `lo` on (sequence.hpp 672-678) -/
def readFrom (s : Nest α) : (lo n : Nat) → Except UB (List (List α))
  | _, 0 => .ok []
  | i, n + 1 =>
    match slot i s with
    | .ok v _ => v.contents.bind fun l => (readFrom s (i + 1) n).map (l :: ·)
    | .thrown _ => .error .oob
    | .ub u => .error u

/-- what a client reads from all of `vv` (sequence.hpp 672-678) -/
def contents (s : Nest α) : Except UB (List (List α)) := readFrom s 0 s.size

end Nest
end Efp
