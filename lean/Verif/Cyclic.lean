import Verif.MemLemmas
import Verif.Spec.Cyclic

/-!
# cyclic.hpp: `Vcb<A, n>` and `Vcq<A, n>`

Both keep every element twice in a buffer of `2 * n` slots ("mirrors" `n` slots apart), so that a window of up to `n`
elements is contiguous.  Pointers into the buffer are modelled as offsets from its start.  `A {}` is the parameter
`d`.  A static size `n` is a field of the state; the program cannot change it.
-/

namespace Efp
namespace Cyclic

variable {α β : Type}

/-- `++p; p -= n * (p == _buffer + n);` (cyclic.hpp 81-82, 285-286, 291-292, 305-306) -/
def advance (n p : Nat) : Nat := p + 1 - n * (if p + 1 = n then 1 else 0)

/-- `off + i < n ? off + i : off + i - n` (cyclic.hpp 184-185, 198-199, 206-208, 222-224, 237-238, 245-247, 261-262) -/
def wrap (n off i : Nat) : Nat := if off + i < n then off + i else off + i - n

/-- reading an element of another object -/
def readOf {σ : Type} (m : Mem α) (i : Nat) : Cpp σ α :=
  match Mem.read i m with
  | .ok a _ => pure a
  | .thrown _ => Cpp.throw
  | .ub u => Cpp.ub u

/-! ## Vcb -/

/-- members of `Vcb<A, n>` (cyclic.hpp 118-120): the buffer and `_data - _buffer` -/
structure VcbS (α : Type) where
  n : Nat
  mem : Mem α
  off : Nat
  deriving DecidableEq, Repr

namespace Vcb

/-- a statement on the buffer -/
def onMem (m : Cpp (Mem α) β) : Cpp (VcbS α) β := fun s => (m s.mem).mapState (fun x => { s with mem := x })

/-- storage before the constructor body runs -/
def blank (n : Nat) (off : Nat) : VcbS α := ⟨n, { cells := List.replicate (2 * n) .raw }, off⟩

/-- `Vcb()` (cyclic.hpp 19-24) -/
def mk0 (n : Nat) (d : α) : Out (VcbS α) Unit :=
  (do forUp (fun i => onMem (Mem.construct i d)) 0 (n * 2)
      Cpp.modify (fun s : VcbS α => { s with off := 0 })) (blank n 0)

/-- `Vcb(const Vcb&)` (cyclic.hpp 26-31) -/
def copy (other : VcbS α) : Out (VcbS α) Unit :=
  (do forUp (fun i => do let a ← readOf other.mem i; onMem (Mem.construct i a)) 0 (other.n * 2)
      Cpp.modify (fun s : VcbS α => { s with off := other.off })) (blank other.n 0)

/-- loop body of `operator=(const Vcb&)` (cyclic.hpp 35-36), distinct objects -/
def copyAssignBody (k : Kind) (other : VcbS α) (i : Nat) : Cpp (VcbS α) Unit := do
  onMem (Mem.destroy k i)
  let a ← readOf other.mem i
  onMem (Mem.construct i a)

/-- `operator=(const Vcb&)` (cyclic.hpp 33-40), distinct objects -/
def copyAssign (k : Kind) (other : VcbS α) : Cpp (VcbS α) Unit := do
  forUp (copyAssignBody k other) 0 (other.n * 2)
  Cpp.modify (fun s => { s with off := other.off })

/-- loop body of `operator=(const Vcb&)` (cyclic.hpp 35-36), `*this` assigned to itself -/
def selfAssignBody (k : Kind) (i : Nat) : Cpp (VcbS α) Unit := do
  onMem (Mem.destroy k i)
  let a ← onMem (Mem.read i)
  onMem (Mem.construct i a)

/-- `operator=(const Vcb&)` (cyclic.hpp 33-40), `*this` assigned to itself -/
def selfAssign (k : Kind) : Cpp (VcbS α) Unit := fun s =>
  forUp (selfAssignBody k) 0 (s.n * 2) s

/-- a statement on the left object of a pair -/
def left {σ τ : Type} (m : Cpp σ β) : Cpp (σ × τ) β := fun s => (m s.1).mapState (fun x => (x, s.2))
/-- a statement on the right object of a pair -/
def right {σ τ : Type} (m : Cpp τ β) : Cpp (σ × τ) β := fun s => (m s.2).mapState (fun x => (s.1, x))

/-- loop body of `Vcb(Vcb&&)` (cyclic.hpp 44) -/
def moveBody (k : Kind) (i : Nat) : Cpp (VcbS α × VcbS α) Unit := do
  let a ← right (onMem (Mem.moveOut k i))
  left (onMem (Mem.construct i a))

/-- `Vcb(Vcb&&)` (cyclic.hpp 42-48): new object and source -/
def moveCtor (k : Kind) (other : VcbS α) : Out (VcbS α × VcbS α) Unit :=
  (do forUp (moveBody k) 0 (other.n * 2)
      Cpp.modify (fun s : VcbS α × VcbS α => ({ s.1 with off := s.2.off }, s.2))) (blank other.n 0, other)

/-- loop body of `operator=(Vcb&&)` (cyclic.hpp 52-53) -/
def moveAssignBody (k : Kind) (i : Nat) : Cpp (VcbS α × VcbS α) Unit := do
  left (onMem (Mem.destroy k i))
  let a ← right (onMem (Mem.moveOut k i))
  left (onMem (Mem.construct i a))

/-- `operator=(Vcb&&)` (cyclic.hpp 50-58), distinct objects; the copy it returns by value is not modelled -/
def moveAssign (k : Kind) : Cpp (VcbS α × VcbS α) Unit := fun s =>
  (do forUp (moveAssignBody k) 0 (s.1.n * 2)
      Cpp.modify (fun s : VcbS α × VcbS α => ({ s.1 with off := s.2.off }, s.2))) s

/-- `~Vcb()` (cyclic.hpp 60-64) -/
def dtor (k : Kind) : Cpp (VcbS α) Unit := fun s => forUp (fun i => onMem (Mem.destroy k i)) 0 (s.n * 2) s

/-- `v[i]` (cyclic.hpp 66-72) -/
def at_ (i : Nat) : Cpp (VcbS α) α := fun s => onMem (Mem.read (s.off + i)) s

/-- `v[i] = a` (cyclic.hpp 66-68) -/
def write (k : Kind) (i : Nat) (a : α) : Cpp (VcbS α) Unit := fun s => onMem (Mem.assign k (s.off + i) a) s

/-- `push_back` (cyclic.hpp 74-83) -/
def pushBack (k : Kind) (a : α) : Cpp (VcbS α) Unit := fun s =>
  (do onMem (Mem.destroy k s.off)
      onMem (Mem.destroy k (s.off + s.n))
      onMem (Mem.construct s.off a)
      onMem (Mem.construct (s.off + s.n) a)
      Cpp.modify (fun t => { t with off := advance t.n t.off })) s

/-- `size()` (cyclic.hpp 85-87), `end() - begin()` (cyclic.hpp 101-115) -/
def size (s : VcbS α) : Nat := s.n

/-- successive pushes -/
def pushes (k : Kind) : List α → Cpp (VcbS α) Unit
  | [] => pure ()
  | a :: as => do pushBack k a; pushes k as

/-- what a client reads from `v[i], v[i+1], ...` (`m` elements); `data()` and `begin()` give the same addresses
(cyclic.hpp 89-107) -/
def readFrom : (i m : Nat) → Cpp (VcbS α) (List α)
  | _, 0 => pure []
  | i, m + 1 => do
    let a ← at_ i
    let l ← readFrom (i + 1) m
    pure (a :: l)

/-- the window a client sees -/
def window : Cpp (VcbS α) (List α) := fun s => readFrom 0 (size s) s

end Vcb

/-! ## Vcq -/

/-- members of `Vcq<A, n>` (cyclic.hpp 344-348): the buffer, `_size`, `_read - _buffer`, `_write - _buffer` -/
structure VcqS (α : Type) where
  n : Nat
  mem : Mem α
  size : Nat
  rd : Nat
  wr : Nat
  deriving DecidableEq, Repr

namespace Vcq

/-- a statement on the buffer -/
def onMem (m : Cpp (Mem α) β) : Cpp (VcqS α) β := fun s => (m s.mem).mapState (fun x => { s with mem := x })

/-- `Vcq()` (cyclic.hpp 174-179) -/
def mk0 (n : Nat) : VcqS α := ⟨n, { cells := List.replicate (2 * n) .raw }, 0, 0, 0⟩

/-- loop body of the copying members (cyclic.hpp 184-187, 206-210): note the source index `i` -/
def copyBody (other : VcqS α) (i : Nat) : Cpp (VcqS α) Unit := do
  let a ← readOf other.mem i
  onMem (Mem.construct (wrap other.n other.rd i) a)
  let b ← readOf other.mem i
  onMem (Mem.construct (other.n + wrap other.n other.rd i) b)

/-- `Vcq(const Vcq&)` (cyclic.hpp 181-193) -/
def copy (other : VcqS α) : Out (VcqS α) Unit :=
  (do forUp (copyBody other) 0 other.size
      Cpp.modify (fun s : VcqS α => { s with size := other.size, rd := other.rd, wr := other.wr })) (mk0 other.n)

/-- loop body of `~Vcq()` and of the assignments (cyclic.hpp 198-201, 237-240, 261-264) -/
def destroyBody (k : Kind) (n off : Nat) (i : Nat) : Cpp (VcqS α) Unit := do
  onMem (Mem.destroy k (wrap n off i))
  onMem (Mem.destroy k (n + wrap n off i))

/-- `~Vcq()` (cyclic.hpp 258-266), also the first loop of the assignments (cyclic.hpp 196-202, 235-241) -/
def dtor (k : Kind) : Cpp (VcqS α) Unit := fun s => forUp (destroyBody k s.n s.rd) 0 s.size s

/-- `operator=(const Vcq&)` (cyclic.hpp 195-217), distinct objects -/
def copyAssign (k : Kind) (other : VcqS α) : Cpp (VcqS α) Unit := do
  dtor k
  forUp (copyBody other) 0 other.size
  Cpp.modify (fun s => { s with size := other.size, rd := other.rd, wr := other.wr })

/-- loop body of the moving members (cyclic.hpp 222-226, 245-249) -/
def moveBody (k : Kind) (n off : Nat) (i : Nat) : Cpp (VcqS α × VcqS α) Unit := do
  let a ← Vcb.right (onMem (Mem.moveOut k i))
  Vcb.left (onMem (Mem.construct (wrap n off i) a))
  let b ← Vcb.right (onMem (Mem.moveOut k i))
  Vcb.left (onMem (Mem.construct (n + wrap n off i) b))

/-- `_size = other._size; _read = ...; _write = ...;` (cyclic.hpp 229-231, 252-254) -/
def takeOffsets (s : VcqS α × VcqS α) : VcqS α × VcqS α :=
  ({ s.1 with size := s.2.size, rd := s.2.rd, wr := s.2.wr }, s.2)

/-- `Vcq(Vcq&&)` (cyclic.hpp 219-232): new object and source -/
def moveCtor (k : Kind) (other : VcqS α) : Out (VcqS α × VcqS α) Unit :=
  (do forUp (moveBody k other.n other.rd) 0 other.size
      Cpp.modify takeOffsets) (mk0 other.n, other)

/-- `operator=(Vcq&&)` (cyclic.hpp 234-256), distinct objects -/
def moveAssign (k : Kind) : Cpp (VcqS α × VcqS α) Unit := fun s =>
  (do Vcb.left (dtor k)
      forUp (moveBody k s.2.n s.2.rd) 0 s.2.size
      Cpp.modify takeOffsets) s

/-- `q[i]` (cyclic.hpp 268-274) -/
def at_ (i : Nat) : Cpp (VcqS α) α := fun s => onMem (Mem.read (s.rd + i)) s

/-- `q[i] = a` (cyclic.hpp 268-270) -/
def write (k : Kind) (i : Nat) (a : α) : Cpp (VcqS α) Unit := fun s => onMem (Mem.assign k (s.rd + i) a) s

/-- first statement of `push_back` (cyclic.hpp 277-280): drop the oldest element of a full queue -/
def dropOldest (k : Kind) : Cpp (VcqS α) Unit := fun s =>
  (if s.size = s.n then do
      onMem (Mem.destroy k s.wr)
      onMem (Mem.destroy k (s.wr + s.n))
    else pure ()) s

/-- last statements of `push_back` (cyclic.hpp 285-293) -/
def pushed (s : VcqS α) : VcqS α :=
  if s.size < s.n then { s with wr := advance s.n s.wr, size := s.size + 1 }
  else { s with wr := advance s.n s.wr, rd := advance s.n s.rd }

/-- `push_back` of a value outside the queue (cyclic.hpp 276-294) -/
def pushBack (k : Kind) (a : α) : Cpp (VcqS α) Unit := fun s =>
  (do dropOldest k
      onMem (Mem.construct s.wr a)
      onMem (Mem.construct (s.wr + s.n) a)
      Cpp.modify pushed) s

/-- `q.push_back(q[i])` (cyclic.hpp 276-294): the parameter is a reference into the buffer, read where it is used -/
def pushBackOwn (k : Kind) (i : Nat) : Cpp (VcqS α) Unit := fun s =>
  (do dropOldest k
      let a ← onMem (Mem.read (s.rd + i))
      onMem (Mem.construct s.wr a)
      let b ← onMem (Mem.read (s.rd + i))
      onMem (Mem.construct (s.wr + s.n) b)
      Cpp.modify pushed) s

/-- `pop_front` (cyclic.hpp 298-309); `_size--` wraps in `size_t` -/
def popFront (k : Kind) : Cpp (VcqS α) α := fun s =>
  (do let a ← onMem (Mem.moveOut k s.rd)
      onMem (Mem.destroy k s.rd)
      onMem (Mem.destroy k (s.rd + s.n))
      Cpp.modify (fun t => { t with
        size := if t.size = 0 then 2 ^ 64 - 1 else t.size - 1
        rd := advance t.n t.rd })
      pure a) s

/-- `empty()` (cyclic.hpp 315-317) -/
def empty (s : VcqS α) : Bool := s.size = 0

/-- `end() - _buffer` (cyclic.hpp 335-341) -/
def endOff (s : VcqS α) : Nat := if s.wr > s.rd then s.wr else s.wr + s.n

/-- what a client reads from the buffer slots `p, p+1, ...` (`m` slots) -/
def readSlots : (p m : Nat) → Cpp (VcqS α) (List α)
  | _, 0 => pure []
  | p, m + 1 => do
    let a ← onMem (Mem.read p)
    let l ← readSlots (p + 1) m
    pure (a :: l)

/-- what a client reads from `q[0], ..., q[size()-1]`; `data()` gives the same addresses (cyclic.hpp 319-325) -/
def contents : Cpp (VcqS α) (List α) := fun s => readSlots s.rd s.size s

/-- what `for (x : q)` visits, from `begin()` to `end()` (cyclic.hpp 327-341) -/
def iterate : Cpp (VcqS α) (List α) := fun s => readSlots s.rd (endOff s - s.rd) s

/-- a client's history of `push_back` and `pop_front` calls; returns the popped values -/
def runOps (k : Kind) : List (Spec.QOp α) → Cpp (VcqS α) (List α)
  | [] => pure []
  | .push a :: ops => do
    pushBack k a
    runOps k ops
  | .pop :: ops => do
    let x ← popFront k
    let l ← runOps k ops
    pure (x :: l)

end Vcq
end Cyclic
end Efp
