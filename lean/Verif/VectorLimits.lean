import Verif.Vector

/-!
# `Vector` at the limits of `size_t` and of memory

`Verif/Vector.lean` computes sizes in `Nat` and assumes that every allocation succeeds.  Here the same functions
are modelled with `size_t` arithmetic, which wraps at `2^w`, and with the two allocators the header can be compiled
with (sequence.hpp 522-533): `std::allocator` in a hosted build, `efp::Allocator` in a freestanding one.
Elements are constructed without throwing.
-/

namespace Efp
namespace Lim

open VecS

variable {α : Type}

/-- what the build fixes: the width of `size_t`, `sizeof(A)`, and whether the allocator is `std::allocator`
(sequence.hpp 525) or `efp::Allocator` (sequence.hpp 531) -/
structure Plat where
  w : Nat
  esz : Nat
  hosted : Bool
  deriving DecidableEq, Repr

/-- a value computed in `size_t` -/
def Plat.wrap (p : Plat) (n : Nat) : Nat := n % 2 ^ p.w

/-- `allocate(n)`: the number of element slots of the block, or `none` for an exception.  `avail b` says whether
`::operator new(b)` finds `b` bytes.  `std::allocator` throws `bad_array_new_length` when `n * sizeof(A)` does not
fit `size_t`; `efp::Allocator` (allocator.hpp 68-70) multiplies and lets the product wrap. -/
def allocate (p : Plat) (avail : Nat → Bool) (n : Nat) : Option Nat :=
  if p.hosted ∧ n > (2 ^ p.w - 1) / p.esz then none
  else if avail (p.wrap (n * p.esz)) then some (p.wrap (n * p.esz) / p.esz) else none

/-- `reserve` / `shrink_to_fit` after the allocation (sequence.hpp 721-739, 749-768): `m` slots came back, the
capacity recorded is the number `n` asked for -/
def install (k : Kind) (n m : Nat) : Cpp (VecS α) Unit := do
  Cpp.modify (fun s => { s with led := { s.led with alloc := s.led.alloc + 1 } })
  let s ← Cpp.get
  let new ← relocate k s.size 0 (List.replicate m .raw)
  destroyAll k
  dealloc
  Cpp.modify (fun s => { s with ptr := .block, cells := new, cap := n })

/-- body of `reserve` / `shrink_to_fit` (sequence.hpp 719-739, 746-768) -/
def reallocate (p : Plat) (avail : Nat → Bool) (k : Kind) (n : Nat) : Cpp (VecS α) Unit := fun s =>
  match allocate p avail n with
  | none => .thrown s
  | some m => install k n m s

/-- `reserve` (sequence.hpp 716-741) -/
def reserve (p : Plat) (avail : Nat → Bool) (k : Kind) (n : Nat) : Cpp (VecS α) Unit := fun s =>
  if n > s.cap then reallocate p avail k n s else .ok () s

/-- `resize` (sequence.hpp 707-714) -/
def resize (p : Plat) (avail : Nat → Bool) (k : Kind) (n : Nat) : Cpp (VecS α) Unit := do
  let s ← Cpp.get
  if p.wrap (n + 1) > s.cap then reserve p avail k (p.wrap (n + 1))
  Cpp.modify (fun s => { s with size := n })

/-- `shrink_to_fit` (sequence.hpp 743-770) -/
def shrinkToFit (p : Plat) (avail : Nat → Bool) (k : Kind) : Cpp (VecS α) Unit := fun s =>
  if s.size < p.wrap (s.cap + 1) then reallocate p avail k (p.wrap (s.size + 1)) s else .ok () s

/-- growth step of both `push_back`s and `emplace_back` (sequence.hpp 773-775) -/
def growPush (p : Plat) (avail : Nat → Bool) (k : Kind) : Cpp (VecS α) Unit := fun s =>
  if p.wrap (s.size + 1) ≥ s.cap then
    reserve p avail k (if s.size = 0 then 2 else p.wrap (2 * s.size + 1)) s
  else .ok () s

/-- `push_back` / `emplace_back` (sequence.hpp 772-805) -/
def pushBack (p : Plat) (avail : Nat → Bool) (k : Kind) (a : α) : Cpp (VecS α) Unit := do
  growPush p avail k
  let s ← Cpp.get
  onMem (Mem.construct s.size a)
  Cpp.modify (fun s => { s with size := p.wrap (s.size + 1) })

/-- `insert` (sequence.hpp 816-832) -/
def insert (p : Plat) (avail : Nat → Bool) (k : Kind) (idx : Nat) (a : α) : Cpp (VecS α) Unit := do
  let s ← Cpp.get
  if idx > s.size then Cpp.throw
  else do
    if p.wrap (s.size + 1) ≥ s.cap then reserve p avail k (if s.cap = 0 then 2 else p.wrap (2 * s.cap))
    forDown (fun i => do
      let x ← onMem (Mem.moveOut k (i - 1))
      onMem (Mem.assign k i x)) s.size (s.size - idx)
    onMem (Mem.construct idx a)
    Cpp.modify (fun s => { s with size := p.wrap (s.size + 1) })

/-- one client operation; those that neither allocate nor add to a `size_t` are as in `Verif/Vector.lean` -/
def run (p : Plat) (avail : Nat → Bool) (k : Kind) : Op α → Cpp (VecS α) Unit
  | .push a => pushBack p avail k a
  | .insert i a => insert p avail k i a
  | .reserve n => reserve p avail k n
  | .shrinkToFit => shrinkToFit p avail k
  | .shrinkTo n => fun s => if n ≤ s.size then resize p avail k n s else .ok () s
  | op => op.run k

/-- A history by a client that catches every exception and carries on.  Each call comes with the memory available
during it. -/
def runOps (p : Plat) (k : Kind) : List (Op α × (Nat → Bool)) → VecS α → Except UB (VecS α × List Bool)
  | [], s => .ok (s, [])
  | (op, avail) :: ops, s =>
    match run p avail k op s with
    | .ub w => .error w
    | .ok _ s' => (runOps p k ops s').map (fun r => (r.1, false :: r.2))
    | .thrown s' => (runOps p k ops s').map (fun r => (r.1, true :: r.2))

end Lim
end Efp
