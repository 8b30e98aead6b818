import Verif.Core

/-!
# Which constructors of the elements the containers call (sequence.hpp 230-478, 556-857, cyclic.hpp 9-121, 164-349,
allocator.hpp 46-86)

Here an element is nothing but something that is constructed, moved, copied and destroyed; a container is its size and its
capacity, and each operation gives the list of special member functions of the element type it calls, in order.  In freestanding
builds vectors use `efp::Allocator` (sequence.hpp 527-531), whose `construct` takes `const T&` (allocator.hpp 80-82) and so
copies whatever it is given.

Not modelled: `resize` to a larger size and copy assignment of vectors, which work on elements that do not exist (see C05);
exceptions thrown by constructors.
-/

namespace Efp.Copies

/-- What can be done to an element: made from something else, copy constructed, move constructed, move assigned, destroyed. -/
inductive Act where
  | make | copy | move | assign | destroy
deriving DecidableEq, Repr

/-- A `VectorBase`: `_size` and `_capacity` (sequence.hpp 901-902), or an `ArrVec`, whose capacity never changes. -/
structure V where
  size : Nat
  cap : Nat
deriving DecidableEq, Repr

/-- The operations of a program on one vector. -/
inductive Op where
  | pushCopy | pushMove | emplace | pop | insert (i : Nat) | erase (i : Nat) | clear | reserve (n : Nat) | shrink
  /-- another container is made from this one by copying -/
  | copyOut
deriving DecidableEq, Repr

/-- `AllocatorTraits::construct(alloc, p, efp::move(x))`: `std::allocator` calls the move constructor; `efp::Allocator`
(allocator.hpp 80-82) binds the argument to `const T&` and calls the copy constructor. -/
def constructMoved (hosted : Bool) : List Act := if hosted then [.move] else [.copy]

/-- `AllocatorTraits::construct(alloc, p, args)` with arguments of another type: `std::allocator` constructs in place;
`efp::Allocator` needs a `const T&`, so a temporary is made, copied and destroyed. -/
def constructArgs (hosted : Bool) : List Act := if hosted then [.make] else [.make, .copy, .destroy]

/-- `for (size_t i = 0; i < n; ++i)` around actions that are the same for every element. -/
def loop (n : Nat) (as : List Act) : List Act :=
  match n with
  | 0 => []
  | n + 1 => as ++ loop n as

/-- The moves into a new block and the destruction of the old elements, sequence.hpp 721-733 and 749-762. -/
def relocate (hosted : Bool) (v : V) : List Act := loop v.size (constructMoved hosted) ++ loop v.size [.destroy]

/-- `reserve`, sequence.hpp 716-741 -/
def reserve (hosted : Bool) (n : Nat) (v : V) : V × List Act :=
  if n > v.cap then (⟨v.size, n⟩, relocate hosted v) else (v, [])

/-- `shrink_to_fit`, sequence.hpp 743-770 -/
def shrinkToFit (hosted : Bool) (v : V) : V × List Act :=
  if v.size < v.cap + 1 then (⟨v.size, v.size + 1⟩, relocate hosted v) else (v, [])

/-- `push_back` and `emplace_back`, sequence.hpp 772-805: `last` is the construction of the new element. -/
def pushWith (hosted : Bool) (last : List Act) (v : V) : V × List Act :=
  let (v, as) := if v.size + 1 ≥ v.cap then reserve hosted (if v.size = 0 then 2 else 2 * v.size + 1) v else (v, [])
  (⟨v.size + 1, v.cap⟩, as ++ last)

/-- `insert`, sequence.hpp 816-832: nothing happens when it throws. -/
def insertAt (hosted : Bool) (i : Nat) (v : V) : V × List Act :=
  if i > v.size then (v, [])
  else
    let (v, as) := if v.size + 1 ≥ v.cap then reserve hosted (if v.cap = 0 then 2 else 2 * v.cap) v else (v, [])
    (⟨v.size + 1, v.cap⟩, as ++ loop (v.size - i) [.assign] ++ [.copy])

/-- `erase`, sequence.hpp 834-847 -/
def eraseAt (i : Nat) (v : V) : V × List Act :=
  if i ≥ v.size then (v, [])
  else (⟨v.size - 1, v.cap⟩, [.destroy] ++ loop (v.size - 1 - i) [.assign])

/-- One operation on a `Vector`. -/
def step (hosted : Bool) (v : V) : Op → V × List Act
  | .pushCopy => pushWith hosted [.copy] v                      -- sequence.hpp 772-780
  | .pushMove => pushWith hosted (constructMoved hosted) v      -- sequence.hpp 782-790
  | .emplace => pushWith hosted (constructArgs hosted) v        -- sequence.hpp 792-805
  | .pop => if v.size = 0 then (v, []) else (⟨v.size - 1, v.cap⟩, [.destroy])  -- sequence.hpp 807-814
  | .insert i => insertAt hosted i v
  | .erase i => eraseAt i v
  | .clear => (⟨0, v.cap⟩, loop v.size [.destroy])              -- sequence.hpp 849-855
  | .reserve n => reserve hosted n v
  | .shrink => shrinkToFit hosted v
  | .copyOut => (v, loop v.size [.copy])                        -- sequence.hpp 559-571

/-- One operation on an `ArrVec` of capacity `v.cap`; the operations that throw do nothing. -/
def arrStep (v : V) : Op → V × List Act
  | .pushCopy => if v.size ≥ v.cap then (v, []) else (⟨v.size + 1, v.cap⟩, [.copy])  -- sequence.hpp 373-379
  | .pushMove => if v.size ≥ v.cap then (v, []) else (⟨v.size + 1, v.cap⟩, [.move])  -- sequence.hpp 381-387
  | .emplace => (v, [])                                         -- there is no such member
  | .pop => if v.size = 0 then (v, []) else (⟨v.size - 1, v.cap⟩, [.destroy])  -- sequence.hpp 406-412
  | .insert i =>                                                -- sequence.hpp 389-404
    if i > v.size ∨ v.size = v.cap then (v, [])
    else (⟨v.size + 1, v.cap⟩, loop (v.size - i) [.move, .destroy] ++ [.copy])
  | .erase i =>                                                 -- sequence.hpp 421-433
    if i ≥ v.size then (v, [])
    else (⟨v.size - 1, v.cap⟩, [.destroy] ++ loop (v.size - 1 - i) [.move, .destroy])
  | .clear => (⟨0, v.cap⟩, loop v.size [.destroy])              -- sequence.hpp 414-419
  | .reserve _ => (v, [])                                       -- sequence.hpp 366-371
  | .shrink => (v, [])                                          -- there is no such member
  | .copyOut => (v, loop v.size [.copy])                        -- sequence.hpp 254-258

/-- A program on one container: the actions of its operations in order (no lines in /repo: what a user writes). -/
def run (f : V → Op → V × List Act) (v : V) : List Op → V × List Act
  | [] => (v, [])
  | op :: ops => ((run f (f v op).1 ops).1, (f v op).2 ++ (run f (f v op).1 ops).2)

/-- The operations of a program on one cyclic container. -/
inductive CycOp where
  | push | pop
deriving DecidableEq, Repr

/-- `Vcq<A, n>`, cyclic.hpp 275-293 and 298-309: the number of elements and the actions; popping an empty queue is undefined and
here does nothing. -/
def vcqStep (n : Nat) (size : Nat) : CycOp → Nat × List Act
  | .push => (if size < n then size + 1 else size, (if size = n then [.destroy, .destroy] else []) ++ [.copy, .copy])
  | .pop => if size = 0 then (size, []) else (size - 1, [.move, .destroy, .destroy])

/-- A program on one queue. -/
def vcqRun (n : Nat) (size : Nat) : List CycOp → Nat × List Act
  | [] => (size, [])
  | op :: ops => ((vcqRun n (vcqStep n size op).1 ops).1, (vcqStep n size op).2 ++ (vcqRun n (vcqStep n size op).1 ops).2)

/-- `Vcb::push_back(A value)`, cyclic.hpp 74-83, called with an object that stays in use: the parameter is a copy, two more are
made of it, and the parameter is destroyed. -/
def vcbPush : List Act := [.copy] ++ [.destroy, .destroy] ++ [.copy, .copy] ++ [.destroy]

end Efp.Copies
