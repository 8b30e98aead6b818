import Verif.VectorLimits
import Verif.String

/-!
# `String` at the limits of `size_t` and of memory

The members of string.hpp that allocate or add to a `size_t`, on top of `Verif/VectorLimits.lean`.  A call may make
several allocations; `av i` is the memory available at turn `i` of its loop (`av 0` when it allocates only once).
Arguments lie outside the string.
-/

namespace Efp
namespace StrLim

open VecS Lim

/-- the memory available in the course of a call -/
abbrev Memory := Nat → Nat → Bool

/-- a constructor that throws: the base class, already constructed, is destroyed (sequence.hpp 659-670) -/
def unwind (s : Str) : Out Str Unit :=
  match dtor .trivial s with
  | .ok _ t => .thrown t
  | .thrown t => .thrown t
  | .ub w => .ub w

/-- both members are set and the allocation, still to be made, is refused or gives `m` slots -/
def begin_ (n cap : Nat) (m : Option Nat) (led : Ledger) (rest : Cpp Str Unit) : Out Str Unit :=
  match m with
  | none => unwind { VecS.mk0 led with size := n, cap := cap }
  | some m => rest
    { cells := List.replicate m .raw, led := { led with alloc := led.alloc + 1 }, ptr := .block, size := n, cap := cap }

/-- `Vector(const Char* s, size_t count)` (string.hpp 38-44) -/
def ofCount (p : Plat) (avail : Nat → Bool) (buf : List Nat) (n : Nat) (led : Ledger := {}) : Out Str Unit :=
  begin_ n (p.wrap (n + 1)) (allocate p avail (p.wrap (n + 1))) led (forUp (Str.writeBody 0 buf) 0 n)

/-- `Vector(const Char* c_str)` (string.hpp 30-36) -/
def ofCStr (p : Plat) (avail : Nat → Bool) (buf : List Nat) (led : Ledger := {}) : Out Str Unit :=
  match Str.strlen buf with
  | none => .ub .oob
  | some n => begin_ n (p.wrap (n + 1)) (allocate p avail (p.wrap (n + 1))) led (forUp (Str.writeBody 0 buf) 0 n)

/-- `Vector(size_t size, Char c)` (string.hpp 46-53): `operator new[]` is called directly, in every build, with a
product that may wrap.  That the block is later released by the allocator and not by `operator delete[]` is not
modelled. -/
def fill (p : Plat) (avail : Nat → Bool) (n c : Nat) (led : Ledger := {}) : Out Str Unit :=
  begin_ n n (if avail (p.wrap (n * p.esz)) then some (p.wrap (n * p.esz) / p.esz) else none) led
    (forUp (fun i => onMem (Mem.assign .trivial i c)) 0 n)

/-- `substr` (string.hpp 203-213): the new string -/
def substr (p : Plat) (avail : Nat → Bool) (s : Str) (pos len : Nat) (led : Ledger := {}) : Out Str Unit :=
  if pos > s.size then .thrown (VecS.mk0 led)
  else
    let n := if len > s.size - pos then s.size - pos else len
    begin_ n (p.wrap (n + 1)) (allocate p avail (p.wrap (n + 1))) led (forUp (Str.copyBody s pos) 0 n)

/-- loop body of `operator+=` (string.hpp 123), distinct objects -/
def plusBody (p : Plat) (av : Memory) (other : Str) (i : Nat) : Cpp Str Unit := do
  let c ← Str.readOf other i
  Lim.pushBack p (av i) .trivial c

/-- `operator+=` (string.hpp 121-127), distinct objects -/
def plusEq (p : Plat) (av : Memory) (other : Str) : Cpp Str Unit := forUp (plusBody p av other) 0 other.size

/-- loop body of `append(const Char*)` (string.hpp 133) -/
def appendBody (p : Plat) (av : Memory) (buf : List Nat) (i : Nat) : Cpp Str Unit := do
  let c ← Str.readArg buf i
  Lim.pushBack p (av i) .trivial c

/-- `append(const Char*)` (string.hpp 129-137) -/
def appendC (p : Plat) (av : Memory) (buf : List Nat) : Cpp Str Unit :=
  match Str.strlen buf with
  | none => Cpp.ub .oob
  | some n => forUp (appendBody p av buf) 0 n

/-- `append(size_t, Char)` (string.hpp 139-145) -/
def appendN (p : Plat) (av : Memory) (n c : Nat) : Cpp Str Unit :=
  forUp (fun i => Lim.pushBack p (av i) .trivial c) 0 n

/-- `assign(const Char*)` (string.hpp 147-150) -/
def assignC (p : Plat) (av : Memory) (buf : List Nat) : Cpp Str Unit := do
  VecS.clear .trivial
  appendC p av buf

/-- `assign(size_t, Char)` (string.hpp 152-155) -/
def assignN (p : Plat) (av : Memory) (n c : Nat) : Cpp Str Unit := do
  VecS.clear .trivial
  appendN p av n c

/-- body of both `insert`s after `reserve` (string.hpp 165-175, 186-196); the index `i + len - 1` does not wrap
when `_size + len` does not -/
def insertAt (p : Plat) (pos : Nat) (buf : List Nat) (len : Nat) : Cpp Str Unit := fun s =>
  (do forDown (Str.shiftBody len) s.size (s.size - pos)
      forUp (Str.writeBody pos buf) 0 len
      Cpp.modify (fun t => { t with size := p.wrap (t.size + len) })) s

/-- `insert(size_t, const Char*)` (string.hpp 157-176) -/
def insertC (p : Plat) (av : Memory) (pos : Nat) (buf : List Nat) : Cpp Str Unit := fun s =>
  if pos > s.size then .thrown s
  else match Str.strlen buf with
    | none => .ub .oob
    | some len => (do Lim.reserve p (av 0) .trivial (p.wrap (s.size + len)); insertAt p pos buf len) s

/-- `insert(size_t, const Char*, size_t)` (string.hpp 178-197) -/
def insertCN (p : Plat) (av : Memory) (pos : Nat) (buf : List Nat) (n : Nat) : Cpp Str Unit := fun s =>
  if pos > s.size then .thrown s
  else (do Lim.reserve p (av 0) .trivial (p.wrap (s.size + n + 1)); insertAt p pos buf n) s

/-- `s += String(w, |w|)`: the temporary is made first (turn 0), then `+=` runs (turns 1, 2, ...).  The temporary
keeps its own ledger. -/
def plus (p : Plat) (av : Memory) (w : List Nat) : Cpp Str Unit := fun s =>
  match ofCount p (av 0) w w.length with
  | .ok _ o => plusEq p (fun i => av (i + 1)) o s
  | .thrown _ => .thrown s
  | .ub u => .ub u

/-- construct -/
def init (p : Plat) (avail : Nat → Bool) : Str.Init → Out Str Unit
  | .default => .ok () (VecS.mk0 {})
  | .cstr buf => ofCStr p avail buf
  | .count buf n => ofCount p avail buf n
  | .fill n c => fill p avail n c

/-- one client operation -/
def run (p : Plat) (av : Memory) : Str.SOp → Cpp Str Unit
  | .base op => Lim.run p (av 0) .trivial op
  | .appendC buf => appendC p av buf
  | .appendN n c => appendN p av n c
  | .assignC buf => assignC p av buf
  | .assignN n c => assignN p av n c
  | .insertC pos buf => insertC p av pos buf
  | .insertCN pos buf n => insertCN p av pos buf n
  | .plus w => plus p av w

/-- a history by a client that catches every exception and carries on -/
def runOps (p : Plat) : List (Str.SOp × Memory) → Str → Except UB (Str × List Bool)
  | [], s => .ok (s, [])
  | (op, av) :: ops, s =>
    match run p av op s with
    | .ub w => .error w
    | .ok _ s' => (runOps p ops s').map (fun r => (r.1, false :: r.2))
    | .thrown s' => (runOps p ops s').map (fun r => (r.1, true :: r.2))

/-- a client session: a constructor that throws leaves no object to work with -/
def session (p : Plat) (avail : Nat → Bool) (i : Str.Init) (calls : List (Str.SOp × Memory)) :
    Except UB (Option (Str × List Bool)) :=
  match init p avail i with
  | .ok _ s => (runOps p calls s).map some
  | .thrown _ => .ok none
  | .ub w => .error w

end StrLim
end Efp
