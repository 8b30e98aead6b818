import Verif.String

/-!
# Programs over many `String`s (string.hpp 20-270, sequence.hpp 545-670, allocator.hpp 68-74)

Like `Verif.VecWorld`, with the constructors and members of `String`, and with the allocation function every block
came from: `Allocator::allocate` calls `::operator new` (allocator.hpp 68-70), the constructor `String(n, c)` calls
`::operator new[]` itself (string.hpp 48), and every release goes through `Allocator::deallocate`, which calls
`::operator delete` (allocator.hpp 72-74).  `std::allocator`, the default on hosted platforms (sequence.hpp 525), uses the
same two functions.
-/

namespace Efp

/-- the allocation function a block came from: `::operator new` or `::operator new[]` -/
inductive Form where
  | single
  | array
  deriving DecidableEq, Repr

/-- The strings of a running program (`none`: its destructor has run), each with the form of its block (without
meaning if it has none), the counters of the execution, and how many blocks from `::operator new[]` were given to
`::operator delete`. -/
structure StrWorld where
  led : Ledger := {}
  vars : List (Option (Str × Form)) := []
  wrong : Nat := 0

namespace StrWorld

/-- program steps over a list of variables (new variables are appended) -/
inductive Step where
  /-- `String x(...);` -/
  | make (i : Str.Init)
  /-- `String x(v);` -/
  | copy (v : Nat)
  /-- `String x = v.substr(pos, len);` -/
  | substr (v pos len : Nat)
  /-- `String x(move(v));` -/
  | move (v : Nat)
  /-- `v = w;` -/
  | assign (v w : Nat)
  /-- `v = move(w);` -/
  | moveAssign (v w : Nat)
  /-- `v += w;` for different variables -/
  | plus (v w : Nat)
  /-- a call on variable `v` -/
  | on (v : Nat) (op : Str.SOp)
  /-- `v` goes out of scope -/
  | destroy (v : Nat)
  deriving Repr

/-- the constructors (string.hpp 30-53, sequence.hpp 557), continuing the counters of the execution -/
def construct (led : Ledger) : Str.Init → Out Str Unit
  | .default => .ok () (VecS.mk0 led)
  | .cstr buf => Str.ofCStr buf led
  | .count buf n => Str.ofCount buf n led
  | .fill n c => Str.fill n c led

/-- `::operator new[]` is called by `String(n, c)` (string.hpp 48), all others use the allocator (string.hpp 34, 42) -/
def formOf : Str.Init → Form
  | .fill _ _ => .array
  | _ => .single

/-- the live variable `v`, seen with the counters of the execution; using a destroyed or undeclared variable is
undefined -/
def var (W : StrWorld) (v : Nat) : Except UB (Str × Form) :=
  match W.vars[v]? with
  | some (some (s, f)) => .ok ({ s with led := W.led }, f)
  | _ => .error .deadRead

/-- did a call release the block the string came with, and was that one from `::operator new[]`?  Every member that
releases blocks releases that one first (sequence.hpp 609, 667, 736, 764: `_data` before it is replaced). -/
def mismatch (s : Str) (f : Form) (now : Ledger) : Nat :=
  if s.ptr = .block ∧ f = .array ∧ s.led.freed < now.freed then 1 else 0

/-- the form of the block after a call: members allocate only through the allocator (sequence.hpp 719, 746) -/
def formAfter (s : Str) (f : Form) (now : Ledger) : Form := if s.led.alloc < now.alloc then .single else f

/-- the string `s` with a block of form `f` became `t`, held by variable `v` -/
def update (W : StrWorld) (v : Nat) (s : Str) (f : Form) (t : Str) : StrWorld :=
  ⟨t.led, W.vars.set v (some (t, formAfter s f t.led)), W.wrong + mismatch s f t.led⟩

/-- store the outcome of a call on variable `v`, which held `s` -/
def store (W : StrWorld) (v : Nat) (s : Str) (f : Form) : Out Str Unit → Except UB (StrWorld × Bool)
  | .ok _ t => .ok (W.update v s f t, false)
  | .thrown t => .ok (W.update v s f t, true)
  | .ub u => .error u

/-- add a constructed object as a new variable -/
def declare (W : StrWorld) (f : Form) : Out Str Unit → Except UB (StrWorld × Bool)
  | .ok _ t => .ok (⟨t.led, W.vars ++ [some (t, f)], W.wrong⟩, false)
  | .thrown t => .ok (⟨t.led, W.vars, W.wrong⟩, true)
  | .ub u => .error u

/-- One program step.  A move hands over the block with its form (sequence.hpp 594-600, 611-617), a destructor
releases it (sequence.hpp 659-670); the `this != &other` guards (575, 603) are the `v = w` tests. -/
def step : Step → StrWorld → Except UB (StrWorld × Bool)
  | .make i, W => W.declare (formOf i) (construct W.led i)
  | .copy v, W => do
    let x ← W.var v
    W.declare .single (VecS.copyCtor x.1 W.led)
  | .substr v pos len, W => do
    let x ← W.var v
    W.declare .single (Str.substr x.1 pos len W.led)
  | .move v, W => do
    let x ← W.var v
    let r := VecS.moveCtor x.1
    pure (⟨W.led, W.vars.set v (some (r.2, .single)) ++ [some (r.1, x.2)], W.wrong⟩, false)
  | .assign v w, W => do
    let x ← W.var v
    let y ← W.var w
    if v = w then pure (W, false) else W.store v x.1 x.2 (VecS.copyAssign .trivial y.1 x.1)
  | .moveAssign v w, W => do
    let x ← W.var v
    let y ← W.var w
    if v = w then pure (W, false)
    else
      match VecS.moveAssign .trivial y.1 x.1 with
      | .ok o t => pure (⟨t.led, (W.vars.set v (some (t, y.2))).set w (some (o, .single)),
          W.wrong + mismatch x.1 x.2 t.led⟩, false)
      | .thrown t => pure (W.update v x.1 x.2 t, true)
      | .ub u => throw u
  | .plus v w, W => do
    let x ← W.var v
    let y ← W.var w
    if v = w then throw .wildPtr else W.store v x.1 x.2 (Str.plusEq y.1 x.1)
  | .on v op, W => do
    let x ← W.var v
    W.store v x.1 x.2 (op.run x.1)
  | .destroy v, W => do
    let x ← W.var v
    match VecS.dtor .trivial x.1 with
    | .ok _ t => pure (⟨t.led, W.vars.set v none, W.wrong + mismatch x.1 x.2 t.led⟩, false)
    | .thrown t => pure (⟨t.led, W.vars.set v none, W.wrong + mismatch x.1 x.2 t.led⟩, true)
    | .ub u => throw u

/-- a program: final variables, and for each step whether it threw -/
def run : List Step → StrWorld → Except UB (StrWorld × List Bool)
  | [], W => .ok (W, [])
  | op :: ops, W => do
    let r ← step op W
    let r' ← run ops r.1
    pure (r'.1, r.2 :: r'.2)

/-- what a client reads from every variable -/
def contents (W : StrWorld) : List (Option (Except UB (List Nat))) :=
  W.vars.map (Option.map fun x => VecS.contents x.1)

end StrWorld
end Efp
