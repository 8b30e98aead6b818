import Verif.Vector

/-!
# Programs over many `Vector`s (sequence.hpp 545-670, 707-855)

The variables of a program live in one execution: they share the counters of constructed and destroyed
objects and of allocated and freed blocks.
-/

namespace Efp
namespace VecS

variable {α : Type}

/-- the vectors of a running program: `none` is a variable whose destructor has run -/
structure World (α : Type) where
  led : Ledger := {}
  vars : List (Option (VecS α)) := []

/-- program steps over a list of variables (new variables are appended) -/
inductive WOp (α : Type) where
  /-- `Vector<A> x;` -/
  | make
  /-- `Vector<A> x {l...};` -/
  | makeOf (l : List α)
  /-- `Vector<A> x(v);` -/
  | copy (v : Nat)
  /-- `v = w;` -/
  | assign (v w : Nat)
  /-- `Vector<A> x(move(v));` -/
  | move (v : Nat)
  /-- `v = move(w);` -/
  | moveAssign (v w : Nat)
  /-- a call on variable `v` -/
  | on (v : Nat) (op : Op α)
  /-- `v` goes out of scope -/
  | destroy (v : Nat)
  deriving Repr

namespace World

/-- the live variable `v`, seen with the counters of the execution; using a destroyed or undeclared
variable is undefined -/
def var (W : World α) (v : Nat) : Except UB (VecS α) :=
  match W.vars[v]? with
  | some (some s) => .ok { s with led := W.led }
  | _ => .error .deadRead

/-- store the outcome of a call that updates variable `v` -/
def store (W : World α) (v : Nat) : Out (VecS α) Unit → Except UB (World α × Bool)
  | .ok _ s => .ok (⟨s.led, W.vars.set v (some s)⟩, false)
  | .thrown s => .ok (⟨s.led, W.vars.set v (some s)⟩, true)
  | .ub u => .error u

/-- add a constructed object as a new variable -/
def declare (W : World α) : Out (VecS α) Unit → Except UB (World α × Bool)
  | .ok _ s => .ok (⟨s.led, W.vars ++ [some s]⟩, false)
  | .thrown s => .ok (⟨s.led, W.vars⟩, true)
  | .ub u => .error u

end World

/-- one program step: default constructor (sequence.hpp 557), initializer-list constructor (623-633),
copy (559-571), copy assignment (574-592), move (594-600), move assignment (602-621), a member call, and
the destructor (659-670).  The `this != &other` guards (575, 603) are the `v = w` tests. -/
def WOp.run (k : Kind) : WOp α → World α → Except UB (World α × Bool)
  | .make, W => W.declare (.ok () (mk0 W.led))
  | .makeOf l, W => W.declare (ofList l W.led)
  | .copy v, W => do
    let s ← W.var v
    W.declare (copyCtor s W.led)
  | .assign v w, W => do
    let s ← W.var v
    let o ← W.var w
    if v = w then pure (W, false) else W.store v (copyAssign k o s)
  | .move v, W => do
    let s ← W.var v
    let r := moveCtor s
    pure (⟨W.led, W.vars.set v (some r.2) ++ [some r.1]⟩, false)
  | .moveAssign v w, W => do
    let s ← W.var v
    let o ← W.var w
    if v = w then pure (W, false)
    else
      match VecS.moveAssign k o s with
      | .ok o' s' => pure (⟨s'.led, (W.vars.set v (some s')).set w (some o')⟩, false)
      | .thrown s' => pure (⟨s'.led, W.vars.set v (some s')⟩, true)
      | .ub u => throw u
  | .on v op, W => do
    let s ← W.var v
    W.store v (op.run k s)
  | .destroy v, W => do
    let s ← W.var v
    match dtor k s with
    | .ok _ t => pure (⟨t.led, W.vars.set v none⟩, false)
    | .thrown t => pure (⟨t.led, W.vars.set v none⟩, true)
    | .ub u => throw u

/-- a program: final variables, and for each step whether it threw -/
def runW (k : Kind) : List (WOp α) → World α → Except UB (World α × List Bool)
  | [], W => .ok (W, [])
  | op :: ops, W => do
    let r ← op.run k W
    let r' ← runW k ops r.1
    pure (r'.1, r.2 :: r'.2)

/-- `swap(v, w)`, meta.hpp 752-758, in a program with `n` variables so far: the temporary becomes
variable `n` -/
def swapProg (n v w : Nat) : List (WOp α) := [.move v, .moveAssign v w, .moveAssign w n, .destroy n]

/-- what a client reads from every variable -/
def World.contents (W : World α) : List (Option (Except UB (List α))) :=
  W.vars.map (Option.map VecS.contents)

end VecS
end Efp
