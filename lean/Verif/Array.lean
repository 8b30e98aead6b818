import Verif.ArrVecWorld

/-!
# Model of `Array` (sequence.hpp 33-187)

Inline storage of `n` slots (`RawStorage`, meta.hpp 862-899), all of them holding an element.  The ledger
counts the element constructions and destructions performed by this object.
-/

namespace Efp

/-- An `Array<A, n>` object: `_data` (sequence.hpp 186). -/
structure ArrS (α : Type) extends Mem α where
  n : Nat
  deriving DecidableEq, Repr

namespace ArrS

variable {α : Type}

/-- access to the inline storage -/
def onM {β : Type} (m : Cpp (Mem α) β) : Cpp (ArrS α) β := fun s =>
  (m s.toMem).mapState (fun m' => { s with toMem := m' })

/-- storage before any constructor ran -/
def blank (n : Nat) : ArrS α := { cells := List.replicate n .raw, n := n }

/-- `new (_data + i) Element {d}` (sequence.hpp 56) -/
def initOne (d : α) (i : Nat) : Cpp (ArrS α) Unit := onM (Mem.construct i d)

/-- default constructor; `d` is the value of `Element {}` (sequence.hpp 53-58) -/
def mk0 (n : Nat) (d : α) : Out (ArrS α) Unit := forUp (initOne d) 0 n (blank n)

/-- `new (_data + i) Element {other._data[i]}` (sequence.hpp 62, 70) -/
def copyOne (other : ArrS α) (i : Nat) : Cpp (ArrS α) Unit := fun s =>
  match Mem.read i other.toMem with
  | .ok a _ => onM (Mem.construct i a) s
  | .thrown _ => .thrown s
  | .ub w => .ub w

/-- copy constructor (sequence.hpp 60-64) -/
def copyCtor (other : ArrS α) : Out (ArrS α) Unit := forUp (copyOne other) 0 other.n (blank other.n)

/-- one step of copy assignment (sequence.hpp 69-70) -/
def copyAssignOne (k : Kind) (other : ArrS α) (i : Nat) : Cpp (ArrS α) Unit := do
  onM (Mem.destroy k i)
  copyOne other i

/-- copy assignment from a distinct object (sequence.hpp 66-74) -/
def copyAssign (k : Kind) (other : ArrS α) : Cpp (ArrS α) Unit :=
  forUp (copyAssignOne k other) 0 other.n

/-- `new (_data + i) Element {efp::move(other._data[i])}` (sequence.hpp 78, 86) on the pair (this, other) -/
def moveOne (k : Kind) (i : Nat) : Cpp (ArrS α × ArrS α) Unit := fun p =>
  match Mem.moveOut k i p.2.toMem with
  | .ok a m => (onM (Mem.construct i a) p.1).mapState (fun s => (s, { p.2 with toMem := m }))
  | .thrown _ => .thrown p
  | .ub w => .ub w

/-- move constructor (sequence.hpp 76-80) -/
def moveCtor (k : Kind) (other : ArrS α) : Out (ArrS α × ArrS α) Unit :=
  forUp (moveOne k) 0 other.n (blank other.n, other)

/-- one step of move assignment (sequence.hpp 85-86) -/
def moveAssignOne (k : Kind) (i : Nat) : Cpp (ArrS α × ArrS α) Unit := fun p =>
  match onM (Mem.destroy k i) p.1 with
  | .ok _ s => moveOne k i (s, p.2)
  | .thrown s => .thrown (s, p.2)
  | .ub w => .ub w

/-- move assignment from a distinct object (sequence.hpp 82-90), on the pair (this, other) -/
def moveAssign (k : Kind) : Cpp (ArrS α × ArrS α) Unit := fun p => forUp (moveAssignOne k) 0 p.2.n p

/-- destructor (sequence.hpp 92-96) -/
def dtor (k : Kind) : Cpp (ArrS α) Unit := fun s => onM (forUp (fun i => Mem.destroy k i) 0 s.n) s

/-- constructing `_data[i..]` from a list of values (sequence.hpp 103-106) -/
def fill : (i : Nat) → List α → Cpp (ArrS α) Unit
  | _, [] => pure ()
  | i, a :: l => do onM (Mem.construct i a); fill (i + 1) l

/-- constructor from an initializer list (sequence.hpp 98-107); when it throws no object exists -/
def ofList (n : Nat) (l : List α) : Out (ArrS α) Unit :=
  if l.length ≠ n then .thrown (blank n) else fill 0 l (blank n)

/-- `a[i]` as a value (sequence.hpp 109-115): unchecked -/
def at_ (i : Nat) : Cpp (ArrS α) α := onM (Mem.read i)

/-- `a[i] = x` (sequence.hpp 109-111): unchecked -/
def setAt (k : Kind) (i : Nat) (a : α) : Cpp (ArrS α) Unit := onM (Mem.assign k i a)

/-- comparison loop of `operator==` (sequence.hpp 118-122), with `ne` the element `operator!=` -/
def eqLoop (ne : α → α → Bool) (other : ArrS α) : (i n : Nat) → Cpp (ArrS α) Bool
  | _, 0 => pure true
  | i, n + 1 => fun s =>
    match at_ i s with
    | .ok a _ =>
      match at_ i other with
      | .ok b _ => if ne a b then .ok false s else eqLoop ne other (i + 1) n s
      | .thrown _ => .thrown s
      | .ub w => .ub w
    | .thrown _ => .thrown s
    | .ub w => .ub w

/-- `operator==` (sequence.hpp 117-124) -/
def eqv (ne : α → α → Bool) (other : ArrS α) : Cpp (ArrS α) Bool := fun s => eqLoop ne other 0 s.n s

/-- `resize` (sequence.hpp 134-138) -/
def resize (m : Nat) : Cpp (ArrS α) Unit := do
  let s ← Cpp.get
  if m ≠ s.n then Cpp.throw else pure ()

/-- `reserve` (sequence.hpp 140-144) -/
def reserve (m : Nat) : Cpp (ArrS α) Unit := do
  let s ← Cpp.get
  if m > s.n then Cpp.throw else pure ()

/-- what a client sees by reading `a[i] .. a[i+m-1]` -/
def readFrom (s : ArrS α) : (i m : Nat) → Except UB (List α)
  | _, 0 => .ok []
  | i, m + 1 =>
    match at_ i s with
    | .ok a _ => (readFrom s (i + 1) m).map (fun l => a :: l)
    | .thrown _ => .error .oob
    | .ub w => .error w

/-- what a client sees by reading `a[0] .. a[n-1]` -/
def contents (s : ArrS α) : Except UB (List α) := readFrom s 0 s.n

/-! ## Programs over any number of `Array<A, n>` variables -/

/-- program steps over a list of variables (new variables are appended) -/
inductive WOp (α : Type) where
  /-- `Array<A, n> x;` with `A {}` equal to `d` -/
  | make (d : α)
  /-- `Array<A, n> x {l...};` -/
  | makeOf (l : List α)
  /-- `Array<A, n> x(v);` -/
  | copy (v : Nat)
  /-- `v = w;` -/
  | assign (v w : Nat)
  /-- `Array<A, n> x(move(v));` -/
  | move (v : Nat)
  /-- `v = move(w);` -/
  | moveAssign (v w : Nat)
  /-- `if (i < n) v[i] = a;` -/
  | setElem (v i : Nat) (a : α)
  /-- `v.resize(m);` -/
  | resize (v m : Nat)
  /-- `v.reserve(m);` -/
  | reserve (v m : Nat)
  deriving Repr

/-- store the outcome of a call that updates variable `v` -/
def store (W : List (ArrS α)) (v : Nat) : Out (ArrS α) Unit → Except UB (List (ArrS α) × Bool)
  | .ok _ s => .ok (W.set v s, false)
  | .thrown s => .ok (W.set v s, true)
  | .ub w => .error w

/-- add the constructed object as a new variable (none if the constructor threw) -/
def declare (W : List (ArrS α)) : Out (ArrS α) Unit → Except UB (List (ArrS α) × Bool)
  | .ok _ s => .ok (W ++ [s], false)
  | .thrown _ => .ok (W, true)
  | .ub w => .error w

/-- one program step; steps naming a non-existing variable do nothing.  The `this != &other` guards
(sequence.hpp 67, 83) are the `v = w` tests. -/
def WOp.run (k : Kind) (n : Nat) : WOp α → List (ArrS α) → Except UB (List (ArrS α) × Bool)
  | .make d, W => declare W (mk0 n d)
  | .makeOf l, W => declare W (ofList n l)
  | .copy v, W =>
    match W[v]? with
    | some s => declare W (copyCtor s)
    | none => .ok (W, false)
  | .assign v w, W =>
    match W[v]?, W[w]? with
    | some s, some o => if v = w then .ok (W, false) else store W v (copyAssign k o s)
    | _, _ => .ok (W, false)
  | .move v, W =>
    match W[v]? with
    | some s =>
      match moveCtor k s with
      | .ok _ (t, o) => .ok (W.set v o ++ [t], false)
      | .thrown _ => .ok (W, true)
      | .ub w => .error w
    | none => .ok (W, false)
  | .moveAssign v w, W =>
    match W[v]?, W[w]? with
    | some s, some o =>
      if v = w then .ok (W, false)
      else
        match ArrS.moveAssign k (s, o) with
        | .ok _ (t, o') => .ok ((W.set v t).set w o', false)
        | .thrown (t, o') => .ok ((W.set v t).set w o', true)
        | .ub u => .error u
    | _, _ => .ok (W, false)
  | .setElem v i a, W =>
    match W[v]? with
    | some s => if i < s.n then store W v (setAt k i a s) else .ok (W, false)
    | none => .ok (W, false)
  | .resize v m, W =>
    match W[v]? with
    | some s => store W v (ArrS.resize m s)
    | none => .ok (W, false)
  | .reserve v m, W =>
    match W[v]? with
    | some s => store W v (ArrS.reserve m s)
    | none => .ok (W, false)

/-- a program: final variables, and for each step whether it threw -/
def runW (k : Kind) (n : Nat) : List (WOp α) → List (ArrS α) → Except UB (List (ArrS α) × List Bool)
  | [], W => .ok (W, [])
  | op :: ops, W =>
    match op.run k n W with
    | .error u => .error u
    | .ok (W', b) => (runW k n ops W').map (fun r => (r.1, b :: r.2))

/-- run all destructors at the end of the program -/
def destroyVars (k : Kind) : List (ArrS α) → Except UB (List (ArrS α))
  | [] => .ok []
  | s :: W =>
    match dtor k s with
    | .ok _ t => (destroyVars k W).map (fun r => t :: r)
    | .thrown _ => .error .oob
    | .ub w => .error w

end ArrS
end Efp
