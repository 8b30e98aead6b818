import Verif.MemLemmas

/-!
# Model of `ArrVec` (sequence.hpp 229-478)

Inline storage of `cap` slots (`RawStorage`, meta.hpp 862-899) and a size.  The ledger counts the
element constructions and destructions performed by this object.
-/

namespace Efp

/-- An `ArrVec<A, cap>` object: `_data` and `_size` (sequence.hpp 476-477). -/
structure AvS (α : Type) extends Mem α where
  size : Nat
  cap : Nat
  deriving DecidableEq, Repr

namespace AvS

variable {α : Type}

/-- access to the inline storage -/
def onM {β : Type} (m : Cpp (Mem α) β) : Cpp (AvS α) β := fun s =>
  (m s.toMem).mapState (fun m' => { s with toMem := m' })

/-- `ArrVec()` (sequence.hpp 250-252) -/
def mk0 (n : Nat) : AvS α := { cells := List.replicate n .raw, size := 0, cap := n }

/-- `for (i = 0; i < _size; ++i) (_data + i)->~Element()` (sequence.hpp 262-264, 285-287, 302-304, 415-417) -/
def destroyAll (k : Kind) : Cpp (AvS α) Unit := fun s =>
  onM (forUp (fun i => Mem.destroy k i) 0 s.size) s

/-- `new (_data + i) Element {other._data[i]}` (sequence.hpp 256, 269) -/
def copyOne (other : AvS α) (i : Nat) : Cpp (AvS α) Unit := fun s =>
  match Mem.read i other.toMem with
  | .ok a _ => onM (Mem.construct i a) s
  | .thrown _ => .thrown s
  | .ub w => .ub w

/-- copy constructor (sequence.hpp 254-258) -/
def copyCtor (other : AvS α) : Out (AvS α) Unit :=
  forUp (copyOne other) 0 other.size
    { cells := List.replicate other.cap .raw, size := other.size, cap := other.cap }

/-- copy assignment from a distinct object (sequence.hpp 260-273) -/
def copyAssign (k : Kind) (other : AvS α) : Cpp (AvS α) Unit := do
  destroyAll k
  Cpp.modify (fun s => { s with size := other.size })
  forUp (copyOne other) 0 other.size

/-- `new (_data + i) Element {efp::move(other._data[i])}` (sequence.hpp 278, 292) on the pair
(this, other) -/
def moveOne (k : Kind) (i : Nat) : Cpp (AvS α × AvS α) Unit := fun p =>
  match Mem.moveOut k i p.2.toMem with
  | .ok a m => (onM (Mem.construct i a) p.1).mapState (fun s => (s, { p.2 with toMem := m }))
  | .thrown _ => .thrown p
  | .ub w => .ub w

/-- move constructor (sequence.hpp 275-280): new object and new state of the source -/
def moveCtor (k : Kind) (other : AvS α) : Out (AvS α × AvS α) Unit :=
  forUp (moveOne k) 0 other.size
    ({ cells := List.replicate other.cap .raw, size := other.size, cap := other.cap },
     { other with size := 0 })

/-- move assignment from a distinct object (sequence.hpp 282-299), on the pair (this, other) -/
def moveAssign (k : Kind) : Cpp (AvS α × AvS α) Unit := fun p =>
  match destroyAll k p.1 with
  | .ok _ s =>
    (do forUp (moveOne k) 0 p.2.size
        Cpp.modify (fun q => (q.1, { q.2 with size := 0 }))) ({ s with size := p.2.size }, p.2)
  | .thrown s => .thrown (s, p.2)
  | .ub w => .ub w

/-- destructor (sequence.hpp 301-305) -/
def dtor (k : Kind) : Cpp (AvS α) Unit := destroyAll k

/-- converting constructor from `ArrVec<Element, other.cap>` (sequence.hpp 308-313): takes the source's
capacity, not its size -/
def widen (n : Nat) (other : AvS α) : Out (AvS α) Unit :=
  forUp (copyOne other) 0 other.cap
    { cells := List.replicate n .raw, size := other.cap, cap := n }

/-- constructing `_data[i..]` from a list of values (sequence.hpp 322-325) -/
def fill : (i : Nat) → List α → Cpp (AvS α) Unit
  | _, [] => pure ()
  | i, a :: l => do onM (Mem.construct i a); fill (i + 1) l

/-- constructor from an initializer list (sequence.hpp 315-326); when it throws no object exists -/
def ofList (n : Nat) (l : List α) : Out (AvS α) Unit :=
  if l.length > n then .thrown (mk0 n)
  else fill 0 l { cells := List.replicate n .raw, size := l.length, cap := n }

/-- `v[i]` as a value (sequence.hpp 328-334): unchecked -/
def at_ (i : Nat) : Cpp (AvS α) α := onM (Mem.read i)

/-- `v[i] = a` (sequence.hpp 328-330): unchecked -/
def setAt (k : Kind) (i : Nat) (a : α) : Cpp (AvS α) Unit := onM (Mem.assign k i a)

/-- comparison loop of `operator==` (sequence.hpp 341-345) -/
def eqLoop (eq : α → α → Bool) (other : AvS α) : (i n : Nat) → Cpp (AvS α) Bool
  | _, 0 => pure true
  | i, n + 1 => fun s =>
    match at_ i s with
    | .ok a _ =>
      match at_ i other with
      | .ok b _ => if eq a b then eqLoop eq other (i + 1) n s else .ok false s
      | .thrown _ => .thrown s
      | .ub w => .ub w
    | .thrown _ => .thrown s
    | .ub w => .ub w

/-- `operator==` (sequence.hpp 336-348) -/
def eqv (eq : α → α → Bool) (other : AvS α) : Cpp (AvS α) Bool := fun s =>
  if s.size ≠ other.size then .ok false s else eqLoop eq other 0 s.size s

/-- `resize` (sequence.hpp 358-364): neither constructs nor destroys -/
def resize (n : Nat) : Cpp (AvS α) Unit := do
  let s ← Cpp.get
  if n > s.cap then Cpp.throw
  else Cpp.modify (fun s => { s with size := n })

/-- `reserve` (sequence.hpp 366-371) -/
def reserve (n : Nat) : Cpp (AvS α) Unit := do
  let s ← Cpp.get
  if n > s.cap then Cpp.throw else pure ()

/-- `push_back` (sequence.hpp 373-387) -/
def pushBack (a : α) : Cpp (AvS α) Unit := do
  let s ← Cpp.get
  if s.size ≥ s.cap then Cpp.throw
  else do
    onM (Mem.construct s.size a)
    Cpp.modify (fun s => { s with size := s.size + 1 })

/-- one step of the shift in `insert` (sequence.hpp 397-398) -/
def shiftUpOne (k : Kind) (i : Nat) : Cpp (Mem α) Unit := do
  let x ← Mem.moveOut k (i - 1)
  Mem.construct i x
  Mem.destroy k (i - 1)

/-- `insert` (sequence.hpp 389-404) -/
def insert (k : Kind) (idx : Nat) (a : α) : Cpp (AvS α) Unit := do
  let s ← Cpp.get
  if idx > s.size ∨ s.size = s.cap then Cpp.throw
  else do
    onM (forDown (shiftUpOne k) s.size (s.size - idx))
    onM (Mem.construct idx a)
    Cpp.modify (fun s => { s with size := s.size + 1 })

/-- `pop_back` (sequence.hpp 406-412) -/
def popBack (k : Kind) : Cpp (AvS α) Unit := do
  let s ← Cpp.get
  if s.size = 0 then Cpp.throw
  else do
    Cpp.modify (fun s => { s with size := s.size - 1 })
    onM (Mem.destroy k (s.size - 1))

/-- `clear` (sequence.hpp 414-419) -/
def clear (k : Kind) : Cpp (AvS α) Unit := do
  destroyAll k
  Cpp.modify (fun s => { s with size := 0 })

/-- one step of the shift in `erase` (sequence.hpp 429-430) -/
def shiftDownOne (k : Kind) (i : Nat) : Cpp (Mem α) Unit := do
  let x ← Mem.moveOut k (i + 1)
  Mem.construct i x
  Mem.destroy k (i + 1)

/-- `erase` (sequence.hpp 421-433) -/
def erase (k : Kind) (idx : Nat) : Cpp (AvS α) Unit := do
  let s ← Cpp.get
  if idx ≥ s.size then Cpp.throw
  else do
    onM (Mem.destroy k idx)
    onM (forUp (shiftDownOne k) idx (s.size - 1 - idx))
    Cpp.modify (fun s => { s with size := s.size - 1 })

/-- what a client sees by reading `v[i] .. v[i+n-1]` -/
def readFrom (s : AvS α) : (i n : Nat) → Except UB (List α)
  | _, 0 => .ok []
  | i, n + 1 =>
    match at_ i s with
    | .ok a _ => (readFrom s (i + 1) n).map (fun l => a :: l)
    | .thrown _ => .error .oob
    | .ub w => .error w

/-- what a client sees by reading `v[0] .. v[v.size()-1]` -/
def contents (s : AvS α) : Except UB (List α) := readFrom s 0 s.size

/-! ## Histories over any number of `ArrVec<A, n>` variables -/

/-- calls on one object; `resize m` stands for the client code that calls `resize(m)` unless that would
expose never-constructed slots (`size() < m <= capacity()`), and `setElem i a` for
`if (i < v.size()) v[i] = a;` -/
inductive Op (α : Type) where
  | push (a : α)
  | pop
  | insert (i : Nat) (a : α)
  | erase (i : Nat)
  | clear
  | reserve (m : Nat)
  | resize (m : Nat)
  | setElem (i : Nat) (a : α)
  deriving Repr

/-- run one call -/
def Op.run (k : Kind) : Op α → Cpp (AvS α) Unit
  | .push a => pushBack a
  | .pop => popBack k
  | .insert i a => AvS.insert k i a
  | .erase i => AvS.erase k i
  | .clear => AvS.clear k
  | .reserve m => AvS.reserve m
  | .resize m => fun s => if m ≤ s.size ∨ s.cap < m then AvS.resize m s else .ok () s
  | .setElem i a => fun s => if i < s.size then setAt k i a s else .ok () s

/-- program steps over a list of variables (new variables are appended) -/
inductive WOp (α : Type) where
  /-- `ArrVec<A, n> x;` -/
  | make
  /-- `ArrVec<A, n> x {l...};` -/
  | makeOf (l : List α)
  /-- `ArrVec<A, n> x(v);` -/
  | copy (v : Nat)
  /-- `v = w;` -/
  | assign (v w : Nat)
  /-- `ArrVec<A, n> x(move(v));` -/
  | move (v : Nat)
  /-- `v = move(w);` -/
  | moveAssign (v w : Nat)
  /-- a call on variable `v` -/
  | on (v : Nat) (op : Op α)
  deriving Repr

/-- store the outcome of a call that updates variable `v` -/
def store (W : List (AvS α)) (v : Nat) : Out (AvS α) Unit → Except UB (List (AvS α) × Bool)
  | .ok _ s => .ok (W.set v s, false)
  | .thrown s => .ok (W.set v s, true)
  | .ub w => .error w

/-- add the constructed object as a new variable (none if the constructor threw) -/
def declare (W : List (AvS α)) : Out (AvS α) Unit → Except UB (List (AvS α) × Bool)
  | .ok _ s => .ok (W ++ [s], false)
  | .thrown _ => .ok (W, true)
  | .ub w => .error w

/-- one program step; steps naming a non-existing variable do nothing.  The `this != &other` guards
(sequence.hpp 261, 283) are the `v = w` tests. -/
def WOp.run (k : Kind) (n : Nat) : WOp α → List (AvS α) → Except UB (List (AvS α) × Bool)
  | .make, W => .ok (W ++ [mk0 n], false)
  | .makeOf l, W => declare W (ofList n l)
  | .copy v, W =>
    match W[v]? with
    | some s => declare W (copyCtor s)
    | none => .ok (W, false)
  | .assign v w, W =>
    match W[v]?, W[w]? with
    | some s, some o => if v = w then .ok (W, false) else store W v (copyAssign k o s)
    | _, _ => .ok (W, false)
  | .move v, W =>
    match W[v]? with
    | some s =>
      match moveCtor k s with
      | .ok _ (t, o) => .ok (W.set v o ++ [t], false)
      | .thrown _ => .ok (W, true)
      | .ub w => .error w
    | none => .ok (W, false)
  | .moveAssign v w, W =>
    match W[v]?, W[w]? with
    | some s, some o =>
      if v = w then .ok (W, false)
      else
        match AvS.moveAssign k (s, o) with
        | .ok _ (t, o') => .ok ((W.set v t).set w o', false)
        | .thrown (t, o') => .ok ((W.set v t).set w o', true)
        | .ub u => .error u
    | _, _ => .ok (W, false)
  | .on v op, W =>
    match W[v]? with
    | some s => store W v (op.run k s)
    | none => .ok (W, false)

/-- a program: final variables, and for each step whether it threw -/
def runW (k : Kind) (n : Nat) : List (WOp α) → List (AvS α) → Except UB (List (AvS α) × List Bool)
  | [], W => .ok (W, [])
  | op :: ops, W =>
    match op.run k n W with
    | .error u => .error u
    | .ok (W', b) => (runW k n ops W').map (fun r => (r.1, b :: r.2))

/-- run all destructors at the end of the program -/
def destroyVars (k : Kind) : List (AvS α) → Except UB (List (AvS α))
  | [] => .ok []
  | s :: W =>
    match dtor k s with
    | .ok _ t => (destroyVars k W).map (fun r => t :: r)
    | .thrown _ => .error .oob
    | .ub w => .error w

end AvS
end Efp
