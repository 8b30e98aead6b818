import Verif.String
import Verif.Spec.HappensBefore

/-!
# string.hpp: one `const` string used by many threads

Every `const` member of `String` as the sequence of its loads and stores, and a machine that interleaves the threads access by
access.  `_data` and `_capacity` are written by no `const` member and left out.  The threads use no lock.
-/

namespace Efp
namespace StrShared

open Spec (Op Trace)

/-- what the threads share: the member `_size` and the characters in the block (string.hpp 18-21, sequence.hpp 900-901) -/
inductive Loc where
  | size
  | cell (i : Nat)
  deriving DecidableEq, Repr

/-- a piece of code as its accesses to the shared string -/
inductive Job (β : Type) where
  | ret (b : β)
  | load (x : Loc) (k : Nat → Job β)
  | store (x : Loc) (v : Nat) (k : Job β)
  /-- undefined behaviour -/
  | ub

/-- the calls of a client: the `const` members of `String` and of its base (string.hpp 88-119, 203-260, sequence.hpp 672-705,
857-890) -/
inductive Call where
  | size
  /-- `s[i]` -/
  | get (i : Nat)
  | at_ (i : Nat)
  | front
  | back
  /-- `s == c_str` with an argument outside the string -/
  | eqC (w : List Nat)
  | substr (pos len : Nat)
  | copy (count pos : Nat)
  /-- the elements by iterators, by a view or by a copy of the string -/
  | all
  /-- `c_str()`, and the C string it points to -/
  | cStr
  deriving DecidableEq, Repr

/-- what a call returns -/
inductive Res where
  | num (n : Nat)
  | bool (b : Bool)
  | chars (l : List Nat)
  | threw
  deriving DecidableEq, Repr

variable {β : Type}

/-- read `n` characters from index `i` on: `_memcpy`, `Traits::compare`, a loop over iterators (string.hpp 43, 102, 225,
sequence.hpp 568-569) -/
def readCells : (i n : Nat) → (List Nat → Job β) → Job β
  | _, 0, k => k []
  | i, n + 1, k => .load (.cell i) fun c => readCells (i + 1) n fun cs => k (c :: cs)

/-- read the C string at index `i`: what a client does with `c_str()` (string.hpp 248-251); `fuel` bounds the loop -/
def untilNul : (fuel i : Nat) → (List Nat → Job β) → Job β
  | 0, _, _ => .ub
  | fuel + 1, i, k => .load (.cell i) fun c => if c = 0 then k [] else untilNul fuel (i + 1) fun cs => k (c :: cs)

/-- the accesses of a call, and what it returns (string.hpp 88-119, 203-260, sequence.hpp 672-705, 857-890).  `operator==` reads
all characters even if an early one differs. -/
def call : Call → (Res → Job β) → Job β
  | .size, k => .load .size fun n => k (.num n)
  | .get i, k => .load (.cell i) fun c => k (.num c)
  | .at_ i, k => .load .size fun n => if i ≥ n then k .threw else .load (.cell i) fun c => k (.num c)
  | .front, k => .load (.cell 0) fun c => k (.num c)
  | .back, k => .load .size fun n => .load (.cell (if n = 0 then 2 ^ 64 - 1 else n - 1)) fun c => k (.num c)
  | .eqC w, k => .load .size fun n => if n ≠ w.length then k (.bool false) else readCells 0 n fun cs => k (.bool (cs == w))
  | .substr pos len, k => .load .size fun n =>
      if pos > n then k .threw else readCells pos (if len > n - pos then n - pos else len) fun cs => k (.chars cs)
  | .copy count pos, k => .load .size fun n =>
      if pos > n then k .threw else readCells pos (if count > n - pos then n - pos else count) fun cs => k (.chars cs)
  | .all, k => .load .size fun n => readCells 0 n fun cs => k (.chars cs)
  | .cStr, k => .load .size fun n => .store (.cell n) 0 (untilNul (n + 1) 0 fun cs => k (.chars cs))

/-- a thread that makes one call after the other; `acc`: what they returned so far -/
def thread : List Call → List Res → Job (List Res)
  | [], acc => .ret acc
  | c :: cs, acc => call c fun r => thread cs (acc ++ [r])

/-- the shared string and what is left to do for each thread -/
structure State where
  size : Nat
  cells : List (Cell Nat)
  jobs : List (Job (List Res))

/-- a load (string.hpp 105-119): outside the block or of a character never written it is undefined -/
def State.load (s : State) : Loc → Option Nat
  | .size => some s.size
  | .cell i => match s.cells[i]? with
    | some (.live c) => some c
    | _ => none

/-- thread `t` does its next access (string.hpp 88-260) -/
def step (s : State) (t : Nat) : Option (State × Trace Loc) :=
  match s.jobs[t]? with
  | some (.load x k) =>
    match s.load x with
    | some v => some ({ s with jobs := s.jobs.set t (k v) }, [(t, .access x false)])
    | none => some ({ s with jobs := s.jobs.set t .ub }, [])
  | some (.store (.cell i) v k) =>
    if i < s.cells.length then some ({ s with cells := s.cells.set i (.live v), jobs := s.jobs.set t k }, [(t, .access (.cell i) true)])
    else some ({ s with jobs := s.jobs.set t .ub }, [])
  | some (.store .size v k) => some ({ s with size := v, jobs := s.jobs.set t k }, [(t, .access .size true)])
  | _ => none

/-- the threads of the client programs about to use the string (string.hpp 18-261) -/
def init (v : Str) (progs : List (List Call)) : State := { size := v.size, cells := v.cells, jobs := progs.map (thread · []) }

/-- the states some schedule can produce, and the accesses on the way (string.hpp 18-261) -/
inductive Traced (v : Str) (progs : List (List Call)) : State → Trace Loc → Prop where
  | start : Traced v progs (init v progs) []
  | step {s s' : State} {tr es : Trace Loc} (t : Nat) : Traced v progs s tr → step s t = some (s', es) → Traced v progs s' (tr ++ es)

end StrShared
end Efp
