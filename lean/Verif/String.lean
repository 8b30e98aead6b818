import Verif.Vector
import Verif.View

/-!
# Model of string.hpp

`String` is the specialisation of `Vector` for character types: it inherits `VectorBase` (`Verif.Vector`) and adds the
members below.  A character is its code, a `Nat`; the code of NUL is 0.  Characters are trivially copyable, so every
inherited member is run with `Kind.trivial`.  A `const Char*` argument is the list of characters from there to the end
of the array it points into; reading past that is undefined.  `Traits` is `std::char_traits` (sequence.hpp 940-942).
The iterator-range constructor (string.hpp 63-81) names members that do not exist and is not modelled; neither are the
conversions to `std::string` (string.hpp 257-261, 325-329).
-/

namespace Efp

/-- a `String` object -/
abbrev Str := VecS Nat

namespace Str

open VecS

/-- `Traits::length`: index of the first NUL; `none` if the array ends before one -/
def strlen : List Nat → Option Nat
  | [] => none
  | c :: cs => if c = 0 then some 0 else (strlen cs).map (· + 1)

/-- reading `p[i]` of an argument array -/
def readArg {σ : Type} (buf : List Nat) (i : Nat) : Cpp σ Nat :=
  match buf[i]? with
  | some c => pure c
  | none => Cpp.ub .oob

/-- loop body writing `_data[pos + i] = buf[i]`, also one step of `_memcpy(_data, buf, n)` with `pos = 0`
(string.hpp 35, 43, 170, 191) -/
def writeBody (pos : Nat) (buf : List Nat) (i : Nat) : Cpp Str Unit := do
  let c ← readArg buf i
  onMem (Mem.assign .trivial (pos + i) c)

/-- an object of `n` characters in a new block of `cap` slots, not yet written -/
def blank (n cap : Nat) (led : Ledger) : Str :=
  { cells := List.replicate cap .raw, led := { led with alloc := led.alloc + 1 }, ptr := .block, size := n, cap := cap }

/-- `Vector(const Char* s, size_t count)` (string.hpp 38-44) -/
def ofCount (buf : List Nat) (n : Nat) (led : Ledger := {}) : Out Str Unit :=
  forUp (writeBody 0 buf) 0 n (blank n (n + 1) led)

/-- `Vector(const Char* c_str)` (string.hpp 30-36) -/
def ofCStr (buf : List Nat) (led : Ledger := {}) : Out Str Unit :=
  match strlen buf with
  | none => .ub .oob
  | some n => forUp (writeBody 0 buf) 0 n (blank n (n + 1) led)

/-- `Vector(size_t size, Char c)` (string.hpp 46-53) -/
def fill (n c : Nat) (led : Ledger := {}) : Out Str Unit :=
  forUp (fun i => onMem (Mem.assign .trivial i c)) 0 n (blank n n led)

/-- reading an element of another string -/
def readOf {σ : Type} (s : Str) (i : Nat) : Cpp σ Nat :=
  match at_ i s with
  | .ok a _ => pure a
  | .thrown _ => Cpp.throw
  | .ub u => Cpp.ub u

/-- `operator==(const Char*)` (string.hpp 88-103); a null argument is `none` -/
def eqC (arg : Option (List Nat)) (s : Str) : Out Str Bool :=
  match s.ptr, arg with
  | .wild, _ => .ub .wildPtr
  | .null, none => .ok true s
  | .null, some _ => .ok false s
  | .block, none => .ok false s
  | .block, some buf =>
    match strlen buf with
    | none => .ub .oob
    | some n => if s.size ≠ n then .ok false s else eqArg buf 0 s.size s
where
  /-- `Traits::compare(_data, c_str, _size) == 0` -/
  eqArg (buf : List Nat) : (i n : Nat) → Cpp Str Bool
  | _, 0 => pure true
  | i, n + 1 => do
    let a ← at_ i
    let b ← readArg buf i
    if a = b then eqArg buf (i + 1) n else pure false

/-- `at` (string.hpp 105-111) -/
def atChecked (i : Nat) : Cpp Str Nat := fun s => if i ≥ s.size then .thrown s else at_ i s

/-- `front` (string.hpp 113-115) -/
def front : Cpp Str Nat := at_ 0

/-- `back` (string.hpp 117-119); `_size - 1` wraps in `size_t` -/
def back : Cpp Str Nat := fun s => at_ (if s.size = 0 then 2 ^ 64 - 1 else s.size - 1) s

/-- loop body of `operator+=` (string.hpp 123), distinct objects -/
def plusBody (other : Str) (i : Nat) : Cpp Str Unit := do
  let c ← readOf other i
  pushBack .trivial c

/-- `operator+=` (string.hpp 121-127), distinct objects -/
def plusEq (other : Str) : Cpp Str Unit := forUp (plusBody other) 0 other.size

/-- the loop of `s += s` (string.hpp 122-124): `other.size()` is read anew in every round, and `other[i]` is a reference
into the block that `push_back` may replace -/
def selfPlusLoop : (fuel i : Nat) → Cpp Str Unit
  | 0, _ => Cpp.ub .diverge
  | fuel + 1, i => fun s =>
    if i < s.size then (do pushBackOwn .trivial i; selfPlusLoop fuel (i + 1)) s else .ok () s

/-- `s += s` (string.hpp 121-127), given up after `fuel` rounds -/
def selfPlus (fuel : Nat) : Cpp Str Unit := selfPlusLoop fuel 0

/-- loop body of `append(const Char*)` (string.hpp 133) -/
def appendBody (buf : List Nat) (i : Nat) : Cpp Str Unit := do
  let c ← readArg buf i
  pushBack .trivial c

/-- `append(const Char*)` (string.hpp 129-137), argument outside the string -/
def appendC (buf : List Nat) : Cpp Str Unit :=
  match strlen buf with
  | none => Cpp.ub .oob
  | some n => forUp (appendBody buf) 0 n

/-- `append(size_t, Char)` (string.hpp 139-145) -/
def appendN (n c : Nat) : Cpp Str Unit := forUp (fun _ => pushBack .trivial c) 0 n

/-- `assign(const Char*)` (string.hpp 147-150), argument outside the string -/
def assignC (buf : List Nat) : Cpp Str Unit := do VecS.clear .trivial; appendC buf

/-- `assign(size_t, Char)` (string.hpp 152-155) -/
def assignN (n c : Nat) : Cpp Str Unit := do VecS.clear .trivial; appendN n c

/-- loop body shifting the tail (string.hpp 166, 187) -/
def shiftBody (len i : Nat) : Cpp Str Unit := do
  let c ← at_ (i - 1)
  onMem (Mem.assign .trivial (i + len - 1) c)

/-- body of both `insert`s after `reserve` (string.hpp 165-175, 186-196) -/
def insertAt (pos : Nat) (buf : List Nat) (len : Nat) : Cpp Str Unit := fun s =>
  (do forDown (shiftBody len) s.size (s.size - pos)
      forUp (writeBody pos buf) 0 len
      Cpp.modify (fun t => { t with size := t.size + len })) s

/-- `insert(size_t, const Char*)` (string.hpp 157-176), argument outside the string -/
def insertC (pos : Nat) (buf : List Nat) : Cpp Str Unit := fun s =>
  if pos > s.size then .thrown s
  else match strlen buf with
    | none => .ub .oob
    | some len => (do reserve .trivial (s.size + len); insertAt pos buf len) s

/-- `insert(size_t, const Char*, size_t)` (string.hpp 178-197), argument outside the string -/
def insertCN (pos : Nat) (buf : List Nat) (n : Nat) : Cpp Str Unit := fun s =>
  if pos > s.size then .thrown s
  else (do reserve .trivial (s.size + n + 1); insertAt pos buf n) s

/-- one step of `_memcpy` from `_data + pos` of another string (string.hpp 43) -/
def copyBody (s : Str) (pos i : Nat) : Cpp Str Unit := do
  let c ← readOf s (pos + i)
  onMem (Mem.assign .trivial i c)

/-- `substr` (string.hpp 203-213): the new string -/
def substr (s : Str) (pos len : Nat) (led : Ledger := {}) : Out Str Unit :=
  if pos > s.size then .thrown (VecS.mk0 led)
  else
    let n := if len > s.size - pos then s.size - pos else len
    forUp (copyBody s pos) 0 n (blank n (n + 1) led)

/-- one step of the `_memcpy` of `copy` (string.hpp 225) -/
def copyOutBody (s : Str) (pos i : Nat) : Cpp (List Nat) Unit := do
  let c ← readOf s (pos + i)
  let d ← Cpp.get
  if i < d.length then Cpp.set (d.set i c) else Cpp.ub .oob

/-- `copy` (string.hpp 217-228): `dest` is the array the client passes -/
def copyOut (s : Str) (count pos : Nat) : Cpp (List Nat) Nat := fun dest =>
  if pos > s.size then .thrown dest
  else
    let n := if count > s.size - pos then s.size - pos else count
    (do forUp (copyOutBody s pos) 0 n; pure n) dest

/-- `Traits::compare(p, q, n)`, where `p[i]` is `s[pos + i]` and `q` is `other.data()`.  Only the characters up to the
first difference are read (a real implementation may read more). -/
def cmpLoop (s other : Str) (pos : Nat) : (i n : Nat) → Except UB Ordering
  | _, 0 => .ok .eq
  | i, n + 1 =>
    match at_ (pos + i) s with
    | .ok a _ =>
      match at_ i other with
      | .ok b _ => if a = b then cmpLoop s other pos (i + 1) n else .ok (compare a b)
      | .thrown _ => .error .oob
      | .ub u => .error u
    | .thrown _ => .error .oob
    | .ub u => .error u

/-- `compare(const Vector&)` (string.hpp 232-234); the sign of the result -/
def compare (s other : Str) : Except UB Ordering := cmpLoop s other 0 0 s.size

/-- `compare(size_t, size_t, const Vector&)` (string.hpp 236-246); `none` is the exception -/
def comparePos (s : Str) (pos len : Nat) (other : Str) : Except UB (Option Ordering) :=
  if pos > s.size then .ok none
  else (cmpLoop s other pos 0 (if len > s.size - pos then s.size - pos else len)).map some

/-- `c_str()` (string.hpp 248-251), the effect on the string -/
def cStr : Cpp Str Unit := fun s => onMem (Mem.assign .trivial s.size 0) s

/-- what a client reads from `s.c_str()[0] .. s.c_str()[s.size()]` -/
def cStrChars (s : Str) : Except UB (List Nat) :=
  match cStr s with
  | .ok _ t => t.readFrom 0 (t.size + 1)
  | .thrown _ => .error .oob
  | .ub u => .error u

/-! ## Histories -/

/-- constructors -/
inductive Init where
  | default
  | cstr (buf : List Nat)
  | count (buf : List Nat) (n : Nat)
  | fill (n c : Nat)
  deriving DecidableEq, Repr

/-- client operations: the inherited ones and those of `String`; `plus w` is `s += String(w, |w|)` -/
inductive SOp where
  | base (op : VecS.Op Nat)
  | appendC (buf : List Nat)
  | appendN (n c : Nat)
  | assignC (buf : List Nat)
  | assignN (n c : Nat)
  | insertC (pos : Nat) (buf : List Nat)
  | insertCN (pos : Nat) (buf : List Nat) (n : Nat)
  | plus (w : List Nat)
  deriving Repr

/-- construct -/
def Init.run : Init → Out Str Unit
  | .default => .ok () (VecS.mk0 {})
  | .cstr buf => ofCStr buf
  | .count buf n => ofCount buf n
  | .fill n c => Str.fill n c

/-- one client operation -/
def SOp.run : SOp → Cpp Str Unit
  | .base op => op.run .trivial
  | .appendC buf => Str.appendC buf
  | .appendN n c => Str.appendN n c
  | .assignC buf => Str.assignC buf
  | .assignN n c => Str.assignN n c
  | .insertC pos buf => Str.insertC pos buf
  | .insertCN pos buf n => Str.insertCN pos buf n
  | .plus w => fun s =>
    match ofCount w w.length with
    | .ok _ o => plusEq o s
    | .thrown _ => .thrown s
    | .ub u => .ub u

/-- a history, as in `VecS.runOps`: exceptions are caught and recorded -/
def runOps : List SOp → Str → Except UB (Str × List Bool)
  | [], s => .ok (s, [])
  | op :: ops, s =>
    match op.run s with
    | .ub w => .error w
    | .ok _ s' => (runOps ops s').map (fun r => (r.1, false :: r.2))
    | .thrown s' => (runOps ops s').map (fun r => (r.1, true :: r.2))

/-- a client session -/
def session (init : Init) (ops : List SOp) : Except UB (Str × List Bool) :=
  match init.run with
  | .ok _ s => runOps ops s
  | .thrown _ => .error .oob
  | .ub w => .error w

/-! ## StringView -/

open Prelude in
/-- `VectorView(const Char* c_str)` (string.hpp 292-295): the inherited default constructor leaves `_capacity` 0
(sequence.hpp 1273); `blk` is the address of the array -/
def viewOfCStr (blk : Nat) (buf : List Nat) : Except UB (View Nat) :=
  match strlen buf with
  | none => .error .oob
  | some n => .ok ⟨.vector, some ⟨blk, 0, buf⟩, n, some 0⟩

open Prelude in
/-- `VectorView(const Vector<Char>& s)` (string.hpp 298-301) of a string whose characters are `l` at address `blk`
(`none`: no storage) -/
def viewOfString (blk : Option Nat) (l : List Nat) : View Nat :=
  ⟨.vector, blk.map (fun b => ⟨b, 0, l⟩), l.length, some 0⟩

open Prelude in
/-- `operator==(const Char*)` of a view (string.hpp 308-323) -/
def viewEqC {σ : Type} (v : View Nat) (arg : Option (List Nat)) : Cpp σ Bool :=
  match v.ptr, arg with
  | none, none => pure true
  | none, some _ => pure false
  | some _, none => pure false
  | some _, some buf =>
    match strlen buf with
    | none => Cpp.ub .oob
    | some n => if v.size ≠ n then pure false else viewEqArg v buf 0 v.size
where
  /-- `Traits::compare(_data, c_str, _size) == 0` -/
  viewEqArg {σ : Type} (v : View Nat) (buf : List Nat) : (i n : Nat) → Cpp σ Bool
  | _, 0 => pure true
  | i, n + 1 => do
    let a ← v.at_ i
    let b ← readArg buf i
    if a = b then viewEqArg v buf (i + 1) n else pure false

end Str
end Efp
