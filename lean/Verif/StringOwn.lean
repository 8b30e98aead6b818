import Verif.String

/-!
# Strings given a pointer into their own text

The members of string.hpp taking a `const Char*` (`append`, `assign`, both `insert`s), called with
`s.c_str() + off` of the very string they change.  The pointer is an offset into the block of `s`: what is
read through it is whatever the block holds at that moment, and once the block has been replaced (the number
of allocations has changed) reading through it is undefined.
-/

namespace Efp
namespace Str

open VecS

/-- `Traits::length` of a pointer into the block (string.hpp 130, 162): index of the first NUL among the cells; a cell
that was never written cannot be read -/
def lenOwn : List (Cell Nat) → Except UB Nat
  | [] => .error .oob
  | .live c :: cs => if c = 0 then .ok 0 else (lenOwn cs).map (· + 1)
  | _ :: _ => .error .deadRead

/-- `append(p)` with `p = _data + off` (string.hpp 129-137): `push_back(p[i])` passes a reference into the block -/
def appendPtr (off : Nat) : Cpp Str Unit := fun s =>
  match lenOwn (s.cells.drop off) with
  | .error u => .ub u
  | .ok n => forUp (fun i => pushBackOwn .trivial (off + i)) 0 n s

/-- `s.append(s.c_str() + off)` (string.hpp 129-137, 248-251) -/
def appendOwn (off : Nat) : Cpp Str Unit := do cStr; appendPtr off

/-- `s.assign(s.c_str() + off)` (string.hpp 147-150, 248-251) -/
def assignOwn (off : Nat) : Cpp Str Unit := do cStr; VecS.clear .trivial; appendPtr off

/-- `_data[pos + i] = p[i]` with `p` pointing `off` into the block that was current after `gen` allocations
(string.hpp 170, 191) -/
def writeOwn (pos off gen i : Nat) : Cpp Str Unit := fun s =>
  if s.led.alloc ≠ gen then .ub .wildPtr
  else (do let c ← onMem (Mem.read (off + i)); onMem (Mem.assign .trivial (pos + i) c)) s

/-- body of both `insert`s after `reserve` (string.hpp 165-175, 186-196), the argument pointing `off` into the block
that was current after `gen` allocations -/
def insertOwnAt (pos off len gen : Nat) : Cpp Str Unit := fun s =>
  (do forDown (shiftBody len) s.size (s.size - pos)
      forUp (writeOwn pos off gen) 0 len
      Cpp.modify (fun t => { t with size := t.size + len })) s

/-- `insert(pos, p)` with `p = _data + off` (string.hpp 157-176) -/
def insertPtr (pos off : Nat) : Cpp Str Unit := fun s =>
  if pos > s.size then .thrown s
  else match lenOwn (s.cells.drop off) with
    | .error u => .ub u
    | .ok len => (do reserve .trivial (s.size + len); insertOwnAt pos off len s.led.alloc) s

/-- `insert(pos, p, n)` with `p = _data + off` (string.hpp 178-197) -/
def insertPtrN (pos off n : Nat) : Cpp Str Unit := fun s =>
  if pos > s.size then .thrown s
  else (do reserve .trivial (s.size + n + 1); insertOwnAt pos off n s.led.alloc) s

/-- `s.insert(pos, s.c_str() + off)` (string.hpp 157-176, 248-251) -/
def insertOwn (pos off : Nat) : Cpp Str Unit := do cStr; insertPtr pos off

/-- `s.insert(pos, s.c_str() + off, n)` (string.hpp 178-197, 248-251) -/
def insertOwnN (pos off n : Nat) : Cpp Str Unit := do cStr; insertPtrN pos off n

end Str
end Efp
