import Verif.Core

/-!
# Replacements for the standard library in freestanding builds (cpp_core.hpp 22-92)

`_memcpy` is `std::memcpy` in hosted builds and a loop in freestanding ones; `LogicError` and `RuntimeError` are the standard classes
or classes of the library.  Memory is a list of bytes; a pointer is an index.
-/

namespace Efp.Freestanding

variable {α : Type}

/-- the loop of `_memcpy` from round `i` on, with `r` rounds to go: `d[i] = s[i]`, cpp_core.hpp 37-39 -/
def copyLoop (dest src : Nat) : (r i : Nat) → Cpp (List α) Unit
  | 0, _ => pure ()
  | r + 1, i => do
    let m ← Cpp.get
    match m[src + i]? with
    | some b =>
      if dest + i < m.length then
        Cpp.set (m.set (dest + i) b)
        copyLoop dest src r (i + 1)
      else Cpp.ub .oob
    | none => Cpp.ub .oob

/-- `_memcpy(dest, src, size)` in a freestanding build, cpp_core.hpp 34-41 -/
def memcpyLoop (dest src size : Nat) : Cpp (List α) Nat := do
  copyLoop dest src size 0
  pure dest

/-- `_memcpy(dest, src, size)` in a hosted build, cpp_core.hpp 24-26: `std::memcpy`, which is undefined on overlapping regions -/
def memcpyStd (dest src size : Nat) : Cpp (List α) Nat := fun m =>
  if m.length < dest + size ∨ m.length < src + size then .ub .oob
  else if 0 < size ∧ dest < src + size ∧ src < dest + size then .ub .oob
  else .ok dest (m.take dest ++ (m.drop src).take size ++ m.drop (dest + size))

/-! ## Errors -/

/-- an error object of a freestanding build: `_what_arg`, cpp_core.hpp 61-74, 76-89 -/
structure Err where
  what : Nat
  deriving DecidableEq, Repr

/-- an error object of a hosted build, cpp_core.hpp 52-55: `std::logic_error` and `std::runtime_error` own a copy of the text -/
structure StdErr where
  text : String
  deriving DecidableEq, Repr

/-- a program around one error and its copies: the buffers texts live in (`none` after their end) and the errors made so far -/
structure World (E : Type) where
  bufs : List (Option String)
  errs : List E

/-- what the program does -/
inductive Op where
  /-- `RuntimeError e(buf);` -/
  | make (buf : Nat)
  /-- `RuntimeError e(other);`, also what `throw` and `catch` by value do -/
  | copy (err : Nat)
  /-- write another text to a buffer -/
  | write (buf : Nat) (s : String)
  /-- the buffer goes out of scope -/
  | free (buf : Nat)
  deriving DecidableEq, Repr

/-- a buffer gets another text or ends -/
def writeBuf {E : Type} (b : Nat) (s : Option String) : Cpp (World E) Unit := fun w =>
  if b < w.bufs.length then .ok () { w with bufs := w.bufs.set b s } else .ub .wildPtr

/-- a step in a freestanding build: errors keep the pointer, cpp_core.hpp 63, 65-66, 78, 80-81 -/
def Op.run : Op → Cpp (World Err) Unit
  | .make b => Cpp.modify fun w => { w with errs := w.errs ++ [⟨b⟩] }
  | .copy e => fun w => match w.errs[e]? with
    | some x => .ok () { w with errs := w.errs ++ [⟨x.what⟩] }
    | none => .ub .wildPtr
  | .write b s => writeBuf b (some s)
  | .free b => writeBuf b none

/-- a step in a hosted build: errors keep a copy of the text -/
def Op.runStd : Op → Cpp (World StdErr) Unit
  | .make b => fun w => match (w.bufs[b]?).join with
    | some s => .ok () { w with errs := w.errs ++ [⟨s⟩] }
    | none => .ub .wildPtr
  | .copy e => fun w => match w.errs[e]? with
    | some x => .ok () { w with errs := w.errs ++ [⟨x.text⟩] }
    | none => .ub .wildPtr
  | .write b s => writeBuf b (some s)
  | .free b => writeBuf b none

/-- a history in a freestanding build -/
def runs : List Op → Cpp (World Err) Unit
  | [] => pure ()
  | o :: os => do o.run; runs os

/-- a history in a hosted build -/
def runsStd : List Op → Cpp (World StdErr) Unit
  | [] => pure ()
  | o :: os => do o.runStd; runsStd os

/-- reading the text of `e.what()` in a freestanding build, cpp_core.hpp 68-70, 83-85 -/
def whatText (e : Nat) : Cpp (World Err) String := fun w =>
  match w.errs[e]? with
  | some x => match (w.bufs[x.what]?).join with
    | some s => .ok s w
    | none => .ub .wildPtr
  | none => .ub .wildPtr

/-- reading the text of `e.what()` in a hosted build -/
def whatTextStd (e : Nat) : Cpp (World StdErr) String := fun w =>
  match w.errs[e]? with
  | some x => .ok x.text w
  | none => .ub .wildPtr

end Efp.Freestanding
