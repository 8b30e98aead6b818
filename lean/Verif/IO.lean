import Verif.String
import Verif.Cyclic

/-!
# Model of include/efp/io.hpp

The C library is part of the environment and is modelled by its documented behaviour: a `FILE*` is a number, a stream
for reading is a byte list with a position, `fopen` and `fclose` may fail, and after `fclose`, failed or not, the
`FILE*` is dangling.  Text and binary streams deliver the same bytes (POSIX).  `Maybe<String>` is an `Option`; a
`String` is the modelled object of `Verif/String.lean`.
-/

namespace Efp
namespace Io

open Cyclic.Vcb (left right)

/-! ## Reading -/

/-- an open stream: its contents, the position of the next byte, and the position from which reading fails with
an input error, if any (C library) -/
structure Stream where
  bytes : List Nat
  pos : Nat := 0
  bad : Option Nat := none
  deriving DecidableEq, Repr

/-- `EOF` (C library) -/
def eof : Int := -1

/-- `std::fgetc` (C library): the next byte, or `EOF` at the end and on an input error -/
def fgetc : Cpp Stream Int := fun s =>
  if s.bad.any (fun e => decide (e ≤ s.pos)) then .ok eof s
  else match s.bytes[s.pos]? with
    | some c => .ok c { s with pos := s.pos + 1 }
    | none => .ok eof s

/-- the loop of `read_line` (io.hpp 62-64), given up after `fuel` rounds; the second component is `buffer` -/
def readLoop : (fuel : Nat) → Cpp (Stream × Str) Int
  | 0 => Cpp.ub .diverge
  | fuel + 1 => do
    let ch ← left fgetc
    if ch ≠ 10 ∧ ch ≠ eof then do
      right (VecS.pushBack .trivial ch.toNat)
      readLoop fuel
    else pure ch

/-- `read_line` (io.hpp 57-74) of a file with an open stream; `return buffer` moves the buffer into the `Maybe` -/
def readLine (fuel : Nat) : Cpp Stream (Option Str) := fun s =>
  match readLoop fuel (s, VecS.mk0) with
  | .ok ch (s', buffer) => if ch = eof ∧ buffer.size = 0 then .ok none s' else .ok (some (VecS.moveCtor buffer).1) s'
  | .thrown x => .thrown x.1
  | .ub u => .ub u

/-- `Maybe<String>::value()` (maybe.hpp 40-42): returns a copy -/
def value {σ : Type} (b : Str) : Cpp σ Str :=
  match VecS.copyCtor b {} with
  | .ok _ v => pure v
  | .thrown _ => Cpp.throw
  | .ub u => Cpp.ub u

/-- the loop of `read_lines` (io.hpp 81-89), given up after `fuel` rounds; the second component is `lines` -/
def readLinesLoop (inner : Nat) : (fuel : Nat) → Cpp (Stream × VecS Str) Unit
  | 0 => Cpp.ub .diverge
  | fuel + 1 => do
    let maybeLine ← left (readLine inner)
    match maybeLine with
    | some b => do
      let v ← value b
      right (VecS.pushBack .managed v)
      readLinesLoop inner fuel
    | none => pure ()

/-- `read_lines` (io.hpp 76-92) -/
def readLines (fuel : Nat) : Cpp Stream (VecS Str) := fun s =>
  match readLinesLoop fuel fuel (s, VecS.mk0) with
  | .ok _ (s', lines) => .ok lines s'
  | .thrown x => .thrown x.1
  | .ub u => .ub u

/-- `~String()` of element `i` of a vector of strings (sequence.hpp 659-670) -/
def dtorElem (i : Nat) : Cpp (VecS Str) Unit := do
  let b ← VecS.at_ i
  match VecS.dtor .trivial b with
  | .ok _ _ => pure ()
  | .thrown _ => Cpp.throw
  | .ub u => Cpp.ub u

/-- `~Vector<String>()` (sequence.hpp 659-670): destroys the strings, then the block -/
def dtorLines : Cpp (VecS Str) Unit := fun v =>
  (do forUp dtorElem 0 v.size
      VecS.dtor .managed) v

/-- `seek` (io.hpp 139-141): `fseek` of the file's stream; a null `FILE*` is undefined.  Seeking beyond the end is
allowed by the C library. -/
def seek (open_ : Bool) (offset : Nat) : Cpp Stream Bool := fun s =>
  if open_ then .ok true { s with pos := offset } else .ub .nullPtr

/-- `tell` (io.hpp 143-145) -/
def tell (open_ : Bool) : Cpp Stream Nat := fun s => if open_ then .ok s.pos s else .ub .nullPtr

/-- `read_line` (io.hpp 57-74), closed files included -/
def readLineAny (open_ : Bool) (fuel : Nat) : Cpp Stream (Option Str) :=
  if open_ then readLine fuel else pure none

/-! ## Handles and modes -/

/-- a `File` object: the `FILE*` and `_mode`, `none` while that is uninitialised (io.hpp 162-163) -/
structure FileObj where
  file : Option Nat
  mode : Option (List Nat)
  deriving DecidableEq, Repr

/-- the C library's streams and the program's `File` variables: the number of streams opened so far, the streams
passed to `fclose`, what was written to each stream, and the variables (`none` when destroyed or `nothing`) -/
structure World where
  opened : Nat := 0
  closed : List Nat := []
  written : List (Nat × List Nat) := []
  vars : List (Option FileObj) := []
  deriving DecidableEq, Repr

/-- `std::fclose(h)` (C library): the stream is released whether or not the result reports success; a second call is
undefined -/
def fclose (h : Nat) (ok : Bool) : Cpp World Bool := fun w =>
  if h ∈ w.closed then .ub .wildPtr else .ok ok { w with closed := h :: w.closed }

/-- `File(FILE*, const char*)` (io.hpp 157-160): `strncpy` keeps at most 7 characters of the mode -/
def mkFile (h : Nat) (mode : List Nat) : FileObj := ⟨some h, some (mode.take 7)⟩

/-- `File(File&&)` (io.hpp 40-42): the new object and the source; `_mode` is not copied -/
def moveCtor (other : FileObj) : FileObj × FileObj := (⟨other.file, none⟩, { other with file := none })

/-- `operator=(File&&)` (io.hpp 44-50), distinct objects: the new target and source -/
def moveAssign (self other : FileObj) : FileObj × FileObj := ({ self with file := other.file }, { other with file := none })

/-- `~File()` (io.hpp 52-55); whether `fclose` reports success is not looked at -/
def dtor (f : FileObj) : Cpp World Unit :=
  match f.file with
  | some h => do
    let _ ← fclose h true
    pure ()
  | none => pure ()

/-- `close` (io.hpp 147-154): the result and the new object -/
def closeFile (f : FileObj) (ok : Bool) : Cpp World (Bool × FileObj) :=
  match f.file with
  | some h => do
    let r ← fclose h ok
    if r then pure (true, { f with file := none }) else pure (false, f)
  | none => pure (false, f)

/-- bytes accepted by a stream: `fwrite`, `fputs` and a run of `fputc` calls write a prefix, all of it unless the
stream fails after `cap` bytes (C library); using a closed stream is undefined -/
def put (h : Nat) (data : List Nat) (cap : Nat) : Cpp World Bool := fun w =>
  if h ∈ w.closed then .ub .wildPtr
  else .ok (decide (data.length ≤ cap)) { w with written := w.written ++ [(h, data.take cap)] }

/-- `std::strchr(_mode, 'b')` (io.hpp 98, 126); reading an uninitialised array is undefined -/
def isBinary (f : FileObj) : Cpp World Bool :=
  match f.mode with
  | some m => pure (decide (98 ∈ m))
  | none => Cpp.ub .deadRead

/-- `write(const char*, size_t)` (io.hpp 94-119) of the characters `data`: one `fwrite`, or one `fputc` per
character -/
def writeFile (f : FileObj) (data : List Nat) (cap : Nat) : Cpp World Bool :=
  match f.file with
  | none => pure false
  | some h => do
    let b ← isBinary f
    if b then put h data cap else put h data cap

/-- `write(const String&)` (io.hpp 122-133) of a string with a block and the characters `data`: the binary branch
writes them all, the text branch passes `c_str()` to `fputs`, which stops at the first NUL -/
def writeString (f : FileObj) (data : List Nat) (cap : Nat) : Cpp World Bool :=
  match f.file with
  | none => pure false
  | some h => do
    let b ← isBinary f
    if b then put h data cap else put h (data.takeWhile (· ≠ 0)) cap

/-- `Maybe<File>`/`File` variables: `File::open` (io.hpp 16-34) makes a temporary `File`, moves it into the `Maybe`
and destroys it -/
def openVar (mode : List Nat) (ok : Bool) : Cpp World Unit := fun w =>
  if ok then
    let tmp := moveCtor (mkFile w.opened mode)
    dtor tmp.2 { w with opened := w.opened + 1, vars := w.vars ++ [some tmp.1] }
  else .ok () { w with vars := w.vars ++ [none] }

/-- the object in a variable; using a destroyed one is undefined -/
def var (x : Nat) : Cpp World FileObj := fun w =>
  match w.vars[x]? with
  | some (some f) => .ok f w
  | _ => .ub .deadRead

/-- overwrite a variable -/
def setVar (x : Nat) (f : Option FileObj) : Cpp World Unit := Cpp.modify fun w => { w with vars := w.vars.set x f }

/-- client operations; the booleans and numbers of `open`, `close` and `write` are the outcomes of the C library -/
inductive Op where
  | open_ (mode : List Nat) (ok : Bool)
  | move (src : Nat)
  | assign (dst src : Nat)
  | close (x : Nat) (ok : Bool)
  | write (x : Nat) (data : List Nat) (cap : Nat)
  | writeStr (x : Nat) (data : List Nat) (cap : Nat)
  | destroy (x : Nat)
  deriving DecidableEq, Repr

/-- one client operation: `open`, move construction of a new variable, move assignment, `close`, `write`, end of
lifetime (io.hpp 16-55, 94-133, 147-154) -/
def Op.run : Op → Cpp World Unit
  | .open_ mode ok => openVar mode ok
  | .move src => do
    let f ← var src
    setVar src (some (moveCtor f).2)
    Cpp.modify fun w => { w with vars := w.vars ++ [some (moveCtor f).1] }
  | .assign dst src => do
    let f ← var dst
    let g ← var src
    if dst = src then pure ()
    else do
      setVar dst (some (moveAssign f g).1)
      setVar src (some (moveAssign f g).2)
  | .close x ok => do
    let f ← var x
    let r ← closeFile f ok
    setVar x (some r.2)
  | .write x data cap => do
    let f ← var x
    let _ ← writeFile f data cap
    pure ()
  | .writeStr x data cap => do
    let f ← var x
    let _ ← writeString f data cap
    pure ()
  | .destroy x => do
    let f ← var x
    dtor f
    setVar x none

/-- a client program -/
def run : List Op → Cpp World Unit
  | [] => pure ()
  | op :: ops => do op.run; run ops

/-- the end of the program: every variable from `x` on that still holds a `File` is destroyed -/
def endFrom (x : Nat) : Nat → Cpp World Unit
  | 0 => pure ()
  | n + 1 => do
    let w ← Cpp.get
    (match w.vars[x]? with
    | some (some _) => (Op.destroy x).run
    | _ => pure ())
    endFrom (x + 1) n

/-- the end of the program: all variables are destroyed -/
def finish : Cpp World Unit := fun w => endFrom 0 w.vars.length w

end Io
end Efp
