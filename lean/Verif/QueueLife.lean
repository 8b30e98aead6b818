import Verif.DoubleBuffer

/-!
# concurrency.hpp: the constructor and destructor of `DoubleBuffer`, and the destructors of the bounded queues

The buffers of a `DoubleBuffer` are blocks from `operator new`, which may throw.  `Blocks` counts them.
-/

namespace Efp
namespace DBuf

open Cyclic (VcqS)

variable {α : Type}

/-- blocks obtained from and given back to the heap -/
structure Blocks where
  got : Nat := 0
  freed : Nat := 0
  deriving DecidableEq, Repr

/-- `DoubleBuffer()` (concurrency.hpp 198-199); `mem1`, `mem2`: whether there is memory for the first and for the second buffer.
`none`: the constructor throws.  The pointers are plain members, so unwinding destroys nothing. -/
def create (n m : Nat) (mem1 mem2 : Bool) : Option (State α) × Blocks :=
  if mem1 then
    if mem2 then (some (start n m), { got := 2 }) else (none, { got := 1 })
  else (none, {})

/-- `delete p` (concurrency.hpp 210, 211): the destructor of the buffer, then its block; `gone` tells which buffer has already been
deleted -/
def deleteBuf (k : Kind) (p : Bool) (gone : Option Bool) (s : State α) (h : Blocks) : Except UB (State α × Blocks) :=
  if gone = some p then .error .wildPtr
  else match Cyclic.Vcq.dtor k (s.buf p) with
    | .ok _ b => .ok (s.setBuf p b, { h with freed := h.freed + 1 })
    | .thrown _ => .error .deadDestroy
    | .ub u => .error u

/-- `~DoubleBuffer()` (concurrency.hpp 209-212) -/
def destroy (k : Kind) (s : State α) (h : Blocks) : Except UB (State α × Blocks) :=
  match deleteBuf k s.rp none s h with
  | .ok (s1, h1) => deleteBuf k s1.wp (some s.rp) s1 h1
  | .error u => .error u

end DBuf
end Efp
