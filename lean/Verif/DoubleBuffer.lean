import Verif.Concurrency

/-!
# concurrency.hpp: `DoubleBuffer`

The same kind of machine as in `Concurrency.lean`: any number of threads, one statement per step.  The spinlock is the
atomic flag itself.  A thread whose `test_and_set` finds the flag set goes round its loop and changes nothing, so it
simply does not step.  Copying and moving a `DoubleBuffer` (concurrency.hpp 201-207) does not compile, because
`std::atomic_flag` cannot be copied; it is not modelled.
-/

namespace Efp
namespace DBuf

open Spec (Ev)
open Cyclic (VcqS)

variable {α : Type}

/-- Where a thread is: outside, or before the named statement (concurrency.hpp 214-232). -/
inductive PC (α : Type) where
  | idle
  /-- `enqueue`, before `_spinlock.lock()` succeeds -/
  | enqSpin (a : α)
  /-- before `_write_buffer->push_back(a)` -/
  | enqPush (a : α)
  /-- before `_spinlock.unlock()` -/
  | enqUnlock
  /-- `swap_buffer`, before `_spinlock.lock()` succeeds -/
  | swapSpin
  /-- before `swap(_write_buffer, _read_buffer)` -/
  | swap
  /-- before `_spinlock.unlock()` -/
  | swapUnlock
  /-- before `_read_buffer->pop_front()` -/
  | deq
  | deqRet (v : α)
  /-- before `_read_buffer->empty()` -/
  | look
  | lookRet (b : Bool)
  deriving DecidableEq, Repr

/-- One double buffer and all threads using it: the atomic flag (concurrency.hpp 246, 249), the two heap buffers, and
which of them (`false`: `b0`, `true`: `b1`) `_read_buffer` and `_write_buffer` (concurrency.hpp 250-251) point to. -/
structure State (α : Type) where
  pcs : List (PC α)
  flag : Bool
  b0 : VcqS α
  b1 : VcqS α
  rp : Bool
  wp : Bool
  bad : Bool
  log : List (Nat × Ev α)
  deriving DecidableEq, Repr

/-- the buffer behind a pointer -/
def State.buf (s : State α) (p : Bool) : VcqS α := if p then s.b1 else s.b0

/-- store into the buffer behind a pointer -/
def State.setBuf (s : State α) (p : Bool) (b : VcqS α) : State α := if p then { s with b1 := b } else { s with b0 := b }

/-- `DoubleBuffer()` (concurrency.hpp 198-199) with `m` idle threads -/
def start (n m : Nat) : State α :=
  ⟨List.replicate m .idle, false, Cyclic.Vcq.mk0 n, Cyclic.Vcq.mk0 n, false, true, false, []⟩

/-- what the scheduler may do -/
inductive Act (α : Type) where
  | callEnq (t : Nat) (a : α)
  | callSwap (t : Nat)
  | callDeq (t : Nat)
  | callEmpty (t : Nat)
  | run (t : Nat)
  deriving DecidableEq, Repr

/-- thread `t` moves on to `p` -/
def State.goto (s : State α) (t : Nat) (p : PC α) : State α := { s with pcs := s.pcs.set t p }

/-- an event of thread `t` -/
def State.emit (s : State α) (t : Nat) (e : Ev α) : State α := { s with log := s.log ++ [(t, e)] }

/-- the statement at a program counter: `enqueue` (concurrency.hpp 214-218), `swap_buffer` (concurrency.hpp 220-224),
`dequeue` (concurrency.hpp 226-228), `empty` (concurrency.hpp 230-232), `lock` and `unlock` (concurrency.hpp 237-243).
The three assignments of `swap` (meta.hpp 752-757) are one step. -/
def runPC (k : Kind) (t : Nat) (s : State α) : PC α → Option (State α)
  | .idle => none
  | .enqSpin a => if s.flag then none else some ({ s with flag := true }.goto t (.enqPush a))
  | .enqPush a => match Cyclic.Vcq.pushBack k a (s.buf s.wp) with
    | .ok _ b => some (((s.setBuf s.wp b).goto t .enqUnlock).emit t (.push a))
    | _ => some { s with bad := true }
  | .enqUnlock => some (({ s with flag := false }.goto t .idle).emit t .retEnq)
  | .swapSpin => if s.flag then none else some ({ s with flag := true }.goto t .swap)
  | .swap => some (({ s with wp := s.rp, rp := s.wp }.goto t .swapUnlock).emit t .swap)
  | .swapUnlock => some (({ s with flag := false }.goto t .idle).emit t .retSwap)
  | .deq => match Cyclic.Vcq.popFront k (s.buf s.rp) with
    | .ok v b => some (((s.setBuf s.rp b).goto t (.deqRet v)).emit t (.pop (some v)))
    | _ => some { s with bad := true }
  | .deqRet v => some ((s.goto t .idle).emit t (.retDeq (some v)))
  | .look => some ((s.goto t (.lookRet (Cyclic.Vcq.empty (s.buf s.rp)))).emit t (.look (Cyclic.Vcq.empty (s.buf s.rp))))
  | .lookRet b => some ((s.goto t .idle).emit t (.retLook b))

/-- one action; `none`: not possible now (concurrency.hpp 214-232) -/
def step (k : Kind) (s : State α) : Act α → Option (State α)
  | .callEnq t a => match s.pcs[t]? with
    | some .idle => some ((s.goto t (.enqSpin a)).emit t (.callEnq a))
    | _ => none
  | .callSwap t => match s.pcs[t]? with
    | some .idle => some ((s.goto t .swapSpin).emit t .callSwap)
    | _ => none
  | .callDeq t => match s.pcs[t]? with
    | some .idle => some ((s.goto t .deq).emit t .callDeq)
    | _ => none
  | .callEmpty t => match s.pcs[t]? with
    | some .idle => some ((s.goto t .look).emit t .callLook)
    | _ => none
  | .run t => match s.pcs[t]? with
    | some p => runPC k t s p
    | none => none

/-- what a client is allowed to call: only thread `c` consumes, and it calls `dequeue` only if `empty()` would return
false; with `drain` it also calls `swap_buffer` only if `empty()` would return true -/
def Allowed (drain : Bool) (c : Nat) (s : State α) : Act α → Prop
  | .callSwap t => t = c ∧ (drain = true → Cyclic.Vcq.empty (s.buf s.rp) = true)
  | .callDeq t => t = c ∧ Cyclic.Vcq.empty (s.buf s.rp) = false
  | .callEmpty t => t = c
  | _ => True

/-- the states that clients keeping to `Allowed` can produce under some schedule -/
inductive Reach (k : Kind) (n m : Nat) (drain : Bool) (c : Nat) : State α → Prop where
  | start : Reach k n m drain c (start n m)
  | step {s s' : State α} (a : Act α) : Reach k n m drain c s → Allowed drain c s a → step k s a = some s' →
      Reach k n m drain c s'

/-- a schedule, with no restriction on the clients -/
def exec (k : Kind) : List (Act α) → State α → Option (State α)
  | [], s => some s
  | a :: as, s => match step k s a with
    | some s' => exec k as s'
    | none => none

/-- memory locations shared by the threads: the two pointers (concurrency.hpp 250-251) and the two buffers -/
inductive Loc where
  | readPtr
  | writePtr
  | buf (p : Bool)
  deriving DecidableEq, Repr

/-- the locations the statement at a program counter accesses, and whether it modifies them (concurrency.hpp 216, 222,
227, 231) -/
def accesses (s : State α) : PC α → List (Loc × Bool)
  | .enqPush _ => [(.writePtr, false), (.buf s.wp, true)]
  | .swap => [(.writePtr, true), (.readPtr, true)]
  | .deq => [(.readPtr, false), (.buf s.rp, true)]
  | .look => [(.readPtr, false), (.buf s.rp, false)]
  | _ => []

/-- two threads about to execute conflicting unordered accesses: a data race -/
def Race (s : State α) : Prop := ∃ (t u : Nat) (p p' : PC α) (x : Loc) (w w' : Bool), t ≠ u ∧ s.pcs[t]? = some p ∧
  s.pcs[u]? = some p' ∧ (x, w) ∈ accesses s p ∧ (x, w') ∈ accesses s p' ∧ (w = true ∨ w' = true)

end DBuf
end Efp
