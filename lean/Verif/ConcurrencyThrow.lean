import Verif.DoubleBuffer

/-!
# concurrency.hpp: exceptions thrown by element copies inside the concurrent queues

The machines of `Concurrency.lean` and `DoubleBuffer.lean` with one more kind of step: the copy of an element throws and
the exception leaves the operation.  The guards `lock_guard` and `unique_lock` unlock the mutex on the way out; the
spinlock of `DoubleBuffer` has no guard.
-/

namespace Efp

variable {α : Type}

namespace Conc.Blocking

/-- what the scheduler may do, with throwing copies -/
inductive ActT (α : Type) where
  /-- a step without an exception -/
  | act (a : Act α)
  /-- the copy in `_q.push(t)` throws -/
  | throwPush (t : Nat)
  /-- the copy in `A val = _q.front()` throws -/
  | throwPop (t : Nat)
  deriving DecidableEq, Repr

/-- An action of the unbounded BlockingQ, `Q` being `stdQ`.  If `_q.push(t)` (concurrency.hpp 86) throws, `std::queue` is as before (the
strong guarantee of the C++ standard), the `lock_guard` unlocks, and `notify_one` is skipped.  If
`A val = _q.front()` (concurrency.hpp 98) throws, the element stays in the queue and the `unique_lock` unlocks.  Neither
emits an event: the call has no effect.  Simplification: the copy into the parameter of `enqueue` happens before the
call, and the return value of `dequeue` is constructed in place (NRVO). -/
def stepT {Q : QImpl α} (s : State Q) : ActT α → Option (State Q)
  | .act a => step s a
  | .throwPush t => match s.pcs[t]? with
    | some (.enqPush _) => some ({ s with lock := none }.goto t .idle)
    | _ => none
  | .throwPop t => match s.pcs[t]? with
    | some .deqPop => some ({ s with lock := none }.goto t .idle)
    | _ => none

/-- a schedule with exceptions (concurrency.hpp 84-101) -/
def execT {Q : QImpl α} : List (ActT α) → State Q → Option (State Q)
  | [], s => some s
  | a :: as, s => match stepT s a with
    | some s' => execT as s'
    | none => none

end Conc.Blocking

namespace DBuf

open Cyclic (VcqS)

/-- what the scheduler may do, with throwing copies -/
inductive ActT (α : Type) where
  /-- a step without an exception -/
  | act (a : Act α)
  /-- a copy in `_write_buffer->push_back(a)` throws and leaves the write buffer in the state `b` -/
  | throwPush (t : Nat) (b : VcqS α)
  deriving DecidableEq, Repr

/-- An action of a DoubleBuffer.  If `_write_buffer->push_back(a)` (concurrency.hpp 216) throws, the exception leaves
`enqueue` before `_spinlock.unlock()` (concurrency.hpp 217): the flag stays set.  The state `b` of the write buffer is
arbitrary here; what `push_back` leaves behind is the subject of C91. -/
def stepT (k : Kind) (s : State α) : ActT α → Option (State α)
  | .act a => step k s a
  | .throwPush t b => match s.pcs[t]? with
    | some (.enqPush _) => some ((s.setBuf s.wp b).goto t .idle)
    | _ => none

/-- a schedule with exceptions (concurrency.hpp 214-232) -/
def execT (k : Kind) : List (ActT α) → State α → Option (State α)
  | [], s => some s
  | a :: as, s => match stepT k s a with
    | some s' => execT k as s'
    | none => none

end DBuf
end Efp
