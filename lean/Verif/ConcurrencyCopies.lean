import Verif.ConcurrencyThrow
import Verif.Throw
import Verif.Spec.ConcurrencyCopies

/-!
# concurrency.hpp: exceptions thrown by element copies inside the bounded queues and inside `NonBlockingQ`

`ConcurrencyThrow.lean` covers the unbounded `BlockingQ`, whose `std::queue` has the strong guarantee.  The bounded
queues sit on `Vcq`, whose `push_back` copies the element twice and has no guarantee; `NonBlockingQ::dequeue` copies or
moves the element once more, into the `Maybe` it returns, after it has left the queue.
-/

namespace Efp
namespace Conc

variable {α : Type}

/-- What a push whose copy number `b` (from 0) throws leaves of the queue; `none`: there is no such copy. -/
abbrev PushFails (Q : QImpl α) := Nat → α → Q.St → Option Q.St

/-- `std::queue::push` (concurrency.hpp 86, 168) makes one copy and has the strong guarantee of the C++ standard. -/
def stdFails (α : Type) : PushFails (stdQ α) := fun b _ q => if b = 0 then some q else none

/-- `Vcq::push_back` (concurrency.hpp 47, 127), with the crash points of `Thr.Cyc.vcqPush` (cyclic.hpp 276-294) -/
def vcqFails (k : Kind) (n : Nat) (α : Type) : PushFails (vcqQ k n α) := fun b a q =>
  match Thr.Cyc.vcqPush k a (q, b) with
  | .thrown s => some s.1
  | _ => none

namespace Blocking

/-- what the scheduler may do, with throwing copies -/
inductive ActV (α : Type) where
  /-- a step without an exception -/
  | act (a : Act α)
  /-- copy number `b` in `_q.push_back(t)` throws -/
  | throwPush (t b : Nat)
  /-- the move or copy out of the queue in `_q.pop_front()` throws -/
  | throwPop (t : Nat)
  deriving DecidableEq, Repr

/-- An action of a bounded BlockingQ.  If `_q.push_back(t)` (concurrency.hpp 47) throws, the queue is left as
`push_back` leaves it, the `lock_guard` unlocks and `notify_one` is skipped.  `pop_front` (concurrency.hpp 59) can throw in
its first statement only (cyclic.hpp 299), which leaves the queue as it was if a throwing move leaves its source alone;
the value it returns is constructed in place. -/
def stepV {Q : QImpl α} (F : PushFails Q) (s : State Q) : ActV α → Option (State Q)
  | .act a => step s a
  | .throwPush t b => match s.pcs[t]? with
    | some (.enqPush a) => match F b a s.q with
      | some q => some ({ s with lock := none, q := q }.goto t .idle)
      | none => none
    | _ => none
  | .throwPop t => match s.pcs[t]? with
    | some .deqPop => some ({ s with lock := none }.goto t .idle)
    | _ => none

/-- a schedule with exceptions (concurrency.hpp 45-60) -/
def execV {Q : QImpl α} (F : PushFails Q) : List (ActV α) → State Q → Option (State Q)
  | [], s => some s
  | a :: as, s => match stepV F s a with
    | some s' => execV F as s'
    | none => none

end Blocking

namespace NonBlocking

/-- what the scheduler may do, with throwing copies -/
inductive ActV (α : Type) where
  /-- a step without an exception -/
  | act (a : Act α)
  /-- copy number `b` in `_q.push_back(t)` or `_q.push(t)` throws -/
  | throwPush (t b : Nat)
  /-- the move or copy out of the queue in `_q.pop_front()` or `A val = _q.front()` throws -/
  | throwPop (t : Nat)
  /-- the construction of the returned `Maybe<A>` from the element throws -/
  | throwRet (t : Nat)
  deriving DecidableEq, Repr

/-- An action of a NonBlockingQ.  As for BlockingQ (concurrency.hpp 127, 141, 168, 182); in addition the `Maybe<A>` which
`dequeue` returns is constructed from the element (concurrency.hpp 141, 184; enum.hpp 290-297) after `pop_front` or `pop` has
taken it out of the queue, and the guard unlocks if that throws. -/
def stepV {Q : QImpl α} (F : PushFails Q) (s : State Q) : ActV α → Option (State Q)
  | .act a => step s a
  | .throwPush t b => match s.pcs[t]? with
    | some (.enqPush a) => match F b a s.q with
      | some q => some ({ s with lock := none, q := q }.goto t .idle)
      | none => none
    | _ => none
  | .throwPop t => match s.pcs[t]? with
    | some .deqPop => some ({ s with lock := none }.goto t .idle)
    | _ => none
  | .throwRet t => match s.pcs[t]? with
    | some (.deqUnlock (some _)) => some ({ s with lock := none }.goto t .idle)
    | _ => none

/-- a schedule with exceptions (concurrency.hpp 125-143, 166-186) -/
def execV {Q : QImpl α} (F : PushFails Q) : List (ActV α) → State Q → Option (State Q)
  | [], s => some s
  | a :: as, s => match stepV F s a with
    | some s' => execV F as s'
    | none => none

end NonBlocking

end Conc
end Efp
