import Verif.ConcurrencyThrow
import Verif.Spec.HappensBefore

/-!
# concurrency.hpp: what the statements of the queues do to memory and to their lock

The machines of `Concurrency.lean` and `DoubleBuffer.lean`; every step is annotated with its accesses and its operations on
the mutex or the spinlock.  `std::mutex` and `std::condition_variable` follow the C++ standard: taking the mutex is an acquire
operation, giving it back a release operation, and `wait` does both.  The spinlock is `test_and_set` with
`memory_order_acquire` and `clear` with `memory_order_release`; a `test_and_set` that finds the flag clear reads what the last
`clear` wrote.
-/

namespace Efp

open Spec (Op Trace)

variable {α : Type}

namespace Conc.Blocking

/-- the operations of the statement at a program counter on the mutex and on `_q` (concurrency.hpp 45-60, 84-101) -/
def opsPC {Q : QImpl α} (s : State Q) : PC α → List (Op Unit)
  | .enqLock _ | .deqLock | .woken => [.acquire]
  | .enqPush _ | .deqPop => [.access () true]
  | .deqCheck => if Q.empty s.q then [.access () false, .release] else [.access () false]
  | .enqUnlock | .deqUnlock _ => [.release]
  | _ => []

/-- the operations of an action (concurrency.hpp 45-60, 84-101); calls, notifications and wake-ups have none -/
def ops {Q : QImpl α} (s : State Q) : Act α → Trace Unit
  | .run t => match s.pcs[t]? with
    | some p => (opsPC s p).map fun o => (t, o)
    | none => []
  | _ => []

/-- the states that some client program and some schedule can produce, with `m` threads, and the operations on the way
(concurrency.hpp 45-60, 84-101) -/
inductive Traced (Q : QImpl α) (m : Nat) : State Q → Trace Unit → Prop where
  | start : Traced Q m (start Q m) []
  | step {s s' : State Q} {tr : Trace Unit} (a : Act α) : Traced Q m s tr → step s a = some s' → Traced Q m s' (tr ++ ops s a)

end Conc.Blocking

namespace Conc.NonBlocking

/-- the operations of the statement at a program counter on the mutex and on `_q` (concurrency.hpp 125-143, 166-186) -/
def opsPC : PC α → List (Op Unit)
  | .enqLock _ | .deqLock => [.acquire]
  | .enqPush _ | .deqPop => [.access () true]
  | .deqCheck | .emptyRead => [.access () false]
  | .enqUnlock | .deqUnlock _ => [.release]
  | _ => []

/-- the operations of an action (concurrency.hpp 125-143, 166-186) -/
def ops {Q : QImpl α} (s : State Q) : Act α → Trace Unit
  | .run t => match s.pcs[t]? with
    | some p => (opsPC p).map fun o => (t, o)
    | none => []
  | _ => []

/-- the states that some client program and some schedule can produce, with `m` threads, and the operations on the way; without
`is_empty` if `e` is false (concurrency.hpp 125-143, 166-186) -/
inductive Traced (Q : QImpl α) (m : Nat) (e : Bool) : State Q → Trace Unit → Prop where
  | start : Traced Q m e (start Q m) []
  | step {s s' : State Q} {tr : Trace Unit} (a : Act α) : Traced Q m e s tr → (e = false → ∀ t, a ≠ .callEmpty t) →
      step s a = some s' → Traced Q m e s' (tr ++ ops s a)

end Conc.NonBlocking

namespace DBuf

/-- the operations of the statement at a program counter on the spinlock, the pointers and the buffers (concurrency.hpp 214-232,
237-243) -/
def opsPC (s : State α) : PC α → List (Op Loc)
  | .enqSpin _ | .swapSpin => [.acquire]
  | .enqUnlock | .swapUnlock => [.release]
  | p => (accesses s p).map fun x => .access x.1 x.2

/-- the operations of an action (concurrency.hpp 214-232) -/
def ops (s : State α) : Act α → Trace Loc
  | .run t => match s.pcs[t]? with
    | some p => (opsPC s p).map fun o => (t, o)
    | none => []
  | _ => []

/-- the states that clients keeping to `Allowed` can produce under some schedule, and the operations on the way
(concurrency.hpp 214-232) -/
inductive Traced (k : Kind) (n m : Nat) (drain : Bool) (c : Nat) : State α → Trace Loc → Prop where
  | start : Traced k n m drain c (start n m) []
  | step {s s' : State α} {tr : Trace Loc} (a : Act α) : Traced k n m drain c s tr → Allowed drain c s a → step k s a = some s' →
      Traced k n m drain c s' (tr ++ ops s a)

end DBuf
end Efp
