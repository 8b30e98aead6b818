import Verif.Cyclic
import Verif.Spec.Concurrency

/-!
# concurrency.hpp: `BlockingQ`, `NonBlockingQ`, `DoubleBuffer`

Interleaving semantics.  A machine has any number of threads; each thread has a program counter, and one step runs one
statement of one thread.  Threads call operations in any order and at any time, so every client program and every
schedule is a sequence of actions of the machine.  The mutex is the thread that owns it.  `condition_variable::wait`
releases the mutex and puts the thread to sleep in one step; a sleeping thread is woken by `notify_one` (which wakes one
arbitrary sleeper, and does nothing if nobody sleeps) or spuriously, and then has to take the mutex again.

Each state keeps the log of what happened so far: calls, returns and the accesses to the underlying queue.  Element
copies do not throw.  Memory is sequentially consistent; the absence of data races, which justifies this for programs
with mutexes, is itself a theorem where it holds (`Props/Concurrency.lean`).
-/

namespace Efp
namespace Conc

open Spec (Ev)

variable {α : Type}

/-- The sequential queue guarded by the lock: `_q.empty()`, `_q.push_back(t)` / `_q.push(t)`, and `_q.pop_front()` /
`_q.front(); _q.pop()` as used by concurrency.hpp 45-60, 84-101, 125-143, 166-186. -/
structure QImpl (α : Type) where
  St : Type
  init : St
  empty : St → Bool
  push : α → Cpp St Unit
  pop : Cpp St α

/-- `std::queue<A>` (concurrency.hpp 104, 189), as in the C++ standard: `front` and `pop` of an empty queue are
undefined.  `A val = _q.front(); _q.pop();` (concurrency.hpp 98-99, 182-183) is one step: both statements run under the
lock. -/
abbrev stdQ (α : Type) : QImpl α where
  St := List α
  init := []
  empty := fun l => l.isEmpty
  push := fun a l => .ok () (l ++ [a])
  pop := fun l => match l with
    | [] => .ub .deadRead
    | x :: l => .ok x l

/-- `Vcq<A, capacity>` (concurrency.hpp 63, 146), the model of cyclic.hpp -/
def vcqQ (k : Kind) (n : Nat) (α : Type) : QImpl α where
  St := Cyclic.VcqS α
  init := Cyclic.Vcq.mk0 n
  empty := Cyclic.Vcq.empty
  push := Cyclic.Vcq.pushBack k
  pop := Cyclic.Vcq.popFront k

/-! ## BlockingQ -/

namespace Blocking

/-- Where a thread is: outside, or before the named statement of `enqueue` (concurrency.hpp 45-49, 84-88) or
`dequeue` (concurrency.hpp 53-60, 92-101). -/
inductive PC (α : Type) where
  | idle
  /-- before `lock_guard lock(_m)` -/
  | enqLock (a : α)
  /-- before `_q.push_back(t)` -/
  | enqPush (a : α)
  /-- before `_c.notify_one()` -/
  | enqNotify
  /-- before the end of the scope, which unlocks -/
  | enqUnlock
  /-- before `unique_lock lock(_m)` -/
  | deqLock
  /-- before the test `_q.empty()` -/
  | deqCheck
  /-- inside `_c.wait(lock)`, not notified -/
  | asleep
  /-- inside `_c.wait(lock)`, woken, before it takes the mutex again -/
  | woken
  /-- after the loop, before `_q.pop_front()` -/
  | deqPop
  /-- before the return, which unlocks -/
  | deqUnlock (v : α)
  deriving DecidableEq, Repr

/-- One queue (concurrency.hpp 63-65, 104-106) and all threads using it. `bad` records that an access to the queue
threw or was undefined. -/
structure State (Q : QImpl α) where
  pcs : List (PC α)
  lock : Option Nat
  q : Q.St
  bad : Bool
  log : List (Nat × Ev α)

/-- `BlockingQ()` (concurrency.hpp 32, 71) with `m` idle threads -/
def start (Q : QImpl α) (m : Nat) : State Q := ⟨List.replicate m .idle, none, Q.init, false, []⟩

/-- what the scheduler may do -/
inductive Act (α : Type) where
  /-- thread `t` calls `enqueue(a)` -/
  | callEnq (t : Nat) (a : α)
  /-- thread `t` calls `dequeue()` -/
  | callDeq (t : Nat)
  /-- thread `t` runs its next statement (any but `notify_one`) -/
  | run (t : Nat)
  /-- thread `t` runs `notify_one`, waking `w` -/
  | notify (t : Nat) (w : Option Nat)
  /-- thread `t` wakes up without a notification -/
  | spurious (t : Nat)
  deriving DecidableEq, Repr

/-- thread `t` moves on to `p` -/
def State.goto {Q : QImpl α} (s : State Q) (t : Nat) (p : PC α) : State Q := { s with pcs := s.pcs.set t p }

/-- an event of thread `t` -/
def State.emit {Q : QImpl α} (s : State Q) (t : Nat) (e : Ev α) : State Q := { s with log := s.log ++ [(t, e)] }

/-- the statement at a program counter (concurrency.hpp 45-49, 53-60, 84-88, 92-101); `none`: the thread cannot run -/
def runPC {Q : QImpl α} (t : Nat) (s : State Q) : PC α → Option (State Q)
  | .idle => none
  | .enqLock a => if s.lock = none then some ({ s with lock := some t }.goto t (.enqPush a)) else none
  | .enqPush a => match Q.push a s.q with
    | .ok _ q => some (({ s with q := q }.goto t .enqNotify).emit t (.push a))
    | _ => some { s with bad := true }
  | .enqNotify => none
  | .enqUnlock => some (({ s with lock := none }.goto t .idle).emit t .retEnq)
  | .deqLock => if s.lock = none then some ({ s with lock := some t }.goto t .deqCheck) else none
  | .deqCheck =>
    if Q.empty s.q then some ({ s with lock := none }.goto t .asleep) else some (s.goto t .deqPop)
  | .asleep => none
  | .woken => if s.lock = none then some ({ s with lock := some t }.goto t .deqCheck) else none
  | .deqPop => match Q.pop s.q with
    | .ok v q => some (({ s with q := q }.goto t (.deqUnlock v)).emit t (.pop (some v)))
    | _ => some { s with bad := true }
  | .deqUnlock v => some (({ s with lock := none }.goto t .idle).emit t (.retDeq (some v)))

/-- is the thread blocked in `_c.wait`, not notified? -/
def PC.isAsleep : PC α → Bool
  | .asleep => true
  | _ => false

/-- one action; `none`: not possible now. `notify_one` (concurrency.hpp 48, 87) and `wait` (concurrency.hpp 57, 96)
follow the C++ standard. -/
def step {Q : QImpl α} (s : State Q) : Act α → Option (State Q)
  | .callEnq t a => match s.pcs[t]? with
    | some .idle => some ((s.goto t (.enqLock a)).emit t (.callEnq a))
    | _ => none
  | .callDeq t => match s.pcs[t]? with
    | some .idle => some ((s.goto t .deqLock).emit t .callDeq)
    | _ => none
  | .run t => match s.pcs[t]? with
    | some p => runPC t s p
    | none => none
  | .notify t w => match s.pcs[t]? with
    | some .enqNotify => match w with
      | some w => match s.pcs[w]? with
        | some .asleep => some ((s.goto w .woken).goto t .enqUnlock)
        | _ => none
      | none => if s.pcs.any PC.isAsleep then none else some (s.goto t .enqUnlock)
    | _ => none
  | .spurious t => match s.pcs[t]? with
    | some .asleep => some (s.goto t .woken)
    | _ => none

/-- a schedule -/
def exec {Q : QImpl α} : List (Act α) → State Q → Option (State Q)
  | [], s => some s
  | a :: as, s => match step s a with
    | some s' => exec as s'
    | none => none

/-- the states some client program and some schedule can produce, with `m` threads -/
def Reachable (Q : QImpl α) (m : Nat) (s : State Q) : Prop := ∃ as, exec as (start Q m) = some s

/-- does the statement at this program counter access the queue `_q`? (concurrency.hpp 47, 55, 59, 86, 94, 98-99) -/
def PC.accesses : PC α → Bool
  | .enqPush _ | .deqCheck | .deqPop => true
  | _ => false

/-- program counters between taking and releasing the mutex (concurrency.hpp 46-49, 54-60, 85-88, 93-101) -/
def PC.holds : PC α → Bool
  | .enqPush _ | .enqNotify | .enqUnlock | .deqCheck | .deqPop | .deqUnlock _ => true
  | _ => false

end Blocking

/-! ## NonBlockingQ -/

namespace NonBlocking

/-- Where a thread is: outside, or before the named statement of `enqueue` (concurrency.hpp 125-128, 166-169), `is_empty`
(concurrency.hpp 130-132, 171-173) or `dequeue` (concurrency.hpp 136-143, 177-186). -/
inductive PC (α : Type) where
  | idle
  | enqLock (a : α)
  | enqPush (a : α)
  | enqUnlock
  | deqLock
  | deqCheck
  | deqPop
  /-- before the return, which unlocks -/
  | deqUnlock (v : Option α)
  /-- before the unlocked read `_q.empty()` of `is_empty` -/
  | emptyRead
  /-- before the return of `is_empty` -/
  | emptyRet (b : Bool)
  deriving DecidableEq, Repr

/-- One queue (concurrency.hpp 146-147, 189-190) and all threads using it -/
structure State (Q : QImpl α) where
  pcs : List (PC α)
  lock : Option Nat
  q : Q.St
  bad : Bool
  log : List (Nat × Ev α)

/-- `NonBlockingQ()` (concurrency.hpp 112, 153) with `m` idle threads -/
def start (Q : QImpl α) (m : Nat) : State Q := ⟨List.replicate m .idle, none, Q.init, false, []⟩

/-- what the scheduler may do -/
inductive Act (α : Type) where
  | callEnq (t : Nat) (a : α)
  | callDeq (t : Nat)
  | callEmpty (t : Nat)
  | run (t : Nat)
  deriving DecidableEq, Repr

/-- thread `t` moves on to `p` -/
def State.goto {Q : QImpl α} (s : State Q) (t : Nat) (p : PC α) : State Q := { s with pcs := s.pcs.set t p }

/-- an event of thread `t` -/
def State.emit {Q : QImpl α} (s : State Q) (t : Nat) (e : Ev α) : State Q := { s with log := s.log ++ [(t, e)] }

/-- the statement at a program counter (concurrency.hpp 125-143, 166-186); `none`: the thread cannot run.  The unlocked
read of `is_empty` is one step here. -/
def runPC {Q : QImpl α} (t : Nat) (s : State Q) : PC α → Option (State Q)
  | .idle => none
  | .enqLock a => if s.lock = none then some ({ s with lock := some t }.goto t (.enqPush a)) else none
  | .enqPush a => match Q.push a s.q with
    | .ok _ q => some (({ s with q := q }.goto t .enqUnlock).emit t (.push a))
    | _ => some { s with bad := true }
  | .enqUnlock => some (({ s with lock := none }.goto t .idle).emit t .retEnq)
  | .deqLock => if s.lock = none then some ({ s with lock := some t }.goto t .deqCheck) else none
  | .deqCheck =>
    if Q.empty s.q then some ((s.goto t (.deqUnlock none)).emit t (.pop none)) else some (s.goto t .deqPop)
  | .deqPop => match Q.pop s.q with
    | .ok v q => some (({ s with q := q }.goto t (.deqUnlock (some v))).emit t (.pop (some v)))
    | _ => some { s with bad := true }
  | .deqUnlock v => some (({ s with lock := none }.goto t .idle).emit t (.retDeq v))
  | .emptyRead => some ((s.goto t (.emptyRet (Q.empty s.q))).emit t (.look (Q.empty s.q)))
  | .emptyRet b => some ((s.goto t .idle).emit t (.retLook b))

/-- one action; `none`: not possible now (concurrency.hpp 125-143, 166-186) -/
def step {Q : QImpl α} (s : State Q) : Act α → Option (State Q)
  | .callEnq t a => match s.pcs[t]? with
    | some .idle => some ((s.goto t (.enqLock a)).emit t (.callEnq a))
    | _ => none
  | .callDeq t => match s.pcs[t]? with
    | some .idle => some ((s.goto t .deqLock).emit t .callDeq)
    | _ => none
  | .callEmpty t => match s.pcs[t]? with
    | some .idle => some ((s.goto t .emptyRead).emit t .callLook)
    | _ => none
  | .run t => match s.pcs[t]? with
    | some p => runPC t s p
    | none => none

/-- a schedule -/
def exec {Q : QImpl α} : List (Act α) → State Q → Option (State Q)
  | [], s => some s
  | a :: as, s => match step s a with
    | some s' => exec as s'
    | none => none

/-- the states some client program and some schedule can produce, with `m` threads -/
def Reachable (Q : QImpl α) (m : Nat) (s : State Q) : Prop := ∃ as, exec as (start Q m) = some s

/-- does the statement at this program counter read the queue `_q`? (concurrency.hpp 127, 131, 138, 141) -/
def PC.reads : PC α → Bool
  | .enqPush _ | .deqCheck | .deqPop | .emptyRead => true
  | _ => false

/-- does the statement at this program counter modify the queue `_q`? (concurrency.hpp 127, 141) -/
def PC.writes : PC α → Bool
  | .enqPush _ | .deqPop => true
  | _ => false

/-- program counters between taking and releasing the mutex (concurrency.hpp 126-128, 137-143) -/
def PC.holds : PC α → Bool
  | .enqPush _ | .enqUnlock | .deqCheck | .deqPop | .deqUnlock _ => true
  | _ => false

end NonBlocking

end Conc
end Efp
