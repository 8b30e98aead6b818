import Verif.Concurrency
import Mathlib.Logic.Function.Basic

/-!
# Programs that pass elements on from one `BlockingQ` to the next

Queues `0` to `k`, each a `BlockingQ`, bounded or not (concurrency.hpp 29-107), and threads that run
`for (;;) { A x = q_i.dequeue(); q_{i+1}.enqueue(x); }`.  Anybody may enqueue into queue `0` and dequeue from queue `k`.  Every queue
is the machine of `Concurrency.lean`; a step of the whole is a step of one queue.
-/

namespace Efp.Chain

open Conc Spec

variable {α : Type} {Q : Nat → QImpl α}

/-- The queues, and for stage `i` and thread `t` the variable `x` of the loop: what was dequeued from queue `i` and not yet handed
to queue `i + 1`. -/
structure State (Q : Nat → QImpl α) where
  qs : ∀ i, Blocking.State (Q i)
  hand : Nat → Nat → Option α

/-- The queues of a chain: `BlockingQ<A, n>` (concurrency.hpp 29-66) where `caps i = some n`, `BlockingQ<A>` (concurrency.hpp 68-107)
where it is `none`. -/
def queues (kd : Kind) (caps : Nat → Option Nat) (i : Nat) : QImpl α :=
  match caps i with
  | none => stdQ α
  | some n => vcqQ kd n α

/-- all queues empty, `m` threads -/
def start (Q : Nat → QImpl α) (m : Nat) : State Q := ⟨fun i => Blocking.start (Q i) m, fun _ _ => none⟩

/-- What the program allows: between queue `j` and queue `j + 1` only the threads of stage `j` (`F j`) work, and each of them
enqueues what it dequeued last before it dequeues again.  (The client program; the calls are concurrency.hpp 45-60, 84-101.) -/
def Allowed (k : Nat) (F : Nat → Nat → Bool) (s : State Q) (i : Nat) : Blocking.Act α → Prop
  | .callEnq t x => ∀ j, i = j + 1 → F j t = true ∧ s.hand j t = some x
  | .callDeq t => i < k → F i t = true ∧ s.hand i t = none ∧ (s.qs (i + 1)).pcs[t]? = some .idle
  | _ => True

/-- The variables after a step of queue `i`: `x` is assigned when `dequeue` returns (concurrency.hpp 59, 100) and is used up when
`enqueue` is called. -/
def State.hand' (s : State Q) (i : Nat) (a : Blocking.Act α) : Nat → Nat → Option α := fun j u =>
  match a with
  | .callEnq t _ => if j + 1 = i ∧ u = t then none else s.hand j u
  | .run t => match (s.qs i).pcs[t]? with
    | some (.deqUnlock v) => if j = i ∧ u = t then some v else s.hand j u
    | _ => s.hand j u
  | _ => s.hand j u

/-- the states that some schedule can produce -/
inductive Reach (Q : Nat → QImpl α) (k : Nat) (F : Nat → Nat → Bool) (m : Nat) : State Q → Prop where
  | start : Reach Q k F m (start Q m)
  | step {s : State Q} (i : Nat) {q' : Blocking.State (Q i)} (a : Blocking.Act α) : Reach Q k F m s → i ≤ k → Allowed k F s i a →
      Blocking.step (s.qs i) a = some q' → Reach Q k F m ⟨Function.update s.qs i q', s.hand' i a⟩

/-- What thread `t` took out of queue `i` and has not yet put into queue `i + 1`: about to be put there, in the variable `x`, about
to be returned by `dequeue`. -/
def State.flight (s : State Q) (i t : Nat) : List α :=
  (match (s.qs (i + 1)).pcs[t]? with | some (.enqLock a) | some (.enqPush a) => [a] | _ => []) ++ (s.hand i t).toList ++
  (match (s.qs i).pcs[t]? with | some (.deqUnlock v) => [v] | _ => [])

/-- Everything in the unbounded queues `0` to `j` and between them, oldest first; `g i` is what is between queue `i` and queue
`i + 1`. -/
def State.inside (s : State fun _ => stdQ α) (g : Nat → List α) : Nat → List α
  | 0 => (s.qs 0).q
  | j + 1 => (s.qs (j + 1)).q ++ (g j ++ s.inside g j)

end Efp.Chain
