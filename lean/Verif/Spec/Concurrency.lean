import Verif.Spec.Cyclic

/-!
# Specification of the concurrent queues

A history is a list of events, each with the thread it belongs to: calls and returns of the operations, and between the
call and the return of each operation the one moment at which it takes effect (`push`, `pop`, `look`).  A history is
linearizable in the usual sense if every thread's events are complete operations in this form, and the effects, in the
order in which they happened, are a run of the sequential queue.
-/

namespace Efp
namespace Spec

variable {α : Type}

/-- events of one thread -/
inductive Ev (α : Type) where
  /-- `enqueue(a)` is called -/
  | callEnq (a : α)
  /-- the enqueue takes effect -/
  | push (a : α)
  /-- `enqueue` returns -/
  | retEnq
  /-- `dequeue()` is called -/
  | callDeq
  /-- the dequeue takes effect, with a value or with "nothing" -/
  | pop (o : Option α)
  /-- `dequeue` returns a value or "nothing" -/
  | retDeq (o : Option α)
  /-- `is_empty()` is called -/
  | callLook
  /-- the emptiness is read -/
  | look (b : Bool)
  /-- `is_empty` returns -/
  | retLook (b : Bool)
  /-- `swap_buffer()` is called -/
  | callSwap
  /-- the buffers are exchanged -/
  | swap
  /-- `swap_buffer` returns -/
  | retSwap
  deriving DecidableEq, Repr

/-- what a single thread is in the middle of -/
inductive Phase (α : Type) where
  | outside
  | enqCalled (a : α)
  | enqDone
  | deqCalled
  | deqDone (o : Option α)
  | lookCalled
  | lookDone (b : Bool)
  | swapCalled
  | swapDone
  deriving DecidableEq, Repr

/-- An operation is a call, then its effect with the value of the call, then a return with the value of the effect. -/
inductive PhaseStep : Phase α → Ev α → Phase α → Prop where
  | callEnq (a : α) : PhaseStep .outside (.callEnq a) (.enqCalled a)
  | push (a : α) : PhaseStep (.enqCalled a) (.push a) .enqDone
  | retEnq : PhaseStep .enqDone .retEnq .outside
  | callDeq : PhaseStep .outside .callDeq .deqCalled
  | pop (o : Option α) : PhaseStep .deqCalled (.pop o) (.deqDone o)
  | retDeq (o : Option α) : PhaseStep (.deqDone o) (.retDeq o) .outside
  | callLook : PhaseStep .outside .callLook .lookCalled
  | look (b : Bool) : PhaseStep .lookCalled (.look b) (.lookDone b)
  | retLook (b : Bool) : PhaseStep (.lookDone b) (.retLook b) .outside
  | callSwap : PhaseStep .outside .callSwap .swapCalled
  | swap : PhaseStep .swapCalled .swap .swapDone
  | retSwap : PhaseStep .swapDone .retSwap .outside

/-- the events of one thread, in order, lead it from outside to the given phase -/
inductive PhaseRun : List (Ev α) → Phase α → Prop where
  | nil : PhaseRun [] .outside
  | snoc {es : List (Ev α)} {p p' : Phase α} {e : Ev α} : PhaseRun es p → PhaseStep p e p' → PhaseRun (es ++ [e]) p'

/-- the events of thread `t` -/
def ofThread (t : Nat) (log : List (Nat × Ev α)) : List (Ev α) := log.filterMap (fun x => if x.1 = t then some x.2 else none)

/-- a push: `none` is an unbounded queue, `some n` a queue of capacity `n` whose oldest element gives way -/
def capPush : Option Nat → List α → α → List α
  | none, q, a => q ++ [a]
  | some n, q, a => fifoPush n q a

/-- all events in order, whichever thread they belong to -/
def events (log : List (Nat × Ev α)) : List (Ev α) := log.map Prod.snd

/-- the effects in a history are a run of the sequential FIFO queue from contents `q` to contents `q'` -/
def Legal (cap : Option Nat) : List (Ev α) → (q q' : List α) → Prop
  | [], q, q' => q = q'
  | .push a :: es, q, q' => Legal cap es (capPush cap q a) q'
  | .pop (some v) :: es, q, q' => ∃ r, q = v :: r ∧ Legal cap es r q'
  | .pop none :: es, q, q' => q = [] ∧ Legal cap es q q'
  | .look b :: es, q, q' => b = q.isEmpty ∧ Legal cap es q q'
  | _ :: es, q, q' => Legal cap es q q'

/-- Linearizability with respect to the FIFO queue of the given capacity, whose contents are now `q`. -/
def Linearizable (cap : Option Nat) (log : List (Nat × Ev α)) (q : List α) : Prop :=
  Legal cap (events log) [] q ∧ ∀ t, ∃ p, PhaseRun (ofThread t log) p

/-- values enqueued, in the order in which the enqueues took effect -/
def pushes (es : List (Ev α)) : List α := es.filterMap fun e => match e with
  | .push a => some a
  | _ => none

/-- values dequeued, in the order in which the dequeues took effect -/
def pops (es : List (Ev α)) : List α := es.filterMap fun e => match e with
  | .pop o => o
  | _ => none

/-- the values displaced by a push onto a queue that already holds `n` elements -/
def drops (n : Nat) : List (Ev α) → (q : List α) → List α
  | [], _ => []
  | .push a :: es, q => (if q.length = n then q.take 1 else []) ++ drops n es (fifoPush n q a)
  | .pop (some _) :: es, q => drops n es q.tail
  | _ :: es, q => drops n es q

/-- values with which `enqueue` was called -/
def enqCalls (es : List (Ev α)) : List α := es.filterMap fun e => match e with
  | .callEnq a => some a
  | _ => none

/-- values which `dequeue` returned -/
def deqRets (es : List (Ev α)) : List α := es.filterMap fun e => match e with
  | .retDeq o => o
  | _ => none

/-- The effects in a history are a run of a sequential double buffer: pushes go to the write queue `w` of capacity `n`,
pops come from the read queue `r`, and a swap exchanges the two. -/
def DLegal (n : Nat) : List (Ev α) → (r w r' w' : List α) → Prop
  | [], r, w, r', w' => r = r' ∧ w = w'
  | .push a :: es, r, w, r', w' => DLegal n es r (fifoPush n w a) r' w'
  | .swap :: es, r, w, r', w' => DLegal n es w r r' w'
  | .pop (some v) :: es, r, w, r', w' => ∃ r1, r = v :: r1 ∧ DLegal n es r1 w r' w'
  | .pop none :: _, _, _, _, _ => False
  | .look b :: es, r, w, r', w' => b = r.isEmpty ∧ DLegal n es r w r' w'
  | _ :: es, r, w, r', w' => DLegal n es r w r' w'

/-- the values displaced by a push onto a write queue that already holds `n` elements -/
def ddrops (n : Nat) : List (Ev α) → (r w : List α) → List α
  | [], _, _ => []
  | .push a :: es, r, w => (if w.length = n then w.take 1 else []) ++ ddrops n es r (fifoPush n w a)
  | .swap :: es, r, w => ddrops n es w r
  | .pop (some _) :: es, r, w => ddrops n es r.tail w
  | _ :: es, r, w => ddrops n es r w

end Spec
end Efp
