import Verif.Spec.Concurrency

/-!
# Specification: histories of queues whose calls may end with an exception

An exception is not an event of its own: a call that ends with one is a call that is followed, in the events of its
thread, by the next call of that thread instead of by its return.
-/

namespace Efp
namespace Spec

variable {α : Type}

/-- is it the call of an operation? -/
def Ev.isCall : Ev α → Bool
  | .callEnq _ | .callDeq | .callLook | .callSwap => true
  | _ => false

/-- the events of one thread without the calls that had no effect, because the next event is another call -/
def settled : List (Ev α) → List (Ev α)
  | [] => []
  | [e] => [e]
  | e :: f :: es => if e.isCall && f.isCall then settled (f :: es) else e :: settled (f :: es)

/-- Linearizability of a history in which calls may have thrown: the effects are a run of the sequential queue, whose
contents are now `q`; and the events of each thread, without its calls that had no effect, are complete operations. -/
def LinearizableT (cap : Option Nat) (log : List (Nat × Ev α)) (q : List α) : Prop :=
  Legal cap (events log) [] q ∧ ∀ t, ∃ p, PhaseRun (settled (ofThread t log)) p

end Spec
end Efp
