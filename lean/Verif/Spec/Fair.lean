import Verif.Spec.Concurrency

/-!
# Specification of never-ending executions and fair schedulers

A scheduler picks one action at every moment, for ever.  An action that is not possible at that moment has no effect: a
thread that is run while the lock it wants is taken waits, or goes round its loop once more.
-/

namespace Efp
namespace Spec

variable {S A α : Type}

/-- again and again, for ever -/
def InfOften (P : Nat → Prop) : Prop := ∀ n, ∃ i, n ≤ i ∧ P i

/-- the state at every moment of the execution that the scheduler `sch` produces -/
def run (step : S → A → Option S) (s0 : S) (sch : Nat → A) : Nat → S
  | 0 => s0
  | i + 1 => (step (run step s0 sch i) (sch i)).getD (run step s0 sch i)

/-- can thread `t` take a step of the operation it is in? `of` tells which thread takes such a step -/
def CanMove (step : S → A → Option S) (of : A → Option Nat) (s : S) (t : Nat) : Prop :=
  ∃ a, of a = some t ∧ step s a ≠ none

/-- thread `t` takes a step at moment `i` -/
def Moves (step : S → A → Option S) (of : A → Option Nat) (s0 : S) (sch : Nat → A) (t i : Nat) : Prop :=
  of (sch i) = some t ∧ step (run step s0 sch i) (sch i) ≠ none

/-- Weak fairness: a thread that can always move from some moment on does move again and again.  Every scheduler that
gives every thread some processor time again and again is weakly fair. -/
def WeakFair (step : S → A → Option S) (of : A → Option Nat) (s0 : S) (sch : Nat → A) : Prop :=
  ∀ t n, (∀ i, n ≤ i → CanMove step of (run step s0 sch i) t) → InfOften (Moves step of s0 sch t)

/-- Strong fairness: a thread that can move again and again does move again and again.  This asks the lock to be fair: a
thread that waits for a lock which is released again and again gets it in the end. -/
def StrongFair (step : S → A → Option S) (of : A → Option Nat) (s0 : S) (sch : Nat → A) : Prop :=
  ∀ t, InfOften (fun i => CanMove step of (run step s0 sch i) t) → InfOften (Moves step of s0 sch t)

/-- the operations -/
inductive CallName where
  | enqueue
  | dequeue
  | isEmpty
  | swap
  deriving DecidableEq, Repr

/-- the operation an event is a call of -/
def callOf : Ev α → Option CallName
  | .callEnq _ => some .enqueue
  | .callDeq => some .dequeue
  | .callLook => some .isEmpty
  | .callSwap => some .swap
  | _ => none

/-- the operation an event is a return from -/
def retOf : Ev α → Option CallName
  | .retEnq => some .enqueue
  | .retDeq _ => some .dequeue
  | .retLook _ => some .isEmpty
  | .retSwap => some .swap
  | _ => none

/-- how many times thread `t` has called operation `o` -/
def called (o : CallName) (t : Nat) (log : List (Nat × Ev α)) : Nat := (ofThread t log).countP fun e => callOf e == some o

/-- how many times operation `o` has returned to thread `t` -/
def returned (o : CallName) (t : Nat) (log : List (Nat × Ev α)) : Nat := (ofThread t log).countP fun e => retOf e == some o

/-- every call of `o` that thread `t` ever makes returns -/
def AllReturn (log : Nat → List (Nat × Ev α)) (o : CallName) (t : Nat) : Prop :=
  ∀ i, ∃ j, called o t (log i) ≤ returned o t (log j)

end Spec
end Efp
