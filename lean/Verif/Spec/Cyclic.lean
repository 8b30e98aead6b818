/-!
# Specification of the cyclic containers: a sliding window and a bounded FIFO list
-/

namespace Efp
namespace Spec

variable {α : Type}

/-- the last `n` values of `n` defaults followed by everything pushed -/
def lastN (n : Nat) (d : α) (xs : List α) : List α := (List.replicate n d ++ xs).drop xs.length

/-- a window `w` after pushing `ys`: each push drops the oldest value -/
def slide (w ys : List α) : List α := (w ++ ys).drop ys.length

/-- queue operations -/
inductive QOp (α : Type) where
  | push (a : α)
  | pop
  deriving DecidableEq, Repr

/-- a push onto `n` elements first drops the oldest -/
def fifoPush (n : Nat) (q : List α) (a : α) : List α := (if q.length = n then q.tail else q) ++ [a]

/-- The FIFO list of capacity `n`: the final queue and the popped values; `none` if the history pops an empty
queue. -/
def fifo (n : Nat) : List (QOp α) → List α → Option (List α × List α)
  | [], q => some (q, [])
  | .push a :: ops, q => fifo n ops (fifoPush n q a)
  | .pop :: _, [] => none
  | .pop :: ops, x :: q => (fifo n ops q).map (fun r => (r.1, x :: r.2))

/-- how many elements have left the front of the queue (popped or dropped by a push) -/
def removed (n : Nat) : List (QOp α) → List α → Nat
  | [], _ => 0
  | .push a :: ops, q => (if q.length = n then 1 else 0) + removed n ops (fifoPush n q a)
  | .pop :: _, [] => 0
  | .pop :: ops, _ :: q => 1 + removed n ops q

/-- how many values were pushed -/
def pushCount : List (QOp α) → Nat
  | [] => 0
  | .push _ :: ops => pushCount ops + 1
  | .pop :: ops => pushCount ops

end Spec
end Efp
