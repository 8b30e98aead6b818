/-!
# Happens-before and data races (C124)

The C++ memory model, for programs with one lock: what the threads did to memory and to the lock, in the order in which the
lock was taken and released.  A release synchronizes with the acquire that comes next, and with nothing else; happens-before
is the least order that contains this and the order of the statements of each thread.  Two accesses of one location by two
threads, one of them a modification, are a data race unless one happens before the other.
-/

namespace Efp.Spec

/-- what a thread does: take the lock, release it, or access a location (`w`: modify it) -/
inductive Op (ξ : Type) where
  | acquire
  | release
  | access (x : ξ) (w : Bool)
  deriving DecidableEq, Repr

/-- an operation on the lock -/
def Op.onLock {ξ : Type} : Op ξ → Bool
  | .access _ _ => false
  | _ => true

/-- the operations of all threads in order -/
abbrev Trace (ξ : Type) := List (Nat × Op ξ)

variable {ξ : Type}

/-- operation number `i` happens before operation number `j` -/
inductive HB (tr : Trace ξ) : Nat → Nat → Prop where
  /-- the same thread does `i` and later `j` -/
  | thread {i j t : Nat} {a b : Op ξ} : i < j → tr[i]? = some (t, a) → tr[j]? = some (t, b) → HB tr i j
  /-- `i` releases the lock and `j` takes it next -/
  | sync {i j t u : Nat} : i < j → tr[i]? = some (t, .release) → tr[j]? = some (u, .acquire) →
      (∀ (k v : Nat) (a : Op ξ), i < k → k < j → tr[k]? = some (v, a) → a.onLock = false) → HB tr i j
  | trans {i j k : Nat} : HB tr i j → HB tr j k → HB tr i k

/-- every two conflicting accesses of different threads are ordered -/
def RaceFree (tr : Trace ξ) : Prop :=
  ∀ (i j t u : Nat) (x : ξ) (w w' : Bool), i < j → tr[i]? = some (t, .access x w) → tr[j]? = some (u, .access x w') →
    t ≠ u → (w = true ∨ w' = true) → HB tr i j

end Efp.Spec
