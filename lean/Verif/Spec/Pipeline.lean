import Verif.Pipeline

/-!
# Specification: expressions over lists
-/

namespace Efp
namespace Spec

open Prelude

variable {α : Type}

/-- the list an expression stands for, if the named containers hold the lists `ls` -/
def pipeList (ls : List (List α)) : Pipe α → List α
  | .var i => ls.getD i []
  | .map f e => (pipeList ls e).map f
  | .zip f a b => List.zipWith f (pipeList ls a) (pipeList ls b)
  | .filter p e => (pipeList ls e).filter p
  | .append a b => pipeList ls a ++ pipeList ls b
  | .fromFunction n f => (List.range n.val).map f
  | .take n e => (pipeList ls e).take n.val
  | .drop n e => (pipeList ls e).drop n.val
  | .tail e => (pipeList ls e).tail
  | .init e => (pipeList ls e).dropLast

/-- the static type of an expression, if the named containers have the types `ts` -/
def pipeTy (ts : List SeqTy) : Pipe α → SeqTy
  | .var i => ts.getD i .vector
  | .map _ e => naryTy [pipeTy ts e]
  | .zip _ a b => naryTy [pipeTy ts a, pipeTy ts b]
  | .filter _ e => filterTy (pipeTy ts e)
  | .append a b => appendTy [pipeTy ts a, pipeTy ts b]
  | .fromFunction n _ => fromFunctionTy n
  | .take n e => takeTy n (pipeTy ts e)
  | .drop n e => dropTy n (pipeTy ts e)
  | .tail e => tailTy (pipeTy ts e)
  | .init e => tailTy (pipeTy ts e)

/-- the sizes and static capacities are less than the largest `size_t`, which stands for "not static" -/
def sizesFit (t : SeqTy) (l : List α) : Prop :=
  l.length < dyn ∧ match t with
    | .array n => n < dyn
    | .arrVec n => n < dyn
    | .vector => True

instance (t : SeqTy) (l : List α) : Decidable (sizesFit t l) := by
  unfold sizesFit
  cases t <;> exact inferInstance

/-- what a client has to ensure: names exist, `tail` and `init` only of sequences that are not empty, `filter` not of a view, and
every sequence on the way fits -/
def pipeOk (ts : List SeqTy) (ls : List (List α)) : Pipe α → Prop
  | .var i => i < ls.length
  | .map f e => pipeOk ts ls e ∧ sizesFit (pipeTy ts (.map f e)) (pipeList ls (.map f e))
  | .zip f a b => pipeOk ts ls a ∧ pipeOk ts ls b ∧ sizesFit (pipeTy ts (.zip f a b)) (pipeList ls (.zip f a b))
  | .filter p e => pipeOk ts ls e ∧ e.owns = true ∧ sizesFit (pipeTy ts (.filter p e)) (pipeList ls (.filter p e))
  | .append a b => pipeOk ts ls a ∧ pipeOk ts ls b ∧ sizesFit (pipeTy ts (.append a b)) (pipeList ls (.append a b))
  | .fromFunction n f => sizesFit (pipeTy ts (.fromFunction n f)) (pipeList ls (.fromFunction n f))
  | .take n e => pipeOk ts ls e ∧ sizesFit (pipeTy ts (.take n e)) (pipeList ls (.take n e))
  | .drop n e => pipeOk ts ls e ∧ sizesFit (pipeTy ts (.drop n e)) (pipeList ls (.drop n e))
  | .tail e => pipeOk ts ls e ∧ pipeList ls e ≠ [] ∧ sizesFit (pipeTy ts (.tail e)) (pipeList ls (.tail e))
  | .init e => pipeOk ts ls e ∧ pipeList ls e ≠ [] ∧ sizesFit (pipeTy ts (.init e)) (pipeList ls (.init e))

instance decPipeOk [DecidableEq α] (ts : List SeqTy) (ls : List (List α)) : (e : Pipe α) → Decidable (pipeOk ts ls e)
  | .var _ => by unfold pipeOk; exact inferInstance
  | .map _ e => by have := decPipeOk ts ls e; unfold pipeOk; exact inferInstance
  | .zip _ a b => by have := decPipeOk ts ls a; have := decPipeOk ts ls b; unfold pipeOk; exact inferInstance
  | .filter _ e => by have := decPipeOk ts ls e; unfold pipeOk; exact inferInstance
  | .append a b => by have := decPipeOk ts ls a; have := decPipeOk ts ls b; unfold pipeOk; exact inferInstance
  | .fromFunction _ _ => by unfold pipeOk; exact inferInstance
  | .take _ e | .drop _ e | .tail e | .init e => by have := decPipeOk ts ls e; unfold pipeOk; exact inferInstance

/-- what the view at the top of an expression looks at, in the end: the container below the views -/
def viewed : Pipe α → Pipe α
  | .take _ e | .drop _ e | .tail e | .init e => viewed e
  | e => e

/-- a named container -/
def isName : Pipe α → Bool
  | .var _ => true
  | _ => false

/-- the lists of all names after a sequence of definitions -/
def letLists (ls : List (List α)) : List (Pipe α) → List (List α)
  | [] => ls
  | e :: es => letLists (ls ++ [pipeList ls e]) es

/-- what a client has to ensure for a sequence of definitions: every expression is in order, and a view that gets a name looks at
a container that has one -/
def letsOk (ts : List SeqTy) (ls : List (List α)) : List (Pipe α) → Prop
  | [] => True
  | e :: es => pipeOk ts ls e ∧ (e.owns = true ∨ isName (viewed e) = true) ∧ letsOk (ts ++ [pipeTy ts e]) (ls ++ [pipeList ls e]) es

instance decLetsOk [DecidableEq α] (ts : List SeqTy) (ls : List (List α)) : (es : List (Pipe α)) → Decidable (letsOk ts ls es)
  | [] => .isTrue trivial
  | e :: es => by
    have := decLetsOk (ts ++ [pipeTy ts e]) (ls ++ [pipeList ls e]) es
    unfold letsOk; exact inferInstance

/-- the names stand for containers that hold `ls` and have the types `ts`; name `i` is block `i` or a view of such a block -/
structure Named (env : List (Option (Inp α))) (ts : List SeqTy) (ls : List (List α)) : Prop where
  types : ts.length = env.length
  lists : ls.length = env.length
  holds : ∀ (i : Nat) (h : i < env.length), ∃ as : Inp α, env[i] = some as ∧ as.valid ∧
    (as.vals ≠ [] → as.blk < env.length) ∧ ts[i]? = some as.ty ∧ ls[i]? = some as.vals

end Spec
end Efp
