import Verif.Prelude

/-!
# Specification vocabulary for the list functions

Lists are the reference: rows of several lists, cartesian product, and the effectful versions of
`filter` and "first match".  Calls of client code are sequenced by the `Monad` instance of `Cpp`
(`List.mapM`, `List.forM`, `List.foldlM`, `List.foldrM` of the standard library).
-/

namespace Efp
namespace Prelude

variable {α β γ ω : Type}

/-- The result object holds exactly the list the specification computes, with the same final world; and
if the specification throws or is undefined (because client code does), so is the call. -/
def Yields (o : Out ω (Res β)) (spec : Out ω (List β)) : Prop :=
  match spec with
  | .ok bs w => ∃ r, o = .ok r w ∧ r.contents = .ok bs
  | .thrown w => o = .thrown w
  | .ub u => o = .ub u

/-- length of the shortest list -/
def shortest : List (List α) → Nat
  | [] => 0
  | [l] => l.length
  | l :: m :: ls => min l.length (shortest (m :: ls))

/-- the `i`-th elements of all lists -/
def row (i : Nat) (ls : List (List α)) : List α := ls.filterMap (fun l => l[i]?)

/-- the rows `0 .. shortest - 1` -/
def rows (ls : List (List α)) : List (List α) := (List.range (shortest ls)).map (fun i => row i ls)

/-- all combinations of one element from each list, the last list varying fastest -/
def combos : List (List α) → List (List α)
  | [] => [[]]
  | l :: ls => l.flatMap (fun a => (combos ls).map (fun c => a :: c))

/-- `filter` with an effectful predicate, called once per element in order -/
def filterCalls (p : α → Cpp ω Bool) : List α → Cpp ω (List α)
  | [] => pure []
  | a :: l => do
    let b ← p a
    let r ← filterCalls p l
    pure (if b then a :: r else r)

/-- position of the first element the predicate accepts; the predicate is not called after that -/
def firstMatch (p : α → Cpp ω Bool) : List α → Cpp ω (Option Nat)
  | [] => pure none
  | a :: l => do
    let b ← p a
    if b then pure (some 0)
    else do
      let r ← firstMatch p l
      pure (r.map (· + 1))

/-- overwrite element `i` of list `j` by the `j`-th value of row `i`, where there is one -/
def overwrite (yss : List (List α)) (ls : List (List α)) : List (List α) :=
  ls.mapIdx (fun j l => l.mapIdx (fun i a => ((yss[i]?).bind (fun ys => ys[j]?)).getD a))

/-- a function of one argument as a function of an argument pack -/
def unary (f : α → β) (xs : List α) (d : β) : β :=
  match xs with
  | [a] => f a
  | _ => d

/-- a client function that records its calls in the world and then returns `g` of its arguments -/
def recording (g : γ → β) (x : γ) : Cpp (List γ) β := do
  Cpp.modify (fun calls => calls ++ [x])
  pure (g x)

/-- a result of static type `t` can hold `n` elements -/
def Holds (t : SeqTy) (n : Nat) : Prop :=
  match t with
  | .array m => n = m
  | .arrVec m => n ≤ m
  | .vector => True

end Prelude
end Efp
