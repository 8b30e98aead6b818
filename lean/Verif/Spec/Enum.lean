import Verif.Enum

/-!
# Specification of `Enum` and `Maybe`

A variable of type `Enum<As...>` is, to its user, a pair of the number of an alternative and a value
(`none`: the unspecified value a moved-from resource-owning object has).  A program is a store of such
pairs.
-/

namespace Efp.Spec.Enum

open Efp.Enum (Op Branch Raw Var World)

variable {τ α ν : Type}

/-- contents of the variables; `none` for a variable that does not exist (any more) -/
abbrev Store (α : Type) := List (Option (Nat × Option α))

/-- what a variable contains after being moved from -/
def afterMove (kind : τ → Kind) (As : List τ) (c : Nat × Option α) : Nat × Option α :=
  match As[c.1]? with
  | some t => (c.1, if kind t = .trivial then c.2 else none)
  | none => c

/-- Effect of one statement on the store, together with whether it throws.  `none`: the statement
names a variable that does not exist or a type that is not an alternative, or it is an assignment in
which the copy or move of the stored value throws (those are the subject of property C59). -/
def step [DecidableEq τ] (kind : τ → Kind) (As : List τ) (dv : α) (S : Store α) :
    Op τ α → Option (Store α × Bool)
  | .dflt thr => some (S ++ [if thr then none else some (0, some dv)], thr)
  | .ofVal t x thr =>
    if t ∈ As then some (S ++ [if thr then none else some (As.idxOf t, some x)], thr) else none
  | .copy j thr =>
    match S[j]? with
    | some (some c) => some (S ++ [if thr then none else some c], thr)
    | _ => none
  | .move j thr =>
    match S[j]? with
    | some (some c) =>
      if thr then some (S ++ [none], true)
      else some (S.set j (some (afterMove kind As c)) ++ [some c], false)
    | _ => none
  | .assign i j thr =>
    match S[i]?, S[j]? with
    | some (some _), some (some c) =>
      if i = j then some (S, false)
      else if thr then none
      else some (S.set i (some c), false)
    | _, _ => none
  | .moveAssign i j thr =>
    match S[i]?, S[j]? with
    | some (some _), some (some c) =>
      if i = j then some (S, false)
      else if thr then none
      else some ((S.set i (some c)).set j (some (afterMove kind As c)), false)
    | _, _ => none
  | .assignVal i t x thr thr' =>
    match S[i]? with
    | some (some _) =>
      if t ∈ As then
        if thr then some (S ++ [none], true)
        else if thr' then none
        else some (S.set i (some (As.idxOf t, some x)) ++ [none], false)
      else none
    | _ => none
  | .kill i =>
    match S[i]? with
    | some (some _) => some (S.set i none, false)
    | _ => none

/-- effect of a whole program, with the list of statements that throw -/
def run [DecidableEq τ] (kind : τ → Kind) (As : List τ) (dv : α) :
    List (Op τ α) → Store α → Option (Store α × List Bool)
  | [], S => some (S, [])
  | op :: ops, S =>
    match step kind As dv S op with
    | none => none
    | some (S', b) => (run kind As dv ops S').map fun p => (p.1, b :: p.2)

/-- the two members an `Enum` object with content `c` has: the number of the alternative, and exactly
one living object, of the type of that alternative -/
def members (As : List τ) (c : Nat × ν) : Raw τ ν :=
  { index := c.1, slot := As[c.1]?.map fun t => (t, c.2) }

/-- the numbers of the objects living in the variables -/
def living (w : World τ α) : List Nat := w.vars.filterMap (Option.map Var.oid)

/-- `v` is a variable of some program, and by the specification it contains alternative `i` with value
`x` at that point -/
def Contains [DecidableEq τ] (kind : τ → Kind) (As : List τ) (dv : α) (v : Var τ α) (i : Nat)
    (x : Option α) : Prop :=
  ∃ (ops : List (Op τ α)) (S : Store α) (thr : List Bool) (w : World τ α) (k : Nat),
    run kind As dv ops [] = some (S, thr) ∧ Efp.Enum.exec kind As dv ops {} = .ok thr w
    ∧ w.vars[k]? = some (some v) ∧ S[k]? = some (some (i, x))

/-- two variables of one program and their contents -/
def Contain2 [DecidableEq τ] (kind : τ → Kind) (As : List τ) (dv : α) (v v' : Var τ α)
    (c c' : Nat × Option α) : Prop :=
  ∃ (ops : List (Op τ α)) (S : Store α) (thr : List Bool) (w : World τ α) (k k' : Nat),
    run kind As dv ops [] = some (S, thr) ∧ Efp.Enum.exec kind As dv ops {} = .ok thr w
    ∧ w.vars[k]? = some (some v) ∧ S[k]? = some (some c)
    ∧ w.vars[k']? = some (some v') ∧ S[k']? = some (some c')

/-! ## Pattern matching -/

/-- `rank p t` orders the implicit conversions from `t` to `p`; rank 0 is the identity -/
def Ranks (rank : τ → τ → Option Nat) : Prop := ∀ p t, rank p t = some 0 ↔ p = t

/-- The branch a user expects for a stored alternative of type `t`: its own branch; else the wild card;
else the branch whose parameter is the best implicit conversion. -/
def Selected (rank : τ → τ → Option Nat) (bs : List (Branch τ)) (t : τ) (b : Nat) : Prop :=
  bs[b]? = some (.pat t)
  ∨ (Branch.pat t ∉ bs ∧ bs[b]? = some .wild)
  ∨ (Branch.pat t ∉ bs ∧ Branch.wild ∉ bs
      ∧ ∃ p c, bs[b]? = some (.pat p) ∧ rank p t = some c
        ∧ ∀ (j : Nat) (q : τ) (d : Nat), j ≠ b → bs[j]? = some (.pat q) → rank q t = some d → c < d)

/-- A well-written `match`: the branches for types are for different alternatives, there is at most
one wild card, it comes last, and every alternative has its own branch unless there is a wild card.
(`ps` are the parameter types, `w` says whether a wild card follows them.) -/
structure WellWritten (As ps : List τ) (w : Bool) : Prop where
  sub : ∀ p ∈ ps, p ∈ As
  nodup : ps.Nodup
  cover : w = false → ∀ t ∈ As, t ∈ ps
  some : w = true ∨ ps ≠ []

/-- the branch list of a well-written `match` -/
def branches (ps : List τ) (w : Bool) : List (Branch τ) :=
  ps.map .pat ++ (if w then [.wild] else [])

/-! ## Maybe -/

/-- the members of a `Maybe<A>` object with the given content (`nv` is the value of `Nothing`) -/
def maybe (tN tA : τ) (nv : ν) : Option ν → Raw τ ν
  | none => { index := 0, slot := some (tN, nv) }
  | some x => { index := 1, slot := some (tA, x) }

end Efp.Spec.Enum
