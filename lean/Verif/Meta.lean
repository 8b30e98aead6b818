import Verif.Enum

/-!
# Model of the value-level parts of include/efp/meta.hpp

`max`/`min`/`clamp`, the compile-time folds, `Tuple` and `swap`.  (`PackAt`, `Find` and
`power_2_ceiling` are modelled in `Verif/Enum.lean`, where they are used.)
-/

namespace Efp.Meta

variable {ν β σ : Type}

/-! ## Numbers -/

/-- What arithmetic out of the range of a type does: reduced modulo the size of the range (unsigned
types, and types narrower than `int` after the conversion back), or not a constant expression (signed
overflow).  The intermediate promotion to `int` of narrow types is not modelled. -/
inductive Over where
  | wrap
  | trap
  deriving DecidableEq, Repr

/-- An integer type: its least and greatest value (`NumericLimits<A>::min()` and `max()`). -/
structure NumTy where
  lo : Int
  hi : Int
  over : Over
  deriving DecidableEq, Repr

/-- conversion of a result to the type (C++ arithmetic) -/
def NumTy.reduce (A : NumTy) (x : Int) : Option Int :=
  if A.lo ≤ x ∧ x ≤ A.hi then some x
  else match A.over with
    | .wrap => some (A.lo + (x - A.lo) % (A.hi - A.lo + 1))
    | .trap => none

/-- `max(lhs, rhs)`, meta.hpp 285-289. -/
def max (gt : ν → ν → Bool) (lhs rhs : ν) : ν := if gt lhs rhs then lhs else rhs

/-- `min(lhs, rhs)`, meta.hpp 291-295. -/
def min (lt : ν → ν → Bool) (lhs rhs : ν) : ν := if lt lhs rhs then lhs else rhs

/-- `clamp(lower, upper, x)`, meta.hpp 278-283 (one common type). -/
def clamp (lt gt : ν → ν → Bool) (lower upper x : ν) : ν :=
  if gt x upper then upper else if lt x lower then lower else x

/-! ## Compile-time folds -/

/-- `detail::foldl(f, a, begin, end)`, meta.hpp 773-778: the list is the range still to be folded.
`none`: `f` is not a constant expression for some arguments. -/
def foldl (f : β → ν → Option β) (a : β) : List ν → Option β
  | [] => some a
  | b :: bs =>
    match f a b with
    | none => none
    | some a' => foldl f a' bs

/-- `_all`, meta.hpp 786-790. -/
def all (bs : List Bool) : Option Bool := foldl (fun a b => some (a && b)) true bs

/-- `_any`, meta.hpp 792-796. -/
def any (bs : List Bool) : Option Bool := foldl (fun a b => some (a || b)) false bs

/-- `_maximum`, meta.hpp 798-802; `m` is `NumericLimits<A>::min()`. -/
def maximum (m : Int) (as : List Int) : Option Int :=
  foldl (fun a b => some (max (fun x y => decide (x > y)) a b)) m as

/-- `_minimum`, meta.hpp 804-808; `m` is `NumericLimits<A>::max()`. -/
def minimum (m : Int) (as : List Int) : Option Int :=
  foldl (fun a b => some (min (fun x y => decide (x < y)) a b)) m as

/-- `_sum`, meta.hpp 810-814. -/
def sum (A : NumTy) (as : List Int) : Option Int := foldl (fun a b => A.reduce (a + b)) 0 as

/-- `_product`, meta.hpp 816-820. -/
def product (A : NumTy) (as : List Int) : Option Int := foldl (fun a b => A.reduce (a * b)) 1 as

/-! ## Tuple -/

/-- `MakeIndexSequenceImpl<n, ns...>`, meta.hpp 537-548. -/
def makeIndexSequence : Nat → List Nat → List Nat
  | 0, ns => ns
  | n + 1, ns => makeIndexSequence n (n :: ns)

/-- A tuple object: its base classes `TupleLeaf<idx, A>` (meta.hpp 504-531) as (index, value). -/
abbrev Leaves (ν : Type) := List (Nat × ν)

/-- `Tuple(const As&... as)` and `tuple(as...)`, meta.hpp 554-563, 578 and 686-690: one leaf per index of
`IndexSequenceFor<As...>` (550-552). -/
def mkTuple (as : List ν) : Leaves ν := (makeIndexSequence as.length []).zip as

/-- `get<idx>()` and the free `get`, `p`, meta.hpp 580-588 and 602-622: the value of the base
`TupleLeaf<idx, ...>`; `none`: there is no such base (compile error). -/
def tget (idx : Nat) (t : Leaves ν) : Option ν := (t.find? fun l => l.1 == idx).map (·.2)

/-- `fst` and `snd`, meta.hpp 624-644. -/
def tfst (t : Leaves ν) : Option ν := tget 0 t
@[inherit_doc tfst] def tsnd (t : Leaves ν) : Option ν := tget 1 t

/-- `get<idx>(t) = x` through the non-const overloads, meta.hpp 585-588. -/
def tset (idx : Nat) (x : ν) (t : Leaves ν) : Leaves ν :=
  t.map fun l => if l.1 == idx then (l.1, x) else l

/-- `match(f)`, meta.hpp 566-570 and 590-593: the arguments are the leaves in the order of the index
sequence `0 ... n-1`. -/
def tmatch (f : List ν → β) (n : Nat) (t : Leaves ν) : Option β :=
  ((makeIndexSequence n []).mapM fun i => tget i t).map f

/-- `TupleLeafComparatorImpl<index>::compare`, meta.hpp 648-673: from the last component down, with
`!=` for every index but 0.  The argument `n` is the number of components still to be compared, so
`compare 0` is the specialisation for `size_t(-1)`.  `eq i`, `ne i` are the operators of the type of
component `i`. -/
def compare (eq ne : Nat → ν → ν → Bool) : Nat → Leaves ν → Leaves ν → Option Bool
  | 0, _, _ => some true
  | 1, l, r =>
    match tget 0 l, tget 0 r with
    | some x, some y => some (eq 0 x y)
    | _, _ => none
  | i + 2, l, r =>
    match tget (i + 1) l, tget (i + 1) r with
    | some x, some y => if ne (i + 1) x y then some false else compare eq ne (i + 1) l r
    | _, _ => none

/-- `operator==`, meta.hpp 676-679 (`n` = `sizeof...(As)`). -/
def teq (eq ne : Nat → ν → ν → Bool) (n : Nat) (l r : Leaves ν) : Option Bool := compare eq ne n l r

/-- `operator!=`, meta.hpp 681-684. -/
def tne (eq ne : Nat → ν → ν → Bool) (n : Nat) (l r : Leaves ν) : Option Bool :=
  (teq eq ne n l r).map (!·)

/-! ## swap -/

/-- what a move leaves behind: the value for trivial types, a moved-from object otherwise -/
def afterMove (k : Kind) (c : Cell ν) : Cell ν :=
  match k with
  | .trivial => c
  | .managed => .moved

/-- Two objects (or one object twice) to be swapped: cells of a store. -/
def cellAt (i : Nat) : Cpp (List (Cell ν)) (Cell ν) := fun m =>
  match m[i]? with
  | none => .ub .oob
  | some .raw => .ub .deadRead
  | some c => .ok c m

/-- `swap(a, b)`, meta.hpp 752-758, on the objects `i` and `j` of a store.  Moving from a moved-from
object gives a moved-from object. -/
def swap (k : Kind) (i j : Nat) : Cpp (List (Cell ν)) Unit := do
  let temp ← cellAt i
  Cpp.modify fun m => m.set i (afterMove k temp)
  let b ← cellAt j
  Cpp.modify fun m => (m.set j (afterMove k b)).set i b
  Cpp.modify fun m => m.set j temp

end Efp.Meta
