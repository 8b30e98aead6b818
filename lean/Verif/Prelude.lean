import Verif.VectorLemmas
import Verif.Array

/-!
# Model of the list functions (prelude.hpp 63-508, 619-622, 913-1015)

Argument sequences are represented by their static type and their contents: `nth(i, as)` on a container
in a well-defined state is a plain read (see the container models), and out-of-range reads are undefined.
Result containers are the container models themselves (`ArrS`, `AvS`, `VecS`), built by the same calls the
C++ code makes: default construction, `resize`, element assignment, `push_back`.  `return res` is taken
to be elided.  Client functions run on a world `ω`: they may change it, throw, or be undefined.
Heterogeneous parameter packs are modelled by lists over one element type.
`size_t` is `Nat`; the two places where wrap-around matters (`_minimum`'s seed and the subtraction in
`IntercalateReturn` and `slice`) use the 64-bit values.
-/

namespace Efp
namespace Prelude

/-- `dyn`, the largest `size_t` (trait.hpp 23) -/
def dyn : Nat := 2 ^ 64 - 1

/-- `size_t` subtraction -/
def sub64 (a b : Nat) : Nat := if b ≤ a then a - b else 2 ^ 64 - (b - a)

/-- Static sequence types.  The view types have the traits of the corresponding container
(`CtSizeImpl`, `CtCapacityImpl`: sequence.hpp 1101-1109, 1226-1234, 1382-1390). -/
inductive SeqTy where
  | array (n : Nat)
  | arrVec (n : Nat)
  | vector
  deriving DecidableEq, Repr

/-- `CtSize<As>::value` (sequence.hpp 194-197, 485-488, 976-979) -/
def SeqTy.ctSize : SeqTy → Nat
  | .array n => n
  | .arrVec _ => dyn
  | .vector => dyn

/-- `CtCapacity<As>::value` (sequence.hpp 199-202, 490-493, 981-984) -/
def SeqTy.ctCap : SeqTy → Nat
  | .array n => n
  | .arrVec n => n
  | .vector => dyn

/-- `IsStaticSize<As>::value` (trait.hpp 86-87) -/
def SeqTy.isStaticSize (t : SeqTy) : Bool := t.ctSize != dyn
/-- `IsStaticCapacity<As>::value` (trait.hpp 91-92) -/
def SeqTy.isStaticCap (t : SeqTy) : Bool := t.ctCap != dyn

/-- An argument sequence: static type, contents, the block its data pointer points to, and whether
`data(as)` is null (a `Vector` that never allocated). -/
structure Inp (α : Type) where
  ty : SeqTy
  vals : List α
  blk : Nat := 0
  null : Bool := false
  deriving DecidableEq, Repr

/-- which argument sequences exist: an `Array<A, n>` has `n` elements, an `ArrVec<A, n>` at most `n`, sizes
are below `dyn`, and only an empty `Vector` has a null data pointer -/
def Inp.valid {α : Type} (as : Inp α) : Prop :=
  (match as.ty with
    | .array n => as.vals.length = n ∧ n < dyn
    | .arrVec n => as.vals.length ≤ n ∧ n < dyn
    | .vector => as.vals.length < dyn) ∧
  (as.null = true → as.ty = .vector ∧ as.vals = [])

instance {α : Type} (as : Inp α) : Decidable as.valid := by
  unfold Inp.valid
  cases as.ty <;> exact inferInstance

variable {α β γ σ ω : Type}

/-- `length(as)` (sequence.hpp 204-207, 495-498, 986-989) -/
def length (as : Inp α) : Nat := as.vals.length

/-- `nth(i, as)` (sequence.hpp 209-217, 500-508, 991-999): unchecked -/
def nth (i : Nat) (as : Inp α) : Cpp σ α :=
  match as.vals[i]? with
  | some a => pure a
  | none => Cpp.ub .oob

/-- `nth(i, ass)...` -/
def nths (i : Nat) : List (Inp α) → Cpp σ (List α)
  | [] => pure []
  | as :: ass => do
    let a ← nth i as
    let xs ← nths i ass
    pure (a :: xs)

/-- `_minimum` (meta.hpp 804-808): fold of `min` from the largest value -/
def minimum (l : List Nat) : Nat := l.foldl min dyn
/-- `_sum` (meta.hpp 810-814), `_product` (meta.hpp 816-820) -/
def sum (l : List Nat) : Nat := l.foldl (· + ·) 0
/-- `_product` (meta.hpp 816-820) -/
def product (l : List Nat) : Nat := l.foldl (· * ·) 1

/-- `_min_length` (prelude.hpp 63-68) -/
def minLength (ass : List (Inp α)) : Nat := minimum (ass.map length)

/-! ## Result containers -/

/-- a result object -/
inductive Res (β : Type) where
  | array (s : ArrS β)
  | arrVec (s : AvS β)
  | vector (s : VecS β)
  deriving DecidableEq, Repr

/-- `R res {};` with `d` the value of a default-constructed element (sequence.hpp 53-58, 250-252, 557) -/
def Res.make (t : SeqTy) (d : β) : Out (Res β) Unit :=
  match t with
  | .array n => (ArrS.mk0 n d).mapState .array
  | .arrVec n => .ok () (.arrVec (AvS.mk0 n))
  | .vector => .ok () (.vector (VecS.mk0 {}))

/-- `res.resize(m)` (sequence.hpp 134-138, 358-364, 707-714) -/
def Res.resize (k : Kind) (m : Nat) : Cpp (Res β) Unit
  | .array s => (ArrS.resize m s).mapState .array
  | .arrVec s => (AvS.resize m s).mapState .arrVec
  | .vector s => (VecS.resize k m s).mapState .vector

/-- `nth(i, res) = b` (sequence.hpp 109-111, 328-330, 672-674) -/
def Res.set (k : Kind) (i : Nat) (b : β) : Cpp (Res β) Unit
  | .array s => (ArrS.setAt k i b s).mapState .array
  | .arrVec s => (AvS.setAt k i b s).mapState .arrVec
  | .vector s => (VecS.setAt k i b s).mapState .vector

/-- `res.push_back(b)` (sequence.hpp 373-387, 772-790); an `Array` has no `push_back` and no function
chooses it as such a result -/
def Res.push (k : Kind) (b : β) : Cpp (Res β) Unit
  | .array _ => .ub .oob
  | .arrVec s => (AvS.pushBack b s).mapState .arrVec
  | .vector s => (VecS.pushBack k b s).mapState .vector

/-- what a client reads from the result -/
def Res.contents : Res β → Except UB (List β)
  | .array s => s.contents
  | .arrVec s => s.contents
  | .vector s => s.contents

/-- static type of the result -/
def Res.ty : Res β → SeqTy
  | .array s => .array s.n
  | .arrVec s => .arrVec s.cap
  | .vector _ => .vector

/-- The variables of a function body: the result object `res`, the write position `idx`, and the
outside world. -/
structure Fr (β ω : Type) where
  res : Res β
  idx : Nat
  w : ω

/-- a statement on `res` -/
def onRes (m : Cpp (Res β) γ) : Cpp (Fr β ω) γ := fun s =>
  (m s.res).mapState (fun r => { s with res := r })
/-- a call of client code -/
def onW (m : Cpp ω γ) : Cpp (Fr β ω) γ := fun s =>
  (m s.w).mapState (fun w => { s with w := w })

/-- `R res {}; size_t idx = 0; body; return res;` -/
def withResult (t : SeqTy) (d : β) (body : Cpp (Fr β ω) Unit) : Cpp ω (Res β) := fun w =>
  match Res.make t d with
  | .ok _ r =>
    match body ⟨r, 0, w⟩ with
    | .ok _ s => .ok s.res s.w
    | .thrown s => .thrown s.w
    | .ub u => .ub u
  | .thrown _ => .thrown w
  | .ub u => .ub u

/-! ## for_each, map, filter, folds -/

/-- loop body of `for_each` (prelude.hpp 75-77) -/
def forEachBody (f : List α → Cpp σ Unit) (ass : List (Inp α)) (i : Nat) : Cpp σ Unit := do
  let xs ← nths i ass
  f xs

/-- `for_each` (prelude.hpp 70-78) -/
def forEach (f : List α → Cpp σ Unit) (ass : List (Inp α)) : Cpp σ Unit :=
  forUp (forEachBody f ass) 0 (minLength ass)

/-- Write back the arguments of a call that received references to `nth(i, ass)...`. -/
def writeBack (i : Nat) (ys : List α) (ass : List (Inp α)) : List (Inp α) :=
  ass.mapIdx (fun j as =>
    match ys[j]? with
    | some y => { as with vals := as.vals.set i y }
    | none => as)

/-- a call of client code while the argument sequences are being modified -/
def onW2 {ρ : Type} (m : Cpp ω γ) : Cpp (ρ × ω) γ := fun t => (m t.2).mapState (fun w => (t.1, w))

/-- loop body of `for_each_mut` (prelude.hpp 85-87).  The client function receives references; it is
modelled as a function from the referenced values to their new values (distinct argument sequences). -/
def forEachMutBody (f : List α → Cpp ω (List α)) (i : Nat) : Cpp (List (Inp α) × ω) Unit := fun s =>
  (do let xs ← nths i s.1
      let ys ← onW2 (f xs)
      Cpp.modify (fun t : List (Inp α) × ω => (writeBack i ys t.1, t.2))) s

/-- `for_each_mut` (prelude.hpp 80-88) -/
def forEachMut (f : List α → Cpp ω (List α)) : Cpp (List (Inp α) × ω) Unit := fun s =>
  forUp (forEachMutBody f) 0 (minLength s.1) s

/-- `NAryReturn` (prelude.hpp 90-97) -/
def naryTy (ts : List SeqTy) : SeqTy :=
  if ts.all SeqTy.isStaticSize then .array (minimum (ts.map SeqTy.ctSize))
  else if ts.all SeqTy.isStaticCap then .arrVec (minimum (ts.map SeqTy.ctCap))
  else .vector

/-- loop body of `map` (prelude.hpp 115) -/
def mapBody (k : Kind) (f : List α → Cpp ω β) (ass : List (Inp α)) (i : Nat) : Cpp (Fr β ω) Unit := do
  let xs ← nths i ass
  let b ← onW (f xs)
  onRes (Res.set k i b)

/-- body of `map` after `R res {}` (prelude.hpp 110-116) -/
def mapProg (k : Kind) (f : List α → Cpp ω β) (ass : List (Inp α)) : Cpp (Fr β ω) Unit := do
  if (naryTy (ass.map Inp.ty)).ctSize = dyn then onRes (Res.resize k (minLength ass))
  forUp (mapBody k f ass) 0 (minLength ass)

/-- `map` (prelude.hpp 104-119); `k` is the kind of the result elements -/
def map (k : Kind) (d : β) (f : List α → Cpp ω β) (ass : List (Inp α)) : Cpp ω (Res β) :=
  withResult (naryTy (ass.map Inp.ty)) d (mapProg k f ass)

/-- `FilterReturn` (prelude.hpp 123-127), also `ElemIndicesReturn` (945-947) and `FindIndicesReturn`
(998-1000) -/
def filterTy (t : SeqTy) : SeqTy := if t.ctCap ≠ dyn then .arrVec t.ctCap else .vector

/-- loop body of `filter` (prelude.hpp 136-140) -/
def filterBody (k : Kind) (p : α → Cpp ω Bool) (as : Inp α) (i : Nat) : Cpp (Fr α ω) Unit := do
  let a ← nth i as
  let b ← onW (p a)
  if b then onRes (Res.push k a) else pure ()

/-- `filter` (prelude.hpp 130-144) -/
def filter (k : Kind) (d : α) (p : α → Cpp ω Bool) (as : Inp α) : Cpp ω (Res α) :=
  withResult (filterTy as.ty) d (forUp (filterBody k p as) 0 (length as))

/-- `res = f(res, nth(i, bs))` for `i = lo, lo+1, ...` (`n` times) (prelude.hpp 152-154) -/
def foldlLoop (f : β → α → Cpp ω β) (as : Inp α) : (lo n : Nat) → β → Cpp ω β
  | _, 0, r => pure r
  | lo, n + 1, r => do
    let a ← nth lo as
    let r' ← f r a
    foldlLoop f as (lo + 1) n r'

/-- `foldl` (prelude.hpp 147-157) -/
def foldl (f : β → α → Cpp ω β) (z : β) (as : Inp α) : Cpp ω β := foldlLoop f as 0 (length as) z

/-- `for (i = hi; i > 0; i--) res = f(nth(i - 1, as), res)` (prelude.hpp 164-166) -/
def foldrLoop (f : α → β → Cpp ω β) (as : Inp α) : (hi : Nat) → β → Cpp ω β
  | 0, r => pure r
  | i + 1, r => do
    let a ← nth (i + 1 - 1) as
    let r' ← f a r
    foldrLoop f as i r'

/-- `foldr` (prelude.hpp 160-169) -/
def foldr (f : α → β → Cpp ω β) (z : β) (as : Inp α) : Cpp ω β := foldrLoop f as (length as) z

/-! ## from_function -/

/-- a length argument: a run-time `size_t` or a compile-time `Size<n>` -/
inductive NArg where
  | rt (n : Nat)
  | ct (n : Nat)
  deriving DecidableEq, Repr

/-- `static_cast<size_t>(n)` -/
def NArg.val : NArg → Nat
  | .rt n => n
  | .ct n => n

/-- `FromFunctionReturn` (prelude.hpp 171-188) -/
def fromFunctionTy : NArg → SeqTy
  | .rt _ => .vector
  | .ct n => .array n

/-- loop body of `from_function` (prelude.hpp 199-201) -/
def fromFunctionBody (k : Kind) (f : Nat → Cpp ω β) (i : Nat) : Cpp (Fr β ω) Unit := do
  let b ← onW (f i)
  onRes (Res.set k i b)

/-- body of `from_function` after `R res {}` (prelude.hpp 195-201) -/
def fromFunctionProg (k : Kind) (n : NArg) (f : Nat → Cpp ω β) : Cpp (Fr β ω) Unit := do
  if (fromFunctionTy n).isStaticSize = false then onRes (Res.resize k n.val)
  forUp (fromFunctionBody k f) 0 n.val

/-- `from_function` (prelude.hpp 190-204) -/
def fromFunction (k : Kind) (d : β) (n : NArg) (f : Nat → Cpp ω β) : Cpp ω (Res β) :=
  withResult (fromFunctionTy n) d (fromFunctionProg k n f)

/-! ## append, concat, intercalate -/

/-- `AppendReturn` (prelude.hpp 211-218) -/
def appendTy (ts : List SeqTy) : SeqTy :=
  if ts.all SeqTy.isStaticSize then .array (sum (ts.map SeqTy.ctSize))
  else if ts.all SeqTy.isStaticCap then .arrVec (sum (ts.map SeqTy.ctCap))
  else .vector

/-- `nth(idx, res) = a; idx++` (prelude.hpp 226-227, 294, 352, 356, 364) -/
def emit (k : Kind) (a : α) : Cpp (Fr α ω) Unit := fun s =>
  (do onRes (Res.set k s.idx a)
      Cpp.modify (fun t => { t with idx := t.idx + 1 })) s

/-- one copied element -/
def copyElem (k : Kind) (as : Inp α) (i : Nat) : Cpp (Fr α ω) Unit := do
  let a ← nth i as
  emit k a

/-- `append_impl` (prelude.hpp 220-232); also the inner loops of `concat` and `intercalate`
(prelude.hpp 293-295, 351-353, 355-357, 363-365) -/
def appendImpl (k : Kind) (as : Inp α) : Cpp (Fr α ω) Unit := forUp (copyElem k as) 0 (length as)

/-- the argument expressions of `execute_pack` in the order they are evaluated -/
def appendAll (k : Kind) : List (Inp α) → Cpp (Fr α ω) Unit
  | [] => pure ()
  | as :: ass => do appendImpl k as; appendAll k ass

/-- `append` (prelude.hpp 234-247).  The calls of `append_impl` are arguments of one function call, so
the language leaves their order open: `order` lists the arguments as the compiler evaluates them
(a permutation of `ass`). -/
def append (k : Kind) (d : α) (order ass : List (Inp α)) : Cpp ω (Res α) :=
  withResult (appendTy (ass.map Inp.ty)) d (do
    if (appendTy (ass.map Inp.ty)).ctSize = dyn then onRes (Res.resize k (sum (ass.map length)))
    appendAll k order)

/-- A sequence of sequences: static types of the outer and of the inner sequences, and the inner
sequences. -/
structure Inp2 (α : Type) where
  outer : SeqTy
  inner : SeqTy
  rows : List (Inp α)

/-- which nested sequences exist -/
def Inp2.valid (ass : Inp2 α) : Prop :=
  (⟨ass.outer, ass.rows, 0, false⟩ : Inp (Inp α)).valid ∧
  ∀ as ∈ ass.rows, as.valid ∧ as.ty = ass.inner

instance (ass : Inp2 α) : Decidable ass.valid := by
  unfold Inp2.valid; exact inferInstance

/-- the outer sequence as an argument sequence -/
def Inp2.seq (ass : Inp2 α) : Inp (Inp α) := ⟨ass.outer, ass.rows, 0, false⟩

/-- `ConcatReturn` (prelude.hpp 254-269) -/
def concatTy (o i : SeqTy) : SeqTy :=
  if o.isStaticSize && i.isStaticSize then .array (o.ctSize * i.ctSize)
  else if o.isStaticCap && i.isStaticCap then
    if o.isStaticSize then .arrVec (o.ctSize * i.ctCap)
    else if i.isStaticSize then .arrVec (o.ctCap * i.ctSize)
    else .arrVec (o.ctCap * i.ctCap)
  else .vector

/-- `res_len += length(nth(i, ass))` for `i = lo, ...` (`n` times) (prelude.hpp 281-283, 335-337) -/
def sumLens (ass : Inp2 α) : (lo n acc : Nat) → Cpp σ Nat
  | _, 0, acc => pure acc
  | lo, n + 1, acc => do
    let as ← nth lo ass.seq
    sumLens ass (lo + 1) n (acc + length as)

/-- outer loop body of `concat` (prelude.hpp 290-295) -/
def concatBody (k : Kind) (ass : Inp2 α) (i : Nat) : Cpp (Fr α ω) Unit := do
  let as ← nth i ass.seq
  appendImpl k as

/-- `concat` (prelude.hpp 271-299) -/
def concat (k : Kind) (d : α) (ass : Inp2 α) : Cpp ω (Res α) :=
  withResult (concatTy ass.outer ass.inner) d (do
    if (concatTy ass.outer ass.inner).isStaticSize = false then do
      let n ← sumLens ass 0 (length ass.seq) 0
      onRes (Res.resize k n)
    forUp (concatBody k ass) 0 (length ass.seq))

/-- `IntercalateReturn` (prelude.hpp 301-319) -/
def intercalateTy (dl o i : SeqTy) : SeqTy :=
  if dl.isStaticSize && o.isStaticSize && i.isStaticSize then
    .array (sub64 (o.ctSize * (i.ctSize + dl.ctSize)) dl.ctSize)
  else if dl.isStaticCap && o.isStaticCap && i.isStaticCap then
    .arrVec (sub64 (o.ctCap * (i.ctCap + dl.ctCap)) dl.ctCap)
  else .vector

/-- outer loop body of `intercalate` (prelude.hpp 348-357) -/
def intercalateBody (k : Kind) (dl : Inp α) (ass : Inp2 α) (i : Nat) : Cpp (Fr α ω) Unit := do
  let as ← nth i ass.seq
  appendImpl k as
  appendImpl k dl

/-- `intercalate` (prelude.hpp 321-368) -/
def intercalate (k : Kind) (d : α) (dl : Inp α) (ass : Inp2 α) : Cpp ω (Res α) :=
  withResult (intercalateTy dl.ty ass.outer ass.inner) d (
    if length ass.seq = 0 then pure ()
    else do
      if (intercalateTy dl.ty ass.outer ass.inner).ctSize = dyn then do
        let n ← sumLens ass 0 (length ass.seq) 0
        onRes (Res.resize k (n + (length ass.seq - 1) * length dl))
      forUp (intercalateBody k dl ass) 0 (length ass.seq - 1)
      let as ← nth (length ass.seq - 1) ass.seq
      appendImpl k as)

/-! ## indexed and cartesian iteration -/

/-- `for_index` (prelude.hpp 370-376) -/
def forIndex (f : Nat → Cpp σ Unit) (n : Nat) : Cpp σ Unit := forUp f 0 n

/-- loop body of `for_each_with_index` (prelude.hpp 383-385) -/
def forEachIxBody (f : Nat → List α → Cpp σ Unit) (ass : List (Inp α)) (i : Nat) : Cpp σ Unit := do
  let xs ← nths i ass
  f i xs

/-- `for_each_with_index` (prelude.hpp 378-386) -/
def forEachWithIndex (f : Nat → List α → Cpp σ Unit) (ass : List (Inp α)) : Cpp σ Unit :=
  forUp (forEachIxBody f ass) 0 (minLength ass)

/-- loop body of `for_each_with_index_mut` (prelude.hpp 392-394), client function as in
`forEachMutBody` -/
def forEachIxMutBody (f : Nat → List α → Cpp ω (List α)) (i : Nat) : Cpp (List (Inp α) × ω) Unit :=
  forEachMutBody (f i) i

/-- `for_each_with_index_mut` (prelude.hpp 388-395) -/
def forEachWithIndexMut (f : Nat → List α → Cpp ω (List α)) : Cpp (List (Inp α) × ω) Unit := fun s =>
  forUp (forEachIxMutBody f) 0 (minLength s.1) s

/-- loop of `cartesian_for_each` over the first argument (prelude.hpp 408-416); `inner` is the recursive
call with the remaining arguments -/
def cartLoop (as : Inp α) (inner : α → Cpp σ Unit) (i : Nat) : Cpp σ Unit := do
  let a ← nth i as
  inner a

/-- `cartesian_for_each` (prelude.hpp 397-417); at least one argument sequence -/
def cartesianForEach (f : List α → Cpp σ Unit) : List (Inp α) → Cpp σ Unit
  | [] => pure ()
  | [as] => forEach f [as]
  | as :: bs :: ass =>
    forUp (cartLoop as (fun a => cartesianForEach (fun xs => f (a :: xs)) (bs :: ass))) 0 (length as)

/-- loop body of `map_with_index` (prelude.hpp 457-459) -/
def mapIxBody (k : Kind) (f : Nat → List α → Cpp ω β) (ass : List (Inp α)) (i : Nat) :
    Cpp (Fr β ω) Unit := do
  let xs ← nths i ass
  let b ← onW (f i xs)
  onRes (Res.set k i b)

/-- body of `map_with_index` after `R res {}` (prelude.hpp 451-459) -/
def mapIxProg (k : Kind) (f : Nat → List α → Cpp ω β) (ass : List (Inp α)) : Cpp (Fr β ω) Unit := do
  if (naryTy (ass.map Inp.ty)).ctSize = dyn then onRes (Res.resize k (minLength ass))
  forUp (mapIxBody k f ass) 0 (minLength ass)

/-- `map_with_index` (prelude.hpp 436-462) -/
def mapWithIndex (k : Kind) (d : β) (f : Nat → List α → Cpp ω β) (ass : List (Inp α)) : Cpp ω (Res β) :=
  withResult (naryTy (ass.map Inp.ty)) d (mapIxProg k f ass)

/-- `CartesianMapReturn` (prelude.hpp 464-473) -/
def cartesianTy (ts : List SeqTy) : SeqTy :=
  if ts.all SeqTy.isStaticSize then .array (product (ts.map SeqTy.ctSize))
  else if ts.all SeqTy.isStaticCap then .arrVec (product (ts.map SeqTy.ctCap))
  else .vector

/-- the closure of `cartesian_map` (prelude.hpp 488) -/
def cartMapInner (k : Kind) (f : List α → Cpp ω β) (xs : List α) : Cpp (Fr β ω) Unit := do
  let b ← onW (f xs)
  emit k b

/-- body of `cartesian_map` after `R res {}` (prelude.hpp 483-490) -/
def cartMapProg (k : Kind) (f : List α → Cpp ω β) (ass : List (Inp α)) : Cpp (Fr β ω) Unit := do
  if (cartesianTy (ass.map Inp.ty)).ctSize = dyn then
    onRes (Res.resize k (product (ass.map length)))
  cartesianForEach (cartMapInner k f) ass

/-- `cartesian_map` (prelude.hpp 475-493) -/
def cartesianMap (k : Kind) (d : β) (f : List α → Cpp ω β) (ass : List (Inp α)) : Cpp ω (Res β) :=
  withResult (cartesianTy (ass.map Inp.ty)) d (cartMapProg k f ass)

/-- `cartesian_for_index` (prelude.hpp 495-508); at least one bound -/
def cartesianForIndex (f : List Nat → Cpp σ Unit) : List Nat → Cpp σ Unit
  | [] => pure ()
  | [n] => forIndex (fun i => f [i]) n
  | n :: m :: ns => forUp (fun i => cartesianForIndex (fun is => f (i :: is)) (m :: ns)) 0 n

/-! ## searches -/

/-- the loop of `elem`, `elem_index`, `find`, `find_index` (prelude.hpp 919-923, 934-938, 971-975,
986-990): index of the first element the test accepts, scanning `i, i+1, ...` (`n` elements) -/
def scan (p : α → Cpp ω Bool) (as : Inp α) : (i n : Nat) → Cpp ω (Option Nat)
  | _, 0 => pure none
  | i, n + 1 => do
    let a ← nth i as
    let b ← p a
    if b then pure (some i) else scan p as (i + 1) n

/-- `elem` (prelude.hpp 915-926); `eq` is the element `operator==` -/
def elem (eq : α → α → Bool) (a : α) (as : Inp α) : Cpp ω Bool := do
  let r ← scan (fun x => pure (eq x a)) as 0 (length as)
  pure r.isSome

/-- `elem_index` (prelude.hpp 928-941) -/
def elemIndex (eq : α → α → Bool) (a : α) (as : Inp α) : Cpp ω (Option Nat) :=
  scan (fun x => pure (eq x a)) as 0 (length as)

/-- loop body of `elem_indices` (prelude.hpp 956-960) and `find_indices` (prelude.hpp 1008-1012) -/
def indicesBody (p : α → Cpp ω Bool) (as : Inp α) (i : Nat) : Cpp (Fr Nat ω) Unit := do
  let a ← nth i as
  let b ← onW (p a)
  if b then onRes (Res.push .trivial i) else pure ()

/-- `elem_indices` (prelude.hpp 943-963): compares `a == nth(i, as)` -/
def elemIndices (eq : α → α → Bool) (a : α) (as : Inp α) : Cpp ω (Res Nat) :=
  withResult (filterTy as.ty) 0 (forUp (indicesBody (fun x => pure (eq a x)) as) 0 (length as))

/-- `find` (prelude.hpp 965-978) -/
def find (p : α → Cpp ω Bool) (as : Inp α) : Cpp ω Bool := do
  let r ← scan p as 0 (length as)
  pure r.isSome

/-- `find_index` (prelude.hpp 980-993) -/
def findIndex (p : α → Cpp ω Bool) (as : Inp α) : Cpp ω (Option Nat) := scan p as 0 (length as)

/-- `find_indices` (prelude.hpp 995-1015) -/
def findIndices (p : α → Cpp ω Bool) (as : Inp α) : Cpp ω (Res Nat) :=
  withResult (filterTy as.ty) 0 (forUp (indicesBody p as) 0 (length as))

/-- `is_null` (prelude.hpp 619-622) -/
def isNull (as : Inp α) : Bool := length as = 0

end Prelude
end Efp
