import Verif.Prelude

/-!
# Model of the view classes (sequence.hpp 1011-1416) and of the view-returning functions
(prelude.hpp 513-911)

A pointer is null or names a block, an offset into it and (since views are read-only and must not outlive
what they view) the elements of the viewed sequence.  Forming a pointer is always allowed in the model,
also past the end; reading outside the viewed sequence is undefined.
Element constness of views is ignored.  `take_while` and `drop_while` (prelude.hpp 873-911) are not
modelled: they convert a view of `const Element` to a view of `Element`, for which no constructor exists,
so no call of them compiles.
-/

namespace Efp
namespace Prelude

variable {α σ : Type}

/-- where a non-null pointer points -/
structure Loc (α : Type) where
  blk : Nat
  off : Nat
  elems : List α
  deriving DecidableEq, Repr

/-- A view: `ty` tells the class (`array n`: `ArrayView<A, n>`, `arrVec n`: `ArrVecView<A, n>`,
`vector`: `VectorView<A>`); `_data`, `_size` and, for `VectorView`, `_capacity`, which some constructors
leave uninitialised (`none`) (sequence.hpp 1093, 1217-1218, 1357-1359). -/
structure View (α : Type) where
  ty : SeqTy
  ptr : Option (Loc α)
  size : Nat
  cap : Option Nat
  deriving DecidableEq, Repr

/-- pointer arithmetic `p + n` -/
def addPtr (p : Option (Loc α)) (n : Nat) : Option (Loc α) :=
  p.map (fun l => { l with off := l.off + n })

/-- `data(as)` (sequence.hpp 219-227, 510-518, 1001-1009) -/
def data (as : Inp α) : Option (Loc α) :=
  if as.null then none else some ⟨as.blk, 0, as.vals⟩

/-- the view constructors from pointer and size (sequence.hpp 1021-1027, 1145-1152, 1275-1283);
`ArrayView` ignores the size argument -/
def mkView (t : SeqTy) (p : Option (Loc α)) (n : Nat) : Cpp σ (View α) :=
  match t with
  | .array m => if m > 0 ∧ p = none then Cpp.throw else pure ⟨t, p, m, none⟩
  | .arrVec _ => if n > 0 ∧ p = none then Cpp.throw else pure ⟨t, p, n, none⟩
  | .vector => if n > 0 ∧ p = none then Cpp.throw else pure ⟨t, p, n, some n⟩

instance (p : Option (Loc α)) : Decidable (p = none) := by
  cases p
  · exact isTrue rfl
  · exact isFalse (by simp)

/-- `v[i]` (sequence.hpp 1029-1035, 1168-1174, 1307-1313) -/
def View.at_ (v : View α) (i : Nat) : Cpp σ α :=
  match v.ptr with
  | none => Cpp.ub .nullPtr
  | some l =>
    match l.elems[l.off + i]? with
    | some a => pure a
    | none => Cpp.ub .oob

/-- what a client reads from `v[i] .. v[i+n-1]` -/
def View.readFrom (v : View α) : (i n : Nat) → Cpp σ (List α)
  | _, 0 => pure []
  | i, n + 1 => do
    let a ← v.at_ i
    let l ← v.readFrom (i + 1) n
    pure (a :: l)

/-- what a client reads from the whole view -/
def View.contents (v : View α) : Cpp σ (List α) := v.readFrom 0 v.size

/-- pointer comparison -/
def samePtr (p q : Option (Loc α)) : Bool :=
  match p, q with
  | none, none => true
  | some a, some b => a.blk = b.blk && a.off = b.off
  | _, _ => false

/-- `operator==` of two views of one class (sequence.hpp 1037-1039, 1176-1178, 1315-1318); comparing an
uninitialised `_capacity` is undefined -/
def View.eqv (v w : View α) : Cpp σ Bool :=
  match v.ty with
  | .array _ => pure (samePtr v.ptr w.ptr)
  | .arrVec _ => pure (samePtr v.ptr w.ptr && v.size == w.size)
  | .vector =>
    if samePtr v.ptr w.ptr && v.size == w.size then
      match v.cap, w.cap with
      | some a, some b => pure (a == b)
      | _, _ => Cpp.ub .deadRead
    else pure false

/-- converting constructors `ArrVecView(const ArrayView&)` (sequence.hpp 1165-1166) -/
def View.toArrVecView (m : Nat) (v : View α) : View α := ⟨.arrVec m, v.ptr, v.size, none⟩
/-- converting constructors `VectorView(const ArrayView&)`, `VectorView(const ArrVecView&)`
(sequence.hpp 1298-1305): `_capacity` is not initialised -/
def View.toVectorView (v : View α) : View α := ⟨.vector, v.ptr, v.size, none⟩

/-- `head` (prelude.hpp 514-521); `as.empty()` (sequence.hpp 170, 459, 881) -/
def head (as : Inp α) : Cpp σ α := if length as = 0 then Cpp.throw else nth 0 as

/-- `last` (prelude.hpp 608-615) -/
def last (as : Inp α) : Cpp σ α := if length as = 0 then Cpp.throw else nth (length as - 1) as

/-- `TailReturn`, `InitReturn` (prelude.hpp 525-540, 565-580), for sequences of non-zero static
size and capacity -/
def tailTy (t : SeqTy) : SeqTy :=
  if t.isStaticSize then .array (t.ctSize - 1)
  else if t.isStaticCap then .arrVec (t.ctCap - 1)
  else .vector

/-- `tail` (prelude.hpp 545-561) -/
def tail (as : Inp α) : Cpp σ (View α) :=
  if length as = 0 then Cpp.throw
  else mkView (tailTy as.ty) (addPtr (data as) 1) (length as - 1)

/-- `init` (prelude.hpp 586-602) -/
def init (as : Inp α) : Cpp σ (View α) :=
  if length as = 0 then Cpp.throw
  else mkView (tailTy as.ty) (data as) (length as - 1)

/-- `TakeUnsafeReturn` (prelude.hpp 627-649) -/
def takeUnsafeTy (n : NArg) (t : SeqTy) : SeqTy :=
  match n with
  | .rt _ => if t.isStaticCap then .arrVec t.ctCap else .vector
  | .ct n => .array n

/-- `take_unsafe` (prelude.hpp 655-663) -/
def takeUnsafe (n : NArg) (as : Inp α) : Cpp σ (View α) := mkView (takeUnsafeTy n as.ty) (data as) n.val

/-- `TakeReturn` (prelude.hpp 667-701) -/
def takeTy (n : NArg) (t : SeqTy) : SeqTy :=
  match n with
  | .rt _ => if t.isStaticCap then .arrVec t.ctCap else .vector
  | .ct n => if t.isStaticSize then .array (min n t.ctSize) else .arrVec (min n t.ctCap)

/-- `take` (prelude.hpp 705-719) -/
def take (n : NArg) (as : Inp α) : Cpp σ (View α) :=
  mkView (takeTy n as.ty) (data as) (min n.val (length as))

/-- `DropUnsafeReturn` (prelude.hpp 723-756) -/
def dropUnsafeTy (n : NArg) (t : SeqTy) : SeqTy :=
  match n with
  | .rt _ => if t.isStaticCap then .arrVec t.ctCap else .vector
  | .ct n =>
    if t.isStaticSize then .array (sub64 t.ctSize n)
    else if t.isStaticCap then .arrVec (sub64 t.ctCap n)
    else .vector

/-- `drop_unsafe` (prelude.hpp 760-768) -/
def dropUnsafe (n : NArg) (as : Inp α) : Cpp σ (View α) :=
  mkView (dropUnsafeTy n as.ty) (addPtr (data as) n.val) (sub64 (length as) n.val)

/-- `DropReturn` (prelude.hpp 772-809) -/
def dropTy (n : NArg) (t : SeqTy) : SeqTy :=
  match n with
  | .rt _ => if t.isStaticCap then .arrVec t.ctCap else .vector
  | .ct n =>
    if t.isStaticSize then .array (if t.ctSize > n then t.ctSize - n else 0)
    else if t.isStaticCap then .arrVec (if t.ctCap > n then t.ctCap - n else 0)
    else .vector

/-- `bound_drop_size` (prelude.hpp 815-817) -/
def boundDrop (n : NArg) (as : Inp α) : Nat := if n.val > length as then length as else n.val

/-- `drop` (prelude.hpp 813-829) -/
def drop (n : NArg) (as : Inp α) : Cpp σ (View α) :=
  mkView (dropTy n as.ty) (addPtr (data as) (boundDrop n as)) (length as - boundDrop n as)

/-- `end - start` (prelude.hpp 856): a `Size` if both are (meta.hpp 40-43), else a run-time value -/
def NArg.sub (e s : NArg) : NArg :=
  match e, s with
  | .ct e, .ct s => .ct (sub64 e s)
  | e, s => .rt (sub64 e.val s.val)

/-- `SliceReturn` (prelude.hpp 854-858) -/
def sliceTy (s e : NArg) (t : SeqTy) : SeqTy := takeTy (e.sub s) (dropTy s t)

/-- `slice` (prelude.hpp 863-871): no clamping -/
def slice (s e : NArg) (as : Inp α) : Cpp σ (View α) :=
  mkView (sliceTy s e as.ty) (addPtr (data as) s.val) (sub64 e.val s.val)

end Prelude
end Efp
