import Verif.Prelude
import Verif.Vector

/-!
# The result object of a list function whose client code throws

`withResult` (Verif.Prelude) forgets the result object when client code throws.  In C++ the exception leaves the
block of the local variable `res`, so `res` is destroyed on the way.  `unwinding` runs the same bodies and keeps
that destructor, together with the ledger of the destroyed object.  Copies and moves of elements do not throw here
(Verif.Throw has crash points for them).
-/

namespace Efp
namespace Prelude

variable {α β γ ω : Type}

/-- `~Array()`, `~ArrVec()`, `~Vector()` (sequence.hpp 92-96, 301-305, 659-670) -/
def Res.dtor (k : Kind) : Cpp (Res β) Unit
  | .array s => (ArrS.dtor k s).mapState .array
  | .arrVec s => (AvS.dtor k s).mapState .arrVec
  | .vector s => (VecS.dtor k s).mapState .vector

/-- objects and blocks counted so far -/
def Res.led : Res β → Ledger
  | .array s => s.led
  | .arrVec s => s.led
  | .vector s => s.led

/-- how a call that builds a result ends -/
inductive Built (β ω : Type) where
  /-- returned -/
  | value (r : Res β) (w : ω)
  /-- the exception left the function; the ledger of the destroyed result object -/
  | threw (led : Ledger) (w : ω)
  | undefined (u : UB)

/-- `R res {}; size_t idx = 0; body; return res;` as `withResult`, with the destructor of `res` when `body` throws
(prelude.hpp 106-119, 131-144, 192-204, 449-462, 480-495, 1004-1015).  Returning constructs the caller's object
in place of `res`. -/
def unwinding (k : Kind) (t : SeqTy) (d : β) (body : Cpp (Fr β ω) Unit) (w : ω) : Built β ω :=
  match Res.make t d with
  | .ok _ r =>
    match body ⟨r, 0, w⟩ with
    | .ok _ s => .value s.res s.w
    | .thrown s =>
      match Res.dtor k s.res with
      | .ok _ r' => .threw r'.led s.w
      | .thrown r' => .threw r'.led s.w
      | .ub u => .undefined u
    | .ub u => .undefined u
  | .thrown r => .threw r.led w
  | .ub u => .undefined u

/-- `map` (prelude.hpp 104-119) -/
def mapU (k : Kind) (d : β) (f : List α → Cpp ω β) (ass : List (Inp α)) : ω → Built β ω :=
  unwinding k (naryTy (ass.map Inp.ty)) d (mapProg k f ass)

/-- `map_with_index` (prelude.hpp 448-462) -/
def mapWithIndexU (k : Kind) (d : β) (f : Nat → List α → Cpp ω β) (ass : List (Inp α)) : ω → Built β ω :=
  unwinding k (naryTy (ass.map Inp.ty)) d (mapIxProg k f ass)

/-- `from_function` (prelude.hpp 190-204) -/
def fromFunctionU (k : Kind) (d : β) (n : NArg) (f : Nat → Cpp ω β) : ω → Built β ω :=
  unwinding k (fromFunctionTy n) d (fromFunctionProg k n f)

/-- `cartesian_map` (prelude.hpp 479-495) -/
def cartesianMapU (k : Kind) (d : β) (f : List α → Cpp ω β) (ass : List (Inp α)) : ω → Built β ω :=
  unwinding k (cartesianTy (ass.map Inp.ty)) d (cartMapProg k f ass)

/-- `filter` (prelude.hpp 130-144) -/
def filterU (k : Kind) (d : α) (p : α → Cpp ω Bool) (as : Inp α) : ω → Built α ω :=
  unwinding k (filterTy as.ty) d (forUp (filterBody k p as) 0 (length as))

/-- `find_indices` (prelude.hpp 1003-1015) -/
def findIndicesU (p : α → Cpp ω Bool) (as : Inp α) : ω → Built Nat ω :=
  unwinding .trivial (filterTy as.ty) 0 (forUp (indicesBody p as) 0 (length as))

end Prelude
end Efp
