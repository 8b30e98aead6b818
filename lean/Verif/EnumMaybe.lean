import Verif.Enum

/-!
# `Maybe`: functions with effects (maybe.hpp 61-75, 104-124)

`Verif/Enum.lean` has `fmap` and `ap` for functions that only compute a value.  Here the function is a piece of the program: it may read
and write the program's state, and throw.
-/

namespace Efp.Enum

variable {τ ν σ : Type}

/-- `fmap`: member 61-67 and free function 104-110 of maybe.hpp -/
def fmapE [DecidableEq τ] (tN tA tB : τ) (nv : ν) (f : ν → Cpp σ ν) (e : Raw τ ν) : Cpp σ (Raw τ ν) :=
  if hasValue e then do
    let x ← value tN tA e
    let y ← f x
    toMaybe tN tB tB y
  else toMaybe tN tB tN nv

/-- `ap`: member 69-75 and free function 118-124 of maybe.hpp; the stored value `g` acts as the function `app g` -/
def apE [DecidableEq τ] (tN tF tA tB : τ) (nv : ν) (app : ν → ν → Cpp σ ν) (mf ma : Raw τ ν) : Cpp σ (Raw τ ν) :=
  if hasValue mf && hasValue ma then do
    let g ← value tN tF mf
    let x ← value tN tA ma
    let y ← app g x
    toMaybe tN tB tB y
  else toMaybe tN tB tN nv

end Efp.Enum
