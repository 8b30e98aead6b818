import Verif.EnumMaybe
import Verif.Props.Enum

/-!
# `Maybe` and functions with effects (C61)

`maybe tN tA nv m` is the `Maybe<A>` that holds what `m` holds.
-/

namespace Efp.Props

open Efp.Enum Efp.Spec.Enum

variable {τ ν σ : Type} [DecidableEq τ]

/-- what calling `f` on the content, if there is any, does: nothing at all for nothing, otherwise what one call does -/
def callInside (tN tB : τ) (nv : ν) (call : Option (Cpp σ ν)) (s : σ) : Out σ (Raw τ ν) :=
  match call with
  | none => .ok (maybe tN tB nv none) s
  | some c => match c s with
    | .ok y s' => .ok (maybe tN tB nv (some y)) s'
    | .thrown s' => .thrown s'
    | .ub u => .ub u

/-- **C61, effects of `fmap`.**  The function is called exactly once, on the value, if there is one, and not at all otherwise; its
effects, its exception and its result are those of the call. -/
theorem C61_fmap_effects (tN tA tB : τ) (hA : tA ≠ tN) (hB : tB ≠ tN) (nv : ν) (f : ν → Cpp σ ν) (m : Option ν) (s : σ) :
    fmapE tN tA tB nv f (maybe tN tA nv m) s = callInside tN tB nv (m.map f) s := by
  cases m with
  | none => simp [fmapE, hasValue, maybe, toMaybe_nothing, callInside]
  | some x =>
    simp only [fmapE, hasValue_some, ↓reduceIte, callInside, Option.map_some]
    rw [Cpp.bind_ok (value_maybe hA nv x s), Cpp.bind_run]
    cases f x s with
    | ok y s' => simp only; rw [toMaybe_value hB nv]
    | thrown s' => rfl
    | ub u => rfl

/-- **C61, effects compose.**  Two `fmap`s one after the other are the `fmap` of the two calls one after the other. -/
theorem C61_fmap_effects_compose (tN tA tB tC : τ) (hA : tA ≠ tN) (hB : tB ≠ tN) (hC : tC ≠ tN) (nv : ν) (f g : ν → Cpp σ ν)
    (m : Option ν) (s : σ) :
    (fmapE tN tA tB nv f (maybe tN tA nv m) >>= fmapE tN tB tC nv g) s =
      fmapE tN tA tC nv (fun x => f x >>= g) (maybe tN tA nv m) s := by
  rw [Cpp.bind_run, C61_fmap_effects tN tA tB hA hB, C61_fmap_effects tN tA tC hA hC]
  cases m with
  | none =>
    simp only [callInside, Option.map_none]
    rw [C61_fmap_effects tN tB tC hB hC]; rfl
  | some x =>
    simp only [callInside, Option.map_some, Cpp.bind_run]
    cases f x s with
    | ok y s' =>
      simp only
      rw [C61_fmap_effects tN tB tC hB hC]; rfl
    | thrown s' => rfl
    | ub u => rfl

/-- **C61, effects of `ap`.**  The stored function is called exactly once if both are there, and not at all otherwise. -/
theorem C61_ap_effects (tN tF tA tB : τ) (hF : tF ≠ tN) (hA : tA ≠ tN) (hB : tB ≠ tN) (nv : ν) (app : ν → ν → Cpp σ ν)
    (mf ma : Option ν) (s : σ) :
    apE tN tF tA tB nv app (maybe tN tF nv mf) (maybe tN tA nv ma) s =
      callInside tN tB nv (mf.bind fun g => ma.map (app g)) s := by
  cases mf with
  | none => simp [apE, hasValue, maybe, toMaybe_nothing, callInside]
  | some g =>
    cases ma with
    | none => simp [apE, hasValue, maybe, toMaybe_nothing, callInside]
    | some x =>
      simp only [apE, hasValue_some, Bool.and_self, ↓reduceIte, callInside, Option.map_some, Option.bind_some]
      rw [Cpp.bind_ok (value_maybe hF nv g s), Cpp.bind_ok (value_maybe hA nv x s), Cpp.bind_run]
      cases app g x s with
      | ok y s' => simp only; rw [toMaybe_value hB nv]
      | thrown s' => rfl
      | ub u => rfl

/-- **C61, effects of `bind`.**  Likewise for `bind` and `>>=`. -/
theorem C61_bind_effects (tN tA tB : τ) (hA : tA ≠ tN) (nv : ν) (f : ν → Cpp σ (Raw τ ν)) (m : Option ν) (s : σ) :
    bindM tN tA tB nv (maybe tN tA nv m) f s =
      match m with
      | none => .ok (maybe tN tB nv none) s
      | some x => f x s := by
  cases m with
  | none => simp [bindM, hasValue, maybe, toMaybe_nothing]
  | some x =>
    simp only [bindM, hasValue_some, ↓reduceIte]
    rw [Cpp.bind_ok (value_maybe hA nv x s)]

/-- a function that counts its calls -/
def counting (x : Nat) : Cpp Nat Nat := fun c => .ok (x + 1) (c + 1)

/-- one call for a value, none for nothing -/
example : fmapE 0 1 2 0 counting (maybe 0 1 0 (some 5)) 7 = .ok (maybe 0 2 0 (some 6)) 8 ∧
    fmapE 0 1 2 0 counting (maybe 0 1 0 none) 7 = .ok (maybe 0 2 0 none) 7 := by
  constructor <;> rw [C61_fmap_effects _ _ _ (by decide) (by decide)] <;> rfl

end Efp.Props
