import Verif.Callable

/-!
# Specification of the folds of meta.hpp, of `compose` and of `func_ptr`
-/

namespace Efp.Spec.Meta

open Efp.Callable (COp)

variable {ν σ τ : Type}

/-- all partial results `f a b₁`, `f (f a b₁) b₂`, ... of a left fold -/
def partials (f : Int → Int → Int) (a : Int) : List Int → List Int
  | [] => []
  | b :: bs => f a b :: partials f (f a b) bs

/-- `p` is a power of two -/
def IsPow2 (p : Nat) : Prop := ∃ k, p = 2 ^ k

/-- `f₁ (f₂ (... (fₙ x)))` for functions with effects: the last function runs first -/
def chain (f : ν → Cpp σ ν) : List (ν → Cpp σ ν) → ν → Cpp σ ν
  | [], x => f x
  | g :: gs, x => do
    let y ← chain g gs x
    f y

/-- the function objects a client program defines, in order (the `i`-th has number `i`) -/
def defined : List (COp τ ν) → List (τ × (ν → ν))
  | [] => []
  | .define t f :: ops => (t, f) :: defined ops
  | .kill _ :: ops => defined ops
  | .register _ :: ops => defined ops
  | .call _ _ :: ops => defined ops

end Efp.Spec.Meta
