import Verif.Spec.Sort
import Verif.Spec.Ieee

/-!
# What sorting numbers means (C154)
-/

namespace Efp.Spec

open Ieee

variable {α : Type}

/-- `comp` is a strict weak order as far as the elements of `l` are concerned; nothing is said about others -/
structure OrderAmong (l : List α) (comp : α → α → Bool) : Prop where
  irrefl : ∀ a ∈ l, comp a a = false
  trans : ∀ a ∈ l, ∀ b ∈ l, ∀ c ∈ l, comp a b = true → comp b c = true → comp a c = true
  incomp : ∀ a ∈ l, ∀ b ∈ l, ∀ c ∈ l, comp a b = false → comp b a = false → comp b c = false → comp c b = false →
    comp a c = false ∧ comp c a = false

/-- the elements equivalent to an element of `l` appear in `l'` in the order they have in `l` -/
def StableAmong (comp : α → α → Bool) (l l' : List α) : Prop :=
  ∀ x ∈ l, l'.filter (equivalent comp x) = l.filter (equivalent comp x)

/-- `x` is at most `y`: minus infinity below everything, plus infinity above everything, finite numbers by
value; a NaN is on neither side -/
def NotAbove : Fp → Fp → Prop
  | .nan, _ => False
  | _, .nan => False
  | .inf true, _ => True
  | _, .inf false => True
  | .fin s a, .fin t b => (if s then -a else a) ≤ (if t then -b else b)
  | _, _ => False

/-- ascending order -/
def Ascending (l : List Fp) : Prop := l.Pairwise NotAbove

end Efp.Spec
