import Verif.ForEachMutLemmas
import Verif.Props.Prelude

/-!
# What `for_each_mut` leaves behind when its function throws (C53)

`Prelude.rows` and `Prelude.overwrite` are the specification of C53.  A call that throws is taken to leave the elements it received
by reference as they were.
-/

namespace Efp
namespace Props

open Prelude

variable {α ω : Type}

/-- C53: if call number `j` throws, the calls before it were those on the rows `0 .. j-1`, in order, the elements they visited have
their new values, and every other element is as it was. -/
theorem C53_for_each_with_index_mut_throw (f : Nat → List α → Cpp ω (List α)) (ass : List (Inp α)) (hne : ass ≠ [])
    (hv : ∀ as ∈ ass, as.valid) (w w' : ω) (ass' : List (Inp α)) (h : forEachWithIndexMut f (ass, w) = .thrown (ass', w')) :
    ∃ j yss w1, j < shortest (ass.map Inp.vals) ∧
      (List.range j).mapM (fun i => f i (row i (ass.map Inp.vals))) w = .ok yss w1 ∧
      f j (row j (ass.map Inp.vals)) w1 = .thrown w' ∧
      ass'.map Inp.ty = ass.map Inp.ty ∧ ass'.map Inp.vals = overwrite yss (ass.map Inp.vals) := by
  obtain ⟨j, zss, w1, h1, h2, h3, h4, h5⟩ := mutLoop_thrown f ass (minLength ass) 0
    (fun as ha => by have := minLength_le as ha; omega) ass w [] rfl rfl (overwrite_nil _).symm h
  rw [minLength_eq hne hv] at h1
  rw [Nat.zero_add] at h3
  rw [← List.range_eq_range'] at h2
  exact ⟨j, zss, w1, h1, h2, h3, h4, by simpa using h5⟩

/-- C53: `for_each_mut`, likewise -/
theorem C53_for_each_mut_throw (f : List α → Cpp ω (List α)) (ass : List (Inp α)) (hne : ass ≠ [])
    (hv : ∀ as ∈ ass, as.valid) (w w' : ω) (ass' : List (Inp α)) (h : forEachMut f (ass, w) = .thrown (ass', w')) :
    ∃ (j : Nat) (xs : List α) (yss : List (List α)) (w1 : ω), (rows (ass.map Inp.vals))[j]? = some xs ∧
      ((rows (ass.map Inp.vals)).take j).mapM f w = .ok yss w1 ∧ f xs w1 = .thrown w' ∧
      ass'.map Inp.ty = ass.map Inp.ty ∧ ass'.map Inp.vals = overwrite yss (ass.map Inp.vals) := by
  obtain ⟨j, yss, w1, h1, h2, h3, h4, h5⟩ := C53_for_each_with_index_mut_throw (fun _ => f) ass hne hv w w' ass' h
  refine ⟨j, row j (ass.map Inp.vals), yss, w1, ?_, ?_, h3, h4, h5⟩
  · rw [rows, List.getElem?_map, List.getElem?_range h1]; rfl
  · rw [rows, ← List.map_take, List.take_range, Nat.min_eq_left (by omega), List.mapM_map]; exact h2

/-- a function that throws on negative elements: the elements before it are doubled, the others are as they were -/
example : ∃ ass', forEachMut (fun xs => if xs.any (· < 0) then Cpp.throw else pure (xs.map (· * 2)))
    ([(⟨.vector, [1, 2, -3, 4], 0, false⟩ : Inp Int)], ()) = .thrown (ass', ()) ∧
    ass'.map Inp.vals = [[2, 4, -3, 4]] := ⟨_, rfl, rfl⟩

end Props
end Efp
