import Verif.PreludeUnwindLemmas
import Verif.Props.Prelude

/-!
# Client functions that throw while a result is being built (C127)

`Safe k (call w) (spec w)` (Verif.Spec.Unwind) compares a call with a computation on lists: where the computation
gives a list, the call returns an object with these elements that can be destroyed without a loss; where client code
throws, the exception reaches the caller, after the partly built object was destroyed, and every block it had
allocated was freed and (for resource-owning elements, `k = .managed`) every element it had constructed destroyed.
-/

namespace Efp
namespace Props

open Prelude

variable {α β γ ω : Type}

/-- **C127, partial.** `map`, whatever the client function does and at whichever call it throws.  Missing: results of
resource-owning elements whose size is not static (refuted below). -/
theorem C127_map_partial (k : Kind) (d : β) (f : List α → Cpp ω β) (ass : List (Inp α)) (hne : ass ≠ [])
    (hv : ∀ as ∈ ass, as.valid) (hk : k = .trivial ∨ ∀ as ∈ ass, as.ty.isStaticSize = true) (w : ω) :
    Safe k (mapU k d f ass w) ((rows (ass.map Inp.vals)).mapM f w) :=
  mapU_safe d f hne hv hk w

/-- **C127, partial.** `map_with_index` -/
theorem C127_map_with_index_partial (k : Kind) (d : β) (f : Nat → List α → Cpp ω β) (ass : List (Inp α)) (hne : ass ≠ [])
    (hv : ∀ as ∈ ass, as.valid) (hk : k = .trivial ∨ ∀ as ∈ ass, as.ty.isStaticSize = true) (w : ω) :
    Safe k (mapWithIndexU k d f ass w)
      ((List.range (shortest (ass.map Inp.vals))).mapM (fun i => f i (row i (ass.map Inp.vals))) w) :=
  mapWithIndexU_safe d f hne hv hk w

/-- **C127, partial.** `cartesian_map` -/
theorem C127_cartesian_map_partial (k : Kind) (d : β) (f : List α → Cpp ω β) (ass : List (Inp α)) (hne : ass ≠ [])
    (hv : ∀ as ∈ ass, as.valid) (hk : k = .trivial ∨ ∀ as ∈ ass, as.ty.isStaticSize = true) (w : ω) :
    Safe k (cartesianMapU k d f ass w) ((combos (ass.map Inp.vals)).mapM f w) :=
  cartesianMapU_safe d f hne hv hk w

/-- **C127, partial.** `from_function` -/
theorem C127_from_function_partial (k : Kind) (d : β) (n : NArg) (f : Nat → Cpp ω β)
    (hk : k = .trivial ∨ ∃ m, n = .ct m) (w : ω) :
    Safe k (fromFunctionU k d n f w) ((List.range n.val).mapM f w) :=
  fromFunctionU_safe d n f hk w

/-- **C127.** `filter`, for elements of every kind -/
theorem C127_filter (k : Kind) (d : α) (p : α → Cpp ω Bool) (as : Inp α) (hv : as.valid) (w : ω) :
    Safe k (filterU k d p as w) (filterCalls p as.vals w) :=
  filterU_safe hv d p w

/-- **C127.** `find_indices` -/
theorem C127_find_indices (p : α → Cpp ω Bool) (as : Inp α) (hv : as.valid) (w : ω) :
    Safe .trivial (findIndicesU p as w)
      ((do let r ← filterCalls (fun q : α × Nat => p q.1) as.vals.zipIdx; pure (r.map Prod.snd)) w) :=
  findIndicesU_safe hv p w

/-- **C127 is false** for resource-owning results of dynamic size: `resize` has announced elements that were never
constructed, and when the first call of the client function throws, the destructor of the result destroys them. -/
theorem C127_dynamic_results_destroy_raw (d : β) (f : List α → Cpp ω β) (h : Nat → Cpp ω β) (n : Nat) (hn : 0 < n)
    (ass : List (Inp α)) (hne : ass ≠ []) (hv : ∀ as ∈ ass, as.valid)
    (hdyn : ∃ as ∈ ass, as.ty.isStaticSize = false) (hpos : 0 < shortest (ass.map Inp.vals)) (w w' : ω)
    (hf : f (row 0 (ass.map Inp.vals)) w = .thrown w') (hh : h 0 w = .thrown w') :
    mapU .managed d f ass w = .undefined .deadDestroy ∧
      fromFunctionU .managed d (.rt n) h w = .undefined .deadDestroy :=
  ⟨mapU_dead hne hv hdyn hpos hf, fromFunctionU_dead hn hh⟩

/-! ### concrete cases -/

/-- counts its calls in the world and throws at call `n` -/
def throwAt (n : Nat) (g : γ → β) (x : γ) : Cpp Nat β := fun w => if w = n then .thrown w else .ok (g x) (w + 1)

/-- the ledger of the object that was destroyed on the way out -/
def lost : Built β Nat → Option (Nat × Nat × Nat × Nat × Nat)
  | .threw l w => some (l.made, l.gone, l.alloc, l.freed, w)
  | _ => none

/-- `map` over a `Vector` of three numbers, the third call throws: one block allocated, one freed -/
example : lost (mapU .trivial 0 (throwAt 2 (fun xs : List Nat => xs.sum)) [⟨.vector, [5, 6, 7], 0, false⟩] 0) =
    some (0, 3, 1, 1, 2) := by decide +kernel

/-- `map` to a resource-owning type over an `Array`: the three default-constructed elements are destroyed -/
example : lost (mapU .managed 0 (throwAt 2 (fun xs : List Nat => xs.sum)) [⟨.array 3, [5, 6, 7], 0, false⟩] 0) =
    some (3, 3, 0, 0, 2) := by decide +kernel

/-- `filter` of a `Vector` of resource-owning elements: two are copied, one is relocated, then the fourth call
throws -/
example : lost (filterU .managed 0 (throwAt 3 (fun x : Nat => x % 2 == 0)) ⟨.vector, [4, 5, 6, 7], 0, false⟩ 0) =
    some (3, 3, 2, 2, 3) := by decide +kernel

/-- `map` to a resource-owning type over a `Vector`, first call throws -/
example : (match mapU .managed 0 (throwAt 0 (fun xs : List Nat => xs.sum)) [⟨.vector, [5, 6], 0, false⟩] 0 with
    | .undefined u => some u | _ => none) = some .deadDestroy := by decide +kernel

example : (⟨.vector, [4, 5, 6, 7], 0, false⟩ : Inp Nat).valid ∧ (⟨.array 3, [5, 6, 7], 0, false⟩ : Inp Nat).valid := by
  simp [Inp.valid, dyn]

end Props
end Efp
