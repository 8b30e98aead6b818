import Verif.Props.Vector
import Verif.Props.ArrVec
import Verif.Props.Array

/-!
# C15: `==` of containers is an equivalence relation when `==` of the elements is
-/

namespace Efp.Props

variable {α : Type}

/-- **C15 (Vector).** If `==` of the elements is reflexive, symmetric and transitive, so is `==` of the containers,
whatever their capacities and histories; no comparison throws or is undefined. -/
theorem C15_vector_equivalence (eq : α → α → Bool) (hr : ∀ x, eq x x = true)
    (hs : ∀ x y, eq x y = true → eq y x = true)
    (ht : ∀ x y z, eq x y = true → eq y z = true → eq x z = true) {k : Kind} {a b c : VecS α} {la lb lc : List α}
    (ha : Spec.VecReachable k a la) (hb : Spec.VecReachable k b lb) (hc : Spec.VecReachable k c lc) :
    VecS.eqv eq a a = .ok true a ∧
      (VecS.eqv eq b a = .ok true a → VecS.eqv eq a b = .ok true b) ∧
      (VecS.eqv eq b a = .ok true a → VecS.eqv eq c b = .ok true b → VecS.eqv eq c a = .ok true a) := by
  obtain ⟨raa, eaa, haa⟩ := C15_vector_eq_extensional eq ha ha
  obtain ⟨rab, eab, hab⟩ := C15_vector_eq_extensional eq ha hb
  obtain ⟨rba, eba, hba⟩ := C15_vector_eq_extensional eq hb ha
  obtain ⟨rbc, ebc, hbc⟩ := C15_vector_eq_extensional eq hb hc
  obtain ⟨rac, eac, hac⟩ := C15_vector_eq_extensional eq ha hc
  rw [eaa, eab, eba, ebc, eac]
  simp only [Out.ok.injEq, and_true]
  refine ⟨haa.mpr ⟨rfl, fun i _ _ => hr _⟩, fun h => ?_, fun h1 h2 => ?_⟩
  · obtain ⟨hl, he⟩ := hab.mp h
    exact hba.mpr ⟨hl.symm, fun i hi hj => hs _ _ (he i hj hi)⟩
  · obtain ⟨hl, he⟩ := hab.mp h1
    obtain ⟨hl', he'⟩ := hbc.mp h2
    exact hac.mpr ⟨hl.trans hl', fun i hi hj => ht _ _ _ (he i hi (by omega)) (he' i (by omega) hj)⟩

/-- **C15 (ArrVec).** If `==` of the elements is reflexive, symmetric and transitive, so is `==` of the containers,
whatever their capacities and histories; no comparison throws or is undefined. -/
theorem C15_arrvec_equivalence (eq : α → α → Bool) (hr : ∀ x, eq x x = true)
    (hs : ∀ x y, eq x y = true → eq y x = true)
    (ht : ∀ x y z, eq x y = true → eq y z = true → eq x z = true) {k : Kind} {n : Nat} {a b c : AvS α} {la lb lc : List α}
    (ha : Spec.AvReachable k n a la) (hb : Spec.AvReachable k n b lb) (hc : Spec.AvReachable k n c lc) :
    AvS.eqv eq a a = .ok true a ∧
      (AvS.eqv eq b a = .ok true a → AvS.eqv eq a b = .ok true b) ∧
      (AvS.eqv eq b a = .ok true a → AvS.eqv eq c b = .ok true b → AvS.eqv eq c a = .ok true a) := by
  obtain ⟨raa, eaa, haa⟩ := C15_arrvec_eq_extensional eq ha ha
  obtain ⟨rab, eab, hab⟩ := C15_arrvec_eq_extensional eq ha hb
  obtain ⟨rba, eba, hba⟩ := C15_arrvec_eq_extensional eq hb ha
  obtain ⟨rbc, ebc, hbc⟩ := C15_arrvec_eq_extensional eq hb hc
  obtain ⟨rac, eac, hac⟩ := C15_arrvec_eq_extensional eq ha hc
  rw [eaa, eab, eba, ebc, eac]
  simp only [Out.ok.injEq, and_true]
  refine ⟨haa.mpr ⟨rfl, fun i _ _ => hr _⟩, fun h => ?_, fun h1 h2 => ?_⟩
  · obtain ⟨hl, he⟩ := hab.mp h
    exact hba.mpr ⟨hl.symm, fun i hi hj => hs _ _ (he i hj hi)⟩
  · obtain ⟨hl, he⟩ := hab.mp h1
    obtain ⟨hl', he'⟩ := hbc.mp h2
    exact hac.mpr ⟨hl.trans hl', fun i hi hj => ht _ _ _ (he i hi (by omega)) (he' i (by omega) hj)⟩

/-- **C15 (Array).** If `==` of the elements is reflexive, symmetric and transitive, so is `==` of the containers,
whatever their capacities and histories; no comparison throws or is undefined. -/
theorem C15_array_equivalence (eq : α → α → Bool) (hr : ∀ x, eq x x = true)
    (hs : ∀ x y, eq x y = true → eq y x = true)
    (ht : ∀ x y z, eq x y = true → eq y z = true → eq x z = true) {k : Kind} {n : Nat} {a b c : ArrS α} {la lb lc : List α}
    (ha : Spec.ArrReachable k n a la) (hb : Spec.ArrReachable k n b lb) (hc : Spec.ArrReachable k n c lc) :
    ArrS.eqv (fun x y => !eq x y) a a = .ok true a ∧
      (ArrS.eqv (fun x y => !eq x y) b a = .ok true a → ArrS.eqv (fun x y => !eq x y) a b = .ok true b) ∧
      (ArrS.eqv (fun x y => !eq x y) b a = .ok true a → ArrS.eqv (fun x y => !eq x y) c b = .ok true b → ArrS.eqv (fun x y => !eq x y) c a = .ok true a) := by
  obtain ⟨raa, eaa, haa⟩ := C15_array_eq_extensional (fun x y => !eq x y) ha ha
  obtain ⟨rab, eab, hab⟩ := C15_array_eq_extensional (fun x y => !eq x y) ha hb
  obtain ⟨rba, eba, hba⟩ := C15_array_eq_extensional (fun x y => !eq x y) hb ha
  obtain ⟨rbc, ebc, hbc⟩ := C15_array_eq_extensional (fun x y => !eq x y) hb hc
  obtain ⟨rac, eac, hac⟩ := C15_array_eq_extensional (fun x y => !eq x y) ha hc
  have h1 := (arr_rep_of_reachable ha).len_eq
  have h2 := (arr_rep_of_reachable hb).len_eq
  rw [eaa, eab, eba, ebc, eac]
  simp only [Out.ok.injEq, and_true, Bool.not_eq_false'] at haa hab hba hbc hac ⊢
  refine ⟨haa.mpr fun i _ _ => hr _, fun h => ?_, fun h1 h2 => ?_⟩
  · have he := hab.mp h
    exact hba.mpr fun i hi hj => hs _ _ (he i hj hi)
  · have he := hab.mp h1
    have he' := hbc.mp h2
    exact hac.mpr fun i hi hj => ht _ _ _ (he i hi (by omega)) (he' i (by omega) hj)

/-- an element equality that is not equality of values: numbers that agree modulo 5 -/
example : (∀ x : Nat, ((x % 5 == x % 5) : Bool) = true) ∧ (∀ x y : Nat, (x % 5 == y % 5) = true → (y % 5 == x % 5) = true) ∧
    (∀ x y z : Nat, (x % 5 == y % 5) = true → (y % 5 == z % 5) = true → (x % 5 == z % 5) = true) := by
  simp only [beq_iff_eq]
  exact ⟨fun _ => trivial, fun _ _ h => h.symm, fun _ _ _ h1 h2 => h1.trans h2⟩

end Efp.Props
