import Verif.PreludeRuns

/-!
# Resource-owning results (C55)

`resize` constructs nothing, so the first `nth(0, res) = b` on a non-empty `ArrVec` or `Vector` result
assigns to storage that holds no object.
-/

namespace Efp
namespace Prelude

variable {α β γ ω : Type}

/-- after `R res {}; res.resize(n)` slot 0 of an `ArrVec` or `Vector` holds no object -/
theorem resize_raw {t : SeqTy} {n : Nat} (hn : 0 < n) (hna : ∀ m, t ≠ .array m) (hh : Holds t n) (d : β) :
    ∃ r r', Res.make t d = .ok () r ∧ Res.resize .managed n r = .ok () r' ∧
      ∀ b, Res.set .managed 0 b r' = .ub .deadAssign := by
  obtain ⟨k, rfl⟩ : ∃ k, n = k + 1 := ⟨n - 1, by omega⟩
  cases t with
  | array m => exact absurd rfl (hna m)
  | arrVec m =>
    have h1 : k + 1 ≤ m := hh
    obtain ⟨j, rfl⟩ : ∃ j, m = j + 1 := ⟨m - 1, by omega⟩
    refine ⟨.arrVec (AvS.mk0 (j + 1)), .arrVec { (AvS.mk0 (j + 1) : AvS β) with size := k + 1 }, rfl, ?_, ?_⟩
    · simp [Res.resize, AvS.resize, Cpp.bind_run, AvS.mk0, show ¬ j < k by omega]
    · intro b
      simp [Res.set, AvS.setAt, AvS.onM, Mem.assign, AvS.mk0, List.replicate_succ]
  | vector =>
    refine ⟨.vector (VecS.mk0 {}), .vector { VecS.afterRealloc (VecS.mk0 {}) [] (k + 1 + 1) with size := k + 1 },
      rfl, ?_, ?_⟩
    · have e : VecS.resize .managed (k + 1) (VecS.mk0 {} : VecS β) =
          .ok () { VecS.afterRealloc (VecS.mk0 {}) [] (k + 1 + 1) with size := k + 1 } := by
        unfold VecS.resize
        have := VecS.reserve_run (VecS.rep_mk0 .managed {} : VecS.Rep .managed (VecS.mk0 {} : VecS β) []) (k + 1 + 1)
        rw [if_pos (by simp [VecS.mk0])] at this
        rw [Cpp.bind_ok (Cpp.get_run _), if_pos (by simp [VecS.mk0]), Cpp.bind_ok this]
      simp only [Res.resize, e]; rfl
    · intro b
      simp [Res.set, VecS.setAt, VecS.onMem, Mem.assign, VecS.afterRealloc, List.replicate_succ]

theorem dyn_of_not_array {t : SeqTy} (h : ∀ m, t ≠ .array m) : t.ctSize = dyn := by
  cases t with
  | array m => exact absurd rfl (h m)
  | arrVec m => rfl
  | vector => rfl

/-- the pattern of `map`, `map_with_index` and `from_function`: resize, then assign element by element -/
theorem tabulate_managed {t : SeqTy} {n : Nat} (hn : 0 < n) (hna : ∀ m, t ≠ .array m) (hh : Holds t n) (d : β)
    (c : Prop) [Decidable c] (hc : c) {body : Nat → Cpp (Fr β ω) Unit} {g : Cpp ω β}
    (hb : body 0 = (do let b ← onW g; onRes (Res.set .managed 0 b))) {w w' : ω} {b : β}
    (hg : g w = .ok b w') :
    withResult t d (do
        if c then onRes (Res.resize .managed n)
        forUp body 0 n) w = .ub .deadAssign := by
  obtain ⟨r, r', h1, h2, h3⟩ := resize_raw hn hna hh d
  have e1 : onRes (Res.resize .managed n) (⟨r, 0, w⟩ : Fr β ω) = .ok () ⟨r', 0, w⟩ := by
    simp only [onRes, h2]; rfl
  have e2 : body 0 (⟨r', 0, w⟩ : Fr β ω) = .ub .deadAssign := by
    rw [hb, Cpp.bind_ok (onW_ok (s := ⟨r', 0, w⟩) hg)]
    simp only [onRes, h3]; rfl
  have e3 : forUp body 0 n (⟨r', 0, w⟩ : Fr β ω) = .ub .deadAssign := by
    obtain ⟨k, rfl⟩ : ∃ k, n = k + 1 := ⟨n - 1, by omega⟩
    rw [forUp_succ, Cpp.bind_ub e2]
  unfold withResult
  rw [h1]
  simp only [if_pos hc]
  rw [Cpp.bind_ok e1]
  rw [e3]

theorem naryTy_holds {ass : List (Inp α)} (hne : ass ≠ []) (hv : ∀ as ∈ ass, as.valid) :
    Holds (naryTy (ass.map Inp.ty)) (minLength ass) := by
  have := naryTy_fits (k := .trivial) hne hv (.inl rfl)
  revert this
  unfold Fits Holds
  cases naryTy (ass.map Inp.ty) <;> simp
  exact Eq.symm

theorem naryTy_not_array {ts : List SeqTy} (h : ∃ t ∈ ts, t.isStaticSize = false) (m : Nat) :
    naryTy ts ≠ .array m := by
  obtain ⟨t, ht, hs⟩ := h
  unfold naryTy
  rw [if_neg (by simp only [List.all_eq_true]; intro h; have := h t ht; rw [hs] at this; cases this)]
  split <;> simp

theorem map_managed {d : β} {f : List α → Cpp ω β} {ass : List (Inp α)} (hne : ass ≠ [])
    (hv : ∀ as ∈ ass, as.valid) (hdyn : ∃ as ∈ ass, as.ty.isStaticSize = false)
    (hpos : 0 < shortest (ass.map Inp.vals)) {w w' : ω} {b : β}
    (hf : f (row 0 (ass.map Inp.vals)) w = .ok b w') :
    map .managed d f ass w = .ub .deadAssign := by
  rw [← minLength_eq hne hv] at hpos
  have hna := naryTy_not_array (ts := ass.map Inp.ty) (by
    obtain ⟨as, h1, h2⟩ := hdyn; exact ⟨as.ty, List.mem_map.mpr ⟨as, h1, rfl⟩, h2⟩)
  refine tabulate_managed hpos hna (naryTy_holds hne hv) d _ (dyn_of_not_array hna)
    (g := f (row 0 (ass.map Inp.vals))) ?_ hf
  unfold mapBody
  rw [nths_ok (fun as ha => by have := minLength_le as ha; omega), pure_bind]

theorem mapWithIndex_managed {d : β} {f : Nat → List α → Cpp ω β} {ass : List (Inp α)} (hne : ass ≠ [])
    (hv : ∀ as ∈ ass, as.valid) (hdyn : ∃ as ∈ ass, as.ty.isStaticSize = false)
    (hpos : 0 < shortest (ass.map Inp.vals)) {w w' : ω} {b : β}
    (hf : f 0 (row 0 (ass.map Inp.vals)) w = .ok b w') :
    mapWithIndex .managed d f ass w = .ub .deadAssign := by
  rw [← minLength_eq hne hv] at hpos
  have hna := naryTy_not_array (ts := ass.map Inp.ty) (by
    obtain ⟨as, h1, h2⟩ := hdyn; exact ⟨as.ty, List.mem_map.mpr ⟨as, h1, rfl⟩, h2⟩)
  refine tabulate_managed hpos hna (naryTy_holds hne hv) d _ (dyn_of_not_array hna)
    (g := f 0 (row 0 (ass.map Inp.vals))) ?_ hf
  unfold mapIxBody
  rw [nths_ok (fun as ha => by have := minLength_le as ha; omega), pure_bind]

theorem fromFunction_managed {d : β} {f : Nat → Cpp ω β} {n : Nat} (hpos : 0 < n) {w w' : ω} {b : β}
    (hf : f 0 w = .ok b w') : fromFunction .managed d (.rt n) f w = .ub .deadAssign :=
  tabulate_managed (t := .vector) hpos (by simp) trivial d
    ((fromFunctionTy (.rt n)).isStaticSize = false) rfl (body := fromFunctionBody .managed f) (g := f 0) rfl hf

theorem cartesianTy_holds {ass : List (Inp α)} (hv : ∀ as ∈ ass, as.valid) :
    Holds (cartesianTy (ass.map Inp.ty)) (product (ass.map length)) := by
  have := cartesianTy_fits (k := .trivial) hv (.inl rfl)
  revert this
  unfold Fits Holds
  cases cartesianTy (ass.map Inp.ty) <;> simp
  exact Eq.symm

theorem cartesianMap_managed {d : β} {f : List α → Cpp ω β} {ass : List (Inp α)} (hne : ass ≠ [])
    (hv : ∀ as ∈ ass, as.valid) (hdyn : ∃ as ∈ ass, as.ty.isStaticSize = false) {c : List α}
    {cs : List (List α)} (hcs : combos (ass.map Inp.vals) = c :: cs) {w w' : ω} {b : β}
    (hf : f c w = .ok b w') : cartesianMap .managed d f ass w = .ub .deadAssign := by
  have hlen : (combos (ass.map Inp.vals)).length = product (ass.map length) := by
    rw [combos_length, List.map_map]; rfl
  have hpos : 0 < product (ass.map length) := by rw [← hlen, hcs]; simp
  have hna : ∀ m, cartesianTy (ass.map Inp.ty) ≠ .array m := by
    obtain ⟨as, h1, h2⟩ := hdyn
    intro m
    unfold cartesianTy
    rw [if_neg (by
      simp only [List.all_eq_true]; intro h
      have := h as.ty (List.mem_map.mpr ⟨as, h1, rfl⟩); rw [h2] at this; cases this)]
    split <;> simp
  obtain ⟨r, r', h1, h2, h3⟩ := resize_raw hpos hna (cartesianTy_holds hv) d
  have e1 : onRes (Res.resize .managed (product (ass.map length))) (⟨r, 0, w⟩ : Fr β ω) = .ok () ⟨r', 0, w⟩ := by
    simp only [onRes, h2]; rfl
  have e2 : cartMapInner .managed f c (⟨r', 0, w⟩ : Fr β ω) = .ub .deadAssign := by
    unfold cartMapInner
    rw [Cpp.bind_ok (onW_ok (s := ⟨r', 0, w⟩) hf)]
    unfold emit
    have : onRes (Res.set .managed 0 b) (⟨r', 0, w'⟩ : Fr β ω) = .ub .deadAssign := by
      simp only [onRes, h3]; rfl
    rw [Cpp.bind_ub this]
  unfold cartesianMap cartMapProg withResult
  rw [h1]
  simp only [if_pos (dyn_of_not_array hna)]
  rw [Cpp.bind_ok e1, cartesianForEach_eq _ hne hv, hcs, List.forM_cons, Cpp.bind_ub e2]

end Prelude
end Efp
