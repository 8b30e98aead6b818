import Verif.SciFloatNorm
import Verif.SciFloatMean
import Verif.Props.SciFloatMore

/-!
# Comparing floating-point data with itself (C173)

`Finite F x`: `x` is a finite number of the format `F` (`Verif.Spec.Ieee`).  `fps l` is a vector that holds `l`.
-/

namespace Efp.Props

open Efp.Prelude (Inp)
open Efp.Ieee
open Efp.SciFloat

variable {ω : Type} {F : Fmt}

/-- plus or minus zero -/
def IsZero (x : Fp) : Prop := ∃ s, x = .fin s 0

theorem meanL_zeros (hF : F.Ok) {n : Nat} (h0 : 0 < n) (hlen : n < 2 ^ 64) : meanL F (List.replicate n zero) = zero := by
  obtain ⟨b, hb, hb1, -⟩ := ofInt_pos hF h0 hlen
  rw [meanL, sumL, foldl_zero_fp, List.length_replicate, hb]
  have : b ≠ 0 := by linarith
  simp [zero, Ieee.div, this, signed, ofExact_zero]

theorem errors_self (l : List Fp) (hl : ∀ x ∈ l, Finite F x) :
    (l.zip l).map (fun p => square F (sub F p.1 p.2)) = List.replicate l.length zero := by
  rw [zip_self, List.map_map, List.eq_replicate_iff]
  refine ⟨by simp, fun b hb => ?_⟩
  obtain ⟨x, hx, rfl⟩ := List.mem_map.1 hb
  obtain ⟨z, hz⟩ := sub_fin (hl x hx) (hl x hx)
  rw [sub_self, ofExact_zero] at hz
  show square F (sub F x x) = zero
  rw [hz, square_fin, mul_zero]
  exact ofExact_zero _

theorem div_zero_nonzero {m : Fp} (h : Finite F m ∨ ∃ s, m = .inf s) (h0 : ¬ IsZero m) : IsZero (div F zero m) := by
  rcases h with ⟨s, a, rfl, -⟩ | ⟨s, rfl⟩
  · have : a ≠ 0 := fun e => h0 ⟨s, by rw [e]⟩
    refine ⟨s, ?_⟩
    simp [zero, Ieee.div, this, signed, ofExact_zero]
  · exact ⟨s, by simp [zero, Ieee.div]⟩

theorem div_zero_zero {m : Fp} (h : IsZero m) : div F zero m = .nan := by
  obtain ⟨s, rfl⟩ := h
  simp [zero, Ieee.div]

/-- a difference of two finite numbers is zero only if they are equal -/
theorem sub_isZero (hF : F.Ok) {x y : Fp} (hx : Finite F x) (hy : Finite F y) : IsZero (sub F x y) ↔ value x = value y := by
  obtain ⟨z, hz⟩ := sub_fin hx hy
  rw [hz]
  constructor
  · rintro ⟨s, hs⟩
    unfold ofExact at hs
    split at hs
    · cases hs
    · simp only [Fp.fin.injEq, abs_eq_zero] at hs
      have h := round_add_error hx.value_rep hy.value_rep.neg
      rw [← sub_eq_add_neg, hs.2] at h
      simp only [zero_sub, abs_neg] at h
      have hu : unit F < 1 := by
        unfold unit
        have : (2 : ℚ) ^ (-(F.prec : Int)) < 2 ^ (0 : Int) := zpow_lt2 (by have := hF.prec; omega)
        simpa using this
      have h0 : |value x - value y| = 0 := by
        by_contra hne
        have hp : 0 < |value x - value y| := lt_of_le_of_ne (abs_nonneg _) (Ne.symm hne)
        nlinarith
      exact sub_eq_zero.1 (abs_eq_zero.1 h0)
  · intro h
    rw [h, sub_self, ofExact_zero]
    exact ⟨z, rfl⟩

theorem lt_value {x y : Fp} (hx : Finite F x) (hy : Finite F y) : Ieee.lt x y = decide (value x < value y) := by
  obtain ⟨s, a, rfl, -⟩ := hx
  obtain ⟨t, b, rfl, -⟩ := hy
  rfl

theorem minNormal_finite (hF : F.Ok) : Finite F (minNormal F) := by
  refine ⟨false, _, rfl, (zpow_pos2 _).le, rep_pow (by have := hF.prec; omega) (by have := hF.prec; omega), ?_⟩
  exact zpow_lt2 (by have := hF.range; have := hF.size; omega)

theorem maxMin_isZero (hF : F.Ok) (as : Inp Fp) (h0 : as.vals ≠ []) (hf : ∀ x ∈ as.vals, Finite F x) (w : ω) :
    ∃ d, maxMin F as w = .ok d w ∧ (Finite F d ∨ ∃ s, d = .inf s) ∧
      (IsZero d ↔ ∃ c, (∀ x ∈ as.vals, value x = c) ∧ value (minNormal F) ≤ c) := by
  have hnan : .nan ∉ as.vals := by
    intro h
    obtain ⟨s, m, e, _⟩ := hf _ h
    cases e
  have hmn := minNormal_finite hF
  obtain ⟨hi1, -, hi3, hi4, hi5⟩ := keep_spec beats_gt as.vals (minNormal F) (by simp [minNormal]) hnan
  obtain ⟨-, -, lo3, lo4, -⟩ := keep_spec beats_lt as.vals (maxFinite F) (by simp [maxFinite]) hnan
  obtain ⟨x0, hx0⟩ := List.exists_mem_of_ne_nil _ h0
  have lo4 := lo4 ⟨x0, hx0, le_maxFinite (hf _ hx0)⟩
  have hhi := maxElem_run (F := F) as w
  have hlo := minElem_run (F := F) as w
  generalize as.vals.foldl (keep fun x y => Ieee.lt y x) (minNormal F) = hi at *
  generalize as.vals.foldl (keep Ieee.lt) (maxFinite F) = lo at *
  have hlof := hf _ lo4
  have hhif : Finite F hi := by
    rcases hi1 with rfl | h
    · exact hmn
    · exact hf _ h
  refine ⟨_, maxMin_run as w hhi hlo, sub_not_nan hF hhif (.inl hlof), ?_⟩
  rw [sub_isZero hF hhif hlof]
  have hub : ∀ x ∈ as.vals, value x ≤ value hi := fun x hx => by
    have := hi3 x (List.mem_cons_of_mem _ hx)
    rw [lt_value hhif (hf x hx)] at this
    simpa using this
  have hmnle : value (minNormal F) ≤ value hi := by
    have := hi3 _ List.mem_cons_self
    rw [lt_value hhif hmn] at this
    simpa using this
  have hlb : ∀ x ∈ as.vals, value lo ≤ value x := fun x hx => by
    have := lo3 x (List.mem_cons_of_mem _ hx)
    rw [lt_value (hf x hx) hlof] at this
    simpa using this
  constructor
  · intro h
    exact ⟨value hi, fun x hx => le_antisymm (hub x hx) (h ▸ hlb x hx), hmnle⟩
  · rintro ⟨c, hc, hle⟩
    have : hi ∈ as.vals := hi4 ⟨x0, hx0, by rw [lt_value (hf _ hx0) hmn, hc _ hx0]; simpa using hle⟩
    rw [hc _ this, hc _ lo4]

/-- **C173, what holds.**  For non-empty finite data `sse`, `mse` and `rmse` of data that agree are zero, without a sign. -/
theorem C173_zero (hF : F.Ok) (as bs : Inp Fp) (hva : as.valid) (hvb : bs.valid) (h0 : as.vals ≠ []) (h64 : as.vals.length < 2 ^ 64)
    (hf : ∀ x ∈ as.vals, Finite F x) (he : as.vals = bs.vals) (w : ω) :
    sse F as bs w = .ok zero w ∧ mse F as bs w = .ok zero w ∧ rmse F as bs w = .ok zero w := by
  refine ⟨?_, ?_, ?_⟩
  · rw [sse_run hva hvb, ← he, sse_self _ hf]
  · rw [mse_run hva hvb, ← he, errors_self _ hf, meanL_zeros hF (List.length_pos_iff.2 h0) h64]
  · rw [rmse_run hva hvb, ← he, errors_self _ hf, meanL_zeros hF (List.length_pos_iff.2 h0) h64]
    rfl

/-- **C173, what holds.**  For non-empty finite data that agree, `nrmse_mean` is a zero if their mean is not, and NaN if it
is. -/
theorem C173_mean_partial (hF : F.Ok) (as bs : Inp Fp) (hva : as.valid) (hvb : bs.valid) (h0 : as.vals ≠ [])
    (h64 : as.vals.length < 2 ^ 64) (hf : ∀ x ∈ as.vals, Finite F x) (he : as.vals = bs.vals) (w : ω) :
    ∃ m r, mean F bs w = .ok m w ∧ nrmseMean F as bs w = .ok r w ∧ (IsZero m → r = .nan) ∧ (¬ IsZero m → IsZero r) := by
  have hm := mean_run (F := F) bs w
  refine ⟨_, _, hm, ?_, div_zero_zero, div_zero_nonzero (he ▸ meanL_not_nan hF h0 h64 hf)⟩
  rw [nrmseMean, Cpp.bind_ok (C173_zero hF as bs hva hvb h0 h64 hf he w).2.2, Cpp.bind_ok hm]
  rfl

/-- **C173, what holds.**  For non-empty finite data that agree, `nrmse_max_min` is a zero, except for data that are all one
number not below `NumericLimits::min()` (the least normal positive number): there it is NaN. -/
theorem C173_max_min_partial (hF : F.Ok) (as bs : Inp Fp) (hva : as.valid) (hvb : bs.valid) (h0 : as.vals ≠ [])
    (h64 : as.vals.length < 2 ^ 64) (hf : ∀ x ∈ as.vals, Finite F x) (he : as.vals = bs.vals) (w : ω) :
    ∃ r, nrmseMaxMin F as bs w = .ok r w ∧
      ((∃ c, (∀ x ∈ as.vals, value x = c) ∧ value (minNormal F) ≤ c) → r = .nan) ∧
      ((¬ ∃ c, (∀ x ∈ as.vals, value x = c) ∧ value (minNormal F) ≤ c) → IsZero r) := by
  obtain ⟨d, hd, hnn, hz⟩ := maxMin_isZero (F := F) hF bs (he ▸ h0) (he ▸ hf) w
  rw [← he] at hz
  refine ⟨_, ?_, fun h => div_zero_zero (hz.2 h), fun h => div_zero_nonzero hnn (fun h' => h (hz.1 h'))⟩
  rw [nrmseMaxMin, Cpp.bind_ok (C173_zero hF as bs hva hvb h0 h64 hf he w).2.2, Cpp.bind_ok hd]
  rfl

/-- **C173 is false.**  `{1, -1}` compared with itself has the normalised error NaN, as its mean is zero, and so has `{2, 2}`
with `nrmse_max_min`; without elements every mean is NaN. -/
theorem C173_refuted :
    nrmseMean (ω := Unit) double (fps [.fin false 1, .fin true 1]) (fps [.fin false 1, .fin true 1]) () = .ok .nan () ∧
    nrmseMaxMin (ω := Unit) double (fps [.fin false 2, .fin false 2]) (fps [.fin false 2, .fin false 2]) () = .ok .nan () ∧
    mse (ω := Unit) double (fps []) (fps []) () = .ok .nan () := by
  refine ⟨?_, ?_, ?_⟩ <;> decide +kernel

example : nrmseMean (ω := Unit) double (fps [.fin false 1, .fin true 3]) (fps [.fin false 1, .fin true 3]) () = .ok (.fin true 0) () ∧
    nrmseMaxMin (ω := Unit) double (fps [.fin false 1, .fin true 3]) (fps [.fin false 1, .fin true 3]) () = .ok zero () ∧
    nrmseMaxMin (ω := Unit) double (fps [.fin true 3, .fin true 3]) (fps [.fin true 3, .fin true 3]) () = .ok zero () := by
  refine ⟨?_, ?_, ?_⟩ <;> decide +kernel

end Efp.Props
