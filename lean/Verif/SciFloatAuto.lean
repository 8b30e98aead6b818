import Verif.SciFloatMoreLemmas
import Verif.SciFloatMean

/-! Autocovariance and removal of the mean of floating-point numbers. -/

namespace Efp.SciFloat

open Efp.Prelude Efp.Ieee
open Efp.Scientific (toInt32 toInt32_eq toSize toSize_eq subLag subLag_eq outInp outInp_valid)

variable {ω : Type} {F : Fmt}

theorem nthInt_run {as : Inp Fp} {i : Nat} {x : Fp} (h : as.vals[i]? = some x) :
    (nthInt (i : Int) as : Cpp ω Fp) = pure x := by
  unfold nthInt
  rw [if_pos (by omega), Int.toNat_natCast, nth, h]

theorem autoBody_run {as : Inp Fp} (m : Fp) {lag i : Nat} (hlen : as.vals.length < 2 ^ 31) {x y : Fp}
    (hx : as.vals[i]? = some x) (hy : as.vals[i + lag]? = some y) (s : Fp) (w : ω) :
    autoBody F as m (lag : Int) i (s, w) = .ok () (add F s (mul F (sub F x m) (sub F y m)), w) := by
  have hi : i < 2 ^ 31 := by have := (List.getElem?_eq_some_iff.mp hx).1; omega
  unfold autoBody
  rw [toInt32_eq hi, nthInt_run hx, pure_bind]
  have : ((i : Int) + (lag : Int)) = ((i + lag : Nat) : Int) := by omega
  rw [this, nthInt_run hy, pure_bind]

/-- the products `autocovariance` adds up -/
def lagProds (F : Fmt) (m : Fp) (lag : Nat) (l : List Fp) : List Fp :=
  (l.zip (l.drop lag)).map fun p => mul F (sub F p.1 m) (sub F p.2 m)

theorem autoSum_run {as : Inp Fp} (m : Fp) {lag : Nat} (hlen : as.vals.length < 2 ^ 31) (hlag : lag ≤ as.vals.length) (w : ω) :
    autoSum F as m (lag : Int) (as.vals.length - lag) w = .ok (sumL F (lagProds F m lag as.vals)) w := by
  have hpl : (lagProds F m lag as.vals).length = as.vals.length - lag := by simp [lagProds]
  obtain ⟨s', h1, h2⟩ := forUp_inv (body := autoBody F as m (lag : Int))
    (fun i (s : Fp × ω) => s = (sumL F ((lagProds F m lag as.vals).take i), w)) 0 (as.vals.length - lag) (zero, w) (by simp [sumL])
    (by
      rintro i t _ hi rfl
      have hi1 : i < as.vals.length := by omega
      have hi2 : i + lag < as.vals.length := by omega
      refine ⟨_, autoBody_run m hlen (List.getElem?_eq_getElem hi1) (List.getElem?_eq_getElem hi2) _ w, ?_⟩
      have hip : i < (lagProds F m lag as.vals).length := by omega
      rw [List.take_add_one, List.getElem?_eq_getElem hip, sumL, sumL, List.foldl_append]
      simp [lagProds, Nat.add_comm lag i])
  rw [autoSum, forIndex, h1, h2, Nat.zero_add, ← hpl, List.take_length]

theorem autocovariance_run {as : Inp Fp} (hlen : as.vals.length < 2 ^ 31) {lag : Nat} (hlag : lag ≤ as.vals.length)
    (bessel adjusted : Bool) (w : ω) :
    autocovariance F bessel adjusted as lag w
      = .ok (div F (sumL F (lagProds F (meanL F as.vals) lag as.vals)) (autoDivisor F bessel adjusted as.vals.length lag)) w := by
  have hsub : subLag as.vals.length (lag : Int) = as.vals.length - lag := subLag_eq (by omega) (by omega)
  rw [autocovariance, Cpp.bind_ok (mean_run as w)]
  simp only [length, hsub]
  rw [toInt32_eq (by omega), toSize_eq (by omega), Cpp.bind_ok (autoSum_run _ hlen hlag w)]
  rfl

theorem autoDivisor_zero (bessel adjusted : Bool) {n : Nat} (hn : n < 2 ^ 31) : autoDivisor F bessel adjusted n 0 = divisor F bessel n := by
  have h0 : subLag n 0 = n := by unfold subLag; omega
  have h1 : ((subLag n 1 : Nat) : Int) = ((n : Int) - 1) % 2 ^ 64 := by unfold subLag; omega
  unfold autoDivisor divisor
  cases bessel <;> cases adjusted <;> simp [h0, h1]

theorem autocovariance_zero {as : Inp Fp} (hlen : as.vals.length < 2 ^ 31) (bessel adjusted : Bool) (w : ω) :
    autocovariance F bessel adjusted as 0 w = .ok (varL F bessel as.vals) w := by
  have h := autocovariance_run (F := F) hlen (lag := 0) (by omega) bessel adjusted w
  rw [Nat.cast_zero] at h
  rw [h, autoDivisor_zero _ _ hlen, varL, lagProds, List.drop_zero, zip_self, List.map_map]
  rfl

/-- a number divided by itself -/
theorem div_self_fp (hF : F.Ok) (s : Bool) {m : ℚ} (hm0 : m ≠ 0) : div F (.fin s m) (.fin s m) = one := by
  have h1 : signed s m / signed s m = 1 := by
    have : signed s m ≠ 0 := by cases s <;> simpa [signed] using hm0
    exact div_self this
  have hrep : Rep F (1 : ℚ) := by
    have := rep_int (n := 1) hF (by
      have : (1 : Int) < 2 ^ F.prec := by
        have : 1 < 2 ^ F.prec := Nat.one_lt_two_pow (by have := hF.prec; omega)
        exact_mod_cast this
      simpa using this)
    simpa using this
  have hbig : ¬ (2 : ℚ) ^ F.emax ≤ 1 := by
    have : (2 : ℚ) ^ (0 : Int) < 2 ^ F.emax := zpow_lt2 (by have := hF.size; omega)
    simpa using this
  simp only [div, if_neg hm0, h1, ofExact, round_of_rep hrep, abs_one, if_neg hbig]
  simp [one]

theorem autocorrelation_zero {as : Inp Fp} (hv : as.valid) (hlen : as.vals.length < 2 ^ 31) (bessel adjusted : Bool) (w : ω) :
    autocorrelation F bessel adjusted as 0 w = .ok (div F (varL F bessel as.vals) (varL F bessel as.vals)) w := by
  rw [autocorrelation, Cpp.bind_ok (autocovariance_zero hlen bessel adjusted w), Cpp.bind_ok (variance_run hv bessel w)]
  rfl

theorem sub_nan (x : Fp) : sub F x .nan = .nan := by cases x <;> rfl

theorem meanL_nan {l : List Fp} (h : .nan ∈ l) : meanL F l = .nan := by
  rw [meanL, sumL, foldl_nan l zero (.inr h)]
  rfl

theorem autocovariance_nan {as : Inp Fp} (hlen : as.vals.length < 2 ^ 31) {lag : Nat} (hlag : lag < as.vals.length) (h : .nan ∈ as.vals)
    (bessel adjusted : Bool) (w : ω) : autocovariance F bessel adjusted as lag w = .ok .nan w := by
  rw [autocovariance_run hlen hlag.le, meanL_nan h, sumL, foldl_nan _ zero (.inr _)]
  · rfl
  · have hpos : 0 < (as.vals.zip (as.vals.drop lag)).length := by rw [List.length_zip, List.length_drop]; omega
    obtain ⟨p, hp⟩ := List.exists_mem_of_length_pos hpos
    exact List.mem_map.2 ⟨p, hp, by rw [sub_nan, sub_nan]; rfl⟩

/-! ### the mean removed -/

theorem removeDc_run {as : Inp Fp} (hv : as.valid) (w : ω) :
    removeDc F as w = .ok (outInp [as] (as.vals.map fun x => sub F x (meanL F as.vals))) w := by
  rw [removeDc, Cpp.bind_ok (mean_run as w), (map1_run _ hv w).1]

theorem absSum_mem {l : List Fp} {x : Fp} (h : x ∈ l) : |value x| ≤ absSum l := by
  induction l with
  | nil => cases h
  | cons a l ih =>
    have e : absSum (a :: l) = |value a| + absSum l := by simp [absSum]
    rw [e]
    have := absSum_nonneg l
    have := abs_nonneg (value a)
    rcases List.mem_cons.1 h with rfl | h
    · linarith
    · have := ih h; linarith

theorem meanL_le (hF : F.Ok) (l : List Fp) (h0 : l ≠ []) (h2 : l.length < 2 ^ 64) (h3 : l.length < 2 ^ F.prec) (hs : Finite F (sumL F l)) :
    |value (meanL F l)| ≤ |value (sumL F l)| := by
  have hpos : 0 < l.length := List.length_pos_iff.2 h0
  obtain ⟨hn, hnf⟩ := ofInt_exact hF hpos h2 h3
  have hnq : (1 : ℚ) ≤ l.length := by exact_mod_cast hpos
  have hv : value (ofInt F l.length) = l.length := by rw [hn]; simp [value, signed]
  obtain ⟨z, hz⟩ := div_fin hs hnf (by rw [hv]; linarith)
  rw [hv] at hz
  have hle : |value (sumL F l) / l.length| ≤ |value (sumL F l)| := by
    rw [abs_div, abs_of_pos (show (0 : ℚ) < l.length by linarith)]
    exact div_le_self (abs_nonneg _) hnq
  have h5 : |round F (value (sumL F l) / l.length)| ≤ |value (sumL F l)| := by
    rw [round_abs hF]
    exact round_le_of_rep hF hs.value_rep.abs hle
  have hfin := lt_of_le_of_lt h5 hs.value_lt
  rw [meanL, hz, (ofExact_finite hF z hfin).2]
  exact h5

/-- the greatest number below a power of two -/
theorem rep_lt_pow {q : ℚ} {E : Int} (h : Rep F q) (hlt : |q| < 2 ^ E) : |q| ≤ (2 ^ F.prec - 1) * 2 ^ (E - (F.prec : Int)) := by
  obtain ⟨k, e, hq, hk, he⟩ := h.abs
  have hk1 : (k : ℚ) ≤ 2 ^ F.prec - 1 := by
    have : k ≤ 2 ^ F.prec - 1 := by have := abs_lt.mp hk; omega
    exact_mod_cast this
  have hp0 : (0 : ℚ) ≤ 2 ^ F.prec - 1 := by
    have : (1 : ℚ) ≤ 2 ^ F.prec := one_le_pow₀ (by norm_num)
    linarith
  by_cases hle : e ≤ E - F.prec
  · rw [hq]
    exact mul_le_mul hk1 (zpow_mono2 hle) (zpow_pos2 _).le hp0
  · obtain ⟨n, hn⟩ : ∃ n : Nat, e = E - F.prec + n := ⟨(e - (E - F.prec)).toNat, by omega⟩
    have hpos : (0 : ℚ) < 2 ^ (E - (F.prec : Int)) := zpow_pos2 _
    rw [hq, hn, zpow_addn, mul_comm ((2 : ℚ) ^ _), ← mul_assoc] at hlt ⊢
    have hE : (2 : ℚ) ^ E = 2 ^ F.prec * 2 ^ (E - (F.prec : Int)) := by
      rw [← zpow_natCast, ← zpow_add₀ (by norm_num)]
      congr 1
      omega
    rw [hE] at hlt
    have h1 := lt_of_mul_lt_mul_right hlt hpos.le
    have h2 : k * 2 ^ n < 2 ^ F.prec := by exact_mod_cast h1
    have h3 : k * 2 ^ n ≤ 2 ^ F.prec - 1 := by omega
    have h4 : (k : ℚ) * ((2 ^ n : Int) : ℚ) ≤ 2 ^ F.prec - 1 := by exact_mod_cast h3
    exact mul_le_mul_of_nonneg_right h4 hpos.le

theorem sub_halves (hF : F.Ok) {x m : Fp} (hx : Finite F x) (hm : Finite F m) (h1 : |value x| < 2 ^ (F.emax - 1)) (h2 : |value m| < 2 ^ (F.emax - 1)) :
    Finite F (sub F x m) ∧ |value (sub F x m) - (value x - value m)| ≤ unit F * |value x - value m| := by
  obtain ⟨z, hz⟩ := sub_fin hx hm
  have a1 := rep_lt_pow hx.value_rep h1
  have a2 := rep_lt_pow hm.value_rep h2
  have hE : (2 : ℚ) ^ (F.emax - (F.prec : Int)) = 2 * 2 ^ (F.emax - 1 - (F.prec : Int)) := by
    rw [show F.emax - (F.prec : Int) = 1 + (F.emax - 1 - F.prec) by ring, zpow_add₀ (by norm_num), zpow_one]
  have hE2 : (2 : ℚ) ^ F.emax = 2 ^ F.prec * 2 ^ (F.emax - (F.prec : Int)) := by
    rw [← zpow_natCast, ← zpow_add₀ (by norm_num)]
    congr 1
    omega
  have hpos : (0 : ℚ) < 2 ^ (F.emax - 1 - (F.prec : Int)) := zpow_pos2 _
  have hle : |value x - value m| ≤ (2 ^ F.prec - 1) * 2 ^ (F.emax - (F.prec : Int)) := by
    have := abs_sub (value x) (value m)
    rw [hE]
    linarith
  have hrep : Rep F ((2 ^ F.prec - 1) * 2 ^ (F.emax - (F.prec : Int))) := by
    refine ⟨2 ^ F.prec - 1, F.emax - F.prec, by push_cast; rfl, ?_, by have := hF.range; have := hF.top; omega⟩
    have : (1 : Int) ≤ 2 ^ F.prec := one_le_pow₀ (by norm_num)
    rw [abs_of_nonneg (by omega)]
    omega
  have hfin : |round F (value x - value m)| < 2 ^ F.emax := by
    rw [round_abs hF]
    refine lt_of_le_of_lt (round_le_of_rep hF hrep hle) ?_
    rw [hE2]
    have : (0 : ℚ) < 2 ^ (F.emax - (F.prec : Int)) := zpow_pos2 _
    linarith
  obtain ⟨b1, b2⟩ := ofExact_finite hF z hfin
  rw [hz, b2]
  refine ⟨b1, ?_⟩
  have := round_add_error hx.value_rep hm.value_rep.neg
  simpa [sub_eq_add_neg] using this

theorem removeDc_error (hF : F.Ok) (l : List Fp) (h0 : l ≠ []) (h2 : l.length < 2 ^ 64) (h3 : l.length < 2 ^ F.prec) (hl : ∀ x ∈ l, Finite F x)
    (hlt : (1 + unit F) ^ (l.length - 1) * absSum l < 2 ^ (F.emax - 1)) {x : Fp} (hx : x ∈ l) :
    Finite F (sub F x (meanL F l)) ∧
    |value (sub F x (meanL F l)) - (value x - (l.map value).sum / l.length)|
      ≤ unit F * |value x - (l.map value).sum / l.length|
        + (1 + unit F) * (((1 + unit F) ^ l.length - 1) * (absSum l / l.length) + tiny F) := by
  have hlt' : (1 + unit F) ^ (l.length - 1) * absSum l < 2 ^ F.emax :=
    hlt.trans (zpow_lt2 (by omega))
  obtain ⟨m1, m2⟩ := meanL_error hF l h0 h2 h3 hl hlt'
  obtain ⟨s1, s2⟩ := sumL_error hF l hl hlt'
  have hP := one_le_pow_unit F (l.length - 1)
  have hA := absSum_nonneg l
  have hS := value_sum_le l
  have hs : |value (sumL F l)| ≤ (1 + unit F) ^ (l.length - 1) * absSum l := by
    have := abs_add_le (value (sumL F l) - (l.map value).sum) (l.map value).sum
    rw [sub_add_cancel] at this
    linarith
  have hm := (meanL_le hF l h0 h2 h3 s1).trans_lt (hs.trans_lt hlt)
  have hxl : |value x| < 2 ^ (F.emax - 1) := by
    refine lt_of_le_of_lt ((absSum_mem hx).trans ?_) hlt
    exact le_mul_of_one_le_left hA hP
  obtain ⟨r1, r2⟩ := sub_halves hF (hl x hx) m1 hxl hm
  refine ⟨r1, ?_⟩
  have hu := unit_pos F
  generalize ((1 + unit F) ^ l.length - 1) * (absSum l / l.length) + tiny F = B at *
  generalize (l.map value).sum / (l.length : ℚ) = A at *
  generalize value (meanL F l) = m at *
  generalize value (sub F x (meanL F l)) = r at *
  generalize value x = y at *
  have e1 : |y - m| ≤ |y - A| + |m - A| := by
    have := abs_sub (y - A) (m - A)
    rwa [sub_sub_sub_cancel_right] at this
  have e2 : |r - (y - A)| ≤ |r - (y - m)| + |m - A| := by
    have := abs_sub (r - (y - m)) (m - A)
    have e : r - (y - m) - (m - A) = r - (y - A) := by ring
    rwa [e] at this
  have e3 : unit F * |y - m| ≤ unit F * |y - A| + unit F * B := by
    have := mul_le_mul_of_nonneg_left (e1.trans (add_le_add_right m2 _)) hu.le
    linarith
  linarith

end Efp.SciFloat
