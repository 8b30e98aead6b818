import Verif.NumericSqrt
import Verif.IeeeSqrt
import Mathlib.Tactic.Linarith

/-! The `double` root of an integer compared with the integer root. -/

namespace Efp.Numeric

open Efp.Ieee

/-- `v` is a number of the format nearest to `t` -/
def Nearest (v : ℚ) (t : ℝ) : Prop := Rep double v ∧ ∀ r, Rep double r → |(v : ℝ) - t| ≤ |(r : ℝ) - t|

theorem Nearest.le {v : ℚ} {t : ℝ} (h : Nearest v t) {r : ℚ} (hr : Rep double r) (ht : t ≤ r) : v ≤ r := by
  have := h.2 r hr
  by_contra hc
  have hc' : (r : ℝ) < v := by exact_mod_cast not_le.1 hc
  rw [abs_of_nonneg (by linarith), abs_of_nonneg (by linarith)] at this
  linarith

theorem Nearest.ge {v : ℚ} {t : ℝ} (h : Nearest v t) {r : ℚ} (hr : Rep double r) (ht : (r : ℝ) ≤ t) : r ≤ v := by
  have := h.2 r hr
  by_contra hc
  have hc' : (v : ℝ) < r := by exact_mod_cast not_le.1 hc
  rw [abs_of_nonpos (by linarith), abs_of_nonpos (by linarith)] at this
  linarith

/-- a positive integer converted to `double`, and its root -/
theorem root_of {n : Nat} (h1 : 0 < n) (h2 : n < 2 ^ 64) :
    ∃ v : ℚ, Ieee.sqrt double (ofInt double n) = .fin false v ∧ 0 ≤ v ∧ Nearest v (Real.sqrt (Ieee.round double n : ℚ)) := by
  obtain ⟨b, hb, hb1, hf, he⟩ := ofInt_pos double_ok h1 h2
  rw [hb] at hf ⊢
  obtain ⟨hs, hn⟩ := sqrt_correct double_ok hf (by linarith)
  have hnn := sqrt_nonneg_fp (F := double) (x := .fin false b) (.inr ⟨b, by linarith, rfl⟩)
  rcases hnn with h | ⟨m, hm, h⟩
  · rw [h] at hs
    obtain ⟨s, m, hx, -⟩ := hs
    cases hx
  · rw [h] at hs hn ⊢
    obtain ⟨s, m', hx, -, hr, -⟩ := hs
    cases hx
    refine ⟨m, rfl, hm, hr, ?_⟩
    rw [← he]
    simpa [value, signed] using hn

theorem rep_frac {m e : Int} (h : |m| < 2 ^ 53) (he : -1074 ≤ e) : Rep double (m * 2 ^ e) := ⟨m, e, rfl, h, he⟩

theorem rep_nat {n : Nat} (h : n ≤ 2 ^ 53) : Rep double n := by
  rcases Nat.lt_or_eq_of_le h with h | h
  · have := rep_int double_ok (n := n) (by rw [Nat.abs_cast]; exact_mod_cast h)
    simpa using this
  · rw [h]
    have := rep_pow (F := double) (e := 53) (by decide) (by decide)
    convert this using 1
    norm_num

/-- rounding an integer moves it by hardly more than one part in `2^53` -/
theorem round_nat (n : Nat) : |Ieee.round double n - n| ≤ (n + 1) / 2 ^ 53 := by
  have h := round_error double n
  have h1 : unit double = 1 / 2 ^ 53 := by unfold unit double; norm_num
  have h2 : tiny double ≤ 1 / 2 ^ 53 := by
    rw [← h1]; unfold tiny unit; exact zpow_mono2 (by decide)
  rw [h1, abs_of_nonneg (show (0 : ℚ) ≤ n by positivity)] at h
  linarith

/-- the root of an integer is not below its integer root -/
theorem root_ge {n k : Nat} (hk0 : 0 < k) (hk : k * k ≤ n) (hk2 : k < 2 ^ 32) {v : ℚ}
    (hv : Nearest v (Real.sqrt (Ieee.round double n : ℚ))) : (k : ℚ) ≤ v := by
  have hrk : Rep double (k : ℚ) := rep_nat (by omega)
  by_contra hc
  have hc := not_le.1 hc
  -- the binade of `k`
  set e := Nat.log2 k with he
  have hP1 : 2 ^ e ≤ k := Nat.log2_self_le (by omega)
  have hP2 : k < 2 ^ (e + 1) := Nat.lt_log2_self
  have he2 : e < 32 := by
    by_contra hh
    have := Nat.pow_le_pow_right (show 0 < 2 by decide) (not_lt.1 hh)
    omega
  have hp53 : 2 ^ e < 2 ^ 32 := Nat.pow_lt_pow_right (by decide) he2
  have hp1 : 1 ≤ 2 ^ e := Nat.one_le_two_pow
  generalize hP : 2 ^ e = P at *
  have hP3 : k + 1 ≤ 2 * P := by rw [pow_succ] at hP2; omega
  set t := Real.sqrt (Ieee.round double n : ℚ) with ht
  set d := Ieee.round double n with hd
  have hd0 : 0 ≤ d := round_nonneg double_ok (by positivity)
  have htt : t * t = (d : ℝ) := Real.mul_self_sqrt (by exact_mod_cast hd0)
  have ht0 : 0 ≤ t := Real.sqrt_nonneg _
  -- the root is at least `P`
  have hrP : Rep double (P : ℚ) := rep_nat (by omega)
  have hPP : ((P * P : Nat) : ℚ) ≤ d := by
    refine le_round_of_rep double_ok ?_ (by exact_mod_cast (Nat.mul_le_mul hP1 hP1).trans hk)
    have := rep_pow (F := double) (e := ((e + e : Nat) : Int)) (by decide) (by show (-1074 : Int) ≤ _; omega)
    rw [zpow_natCast, pow_add] at this
    rw [← hP]; push_cast; exact this
  have htP : (P : ℝ) ≤ t := by
    refine Real.le_sqrt_of_sq_le ?_
    rw [sq]; exact_mod_cast hPP
  have hvP : (P : ℚ) ≤ v := hv.ge hrP (by exact_mod_cast htP)
  -- both are multiples of the last bit
  have hbase : ∀ q : ℚ, Rep double q → (P : ℚ) ≤ q → ∃ m : Int, q = m * 2 ^ ((e : Int) - 52) := by
    intro q hq hPq
    refine multiple_of_large hq ?_
    rw [show (e : Int) - 52 + (double.prec : Int) - 1 = (e : Int) by show (e : Int) - 52 + 53 - 1 = _; ring, zpow_natCast]
    rw [← hP] at hPq; exact_mod_cast hPq
  obtain ⟨i, hi⟩ := hbase v hv.1 hvP
  obtain ⟨j, hj⟩ := hbase k hrk (by exact_mod_cast hP1)
  have hu : (2 : ℚ) ^ ((e : Int) - 52) = P / 2 ^ 52 := by
    rw [zpow_sub₀ (by norm_num), zpow_natCast, ← hP]; norm_num
  have hup : (0 : ℚ) < P / 2 ^ 52 := by rw [← hu]; exact zpow_pos2 _
  have hij : i + 1 ≤ j := by
    rw [hi, hj, mul_lt_mul_iff_left₀ (zpow_pos2 _)] at hc
    exact_mod_cast hc
  have hvk : v ≤ k - P / 2 ^ 52 := by
    rw [hi, hj, hu]
    have : ((i : ℚ) + 1) ≤ j := by exact_mod_cast hij
    nlinarith
  -- so the root is at most the middle
  have htk : t < k := by
    by_contra hh
    exact absurd (hv.ge hrk (by simpa using not_lt.1 hh)) (not_le.2 hc)
  have hvk' : (v : ℝ) ≤ k - P / 2 ^ 52 := by
    have := (Rat.cast_le (K := ℝ)).2 hvk
    push_cast at this; exact this
  have hmid : t ≤ k - P / 2 ^ 53 := by
    have hn := hv.2 k hrk
    push_cast at hn
    rw [abs_of_nonneg (show (0 : ℝ) ≤ k - t by linarith)] at hn
    have := neg_abs_le ((v : ℝ) - t)
    have e2 : (P : ℝ) / 2 ^ 52 = 2 * (P / 2 ^ 53) := by ring
    linarith
  -- but the rounding error is smaller
  have hdk : (k : ℚ) * k - (k * k + 1) / 2 ^ 53 ≤ d := by
    have h1 : Ieee.round double ((k * k : Nat) : ℚ) ≤ d := round_mono double_ok (by exact_mod_cast hk)
    have h2 := (abs_le.1 (round_nat (k * k))).1
    push_cast at h1 h2 ⊢
    linarith
  have hdk' : (k : ℝ) * k - (k * k + 1) / 2 ^ 53 ≤ t * t := by
    rw [htt]
    have := (Rat.cast_le (K := ℝ)).2 hdk
    push_cast at this; exact this
  have hkP : (P : ℝ) ≤ k := by exact_mod_cast hP1
  have hkP2 : (k : ℝ) + 1 ≤ 2 * P := by exact_mod_cast hP3
  have hPb : (P : ℝ) ≤ 2 ^ 32 := by exact_mod_cast hp53.le
  have hP1' : (1 : ℝ) ≤ P := by exact_mod_cast hp1
  have hs : t * t ≤ (k - P / 2 ^ 53) * (k - P / 2 ^ 53) := mul_self_le_mul_self ht0 hmid
  have h3 : (P : ℝ) * P ≤ 2 ^ 32 * P := by nlinarith
  have h4 : (P : ℝ) * 1 ≤ k * (2 * P - k) := mul_le_mul hkP (by linarith) (by norm_num) (by linarith)
  nlinarith

/-- the root of an integer below `(c + 1/2)^2`, and well below, is at most `c + 1/2` -/
theorem root_le {n c : Nat} (hc : c ≤ 2 ^ 32) (hn : n ≤ c * c) {v : ℚ}
    (hv : Nearest v (Real.sqrt (Ieee.round double n : ℚ))) : v ≤ c + 1 / 2 := by
  have hr : Rep double (((2 * c + 1 : Nat) : Int) * 2 ^ (-1 : Int)) := rep_frac (by rw [Nat.abs_cast]; push_cast; omega) (by decide)
  have e : (((2 * c + 1 : Nat) : Int) * (2 : ℚ) ^ (-1 : Int)) = c + 1 / 2 := by push_cast; norm_num; ring
  rw [e] at hr
  refine hv.le hr ?_
  have hd := (abs_le.1 (round_nat n)).2
  have hn' : (n : ℚ) ≤ c * c := by exact_mod_cast hn
  have hc' : (c : ℚ) ≤ 2 ^ 32 := by exact_mod_cast hc
  have hc0 : (0 : ℚ) ≤ c := by positivity
  have hd2 : Ieee.round double n ≤ (c + 1 / 2) * (c + 1 / 2) := by nlinarith
  rw [Real.sqrt_le_left (by positivity), sq]
  exact_mod_cast hd2

/-- below `2^52 + 2^27` the root of an integer stays below the next integer -/
theorem root_lt {n k : Nat} (hn : n < 2 ^ 52 + 2 ^ 27) (hk : n < (k + 1) * (k + 1)) (hkn : k * k ≤ n) {v : ℚ}
    (hv : Nearest v (Real.sqrt (Ieee.round double n : ℚ))) : v < k + 1 := by
  rw [round_of_rep (rep_nat (by omega))] at hv
  push_cast at hv
  set t := Real.sqrt n with ht
  have htt : t * t = n := Real.mul_self_sqrt (by positivity)
  have ht0 : 0 ≤ t := Real.sqrt_nonneg _
  have hk26 : k ≤ 2 ^ 26 := by
    by_contra hh
    have := Nat.mul_self_le_mul_self (Nat.not_le.1 hh)
    omega
  rcases Nat.lt_or_eq_of_le hk26 with h | h
  · -- a number below `k + 1` that is above the root
    have hr : Rep double ((((k + 1) * 2 ^ 27 - 1 : Nat) : Int) * 2 ^ (-27 : Int)) :=
      rep_frac (by rw [Nat.abs_cast]; push_cast; omega) (by decide)
    have e : ((((k + 1) * 2 ^ 27 - 1 : Nat) : Int) * (2 : ℚ) ^ (-27 : Int)) = k + 1 - 1 / 2 ^ 27 := by
      rw [Int.cast_natCast, Nat.cast_sub (by omega)]; push_cast; norm_num; ring
    rw [e] at hr
    have hle : v ≤ k + 1 - 1 / 2 ^ 27 := by
      refine hv.le hr ?_
      push_cast
      have hk' : (k : ℝ) + 1 ≤ 2 ^ 26 := by exact_mod_cast h
      have hn' : (n : ℝ) + 1 ≤ (k + 1) * (k + 1) := by exact_mod_cast hk
      have hk0 : (0 : ℝ) ≤ k := by positivity
      rw [ht, Real.sqrt_le_left (by norm_num; linarith), sq]
      nlinarith
    have : (0 : ℚ) < 1 / 2 ^ 27 := by norm_num
    linarith
  · subst h
    by_contra hc
    have hc : ((2 ^ 26 + 1 : Nat) : ℚ) ≤ v := by push_cast; push_cast at hc; linarith
    have hc' : (2 ^ 26 + 1 : ℝ) ≤ v := by exact_mod_cast hc
    have hr : Rep double ((((2 ^ 26 + 1) * 2 ^ 26 - 1 : Nat) : Int) * 2 ^ (-26 : Int)) := rep_frac (by decide) (by decide)
    have e : ((((2 ^ 26 + 1) * 2 ^ 26 - 1 : Nat) : Int) * (2 : ℚ) ^ (-26 : Int)) = 2 ^ 26 + 1 - 1 / 2 ^ 26 := by norm_num
    rw [e] at hr
    have h1 := hv.2 _ hr
    push_cast at h1
    have hn' : (n : ℝ) + 1 ≤ 2 ^ 52 + 2 ^ 27 := by exact_mod_cast hn
    rcases le_or_gt t (2 ^ 26 + 1 - 1 / 2 ^ 26) with h2 | h2
    · have := hv.le hr (by push_cast; exact h2)
      norm_num at this hc
      linarith
    · rw [abs_of_neg (a := (2 ^ 26 + 1 - 1 / 2 ^ 26 - t : ℝ)) (by linarith)] at h1
      have := le_abs_self ((v : ℝ) - t)
      have h3 : (2 ^ 26 + 1 - 1 / 2 ^ 27 : ℝ) ≤ t := by linarith
      have := mul_self_le_mul_self (by norm_num) h3
      norm_num at *
      linarith

end Efp.Numeric
