import Verif.Fmt.FloatPrecFormat
import Verif.Fmt.FloatDenote

/-!
# The texts of floating-point numbers with a precision
-/

namespace Efp
namespace Fmt

open Spec Dragonbox

/-! ## Fixed notation -/

theorem fixedText_ne (n : Nat) : Nat.toDigits 10 n ≠ [] := (isDigits_toDigits n).1

theorem floatBody_fixed (n p : Nat) (fs : FloatSpecs) (hf : fs.format = .fixed) (hp : fs.precision = p) (alt : Bool)
    (hs : fs.showpoint = (alt || decide (p ≠ 0))) :
    floatBody (Nat.toDigits 10 n) (-(p : Int)) fs = fixedText n p alt := by
  have hlen := Nat.length_toDigits_pos (b := 10) (n := n)
  have hne : Nat.toDigits 10 n ≠ [] := fixedText_ne n
  unfold floatBody fixedText digitCount
  rw [if_neg (by unfold UsesExp; rw [hf]; simp), hp, hs]
  generalize Nat.toDigits 10 n = ds at *
  by_cases h0 : p = 0
  · subst h0
    have h1 : 0 + 1 - ds.length = 0 := by omega
    have h2 : (0 - (0 + (ds.length : Int))).toNat = 0 := by omega
    cases alt <;> simp [h1]
  · rw [if_neg (by omega)]
    by_cases h1 : -(p : Int) + ds.length > 0
    · have h2 : p + 1 - ds.length = 0 := by omega
      have h3 : (-(p : Int) + ds.length).toNat = ds.length - p := by omega
      have h4 : ((p : Int) - ds.length).toNat = 0 := by omega
      rw [if_pos h1, h3]
      simp [h0, h2, h4]
    · have h2 : p + 1 - ds.length = (p - ds.length) + 1 := by omega
      have h3 : (-(-(p : Int) + ds.length)).toNat = p - ds.length := by omega
      have h4 : (List.replicate (p + 1 - ds.length) '0' ++ ds).length - p = 1 := by
        rw [List.length_append, List.length_replicate]; omega
      rw [if_neg h1]
      simp only [h4]
      rw [if_pos (Or.inr (Or.inl hne)), if_neg (fun h => hne h.1), h3, h2, List.replicate_succ, if_neg (fun h => h0 h.1)]
      simp

theorem floatBody_fixed_nil (p : Nat) (E : Int) (hE : E < -(p : Int)) (fs : FloatSpecs) (hf : fs.format = .fixed)
    (hp : fs.precision = p) (alt : Bool) (hs : fs.showpoint = (alt || decide (p ≠ 0))) :
    floatBody [] E fs = fixedText 0 p alt := by
  unfold floatBody fixedText digitCount
  rw [if_neg (by unfold UsesExp; rw [hf]; simp), hp, hs]
  have h0 : Nat.toDigits 10 0 = ['0'] := rfl
  have h1 : ¬ E ≥ 0 := by omega
  have h2 : ¬ E + (([] : Str).length : Int) > 0 := by simp; omega
  have h3 : (p : Int) < -E := by omega
  rw [if_neg h1, if_neg h2, if_pos ⟨rfl, by omega, h3⟩, h0]
  have h4 : p + 1 - (['0'] : Str).length = p := by simp
  have h5 : (List.replicate p '0' ++ ['0']).length - p = 1 := by simp
  simp only [h4, h5]
  rw [← List.replicate_succ']
  cases p with
  | zero => cases alt <;> simp
  | succ p => simp [List.replicate_succ]

theorem floatBody_fixed_zero (p : Nat) (hp0 : p ≠ 0) (fs : FloatSpecs) (hf : fs.format = .fixed)
    (hp : fs.precision = p) (alt : Bool) (hs : fs.showpoint = (alt || decide (p ≠ 0))) :
    floatBody (List.replicate p '0') (-(p : Int)) fs = fixedText 0 p alt := by
  unfold floatBody fixedText digitCount
  rw [if_neg (by unfold UsesExp; rw [hf]; simp), hp, hs]
  have h0 : Nat.toDigits 10 0 = ['0'] := rfl
  have h4 : p + 1 - (['0'] : Str).length = p := by simp
  have h5 : (List.replicate p '0' ++ ['0']).length - p = 1 := by simp
  rw [h0]
  simp only [h4, h5]
  rw [← List.replicate_succ', if_neg (by omega), if_neg (by simp)]
  cases p with
  | zero => exact absurd rfl hp0
  | succ p => simp [List.replicate_succ]

/-! ## Rounded digits -/

theorem _root_.Efp.Spec.IsRoundEven.int {N n : Nat} (h : IsRoundEven N n) : n = N := by
  have h1 := h.1
  rw [abs_le] at h1
  have h2 : (N : ℚ) < n + 1 := by linarith
  have h3 : (n : ℚ) < N + 1 := by linarith
  have h4 : N < n + 1 := by exact_mod_cast h2
  have h5 : n < N + 1 := by exact_mod_cast h3
  omega

theorem _root_.Efp.Spec.IsRoundEven.ge {q : ℚ} {n N : Nat} (h : IsRoundEven q n) (hq : (N : ℚ) ≤ q) : N ≤ n := by
  have h1 := (abs_le.1 h.1).2
  have h2 : (N : ℚ) < n + 1 := by linarith
  have : N < n + 1 := by exact_mod_cast h2
  omega

theorem _root_.Efp.Spec.IsRoundEven.le {q : ℚ} {n N : Nat} (h : IsRoundEven q n) (hq : q ≤ N) : n ≤ N := by
  have h1 := (abs_le.1 h.1).1
  have h2 : (n : ℚ) < N + 1 := by linarith
  have : n < N + 1 := by exact_mod_cast h2
  omega

theorem toDigits_mul_pow {n : Nat} (hn : 0 < n) : ∀ j, Nat.toDigits 10 (n * 10 ^ j) = Nat.toDigits 10 n ++ List.replicate j '0'
  | 0 => by simp
  | j + 1 => by
    have h : 0 < n * 10 ^ j := Nat.mul_pos hn (Nat.pow_pos (by decide))
    rw [pow_succ, ← mul_assoc, Nat.toDigits_of_base_le (by decide) (by omega), Nat.mul_div_cancel _ (by decide),
      Nat.mul_mod_left, toDigits_mul_pow hn j, List.replicate_succ', List.append_assoc]
    rfl

theorem digitCount_pow {n p : Nat} (h1 : 10 ^ p ≤ n) (h2 : n < 10 ^ (p + 1)) : (Nat.toDigits 10 n).length = p + 1 :=
  length_toDigits (by decide) (by omega) h2 (.inr (by simpa using h1))

theorem _root_.Efp.Spec.IsExp10.scaled {q : ℚ} {k : Int} (h : IsExp10 q k) (p : Nat) :
    ((10 ^ p : Nat) : ℚ) ≤ q / 10 ^ (k - p) ∧ q / 10 ^ (k - p) < ((10 ^ (p + 1) : Nat) : ℚ) := by
  have h0 : (0 : ℚ) < 10 ^ (k - p) := by positivity
  rw [le_div_iff₀ h0, div_lt_iff₀ h0]
  push_cast
  rw [← zpow_natCast, ← zpow_natCast, ← zpow_add₀ (by norm_num), ← zpow_add₀ (by norm_num)]
  have e1 : (p : Int) + (k - p) = k := by omega
  have e2 : ((p + 1 : Nat) : Int) + (k - p) = k + 1 := by push_cast; omega
  rw [e1, e2]
  exact h

/-- 767 significant digits are all there are -/
theorem exact_digits {F : Flt} {G : Format} (h : IsFlt F G) {m : Nat} (hm : m ≠ 0) (hfin : G.Finite m) {k : Int}
    (hk : IsExp10 (G.mag m) k) : ∃ N : Nat, G.mag m / 10 ^ (k - 766) = N := by
  obtain ⟨f, e, c, -, hf0, hf, he1, he2, hq⟩ := dragonArgs_spec h hm hfin
  have hlt : G.mag m < 2 ^ (53 + e) := by
    rw [hq, zpow_add₀ (by norm_num)]
    apply mul_lt_mul_of_pos_right _ (by positivity)
    have : (f : ℚ) < ((2 ^ 53 : Nat) : ℚ) := by exact_mod_cast hf
    push_cast at this
    exact_mod_cast this
  have hk1 : k < 767 + e := by
    by_contra hc
    have h1 : (10 : ℚ) ^ (767 + e) ≤ 10 ^ k := zpow_le_zpow_right₀ (by norm_num) (by omega)
    have h2 : (2 : ℚ) ^ (53 + e) ≤ 10 ^ (767 + e) := by
      have h10 : (10 : ℚ) ^ e = 2 ^ e * 5 ^ e := by rw [← mul_zpow]; norm_num
      rw [zpow_add₀ (by norm_num), zpow_add₀ (by norm_num), h10]
      have h5 : (5 : ℚ) ^ (-1074 : Int) ≤ 5 ^ e := zpow_le_zpow_right₀ (by norm_num) he1
      have h6 : (2 : ℚ) ^ (53 : Int) ≤ 10 ^ (767 : Int) * 5 ^ (-1074 : Int) := by
        rw [zpow_neg, ← div_eq_mul_inv, le_div_iff₀ (by positivity)]
        have : (2 ^ 53 * 5 ^ 1074 : Nat) ≤ 10 ^ 767 := by decide +kernel
        exact_mod_cast this
      have h7 : (0 : ℚ) < 2 ^ e := by positivity
      calc (2 : ℚ) ^ (53 : Int) * 2 ^ e ≤ (10 ^ (767 : Int) * 5 ^ (-1074 : Int)) * 2 ^ e :=
            mul_le_mul_of_nonneg_right h6 h7.le
        _ ≤ (10 ^ (767 : Int) * 5 ^ e) * 2 ^ e := by
            apply mul_le_mul_of_nonneg_right _ h7.le
            exact mul_le_mul_of_nonneg_left h5 (by positivity)
        _ = 10 ^ (767 : Int) * (2 ^ e * 5 ^ e) := by ring
    linarith [hk.1]
  have hk2 : k < 309 := by
    by_contra hc
    have h1 : (10 : ℚ) ^ (309 : Int) ≤ 10 ^ k := zpow_le_zpow_right₀ (by norm_num) (by omega)
    have h2 : (2 : ℚ) ^ (53 + e) ≤ 2 ^ (1024 : Int) := zpow_le_zpow_right₀ (by norm_num) (by omega)
    have h3 : (2 : ℚ) ^ (1024 : Int) ≤ 10 ^ (309 : Int) := by
      have : (2 ^ 1024 : Nat) ≤ 10 ^ 309 := by decide +kernel
      exact_mod_cast this
    exact absurd (lt_of_le_of_lt hk.1 hlt) (not_lt.2 (h2.trans (h3.trans h1)))
  obtain ⟨j, hj⟩ : ∃ j : Nat, (766 : Int) - k = j := ⟨(766 - k).toNat, by omega⟩
  have hdiv : G.mag m / 10 ^ (k - 766) = f * 2 ^ e * 10 ^ j := by
    rw [hq, show k - 766 = -(j : Int) by omega, zpow_neg, div_inv_eq_mul, zpow_natCast]
  rw [hdiv]
  rcases Int.le_total 0 e with h0 | h0
  · obtain ⟨u, rfl⟩ := Int.eq_ofNat_of_zero_le h0
    refine ⟨f * 2 ^ u * 10 ^ j, ?_⟩
    push_cast
    rw [zpow_natCast]
  · obtain ⟨u, hu⟩ : ∃ u : Nat, e = -(u : Int) := ⟨(-e).toNat, by omega⟩
    obtain ⟨d, hd⟩ : ∃ d : Nat, j = u + d := ⟨j - u, by omega⟩
    refine ⟨f * 2 ^ d * 5 ^ j, ?_⟩
    subst hu
    have h10 : (10 : ℚ) ^ j = 2 ^ u * 2 ^ d * 5 ^ j := by rw [← pow_add, ← hd, ← mul_pow]; norm_num
    rw [zpow_neg, zpow_natCast, h10]
    push_cast
    have : (2 : ℚ) ^ u ≠ 0 := by positivity
    field_simp

/-- the digits for exponent and general notation: those of the number rounded to `p + 1` digits, without the zeros
beyond the 767th -/
theorem formatDigits_significant {F : Flt} {G : Format} (h : IsFlt F G) {m : Nat} (hm : m ≠ 0) (hfin : G.Finite m) (p : Nat) :
    ∃ N x ds, IsRounded (G.mag m) p N x ∧ -1000 < x ∧ x < 1001 ∧ ds.length = min (p + 1) 767 ∧
      Nat.toDigits 10 N = ds ++ List.replicate (p + 1 - ds.length) '0' ∧
      formatDigits F m (p + 1 : Nat) false (decide (F.w = 32)) = .ok (ds, x + 1 - ds.length) := by
  obtain ⟨k, hk, hk1, hk2, hc⟩ := formatDigits_spec h hm hfin (p + 1 : Nat) (by omega) false
  rcases hc with ⟨h1, -⟩ | ⟨-, P, hP, hc⟩
  · exact absurd h1 (by decide)
  simp only [Bool.false_eq_true, if_false] at hP
  rcases hc with ⟨h1, -⟩ | ⟨h1, -⟩ | ⟨-, n, hn, hr⟩
  · omega
  · omega
  have hPn : P.toNat = p + 1 := by omega
  rw [hPn] at hn hr
  rcases Nat.lt_or_ge 767 (p + 1) with hp | hp
  · have hmin : min (p + 1) 767 = 767 := by omega
    rw [hmin] at hn hr
    rw [show k + 1 - ((767 : Nat) : Int) = k - 766 by push_cast; omega] at hn hr
    obtain ⟨N, hN⟩ := exact_digits h hm hfin hk
    rw [hN] at hn
    obtain rfl := hn.int
    have hb := hk.scaled 766
    rw [show k - ((766 : Nat) : Int) = k - 766 from rfl, hN] at hb
    have hb1 : 10 ^ 766 ≤ n := by exact_mod_cast hb.1
    have hb2 : n < 10 ^ (766 + 1) := by exact_mod_cast hb.2
    have hlen := digitCount_pow hb1 hb2
    have hn0 : 0 < n := lt_of_lt_of_le (Nat.pow_pos (by decide)) hb1
    obtain ⟨j, hj⟩ : ∃ j, p = 766 + j := ⟨p - 766, by omega⟩
    refine ⟨n * 10 ^ j, k, Nat.toDigits 10 n, ⟨?_, ?_, k, n * 10 ^ j, hk, ?_, rfl⟩, hk1, by omega, ?_, ?_, ?_⟩
    · rw [hj, pow_add]; exact Nat.mul_le_mul_right _ hb1
    · rw [hj, show 766 + j + 1 = (766 + 1) + j by omega, pow_add]
      exact Nat.mul_lt_mul_of_pos_right hb2 (Nat.pow_pos (by decide))
    · have : G.mag m / 10 ^ (k - p) = ((n * 10 ^ j : Nat) : ℚ) := by
        push_cast
        rw [← hN, hj, show k - ((766 + j : Nat) : Int) = (k - 766) - j by push_cast; omega, zpow_sub₀ (by norm_num), zpow_natCast]
        have : (10 : ℚ) ^ j ≠ 0 := by positivity
        have : (10 : ℚ) ^ (k - 766) ≠ 0 := by positivity
        field_simp
      rw [this]
      refine ⟨?_, fun h => ?_⟩
      · rw [sub_self, abs_zero]; norm_num
      · rw [sub_self, abs_zero] at h; norm_num at h
    · rw [hlen, hmin]
    · rw [toDigits_mul_pow hn0, hlen, show p + 1 - (766 + 1) = j by omega]
    · rw [hr]
      unfold digitsOf
      rw [if_neg (fun h => absurd h.2 (Nat.ne_of_lt hb2)), hlen]
      rw [show k + 1 - ((766 + 1 : Nat) : Int) = k - 766 by push_cast; omega]
  · have hmin : min (p + 1) 767 = p + 1 := by omega
    rw [hmin] at hn hr
    rw [show k + 1 - ((p + 1 : Nat) : Int) = k - p by push_cast; omega] at hn hr
    have hb := hk.scaled p
    have hb1 := hn.ge hb.1
    have hb2 := hn.le hb.2.le
    by_cases hc : n = 10 ^ (p + 1)
    · have hlen : (Nat.toDigits 10 (10 ^ p)).length = p + 1 :=
        digitCount_pow (le_refl _) (Nat.pow_lt_pow_right (by decide) (by omega))
      refine ⟨10 ^ p, k + 1, Nat.toDigits 10 (10 ^ p),
        ⟨le_refl _, Nat.pow_lt_pow_right (by decide) (by omega), k, n, hk, hn, ?_⟩, by omega, by omega, ?_, ?_, ?_⟩
      · rw [hc, show k + 1 - (p : Int) = 1 + (k - p) by omega, zpow_add₀ (by norm_num)]
        push_cast
        ring
      · rw [hlen, hmin]
      · simp [hlen]
      · rw [hr, hlen]
        unfold digitsOf
        rw [if_pos ⟨rfl, hc⟩, Nat.add_sub_cancel, show k + 1 + 1 - ((p + 1 : Nat) : Int) = k - p + 1 by push_cast; omega]
    · have hb3 : n < 10 ^ (p + 1) := by omega
      have hlen := digitCount_pow hb1 hb3
      refine ⟨n, k, Nat.toDigits 10 n, ⟨hb1, hb3, k, n, hk, hn, rfl⟩, hk1, by omega, ?_, ?_, ?_⟩
      · rw [hlen, hmin]
      · simp [hlen]
      · rw [hr, hlen]
        unfold digitsOf
        rw [if_neg (fun h => hc h.2), show k + 1 - ((p + 1 : Nat) : Int) = k - p by push_cast; omega]

end Fmt
end Efp
