import Verif.Fmt.FloatPrecDigits
import Verif.Fmt.FloatDefault
import Verif.Fmt.FloatBest

/-!
# The value of the number that is printed with a precision: its significand, exponent and first segment
-/

namespace Efp
namespace Fmt

open Dragonbox
open Spec (Format binary32 binary64)

theorem and_shifted {x a b : Nat} (hx : x < 2 ^ (a + b)) : (x &&& (2 ^ b - 1) * 2 ^ a) / 2 ^ a = x / 2 ^ a := by
  have hq : x / 2 ^ a < 2 ^ b := by
    rw [Nat.div_lt_iff_lt_mul (Nat.two_pow_pos _), ← Nat.pow_add, Nat.add_comm b a]; exact hx
  apply Nat.eq_of_testBit_eq
  intro i
  rw [Nat.testBit_div_two_pow, Nat.testBit_div_two_pow, Nat.testBit_and, Nat.testBit_mul_two_pow, Nat.testBit_two_pow_sub_one]
  by_cases hb : i < b
  · simp [hb]
  · simp only [Nat.add_sub_cancel, hb, decide_false, Bool.and_false]
    have : (x / 2 ^ a).testBit i = false := Nat.testBit_lt_two_pow (Nat.lt_of_lt_of_le hq (Nat.pow_le_pow_right (by decide) (by omega)))
    rw [Nat.testBit_div_two_pow] at this
    exact this.symm

theorem finite_lt {G : Format} {m : Nat} (h : G.Finite m) : m < 2 ^ (G.sig + G.expo) := by
  have h1 : m / 2 ^ G.sig < 2 ^ G.expo - 1 := h
  have h2 : m / 2 ^ G.sig < 2 ^ G.expo := Nat.lt_of_lt_of_le h1 (Nat.sub_le _ _)
  rw [Nat.div_lt_iff_lt_mul (Nat.two_pow_pos _)] at h2
  rw [Nat.pow_add, Nat.mul_comm]
  exact h2

/-- `basic_fp::assign` finds the significand and the exponent -/
theorem fpAssign_spec {F : Flt} {G : Format} {m : Nat} (hs : F.sigBits = G.sig) (he : F.expBits = G.expo)
    (hb : F.maxExponent - 1 = G.bias) (hfin : G.Finite m) :
    ∃ closer, fpAssign F m = (G.full m, G.ulp m, closer) := by
  have hlt := finite_lt hfin
  unfold fpAssign
  simp only [hs, he, hb, and_shifted hlt, Nat.and_two_pow_sub_one_eq_mod]
  unfold Format.full Format.ulp
  by_cases h : G.biased m = 0
  · have h' : m / 2 ^ G.sig = 0 := h
    rw [if_pos h, if_pos h, if_pos h']
    exact ⟨_, rfl⟩
  · have h' : ¬ m / 2 ^ G.sig = 0 := h
    rw [if_neg h, if_neg h, if_neg h']
    rw [Nat.add_comm (m % _)]
    exact ⟨_, rfl⟩

theorem mag32_eq (m : Nat) : binary32.mag m = if m / 2 ^ 23 = 0 then ((m % 2 ^ 23 : Nat) : ℚ) * 2 ^ (-149 : Int)
    else (2 ^ 23 + (m % 2 ^ 23 : Nat)) * 2 ^ (((m / 2 ^ 23 : Nat) : Int) - 150) := by
  have hb : binary32.bias = 127 := rfl
  have hs : binary32.sig = 23 := rfl
  unfold Format.mag Format.biased Format.frac
  rw [hb, hs]
  by_cases h : m / 2 ^ 23 = 0
  · rw [if_pos h, if_pos h]; rfl
  · rw [if_neg h, if_neg h]
    congr 2
    push_cast
    ring

theorem mag64_eq (m : Nat) : binary64.mag m = if m / 2 ^ 52 = 0 then ((m % 2 ^ 52 : Nat) : ℚ) * 2 ^ (-1074 : Int)
    else (2 ^ 52 + (m % 2 ^ 52 : Nat)) * 2 ^ (((m / 2 ^ 52 : Nat) : Int) - 1075) := by
  have hb : binary64.bias = 1023 := rfl
  have hs : binary64.sig = 52 := rfl
  unfold Format.mag Format.biased Format.frac
  rw [hb, hs]
  by_cases h : m / 2 ^ 52 = 0
  · rw [if_pos h, if_pos h]; rfl
  · rw [if_neg h, if_neg h]
    congr 2
    push_cast
    ring

/-- widening a `float` keeps the value -/
theorem widen_spec {m : Nat} (hfin : binary32.Finite m) :
    binary64.Finite (widen m) ∧ binary64.mag (widen m) = binary32.mag m ∧ (widen m = 0 ↔ m = 0) := by
  have hb : m / 2 ^ 23 < 255 := hfin
  unfold widen
  simp only
  have hf : m % 2 ^ 23 < 2 ^ 23 := Nat.mod_lt _ (by decide)
  have hm : m / 2 ^ 23 * 2 ^ 23 + m % 2 ^ 23 = m := by rw [Nat.mul_comm]; exact Nat.div_add_mod _ _
  have hmag := mag32_eq m
  rw [hmag]
  generalize m % 2 ^ 23 = f at *
  generalize m / 2 ^ 23 = b at *
  have big : ∀ B G : Nat, G < 2 ^ 52 → 0 < B → B < 2047 → binary64.Finite (B * 2 ^ 52 + G) ∧
      binary64.mag (B * 2 ^ 52 + G) = (2 ^ 52 + (G : ℚ)) * 2 ^ ((B : Int) - 1075) := by
    intro B G hG hB hB2
    obtain ⟨h3, h4⟩ := binary64.parts (b := B) (f := G) hG
    have h3' : (B * 2 ^ 52 + G) / 2 ^ 52 = B := h3
    have h4' : (B * 2 ^ 52 + G) % 2 ^ 52 = G := h4
    constructor
    · unfold Format.Finite; rw [show binary64.biased (B * 2 ^ 52 + G) = B from h3]; exact hB2
    · rw [mag64_eq, h3', h4', if_neg (by omega)]
  by_cases hb0 : b = 0
  · rw [if_pos hb0, if_pos hb0]
    by_cases hf0 : f = 0
    · rw [if_pos hf0, hf0]
      refine ⟨by unfold Format.Finite Format.biased; decide, ?_, by subst hb0; simp [← hm, hf0]⟩
      rw [Format.mag_zero]; simp
    · rw [if_neg hf0]
      have hl := Nat.log2_lt hf0 |>.2 hf
      have hlo := Nat.log2_self_le hf0
      have hhi := Nat.lt_log2_self (n := f)
      generalize f.log2 = j at *
      have hG : (f - 2 ^ j) * 2 ^ (52 - j) < 2 ^ 52 := by
        have e : (2 : Nat) ^ 52 = 2 ^ j * 2 ^ (52 - j) := by rw [← Nat.pow_add, Nat.add_sub_cancel' (by omega)]
        rw [e]
        exact Nat.mul_lt_mul_of_pos_right (by rw [pow_succ] at hhi; omega) (Nat.two_pow_pos _)
      obtain ⟨g1, g2⟩ := big (j + 874) _ hG (by omega) (by omega)
      refine ⟨g1, ?_, iff_of_false (fun h => ?_) (fun h => ?_)⟩
      rotate_left
      · have := (Nat.mul_eq_zero.1 (Nat.add_eq_zero_iff.1 h).1).resolve_right (Nat.two_pow_pos 52).ne'
        omega
      · rw [h] at hm
        exact hf0 (Nat.add_eq_zero_iff.1 hm).2
      rw [g2]
      push_cast [Nat.cast_sub hlo]
      have e1 : (2 : ℚ) ^ 52 = 2 ^ j * 2 ^ (52 - j) := by rw [← pow_add, Nat.add_sub_cancel' (by omega)]
      have e2 : (2 : ℚ) ^ ((j : Int) + 874 - 1075) * 2 ^ (52 - j) = 2 ^ (-149 : Int) := by
        rw [← zpow_natCast, ← zpow_add₀ (by norm_num), show (j : Int) + 874 - 1075 + ((52 - j : Nat) : Int) = -149 by omega]
      rw [e1, ← add_mul, mul_assoc, mul_comm (2 ^ (52 - j) : ℚ), e2]
      ring
  · rw [if_neg hb0, if_neg hb0]
    obtain ⟨g1, g2⟩ := big (b + 896) (f * 2 ^ 29) (by omega) (by omega) (by omega)
    refine ⟨g1, ?_, iff_of_false (fun h => ?_) (fun h => ?_)⟩
    rotate_left
    · have := (Nat.mul_eq_zero.1 (Nat.add_eq_zero_iff.1 h).1).resolve_right (Nat.two_pow_pos 52).ne'
      omega
    · rw [h] at hm
      exact hb0 ((Nat.mul_eq_zero.1 (Nat.add_eq_zero_iff.1 hm).1).resolve_right (Nat.two_pow_pos 23).ne')
    rw [g2]
    push_cast
    rw [show ((b : Int) - 150) = ((b : Int) + 896 - 1075) + 29 by ring, zpow_add₀ (by norm_num)]
    norm_num
    ring

/-- the significand is moved to 54 bits -/
theorem normalize_spec {m : Nat} (hm : m ≠ 0) (hfin : binary64.Finite m) :
    ∃ u e, normalize m = .ok (u, e) ∧ 2 ^ 53 ≤ u ∧ u < 2 ^ 54 ∧ -1126 ≤ e ∧ e ≤ 971 ∧ binary64.mag m = u * 2 ^ (e - 1) := by
  have hlt := finite_lt hfin
  have hb : m / 2 ^ 52 < 2047 := hfin
  have hf : m % 2 ^ 52 < 2 ^ 52 := Nat.mod_lt _ (by decide)
  have hmm : m / 2 ^ 52 * 2 ^ 52 + m % 2 ^ 52 = m := by rw [Nat.mul_comm]; exact Nat.div_add_mod _ _
  have hmag := mag64_eq m
  rw [hmag]
  unfold normalize
  simp only
  rw [and_shifted (a := 52) (b := 11) hlt, Nat.and_two_pow_sub_one_eq_mod]
  generalize m % 2 ^ 52 = f at *
  generalize m / 2 ^ 52 = b at *
  by_cases hb0 : b = 0
  · rw [if_neg (by simp [hb0]), if_pos hb0]
    have hf0 : f ≠ 0 := by
      rintro rfl
      subst hb0
      exact hm (by rw [← hmm, Nat.zero_mul])
    have hl := (Nat.log2_lt hf0).2 hf
    have hlo := Nat.log2_self_le hf0
    have hhi := Nat.lt_log2_self (n := f)
    generalize f.log2 = j at *
    rw [assert_ok hf0, ok_bind, assert_ok (by omega), ok_bind, shl_ok (by omega) (by omega), ok_bind]
    have hto : ((63 : Int) - (j : Nat) - (64 - 52 - 2)).toNat = 53 - j := by omega
    rw [hto]
    have e53 : (2 : Nat) ^ 53 = 2 ^ j * 2 ^ (53 - j) := by rw [← Nat.pow_add, Nat.add_sub_cancel' (by omega)]
    have h1 : 2 ^ 53 ≤ f * 2 ^ (53 - j) := by rw [e53]; exact Nat.mul_le_mul_right _ hlo
    have h2 : f * 2 ^ (53 - j) < 2 ^ 54 := by
      rw [show (2 : Nat) ^ 54 = 2 ^ (j + 1) * 2 ^ (53 - j) by rw [← Nat.pow_add, show j + 1 + (53 - j) = 54 by omega]]
      exact Nat.mul_lt_mul_of_pos_right hhi (Nat.two_pow_pos _)
    rw [Nat.mod_eq_of_lt (by omega)]
    refine ⟨_, _, rfl, h1, h2, by omega, by omega, ?_⟩
    push_cast
    rw [mul_assoc, ← zpow_natCast, ← zpow_add₀ (by norm_num)]
    congr 2
    omega
  · rw [if_pos (by simpa using hb0), if_neg hb0]
    have hor : f ||| 2 ^ 52 = f + 2 ^ 52 := by
      have := Nat.two_pow_add_eq_or_of_lt hf 1
      rw [Nat.mul_one] at this
      rw [Nat.or_comm, ← this, Nat.add_comm]
    rw [hor, shl_ok (by omega) (by omega), ok_bind]
    refine ⟨_, _, rfl, ?_, ?_, ?_, ?_, ?_⟩
    · show _ ≤ (f + 2 ^ 52) * 2 ^ 1 % 2 ^ 64; omega
    · show (f + 2 ^ 52) * 2 ^ 1 % 2 ^ 64 < _; omega
    · omega
    · omega
    · have : (f + 2 ^ 52) * 2 ^ (1 : Int).toNat % 2 ^ 64 = (f + 2 ^ 52) * 2 := by
        show (f + 2 ^ 52) * 2 ^ 1 % 2 ^ 64 = _; omega
      rw [this, show ((b : Int) - 1075) = ((b : Int) - (1023 + 52) - 1) + 1 by ring, zpow_add₀ (by norm_num)]
      push_cast
      ring

/-- the first segment: `T` is the integer part of the number times a power of 10 -/
theorem firstSegment_spec {u : Nat} {e : Int} (hu1 : 2 ^ 53 ≤ u) (hu2 : u < 2 ^ 54) (he1 : -1126 ≤ e) (he2 : e ≤ 971) :
    ∃ (T d : Nat) (more : Bool) (k : Int), firstSegment u e = .ok (T * 10 ^ (19 - d), more, d, -k) ∧
      (d = 18 ∨ d = 19) ∧ 10 ^ (d - 1) ≤ T ∧ T < 10 ^ d ∧ (T : ℚ) ≤ u * 2 ^ (e - 1) * 10 ^ k ∧
      (u * 2 ^ (e - 1) * 10 ^ k : ℚ) < T + 1 ∧ (more = true ↔ (u * 2 ^ (e - 1) * 10 ^ k : ℚ) ≠ T) ∧ -400 < k ∧ k < 400 := by
  obtain ⟨l, lb, cache, X, Y, row⟩ := row64 (okRowDouble_all he1 he2)
  change U128 at cache
  have hlog := row.log
  have hkap : -(l - flt64.kappa) = 2 - l := by show -(l - 2) = _; ring
  have hpow := row.power
  have hlog2 := row.log2
  have hX := row.hX
  have hY := row.hY
  rw [hkap] at hpow hlog2 hX hY
  have hpow' : doubleCachedPower (2 - l) = .ok cache := hpow
  obtain ⟨v, hv, hm1, hm2⟩ := row.mul u (by omega) (by split <;> omega) (by show u ≤ 2 ^ 54; omega)
  have hm2 := hm2 (by omega)
  have hv' : shl 64 u (e + lb) = .ok v := hv
  have hlow : 100 * Y ≤ 2 * X := row.lower
  have hup : 2 * X < 1000 * Y := row.upper
  have hpos := row.pos
  have hval : (u * 2 ^ (e - 1) * 10 ^ (2 - l) : ℚ) * Y = ((u * X : Nat) : ℚ) := by
    push_cast
    rw [hX, hY, Spec.numer_denom]
    ring
  have hYq : (0 : ℚ) < Y := by exact_mod_cast hpos
  obtain ⟨T, hT⟩ : ∃ T, T = u * X / Y := ⟨_, rfl⟩
  have hr1 : (umul192Upper128 v cache).hi = T := hm1.trans hT.symm
  have hT1 : T * Y ≤ u * X := by rw [hT]; exact Nat.div_mul_le_self _ _
  have hT2 : u * X < (T + 1) * Y := by rw [hT, Nat.add_mul, Nat.one_mul]; exact Nat.lt_div_mul_add hpos
  have hTlo : 10 ^ 17 ≤ T := by
    rw [hT, Nat.le_div_iff_mul_le hpos]
    have := Nat.mul_le_mul hu1 hlow
    nlinarith
  have hThi : T < 10 ^ 19 := by
    rw [hT, Nat.div_lt_iff_lt_mul hpos]
    have := Nat.mul_le_mul (Nat.le_of_lt hu2) (Nat.le_of_lt hup)
    nlinarith
  have hq1 : (T : ℚ) ≤ u * 2 ^ (e - 1) * 10 ^ (2 - l) := by
    have : ((T * Y : Nat) : ℚ) ≤ ((u * X : Nat) : ℚ) := by exact_mod_cast hT1
    rw [← hval] at this
    push_cast at this
    exact le_of_mul_le_mul_right this hYq
  have hq2 : (u * 2 ^ (e - 1) * 10 ^ (2 - l) : ℚ) < T + 1 := by
    have : ((u * X : Nat) : ℚ) < (((T + 1) * Y : Nat) : ℚ) := by exact_mod_cast hT2
    rw [← hval] at this
    push_cast at this
    exact lt_of_mul_lt_mul_right this hYq.le
  have hmore : decide ((umul192Upper128 v cache).lo ≠ 0) = true ↔ (u * 2 ^ (e - 1) * 10 ^ (2 - l) : ℚ) ≠ T := by
    have hz : (umul192Upper128 v cache).lo = 0 ↔ Y ∣ u * X := by
      rw [← hm2]
      show _ ↔ decide ((umul192Upper128 v cache).lo = 0) = true
      simp
    rw [decide_eq_true_eq, Ne, hz, not_iff_not]
    constructor
    · rintro ⟨c, hc⟩
      have : T = c := by rw [hT, hc, Nat.mul_div_cancel_left _ hpos]
      rw [hc, this.symm] at hval
      push_cast at hval
      rw [mul_comm (Y : ℚ)] at hval
      exact mul_right_cancel₀ hYq.ne' hval
    · intro h
      rw [h] at hval
      have : T * Y = u * X := by exact_mod_cast hval
      exact ⟨T, by rw [← this, Nat.mul_comm]⟩
  have hl : -400 < 2 - l ∧ 2 - l < 400 := by
    unfold doubleCachedPower assert at hpow'
    by_cases h : 2 - l ≥ -292 ∧ 2 - l ≤ 341
    · omega
    · rw [if_neg h] at hpow'
      exact absurd hpow' (by intro h; cases h)
  unfold firstSegment
  rw [hlog, ok_bind]
  simp only
  rw [hlog2, ok_bind, hv', ok_bind, hpow', ok_bind, hr1]
  by_cases h19 : T ≥ 1000000000000000000
  · rw [if_pos h19]
    refine ⟨T, 19, _, _, ?_, .inr rfl, by omega, hThi, hq1, hq2, hmore, hl⟩
    simp
  · rw [if_neg h19]
    refine ⟨T, 18, _, _, ?_, .inl rfl, by omega, by omega, hq1, hq2, hmore, hl⟩
    rw [Nat.mod_eq_of_lt (by omega)]
    rfl

end Fmt
end Efp
