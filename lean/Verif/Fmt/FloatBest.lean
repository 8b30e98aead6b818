import Verif.Fmt.FloatValue
import Verif.Fmt.DragonboxCore

/-!
# The decimal found by `to_decimal` is the shortest one
-/

namespace Efp
namespace Spec

open Fmt.Dragonbox

theorem numer_denom (e k : Int) : (numer e k : ℚ) = denom e k * (2 ^ (e - 1) * 10 ^ k) := by
  unfold numer denom
  have h2 : ∀ a : Int, (2 : ℚ) ^ a.toNat = 2 ^ (-a).toNat * 2 ^ a := by
    intro a
    rw [← zpow_natCast, ← zpow_natCast, ← zpow_add₀ (by norm_num)]
    congr 1
    omega
  have h5 : ∀ a : Int, (5 : ℚ) ^ a.toNat = 5 ^ (-a).toNat * 5 ^ a := by
    intro a
    rw [← zpow_natCast, ← zpow_natCast, ← zpow_add₀ (by norm_num)]
    congr 1
    omega
  push_cast
  rw [h2 (e - 1 + k), h5 k, show -(e - 1 + k) = 1 - e - k by ring, zpow_add₀ (by norm_num),
    show (10 : ℚ) = 2 * 5 by norm_num, mul_zpow]
  ring

/-- the middles on both sides are half a unit away -/
theorem Format.rounds_iff_regular (F : Format) (hs : 0 < F.sig) {m : Nat} (hm : 0 < m) (hfin : F.Finite m)
    (hreg : F.frac m ≠ 0 ∨ F.biased m ≤ 1) (q : ℚ) : F.Rounds q m ↔
      if F.full m % 2 = 0 then (2 * F.full m - 1) * 2 ^ (F.ulp m - 1) ≤ q ∧ q ≤ (2 * F.full m + 1) * 2 ^ (F.ulp m - 1)
      else (2 * F.full m - 1) * 2 ^ (F.ulp m - 1) < q ∧ q < (2 * F.full m + 1) * 2 ^ (F.ulp m - 1) := by
  rw [F.rounds_iff hm hfin, F.mag_succ]
  obtain ⟨h1, h2⟩ := F.split m
  have hpar : F.full m % 2 = m % 2 := by
    unfold Format.full
    obtain ⟨s, hs'⟩ : ∃ s, F.sig = s + 1 := ⟨F.sig - 1, by omega⟩
    rw [hs', Nat.pow_succ] at h1 ⊢
    split
    · conv_rhs => rw [h1]
      simp [Nat.add_mod, Nat.mul_mod]
    · conv_rhs => rw [h1]
      simp [Nat.add_mod, Nat.mul_mod]
  have hulp : F.ulp (m - 1) = F.ulp m := by
    have h0 := Nat.two_pow_pos F.sig
    by_cases hf : F.frac m = 0
    · have hb : F.biased m ≤ 1 := hreg.resolve_left (by simp [hf])
      have hb1 : F.biased m = 1 := by
        rcases Nat.eq_zero_or_pos (F.biased m) with h | h
        · rw [h, hf] at h1; omega
        · omega
      have hm1 : m - 1 = 0 * 2 ^ F.sig + (2 ^ F.sig - 1) := by rw [hb1, hf] at h1; omega
      obtain ⟨h3, -⟩ := F.parts (b := 0) (f := 2 ^ F.sig - 1) (by omega)
      rw [← hm1] at h3
      unfold Format.ulp
      rw [h3, hb1]
      simp
    · have hm1 : m - 1 = F.biased m * 2 ^ F.sig + (F.frac m - 1) := by omega
      obtain ⟨h3, -⟩ := F.parts (b := F.biased m) (f := F.frac m - 1) (by omega)
      rw [← hm1] at h3
      unfold Format.ulp
      rw [h3]
  have hlo : F.mag (m - 1) = F.mag m - 2 ^ F.ulp m := by
    have := F.mag_succ (m - 1)
    rw [show m - 1 + 1 = m by omega, hulp] at this
    linarith
  have h2u : (2 : ℚ) ^ F.ulp m = 2 * 2 ^ (F.ulp m - 1) := by
    conv_lhs => rw [show F.ulp m = (F.ulp m - 1) + 1 by ring, zpow_add₀ (by norm_num), zpow_one]
    ring
  rw [hlo, F.mag_eq, h2u, hpar]
  generalize (2 : ℚ) ^ (F.ulp m - 1) = U
  generalize (F.full m : ℚ) = f
  have e1 : f * (2 * U) - 2 * U + f * (2 * U) = 2 * ((2 * f - 1) * U) := by ring
  have e2 : f * (2 * U) + (f * (2 * U) + 2 * U) = 2 * ((2 * f + 1) * U) := by ring
  rw [e1, e2]
  split
  · rename_i hp
    simp only [hp, and_true]
    constructor
    · rintro ⟨h | h, h' | h'⟩ <;> exact ⟨by linarith, by linarith⟩
    · rintro ⟨h, h'⟩
      refine ⟨?_, ?_⟩
      · rcases lt_or_eq_of_le h with h | h
        · left; linarith
        · right; rw [h]
      · rcases lt_or_eq_of_le h' with h | h
        · left; linarith
        · right; rw [h]
  · rename_i hp
    simp only [hp, and_false, or_false]
    constructor
    · rintro ⟨h, h'⟩; exact ⟨by linarith, by linarith⟩
    · rintro ⟨h, h'⟩; exact ⟨by linarith, by linarith⟩

/-- scaled by a power of ten, the interval is that of `In` -/
theorem Format.rounds_scaled (F : Format) (hs : 0 < F.sig) {m : Nat} (hm : 0 < m) (hfin : F.Finite m)
    (hreg : F.frac m ≠ 0 ∨ F.biased m ≤ 1) (hf : 0 < F.full m) {X Y : Nat} {S : ℚ} (hS : 0 < S) (hY : 0 < Y)
    (hXY : (X : ℚ) * S = Y * 2 ^ (F.ulp m - 1)) (k : Nat) : F.Rounds (k * S) m ↔ In (F.full m) X Y k := by
  rw [F.rounds_iff_regular hs hm hfin hreg]
  unfold In
  generalize (2 : ℚ) ^ (F.ulp m - 1) = U at *
  generalize F.full m = f at *
  have hYq : (0 : ℚ) < Y := by exact_mod_cast hY
  have c1 : ((2 * f - 1 : Nat) : ℚ) = 2 * f - 1 := by
    rw [Nat.cast_sub (by omega)]; push_cast; ring
  have eL : ∀ z : ℚ, z * U * Y = z * X * S := by intro z; rw [mul_assoc z U, mul_comm U, ← hXY]; ring
  have g1 : (2 * (f : ℚ) - 1) * U ≤ k * S ↔ (2 * f - 1) * X ≤ k * Y := by
    rw [← mul_le_mul_iff_left₀ hYq, eL, show (k : ℚ) * S * Y = (k * Y) * S by ring, mul_le_mul_iff_left₀ hS, ← c1]
    norm_cast
  have g2 : (k : ℚ) * S ≤ (2 * (f : ℚ) + 1) * U ↔ k * Y ≤ (2 * f + 1) * X := by
    rw [← mul_le_mul_iff_left₀ hYq, eL, show (k : ℚ) * S * Y = (k * Y) * S by ring, mul_le_mul_iff_left₀ hS]
    norm_cast
  have g3 : (2 * (f : ℚ) - 1) * U < k * S ↔ (2 * f - 1) * X < k * Y := by
    rw [← mul_lt_mul_iff_left₀ hYq, eL, show (k : ℚ) * S * Y = (k * Y) * S by ring, mul_lt_mul_iff_left₀ hS, ← c1]
    norm_cast
  have g4 : (k : ℚ) * S < (2 * (f : ℚ) + 1) * U ↔ k * Y < (2 * f + 1) * X := by
    rw [← mul_lt_mul_iff_left₀ hYq, eL, show (k : ℚ) * S * Y = (k * Y) * S by ring, mul_lt_mul_iff_left₀ hS]
    norm_cast
  rw [g1, g2, g3, g4]

/-- the decimal of the regular case, unscaled -/
theorem Format.best_of_found (F : Format) (hs : 0 < F.sig) {m : Nat} (hm : 0 < m) (hfin : F.Finite m)
    (hreg : F.frac m ≠ 0 ∨ F.biased m ≤ 1) (hf : 0 < F.full m) {X Y κ n t : Nat} {j : Int} (hκ : 1 ≤ κ) (hY : 0 < Y)
    (hXY : (X : ℚ) * 10 ^ j = Y * 2 ^ (F.ulp m - 1)) (hlow : 10 ^ κ * Y ≤ 2 * X)
    (hdig : In (F.full m) X Y (9 * 10 ^ κ) → In (F.full m) X Y (10 * 10 ^ κ) → 19 * 10 ^ κ * Y < 4 * F.full m * X)
    (h : Found κ (F.full m) X Y n t) : n ≠ 0 ∧ Best (F.Rounds · m) (F.mag m) n (j + t) := by
  have hS : (0 : ℚ) < 10 ^ j := by positivity
  have hI := F.rounds_scaled hs hm hfin hreg hf hS hY hXY
  obtain ⟨hin, hn10, hcase⟩ := h
  have hn0 : n ≠ 0 := by intro h; subst h; simp at hn10
  have hYq : (0 : ℚ) < Y := by exact_mod_cast hY
  have hpow : ∀ k i : Nat, ((k * 10 ^ i : Nat) : ℚ) * 10 ^ j = k * 10 ^ (j + i) := by
    intro k i
    rw [zpow_add₀ (by norm_num), zpow_natCast]
    push_cast
    ring
  have hv : 2 * F.mag m * Y = 4 * F.full m * X * 10 ^ j := by
    rw [F.mag_eq]
    have h2u : (2 : ℚ) ^ F.ulp m = 2 * 2 ^ (F.ulp m - 1) := by
      conv_lhs => rw [show F.ulp m = (F.ulp m - 1) + 1 by ring, zpow_add₀ (by norm_num), zpow_one]
      ring
    rw [h2u, show 4 * (F.full m : ℚ) * X * 10 ^ j = 4 * F.full m * (X * 10 ^ j) by ring, hXY]
    ring
  -- comparing a multiple of the scale with the value
  have hcmp : ∀ k : Nat, ((k : ℚ) * 10 ^ j ≤ 2 * F.mag m ↔ k * Y ≤ 4 * F.full m * X) := by
    intro k
    rw [← mul_le_mul_iff_left₀ hYq, hv, show (k : ℚ) * 10 ^ j * Y = (k * Y) * 10 ^ j by ring, mul_le_mul_iff_left₀ hS]
    norm_cast
  have hcmp' : ∀ k : Nat, (2 * F.mag m ≤ (k : ℚ) * 10 ^ j ↔ 4 * F.full m * X ≤ k * Y) := by
    intro k
    rw [← mul_le_mul_iff_left₀ hYq, hv, show (k : ℚ) * 10 ^ j * Y = (k * Y) * 10 ^ j by ring, mul_le_mul_iff_left₀ hS]
    norm_cast
  have heq : ∀ k : Nat, ((k : ℚ) * 10 ^ j = 2 * F.mag m ↔ k * Y = 4 * F.full m * X) := by
    intro k
    rw [le_antisymm_iff, hcmp, hcmp', ← Nat.le_antisymm_iff]
  generalize F.full m = f at *
  have hn1 : ((n - 1 : Nat) : ℚ) = n - 1 := by
    rw [Nat.cast_sub (by omega)]; simp
  have hn2 : ((2 * n - 1 : Nat) : ℚ) = 2 * n - 1 := by
    rw [Nat.cast_sub (by omega)]; push_cast; ring
  refine ⟨hn0, ⟨?_, ?_, ?_, ?_, ?_⟩⟩
  · show F.Rounds _ m
    rw [← hpow, hI]
    exact hin
  · intro k hk
    rw [show j + (t : ℤ) + 1 = j + ((t + 1 : Nat) : ℤ) by push_cast; ring, ← hpow, hI] at hk
    rcases hcase with ⟨ht, hu⟩ | ⟨ht, hu, -⟩
    · have e1 : k * 10 ^ (t + 1) = k * 10 ^ (t - κ) * 10 ^ (κ + 1) := by
        rw [Nat.mul_assoc, ← Nat.pow_add]; congr 2; omega
      rw [e1] at hk
      have := hu _ hk
      rw [← e1, Nat.pow_succ, Nat.mul_comm (10 ^ t) 10, ← Nat.mul_assoc] at this
      have := Nat.eq_of_mul_eq_mul_right (by positivity) this
      omega
    · rw [ht] at hk
      exact hu _ hk
  · intro hk
    rw [← hn1, ← hpow, hI] at hk
    rcases hcase with ⟨ht, hu⟩ | ⟨ht, hu, h1, h2, h3⟩
    · exfalso
      have e1 : (n - 1) * 10 ^ t = (n - 1) * 10 ^ (t - (κ + 1)) * 10 ^ (κ + 1) := by
        rw [Nat.mul_assoc, ← Nat.pow_add]; congr 2; omega
      rw [e1] at hk
      have := hu _ hk
      rw [← e1] at this
      have := Nat.eq_of_mul_eq_mul_right (by positivity) this
      omega
    · subst ht
      rw [← hn2, ← hpow, hcmp, heq]
      have e1 : (2 * n - 1) * 10 ^ t * Y + 10 ^ t * Y = 2 * (n * 10 ^ t * Y) := by
        obtain ⟨p, rfl⟩ : ∃ p, n = p + 1 := ⟨n - 1, by omega⟩
        rw [show 2 * (p + 1) - 1 = 2 * p + 1 by omega]; ring
      have e2 : 2 * (2 * f * X) = 4 * f * X := by ring
      refine ⟨by omega, fun h => h3 (Or.inl (by omega))⟩
  · intro hk
    rw [show (n : ℚ) + 1 = ((n + 1 : Nat) : ℚ) by push_cast; ring, ← hpow, hI] at hk
    rcases hcase with ⟨ht, hu⟩ | ⟨ht, hu, h1, h2, h3⟩
    · exfalso
      have e1 : (n + 1) * 10 ^ t = (n + 1) * 10 ^ (t - (κ + 1)) * 10 ^ (κ + 1) := by
        rw [Nat.mul_assoc, ← Nat.pow_add]; congr 2; omega
      rw [e1] at hk
      have := hu _ hk
      rw [← e1] at this
      have := Nat.eq_of_mul_eq_mul_right (by positivity) this
      omega
    · subst ht
      rw [show 2 * (n : ℚ) + 1 = ((2 * n + 1 : Nat) : ℚ) by push_cast; ring, ← hpow, hcmp', eq_comm, heq]
      have e1 : (2 * n + 1) * 10 ^ t * Y = 2 * (n * 10 ^ t * Y) + 10 ^ t * Y := by ring
      have e2 : 2 * (2 * f * X) = 4 * f * X := by ring
      refine ⟨by omega, fun h => h3 (Or.inr (by omega))⟩
  · intro hk hk'
    have ht1 : 1 ≤ t := by rcases hcase with ⟨ht, -⟩ | ⟨ht, -⟩ <;> omega
    have e9 : (9 : ℚ) * 10 ^ (j + t - 1) = ((9 * 10 ^ (t - 1) : Nat) : ℚ) * 10 ^ j := by
      rw [hpow, Nat.cast_sub ht1]; push_cast; congr 2; ring
    have e19 : (19 : ℚ) * 10 ^ (j + t - 1) = ((19 * 10 ^ (t - 1) : Nat) : ℚ) * 10 ^ j := by
      rw [hpow, Nat.cast_sub ht1]; push_cast; congr 2; ring
    have e10 : (10 : ℚ) ^ (j + t) = ((1 * 10 ^ t : Nat) : ℚ) * 10 ^ j := by
      rw [hpow]; simp
    rw [e9, hI] at hk
    rw [e10, hI] at hk'
    rw [e19, ← not_le, hcmp', Nat.not_le]
    rcases hcase with ⟨ht, hu⟩ | ⟨ht, hu, h1, h2, h3⟩
    · by_cases ht2 : t = κ + 1
      · subst ht2
        rw [Nat.add_sub_cancel] at hk ⊢
        rw [Nat.one_mul, Nat.pow_succ, Nat.mul_comm] at hk'
        exact hdig hk hk'
      · exfalso
        have e1 : 9 * 10 ^ (t - 1) = 9 * 10 ^ (t - 1 - (κ + 1)) * 10 ^ (κ + 1) := by
          rw [Nat.mul_assoc, ← Nat.pow_add]; congr 2; omega
        rw [e1] at hk
        have := hu _ hk
        rw [← e1] at this
        obtain ⟨s, rfl⟩ : ∃ s, t = s + 1 := ⟨t - 1, by omega⟩
        rw [Nat.add_sub_cancel, Nat.pow_succ, Nat.mul_comm (10 ^ s), ← Nat.mul_assoc] at this
        have := Nat.eq_of_mul_eq_mul_right (by positivity) this
        omega
    · subst ht
      obtain ⟨s, rfl⟩ : ∃ s, t = s + 1 := ⟨t - 1, by omega⟩
      rw [Nat.add_sub_cancel]
      rw [Nat.pow_succ] at hlow
      have hYs : 0 < 10 ^ s * Y := by positivity
      have : 10 ^ s * 10 * Y * (2 * f) ≤ 2 * X * (2 * f) := Nat.mul_le_mul_right _ hlow
      calc 19 * 10 ^ s * Y < 20 * (10 ^ s * Y) * f := by nlinarith
        _ = 10 ^ s * 10 * Y * (2 * f) := by ring
        _ ≤ 2 * X * (2 * f) := this
        _ = 4 * f * X := by ring

end Spec
end Efp
