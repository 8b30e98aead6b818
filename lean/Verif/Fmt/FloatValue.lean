import Verif.Spec.Float
import Verif.Fmt.Digits
import Mathlib.Algebra.Order.Field.Power
import Mathlib.Order.Monotone.Basic
import Mathlib.Tactic.Linarith
import Mathlib.Tactic.Ring
import Mathlib.Tactic.FieldSimp
import Mathlib.Tactic.Positivity

/-!
# Which decimals round to a floating-point number, and which of them is the shortest
-/

namespace Efp
namespace Spec

/-- the exponent of the last bit of the significand -/
def Format.ulp (F : Format) (m : Nat) : Int :=
  if F.biased m = 0 then 1 - F.bias - F.sig else F.biased m - F.bias - F.sig

/-- the significand with its hidden bit -/
def Format.full (F : Format) (m : Nat) : Nat := if F.biased m = 0 then F.frac m else 2 ^ F.sig + F.frac m

theorem Format.mag_eq (F : Format) (m : Nat) : F.mag m = F.full m * 2 ^ F.ulp m := by
  unfold Format.mag Format.full Format.ulp
  split <;> simp

theorem Format.split (F : Format) (m : Nat) : m = F.biased m * 2 ^ F.sig + F.frac m ∧ F.frac m < 2 ^ F.sig := by
  refine ⟨?_, Nat.mod_lt _ (Nat.two_pow_pos _)⟩
  unfold Format.biased Format.frac
  rw [Nat.mul_comm]
  exact (Nat.div_add_mod _ _).symm

theorem Format.parts (F : Format) {b f : Nat} (h : f < 2 ^ F.sig) :
    F.biased (b * 2 ^ F.sig + f) = b ∧ F.frac (b * 2 ^ F.sig + f) = f := by
  unfold Format.biased Format.frac
  have h0 := Nat.two_pow_pos F.sig
  constructor
  · rw [Nat.mul_comm, Nat.mul_add_div h0, Nat.div_eq_of_lt h, Nat.add_zero]
  · rw [Nat.mul_comm, Nat.mul_add_mod, Nat.mod_eq_of_lt h]

theorem Format.mag_succ (F : Format) (m : Nat) : F.mag (m + 1) = F.mag m + 2 ^ F.ulp m := by
  obtain ⟨h1, h2⟩ := F.split m
  generalize hb : F.biased m = b at h1
  generalize hf : F.frac m = f at h1 h2
  have h0 := Nat.two_pow_pos F.sig
  by_cases hlt : f + 1 < 2 ^ F.sig
  · have hm : m + 1 = b * 2 ^ F.sig + (f + 1) := by omega
    obtain ⟨h3, h4⟩ := F.parts (b := b) hlt
    rw [← hm] at h3 h4
    rw [F.mag_eq, F.mag_eq]
    unfold Format.full Format.ulp
    rw [h3, h4, hb, hf]
    split <;> · push_cast; ring
  · have hm : m + 1 = (b + 1) * 2 ^ F.sig + 0 := by rw [Nat.add_mul]; omega
    obtain ⟨h3, h4⟩ := F.parts (b := b + 1) h0
    rw [← hm] at h3 h4
    have hfq : (f : ℚ) = 2 ^ F.sig - 1 := by
      have : f + 1 = 2 ^ F.sig := by omega
      have : ((f + 1 : Nat) : ℚ) = ((2 ^ F.sig : Nat) : ℚ) := by rw [this]
      push_cast at this
      linarith
    rw [F.mag_eq, F.mag_eq]
    unfold Format.full Format.ulp
    rw [h3, h4, hb, hf, if_neg (by omega), if_neg (by omega)]
    split
    · rename_i hb0
      subst hb0
      push_cast
      rw [hfq]
      ring
    · push_cast
      rw [hfq]
      rw [show ((b : ℤ) + 1 - F.bias - F.sig) = (b - F.bias - F.sig) + 1 by ring, zpow_add₀ (by norm_num)]
      ring

theorem Format.mag_lt (F : Format) {m m' : Nat} (h : m < m') : F.mag m < F.mag m' := by
  refine strictMono_nat_of_lt_succ (f := F.mag) (fun n => ?_) h
  rw [F.mag_succ]
  have : (0 : ℚ) < 2 ^ F.ulp n := by positivity
  linarith

theorem Format.mag_zero (F : Format) : F.mag 0 = 0 := by
  simp [Format.mag, Format.biased, Format.frac]

/-- the numbers rounding to `m`: up to the middles between its value and those of its neighbours -/
theorem Format.rounds_iff (F : Format) {m : Nat} (hm : 0 < m) (hfin : F.Finite m) (q : ℚ) :
    F.Rounds q m ↔
      (F.mag (m - 1) + F.mag m < 2 * q ∨ F.mag (m - 1) + F.mag m = 2 * q ∧ m % 2 = 0) ∧
      (2 * q < F.mag m + F.mag (m + 1) ∨ 2 * q = F.mag m + F.mag (m + 1) ∧ m % 2 = 0) := by
  have hlo := F.mag_lt (m := m - 1) (m' := m) (by omega)
  have hhi := F.mag_lt (m := m) (m' := m + 1) (by omega)
  constructor
  · rintro ⟨-, h⟩
    have h1 := h (m - 1) (by omega)
    have h2 := h (m + 1) (by omega)
    constructor
    · by_contra hc
      push Not at hc
      obtain ⟨hc1, hc2⟩ := hc
      have e1 : |q - F.mag m| = F.mag m - q := by rw [abs_sub_comm]; exact abs_of_nonneg (by linarith)
      have e2 : |q - F.mag (m - 1)| ≤ F.mag m - q := abs_le.2 ⟨by linarith, by linarith⟩
      rcases h1 with h1 | ⟨h1, h1'⟩
      · linarith
      · refine hc2 ?_ h1'
        rcases abs_cases (q - F.mag (m - 1)) with ⟨g, -⟩ | ⟨g, -⟩ <;> rw [g] at h1 <;> linarith
    · by_contra hc
      push Not at hc
      obtain ⟨hc1, hc2⟩ := hc
      have e1 : |q - F.mag m| = q - F.mag m := abs_of_nonneg (by linarith)
      have e2 : |q - F.mag (m + 1)| ≤ q - F.mag m := abs_le.2 ⟨by linarith, by linarith⟩
      rcases h2 with h2 | ⟨h2, h2'⟩
      · linarith
      · refine hc2 ?_ h2'
        rcases abs_cases (q - F.mag (m + 1)) with ⟨g, -⟩ | ⟨g, -⟩ <;> rw [g] at h2 <;> linarith
  · rintro ⟨h1, h2⟩
    refine ⟨hfin, fun m' hm' => ?_⟩
    rcases Nat.lt_or_gt_of_ne hm' with hlt | hgt
    · have hle : F.mag m' ≤ F.mag (m - 1) := by
        rcases Nat.lt_or_ge m' (m - 1) with h | h
        · exact (F.mag_lt h).le
        · rw [show m' = m - 1 by omega]
      rcases h1 with h1 | ⟨h1, h1'⟩
      · left
        rw [abs_of_nonneg (show 0 ≤ q - F.mag m' by linarith)]
        exact abs_lt.2 ⟨by linarith, by linarith⟩
      · rw [abs_of_nonneg (show 0 ≤ q - F.mag m' by linarith), abs_sub_comm q, abs_of_nonneg (by linarith)]
        rcases lt_or_eq_of_le hle with g | g
        · left; linarith
        · right; exact ⟨by linarith, h1'⟩
    · have hle : F.mag (m + 1) ≤ F.mag m' := by
        rcases Nat.lt_or_ge (m + 1) m' with h | h
        · exact (F.mag_lt h).le
        · rw [show m' = m + 1 by omega]
      rcases h2 with h2 | ⟨h2, h2'⟩
      · left
        rw [abs_sub_comm q (F.mag m'), abs_of_nonneg (show 0 ≤ F.mag m' - q by linarith)]
        exact abs_lt.2 ⟨by linarith, by linarith⟩
      · rw [abs_sub_comm q (F.mag m'), abs_of_nonneg (show 0 ≤ F.mag m' - q by linarith), abs_of_nonneg (by linarith)]
        rcases lt_or_eq_of_le hle with g | g
        · left; linarith
        · right; exact ⟨by linarith, h2'⟩

/-- what is checked of a decimal: `I` are the numbers rounding to the value `v` -/
structure Best (I : ℚ → Prop) (v : ℚ) (n : Nat) (E : Int) : Prop where
  mem : I (n * 10 ^ E)
  none : ∀ k : Nat, ¬ I (k * 10 ^ (E + 1))
  below : I ((n - 1) * 10 ^ E) → (2 * n - 1) * 10 ^ E ≤ 2 * v ∧ ((2 * n - 1) * 10 ^ E = 2 * v → n % 2 = 0)
  above : I ((n + 1) * 10 ^ E) → 2 * v ≤ (2 * n + 1) * 10 ^ E ∧ (2 * v = (2 * n + 1) * 10 ^ E → n % 2 = 0)
  digit : I (9 * 10 ^ (E - 1)) → I (10 ^ E) → 19 * 10 ^ (E - 1) < 2 * v

theorem digitCount_spec {n : Nat} (h : n ≠ 0) : 10 ^ (digitCount n - 1) ≤ n ∧ n < 10 ^ digitCount n ∧ 0 < digitCount n := by
  have h0 : 0 < digitCount n := by unfold digitCount; exact Nat.length_toDigits_pos
  unfold digitCount at *
  refine ⟨?_, ?_, h0⟩
  · rw [← Nat.not_lt]
    intro hc
    by_cases h1 : (Nat.toDigits 10 n).length = 1
    · rw [h1] at hc; simp at hc; omega
    · have := (Nat.length_toDigits_le_iff (b := 10) (n := n) (k := (Nat.toDigits 10 n).length - 1) (by omega) (by omega)).2 hc
      omega
  · exact (Nat.length_toDigits_le_iff (b := 10) (n := n) (by omega) h0).1 (Nat.le_refl _)

theorem shortest_of {I : ℚ → Prop} (conv : ∀ {a b c : ℚ}, a ≤ b → b ≤ c → I a → I c → I b) {v : ℚ} {n : Nat} {E : Int}
    (hn : n ≠ 0) (h : Best I v n E) (n' : Nat) (E' : Int) (hn' : n' ≠ 0) (h' : I (n' * 10 ^ E')) :
    digitCount n ≤ digitCount n' ∧
    (digitCount n' = digitCount n →
      |(n * 10 ^ E : ℚ) - v| ≤ |(n' * 10 ^ E' : ℚ) - v| ∧
      (|(n * 10 ^ E : ℚ) - v| = |(n' * 10 ^ E' : ℚ) - v| → (n' * 10 ^ E' : ℚ) = n * 10 ^ E ∨ n % 2 = 0)) := by
  obtain ⟨d1, d2, d3⟩ := digitCount_spec hn
  obtain ⟨d1', d2', d3'⟩ := digitCount_spec hn'
  generalize hD : digitCount n = D at *
  generalize hD' : digitCount n' = D' at *
  have hp : (0 : ℚ) < 10 ^ E := by positivity
  have hle : E' ≤ E := by
    by_contra hc
    obtain ⟨j, hj⟩ : ∃ j : Nat, E' = E + 1 + j := ⟨(E' - E - 1).toNat, by omega⟩
    refine h.none (n' * 10 ^ j) ?_
    rw [hj, zpow_add₀ (by norm_num), zpow_natCast] at h'
    push_cast
    rw [show (n' : ℚ) * 10 ^ j * 10 ^ (E + 1) = n' * (10 ^ (E + 1) * 10 ^ j) by ring]
    exact h'
  -- a power of ten between the two decimals
  have key : (n' : ℚ) * 10 ^ E' ≤ 10 ^ (D - 1) * 10 ^ E → D = 1 := by
    intro hc
    by_contra hD1
    have g1 : ((10 : ℚ) ^ (D - 1)) * 10 ^ E ≤ n * 10 ^ E := by
      refine mul_le_mul_of_nonneg_right ?_ hp.le
      exact_mod_cast d1
    have g2 := conv hc g1 h' h.mem
    refine h.none (10 ^ (D - 2)) ?_
    rw [zpow_add₀ (by norm_num)]
    push_cast
    rw [show D - 1 = D - 2 + 1 by omega, pow_succ] at g2
    rw [show (10 : ℚ) ^ (D - 2) * (10 ^ E * 10) = 10 ^ (D - 2) * 10 * 10 ^ E by ring]
    exact g2
  have q1 : (n' : ℚ) * 10 ^ E' < 10 ^ D' * 10 ^ E' := by
    refine mul_lt_mul_of_pos_right ?_ (by positivity)
    exact_mod_cast d2'
  have q2 : ((10 : ℚ) ^ D') * 10 ^ E' ≤ 10 ^ D' * 10 ^ E :=
    mul_le_mul_of_nonneg_left (zpow_le_zpow_right₀ (by norm_num) hle) (by positivity)
  constructor
  · by_contra hc
    have q3 : ((10 : ℚ) ^ D') * 10 ^ E ≤ 10 ^ (D - 1) * 10 ^ E :=
      mul_le_mul_of_nonneg_right (pow_le_pow_right₀ (by norm_num) (by omega)) hp.le
    have := key (by linarith)
    omega
  · intro hDD
    subst hDD
    rcases lt_or_eq_of_le hle with hlt | heq
    · have q3 : ((10 : ℚ) ^ D') * 10 ^ E' ≤ 10 ^ (D' - 1) * 10 ^ E := by
        have e1 : ((10 : ℚ) ^ D') * 10 ^ E' = 10 ^ (D' - 1) * 10 ^ (E' + 1) := by
          rw [zpow_add₀ (by norm_num), zpow_one]
          conv_lhs => rw [show D' = D' - 1 + 1 by omega, pow_succ]
          ring
        rw [e1]
        exact mul_le_mul_of_nonneg_left (zpow_le_zpow_right₀ (by norm_num) (by omega)) (by positivity)
      have hD1 := key (by linarith)
      rw [hD1] at d2' d1 q3
      have hn9 : n' ≤ 9 := by omega
      have hE1 : (10 : ℚ) ^ E = 10 * 10 ^ (E - 1) := by
        conv_lhs => rw [show E = (E - 1) + 1 by ring, zpow_add₀ (by norm_num), zpow_one]
        ring
      have hp1 : (0 : ℚ) < 10 ^ (E - 1) := by positivity
      have a1 : (n' : ℚ) * 10 ^ E' ≤ 9 * 10 ^ (E - 1) := by
        refine mul_le_mul ?_ (zpow_le_zpow_right₀ (by norm_num) (by omega)) (by positivity) (by norm_num)
        exact_mod_cast hn9
      have hn1 : (1 : ℚ) ≤ n := by exact_mod_cast Nat.one_le_iff_ne_zero.2 hn
      have a2 : (10 : ℚ) ^ E ≤ n * 10 ^ E := by nlinarith
      have a3 : I (10 ^ E) := conv (by linarith) a2 h' h.mem
      have a4 : I (9 * 10 ^ (E - 1)) := conv a1 (by linarith) h' a3
      have a5 := h.digit a4 a3
      have a6 : |(10 : ℚ) ^ E - v| < |(n' * 10 ^ E' : ℚ) - v| := by
        rw [abs_sub_comm (n' * 10 ^ E' : ℚ), abs_of_nonneg (show 0 ≤ v - (n' * 10 ^ E' : ℚ) by linarith)]
        exact abs_lt.2 ⟨by linarith, by linarith⟩
      have a7 : |(n * 10 ^ E : ℚ) - v| ≤ |(10 : ℚ) ^ E - v| := by
        by_cases hn2 : n = 1
        · subst hn2; simp
        · have : (2 : ℚ) ≤ n := by exact_mod_cast (by omega : 2 ≤ n)
          have b1 : I ((n - 1) * 10 ^ E) := conv (a := 10 ^ E) (c := n * 10 ^ E) (by nlinarith) (by nlinarith) a3 h.mem
          have b2 := (h.below b1).1
          rw [abs_sub_comm ((10 : ℚ) ^ E), abs_of_nonneg (show 0 ≤ v - (10 : ℚ) ^ E by nlinarith)]
          exact abs_le.2 ⟨by nlinarith, by nlinarith⟩
      exact ⟨by linarith, fun he => by linarith⟩
    · subst heq
      rcases Nat.lt_trichotomy n' n with hlt | heq | hgt
      · have c1 : (n' : ℚ) ≤ n - 1 := by
          have : n' + 1 ≤ n := hlt
          have : ((n' + 1 : Nat) : ℚ) ≤ n := by exact_mod_cast this
          push_cast at this
          linarith
        have b1 : I ((n - 1) * 10 ^ E') :=
          conv (a := n' * 10 ^ E') (c := n * 10 ^ E') (mul_le_mul_of_nonneg_right c1 hp.le) (by nlinarith) h' h.mem
        obtain ⟨b2, b3⟩ := h.below b1
        have c2 : (n' : ℚ) * 10 ^ E' ≤ (n - 1) * 10 ^ E' := mul_le_mul_of_nonneg_right c1 hp.le
        have c3 : |(n * 10 ^ E' : ℚ) - v| ≤ v - (n - 1) * 10 ^ E' := abs_le.2 ⟨by linarith, by linarith⟩
        rw [abs_sub_comm (n' * 10 ^ E' : ℚ), abs_of_nonneg (show 0 ≤ v - (n' * 10 ^ E' : ℚ) by linarith)]
        refine ⟨by linarith, fun he => Or.inr (b3 ?_)⟩
        rcases abs_cases ((n * 10 ^ E' : ℚ) - v) with ⟨g, -⟩ | ⟨g, -⟩ <;> rw [g] at he <;> linarith
      · subst heq
        exact ⟨le_refl _, fun _ => Or.inl rfl⟩
      · have c1 : (n : ℚ) + 1 ≤ n' := by
          have : n + 1 ≤ n' := hgt
          exact_mod_cast this
        have c2 : ((n : ℚ) + 1) * 10 ^ E' ≤ n' * 10 ^ E' := mul_le_mul_of_nonneg_right c1 hp.le
        have b1 : I ((n + 1) * 10 ^ E') := conv (a := n * 10 ^ E') (c := n' * 10 ^ E') (by nlinarith) c2 h.mem h'
        obtain ⟨b2, b3⟩ := h.above b1
        have c3 : |(n * 10 ^ E' : ℚ) - v| ≤ (n + 1) * 10 ^ E' - v := abs_le.2 ⟨by linarith, by linarith⟩
        rw [abs_of_nonneg (show 0 ≤ (n' * 10 ^ E' : ℚ) - v by linarith)]
        refine ⟨by linarith, fun he => Or.inr (b3 ?_)⟩
        rcases abs_cases ((n * 10 ^ E' : ℚ) - v) with ⟨g, -⟩ | ⟨g, -⟩ <;> rw [g] at he <;> linarith

end Spec
end Efp
