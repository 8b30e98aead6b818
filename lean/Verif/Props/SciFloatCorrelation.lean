import Verif.Props.SciFloatLag
import Verif.ScientificAlgebra

/-!
# The correlation of floating-point numbers exceeds one by rounding errors only (C179)

`InRange`: see `Verif.Props.SciFloatAccuracy`; `deviations` and `absCodeviations` are exact sums.
-/

namespace Efp.Props

open Efp.Prelude (Inp)
open Efp.Ieee
open Efp.SciFloat

variable {ω : Type} {F : Fmt}

theorem codeviations_abs (c d : ℚ) : ∀ xs ys : List ℚ, |codeviations c d xs ys| ≤ absCodeviations c d xs ys
  | [], _ => by simp [codeviations, absCodeviations]
  | _ :: _, [] => by simp [codeviations, absCodeviations]
  | x :: xs, y :: ys => by
    have ih := codeviations_abs c d xs ys
    simp only [codeviations, absCodeviations, List.zipWith_cons_cons, List.sum_cons] at ih ⊢
    exact (abs_add_le _ _).trans (by linarith)

theorem absCodeviations_nonneg (c d : ℚ) (xs ys : List ℚ) : 0 ≤ absCodeviations c d xs ys :=
  (abs_nonneg _).trans (codeviations_abs c d xs ys)

theorem deviations_nonneg (c : ℚ) (xs : List ℚ) : 0 ≤ deviations c xs := by
  apply List.sum_nonneg
  intro x hx
  obtain ⟨y, -, rfl⟩ := List.mem_map.1 hx
  exact sq_nonneg _

/-- the sum of the magnitudes of the products is at most the root of the product of the sums of squares -/
theorem codeviations_cauchy (c d : ℚ) : ∀ xs ys : List ℚ, absCodeviations c d xs ys ^ 2 ≤ deviations c xs * deviations d ys
  | [], ys => by simp [absCodeviations, deviations, sumSquares]
  | x :: xs, [] => by simp [absCodeviations, deviations, sumSquares]
  | x :: xs, y :: ys => by
    have ih := codeviations_cauchy c d xs ys
    have hA := absCodeviations_nonneg c d xs ys
    have hX := deviations_nonneg c xs
    have hY := deviations_nonneg d ys
    have e1 : absCodeviations c d (x :: xs) (y :: ys) = |x - c| * |y - d| + absCodeviations c d xs ys := by
      simp [absCodeviations, abs_mul]
    have e2 : deviations c (x :: xs) = |x - c| ^ 2 + deviations c xs := by simp [deviations, sumSquares]
    have e3 : deviations d (y :: ys) = |y - d| ^ 2 + deviations d ys := by simp [deviations, sumSquares]
    rw [e1, e2, e3]
    generalize absCodeviations c d xs ys = A at *
    generalize deviations c xs = X at *
    generalize deviations d ys = Y at *
    have hp := abs_nonneg (x - c)
    have hq := abs_nonneg (y - d)
    generalize |x - c| = p at *
    generalize |y - d| = q at *
    -- 2 p q A ≤ p² Y + q² X
    have key : 2 * (p * q * A) ≤ p ^ 2 * Y + q ^ 2 * X := by
      have h1 : (2 * (p * q * A)) ^ 2 ≤ (p ^ 2 * Y + q ^ 2 * X) ^ 2 := by
        have h2 : (p * q) ^ 2 * A ^ 2 ≤ (p * q) ^ 2 * (X * Y) := mul_le_mul_of_nonneg_left ih (sq_nonneg _)
        nlinarith [sq_nonneg (p ^ 2 * Y - q ^ 2 * X)]
      exact (le_abs_self _).trans (abs_le_of_sq_le_sq h1 (by positivity))
    nlinarith

theorem bound_sum {u x : ℚ} (h0 : 0 < u) (h1 : 6 * u ≤ x) (h2 : x ≤ 1 / 8) : (1 + u) * (1 + 2 * x) ≤ 3 / 2 := by
  nlinarith

theorem bound_diff {u x : ℚ} (h0 : 0 < u) (h1 : 6 * u ≤ x) : 1 - 2 * x - u ≤ (1 - u) * (1 - 2 * x) := by
  nlinarith

theorem bound_quot {u x : ℚ} (h0 : 0 < u) (h1 : 6 * u ≤ x) (h2 : x ≤ 1 / 8) :
    (1 + 2 * x - 6 * u) + 3 * u ≤ (1 - 2 * x - u) * (1 + 7 * x) := by
  nlinarith

theorem bound_last {u x t q r : ℚ} (h0 : 0 < u) (h1 : 6 * u ≤ x) (h2 : x ≤ 1 / 8) (ht : t ≤ u) (hq : q ≤ 1 + 7 * x)
    (hr : r ≤ q + (u * q + t)) : r ≤ 1 + 8 * x := by
  nlinarith

theorem bound_low {x m g : ℚ} (h2 : x ≤ 1 / 8) (hm : 0 < m) (h : (1 - 2 * x) * (2 * m) ≤ g) : m ≤ g := by
  nlinarith

theorem le_quot {N n m d D : ℚ} (h1 : N ≤ n) (hm : 0 < m) (hd : 2 * n * m ≤ d) (hD : d ≤ D) : 2 * m * N ≤ D := by
  nlinarith

theorem lt_quot {N D t : ℚ} (h1 : 1 ≤ N) (h0 : 0 ≤ D) (hD : D < t) : D < t * N := by
  nlinarith

/-- the exact quotient is off by little -/
theorem quotient_real {u x t mn Ea Eb A T g p c r : ℚ} (hu0 : 0 < u) (hux : 6 * u ≤ x) (hu : x ≤ 1 / 8) (hmn : 0 < mn) (la : 2 * mn ≤ Ea)
    (lb : 2 * mn ≤ Eb) (hg0 : 0 ≤ g) (g_low : (1 - 2 * x) ^ 2 * (Ea * Eb) ≤ g ^ 2) (g_up : g ^ 2 ≤ (1 + 2 * x) ^ 2 * (Ea * Eb))
    (hr : -(u * g) ≤ p - g ∧ p - g ≤ u * g) (hp : 0 < p) (hcs : A ^ 2 ≤ Ea * Eb) (hT : |T| ≤ A) (hA : 0 ≤ A)
    (hc : |c - T| ≤ (2 * x - 6 * u) * A + 6 * t) (ht : t = u * mn) (htu : t ≤ u / 2) (hx2 : 2 * x ≤ 1) (hre : |r - c / p| ≤ u * |c / p| + t)
    (hq : |c / p| ≤ 1 + 7 * x) : |(r : ℝ) - T / Real.sqrt (Ea * Eb : ℚ)| ≤ 7 * (x : ℚ) := by
  obtain ⟨G, hG⟩ : ∃ G : ℝ, G = Real.sqrt (Ea * Eb : ℚ) := ⟨_, rfl⟩
  rw [← hG]
  have hE : (0 : ℚ) < Ea * Eb := mul_pos (by linarith) (by linarith)
  have hG2 : G ^ 2 = (Ea * Eb : ℚ) := by
    rw [hG]; exact Real.sq_sqrt (by exact_mod_cast hE.le)
  have hG0 : 0 < G := by
    rw [hG]; exact Real.sqrt_pos.2 (by exact_mod_cast hE)
  have hmG : 2 * (mn : ℝ) ≤ G := by
    refine (le_abs_self _).trans (abs_le_of_sq_le_sq ?_ hG0.le)
    rw [hG2]
    have : (2 * mn) ^ 2 ≤ Ea * Eb := by
      rw [sq]; exact mul_le_mul la lb (by linarith) (by linarith)
    exact_mod_cast this
  have hAG : (A : ℝ) ≤ G := by
    refine (le_abs_self _).trans (abs_le_of_sq_le_sq ?_ hG0.le)
    rw [hG2]
    exact_mod_cast hcs
  have hx0 : (0 : ℝ) < x := by exact_mod_cast (by linarith : 0 < x)
  have hx2' : 2 * (x : ℝ) ≤ 1 := by exact_mod_cast hx2
  have hgl : (1 - 2 * (x : ℝ)) * G ≤ g := by
    refine (le_abs_self _).trans (abs_le_of_sq_le_sq ?_ (by exact_mod_cast hg0))
    rw [mul_pow, hG2]
    exact_mod_cast g_low
  have hgu : (g : ℝ) ≤ (1 + 2 * (x : ℝ)) * G := by
    refine (le_abs_self _).trans (abs_le_of_sq_le_sq ?_ (mul_nonneg (by linarith) hG0.le))
    rw [mul_pow, hG2]
    exact_mod_cast g_up
  have u0 : (0 : ℝ) < u := by exact_mod_cast hu0
  have ux : 6 * (u : ℝ) ≤ x := by exact_mod_cast hux
  have x8 : (x : ℝ) ≤ 1 / 8 := by
    have : ((x : ℚ) : ℝ) ≤ ((1 / 8 : ℚ) : ℝ) := Rat.cast_le.2 hu
    push_cast at this
    exact this
  have r1 : -((u : ℝ) * g) ≤ p - g := by exact_mod_cast hr.1
  have r2 : (p : ℝ) - g ≤ u * g := by exact_mod_cast hr.2
  have p0 : (0 : ℝ) < p := by exact_mod_cast hp
  have T1 : |(T : ℝ)| ≤ A := by exact_mod_cast hT
  have A0 : (0 : ℝ) ≤ A := by exact_mod_cast hA
  have c1 : |(c : ℝ) - T| ≤ (2 * x - 6 * u) * A + 6 * t := by exact_mod_cast hc
  have t1 : (t : ℝ) = u * mn := by exact_mod_cast ht
  have t2 : (t : ℝ) ≤ u / 2 := by exact_mod_cast htu
  have e1 : |(r : ℝ) - c / p| ≤ u * |(c : ℝ) / p| + t := by exact_mod_cast hre
  have q1 : |(c : ℝ) / p| ≤ 1 + 7 * x := by exact_mod_cast hq
  generalize (Real.sqrt (Ea * Eb : ℚ)) = G' at *
  clear g_low g_up hr hcs hT hA hc ht htu hx2 hre hq hE hG2 hG la lb hg0 hp hu0 hux hu hmn
  generalize (u : ℝ) = u at *
  generalize (x : ℝ) = x at *
  generalize (t : ℝ) = t at *
  generalize (mn : ℝ) = mn at *
  generalize (A : ℝ) = A at *
  generalize (T : ℝ) = T at *
  generalize (g : ℝ) = g at *
  generalize (p : ℝ) = p at *
  generalize (c : ℝ) = c at *
  generalize (r : ℝ) = r at *
  have hxG := mul_pos hx0 hG0
  have hpl : 7 / 10 * G ≤ p := by
    have h1 : (1 - u) * ((1 - 2 * x) * G) ≤ (1 - u) * g := mul_le_mul_of_nonneg_left hgl (by linarith)
    have h2 : (7 / 10 : ℝ) ≤ (1 - u) * (1 - 2 * x) := by nlinarith
    have h3 := mul_le_mul_of_nonneg_right h2 hG0.le
    linarith
  have hug : u * g ≤ 5 / 24 * (x * G) := by
    have h1 : g ≤ 5 / 4 * G := by
      have := mul_le_mul_of_nonneg_right x8 hG0.le
      linarith
    have h2 := mul_le_mul_of_nonneg_left h1 u0.le
    have h3 := mul_le_mul_of_nonneg_right ux hG0.le
    linarith
  have hpG : |G - p| ≤ 9 / 4 * (x * G) := by
    rw [abs_le]
    constructor <;> linarith
  have hnum : |c - T| * G + |T| * |G - p| ≤ 17 / 4 * (x * G) * G := by
    have h1 : |c - T| ≤ 2 * (x * G) := by
      have h2 : (2 * x - 6 * u) * A ≤ (2 * x - 6 * u) * G := mul_le_mul_of_nonneg_left hAG (by linarith)
      have h3 := mul_le_mul_of_nonneg_left hmG u0.le
      have h4 := mul_pos u0 hG0
      rw [t1] at c1
      linarith
    have h5 := mul_le_mul_of_nonneg_right h1 hG0.le
    have h6 : |T| * |G - p| ≤ G * (9 / 4 * (x * G)) := mul_le_mul (T1.trans hAG) hpG (abs_nonneg _) hG0.le
    linarith
  have hdiff : |c / p - T / G| ≤ 85 / 14 * x := by
    have e : c / p - T / G = ((c - T) * G + T * (G - p)) / (p * G) := by
      field_simp
      ring
    rw [e, abs_div, abs_of_pos (mul_pos p0 hG0), div_le_iff₀ (mul_pos p0 hG0)]
    have h1 := abs_add_le ((c - T) * G) (T * (G - p))
    rw [abs_mul, abs_mul, abs_of_pos hG0] at h1
    have h2 := mul_le_mul_of_nonneg_left hpl (show 0 ≤ 85 / 14 * (x * G) by linarith)
    linarith
  have h1 := abs_add_le (r - c / p) (c / p - T / G)
  rw [sub_add_sub_cancel] at h1
  have h2 := mul_le_mul_of_nonneg_left q1 u0.le
  have h3 := mul_le_mul_of_nonneg_left x8 u0.le
  linarith

/-- the quotient of a covariance and the product of two standard deviations -/
theorem quotient_bound (hF : F.Ok) {sa sb c : Fp} (fsa : Finite F sa) (fsb : Finite F sb) (fc : Finite F c) (hsa0 : 0 ≤ value sa)
    (hsb0 : 0 ≤ value sb) {n : Nat} (hu : (n + 6) * unit F ≤ 1 / 8) {Ea Eb A T : ℚ}
    (la : 2 * 2 ^ (F.emin + F.prec - 1) ≤ Ea) (ua : Ea < 2 ^ (F.emax - 1)) (lb : 2 * 2 ^ (F.emin + F.prec - 1) ≤ Eb)
    (ub : Eb < 2 ^ (F.emax - 1)) (esa : |value sa ^ 2 - Ea| ≤ 2 * ((n + 5) * unit F) * Ea)
    (esb : |value sb ^ 2 - Eb| ≤ 2 * ((n + 5) * unit F) * Eb) (hcs : A ^ 2 ≤ Ea * Eb) (hT : |T| ≤ A) (hA : 0 ≤ A)
    (ec : |value c - T| ≤ 2 * ((n + 3) * unit F) * A + 6 * tiny F) :
    Finite F (div F c (mul F sa sb)) ∧ |value (div F c (mul F sa sb))| ≤ 1 + 8 * ((n + 6) * unit F) ∧
    |(value (div F c (mul F sa sb)) : ℝ) - T / Real.sqrt (Ea * Eb : ℚ)| ≤ 7 * ((n + 6) * unit F : ℚ) := by
  have hu0 := unit_pos F
  have hmn := zpow_pos2 (F.emin + F.prec - 1)
  have htm : tiny F = unit F * 2 ^ (F.emin + F.prec - 1) := by
    rw [tiny, unit, ← zpow_add₀ (by norm_num)]; congr 1; omega
  have htu := tiny_le_unit hF
  have hty := tiny_pos F
  have hn0 : (0 : ℚ) ≤ n := by positivity
  obtain ⟨x, hx⟩ : ∃ x, x = (n + 6) * unit F := ⟨_, rfl⟩
  have hux : 6 * unit F ≤ x := by rw [hx]; nlinarith
  have hy : 2 * ((n + 5) * unit F) ≤ 2 * x := by rw [hx]; nlinarith
  have hz : 2 * ((n + 3) * unit F) ≤ 2 * x - 6 * unit F := by rw [hx]; nlinarith
  rw [← hx] at hu ⊢
  have hE : 0 < Ea := by linarith
  have hE' : 0 < Eb := by linarith
  have esa' : |value sa ^ 2 - Ea| ≤ 2 * x * Ea := esa.trans (mul_le_mul_of_nonneg_right hy hE.le)
  have esb' : |value sb ^ 2 - Eb| ≤ 2 * x * Eb := esb.trans (mul_le_mul_of_nonneg_right hy hE'.le)
  rw [abs_le] at esa' esb'
  have hxp : 0 ≤ x := by linarith
  have h12 : 0 ≤ 1 - 2 * x := by linarith
  -- the product of the deviations
  have g_low : (1 - 2 * x) ^ 2 * (Ea * Eb) ≤ (value sa * value sb) ^ 2 := by
    have h1 : (1 - 2 * x) * Ea ≤ value sa ^ 2 := by linarith
    have h2 : (1 - 2 * x) * Eb ≤ value sb ^ 2 := by linarith
    have := mul_le_mul h1 h2 (mul_nonneg h12 hE'.le) (sq_nonneg _)
    rw [mul_pow]
    linarith
  have g_up : (value sa * value sb) ^ 2 ≤ (1 + 2 * x) ^ 2 * (Ea * Eb) := by
    have h1 : value sa ^ 2 ≤ (1 + 2 * x) * Ea := by linarith
    have h2 : value sb ^ 2 ≤ (1 + 2 * x) * Eb := by linarith
    have := mul_le_mul h1 h2 (sq_nonneg _) (mul_nonneg (by linarith) hE.le)
    rw [mul_pow]
    linarith
  have hg0 : 0 ≤ value sa * value sb := mul_nonneg hsa0 hsb0
  obtain ⟨z, hz'⟩ := mul_fin fsa fsb
  generalize value sa * value sb = g at *
  have hgA : (1 - 2 * x) * A ≤ g := by
    refine (le_abs_self _).trans (abs_le_of_sq_le_sq ?_ hg0)
    rw [mul_pow]
    exact (mul_le_mul_of_nonneg_left hcs (sq_nonneg _)).trans g_low
  have hgm : (1 - 2 * x) * (2 * 2 ^ (F.emin + F.prec - 1)) ≤ g := by
    refine (le_abs_self _).trans (abs_le_of_sq_le_sq ?_ hg0)
    rw [mul_pow]
    refine le_trans (mul_le_mul_of_nonneg_left ?_ (sq_nonneg _)) g_low
    rw [sq]
    exact mul_le_mul la lb (by linarith) hE.le
  have hgT : g ≤ (1 + 2 * x) * 2 ^ (F.emax - 1) := by
    refine (le_abs_self _).trans (abs_le_of_sq_le_sq ?_ (mul_nonneg (by linarith) (zpow_pos2 _).le))
    rw [mul_pow]
    refine g_up.trans (mul_le_mul_of_nonneg_left ?_ (sq_nonneg _))
    rw [sq]
    exact mul_le_mul ua.le ub.le hE'.le (zpow_pos2 _).le
  have hgn : (2 : ℚ) ^ (F.emin + F.prec - 1) ≤ |g| := by
    rw [abs_of_nonneg hg0]
    exact bound_low hu hmn hgm
  have hr := round_normal g hgn
  rw [abs_of_nonneg hg0, abs_le] at hr
  have hp_low : (1 - unit F) * g ≤ Ieee.round F g := by linarith
  have hgpos : 0 < g := by
    rw [abs_of_nonneg hg0] at hgn
    linarith
  have hp_pos : 0 < Ieee.round F g := lt_of_lt_of_le (mul_pos (show 0 < 1 - unit F by linarith) hgpos) hp_low
  have hTp := zpow_pos2 (F.emax - 1)
  have hfin : |Ieee.round F g| < 2 ^ F.emax := by
    rw [abs_of_pos hp_pos, emax_half]
    have h1 : Ieee.round F g ≤ (1 + unit F) * g := by linarith
    have h2 : (1 + unit F) * g ≤ (1 + unit F) * ((1 + 2 * x) * 2 ^ (F.emax - 1)) := mul_le_mul_of_nonneg_left hgT (by linarith)
    have h3 : (1 + unit F) * (1 + 2 * x) ≤ 3 / 2 := bound_sum hu0 hux hu
    have h4 := mul_le_mul_of_nonneg_right h3 hTp.le
    linarith
  obtain ⟨f1, f2⟩ := ofExact_finite hF z hfin
  rw [← hz'] at f1 f2
  obtain ⟨z2, hz2⟩ := div_fin fc f1 (by rw [f2]; exact hp_pos.ne')
  rw [f2] at hz2
  generalize hpe : Ieee.round F g = p at *
  -- the covariance
  have hc : |value c| ≤ (1 + 2 * x - 6 * unit F) * A + 6 * tiny F := by
    have h1 := abs_add_le T (value c - T)
    rw [add_sub_cancel] at h1
    have h2 := mul_le_mul_of_nonneg_right hz hA
    linarith
  have hD : (1 - unit F) * ((1 - 2 * x) * A) ≤ p := (mul_le_mul_of_nonneg_left hgA (by linarith)).trans hp_low
  have hD2 : (1 - unit F) * ((1 - 2 * x) * (2 * 2 ^ (F.emin + F.prec - 1))) ≤ p :=
    (mul_le_mul_of_nonneg_left hgm (by linarith)).trans hp_low
  have hK : 1 - 2 * x - unit F ≤ (1 - unit F) * (1 - 2 * x) := bound_diff hu0 hux
  have hK0 : 0 < 1 - 2 * x - unit F := by linarith
  have hq : |value c / p| ≤ 1 + 7 * x := by
    rw [abs_div, abs_of_pos hp_pos, div_le_iff₀ hp_pos]
    refine hc.trans ?_
    have hAp : (1 - 2 * x - unit F) * A ≤ p := by
      have := mul_le_mul_of_nonneg_right hK hA
      linarith
    have hmp : (1 - 2 * x - unit F) * (2 * 2 ^ (F.emin + F.prec - 1)) ≤ p := by
      have := mul_le_mul_of_nonneg_right hK (show 0 ≤ 2 * (2 : ℚ) ^ (F.emin + F.prec - 1) by linarith)
      linarith
    have htp : (1 - 2 * x - unit F) * (6 * tiny F) ≤ 3 * unit F * p := by
      rw [htm]
      have := mul_le_mul_of_nonneg_left hmp (show 0 ≤ 3 * unit F by linarith)
      linarith
    have h5 : (1 - 2 * x - unit F) * ((1 + 2 * x - 6 * unit F) * A + 6 * tiny F) ≤ (1 + 2 * x - 6 * unit F) * p + 3 * unit F * p := by
      have := mul_le_mul_of_nonneg_left hAp (show 0 ≤ 1 + 2 * x - 6 * unit F by linarith)
      linarith
    have h6 : (1 + 2 * x - 6 * unit F) + 3 * unit F ≤ (1 - 2 * x - unit F) * (1 + 7 * x) := bound_quot hu0 hux hu
    have h7 := mul_le_mul_of_nonneg_right h6 hp_pos.le
    by_contra hcon
    push Not at hcon
    have h8 := mul_lt_mul_of_pos_left hcon hK0
    linarith
  have hre := round_error F (value c / p)
  have hab := abs_add_le (value c / p) (Ieee.round F (value c / p) - value c / p)
  rw [add_sub_cancel] at hab
  have hfinal : |Ieee.round F (value c / p)| ≤ 1 + 8 * x := by
    exact bound_last hu0 hux hu (show tiny F ≤ unit F by linarith) hq (hab.trans (by linarith))
  have hfin2 : |Ieee.round F (value c / p)| < 2 ^ F.emax := by
    refine lt_of_le_of_lt hfinal ?_
    have : (2 : ℚ) ^ (1 : Int) < 2 ^ F.emax := zpow_lt2 (by have := hF.size; omega)
    rw [zpow_one] at this
    refine lt_of_le_of_lt ?_ this
    linarith
  obtain ⟨r1, r2⟩ := ofExact_finite hF z2 hfin2
  rw [hz2]
  refine ⟨r1, by rw [r2]; exact hfinal, ?_⟩
  rw [r2]
  have hz3 : |value c - T| ≤ (2 * x - 6 * unit F) * A + 6 * tiny F := ec.trans (by
    have := mul_le_mul_of_nonneg_right hz hA
    linarith)
  exact quotient_real hu0 hux hu hmn la lb hg0 g_low g_up hr hp_pos hcs hT hA hz3 htm htu (by linarith) hre hq

/-- **C179.**  If the computed means `m` and `k` are finite, the deviations from them are in range, not all zero, and the sum of the
magnitudes of their products does not overflow, `correlation` is a finite number between `-1 - e` and `1 + e` with
`e = 8(n + 6)` unit roundoffs.  It differs from the exact correlation of the deviations, the sum of their products divided by the
square root of the product of the sums of their squares, by at most `7(n + 6)` unit roundoffs. -/
theorem C179_correlation (hF : F.Ok) (as bs : Inp Fp) (hva : as.valid) (hvb : bs.valid) (bessel : Bool)
    (hfa : ∀ x ∈ as.vals, Finite F x) (hfb : ∀ y ∈ bs.vals, Finite F y) {n : Nat} (hna : n = as.vals.length) (hnb : n = bs.vals.length)
    (h0 : (if bessel then 2 else 1) ≤ n) (h64 : n < 2 ^ 64) (hu : (n + 6) * unit F ≤ 1 / 8) {m k : Fp} (w : ω)
    (hma : mean F as w = .ok m w) (hm : Finite F m) (hmb : mean F bs w = .ok k w) (hk : Finite F k)
    (hra : InRange F ((as.vals.map value).map fun x => x - value m)) (hrb : InRange F ((bs.vals.map value).map fun x => x - value k))
    (hva0 : ∃ x ∈ as.vals, value x ≠ value m) (hvb0 : ∃ y ∈ bs.vals, value y ≠ value k)
    (hlt : absCodeviations (value m) (value k) (as.vals.map value) (bs.vals.map value) < 2 ^ (F.emax - 2)) :
    ∃ r, correlation F bessel as bs w = .ok r w ∧ Finite F r ∧ |value r| ≤ 1 + 8 * ((n + 6) * unit F) ∧
      |(value r : ℝ) - codeviations (value m) (value k) (as.vals.map value) (bs.vals.map value) /
        Real.sqrt (deviations (value m) (as.vals.map value) * deviations (value k) (bs.vals.map value) : ℚ)| ≤
          7 * ((n + 6) * unit F : ℚ) := by
  have hu0 := unit_pos F
  have hu' := unit_le hF
  have hty := tiny_pos F
  have hn1 : 1 ≤ n := by split at h0 <;> omega
  have hn1' : (1 : ℚ) ≤ n := by exact_mod_cast hn1
  have hdev : ∀ {l : List Fp} {c : Fp}, InRange F ((l.map value).map fun x => x - value c) →
      ∀ x ∈ l, |value x - value c| < 2 ^ (F.emax - 1) := by
    intro l c h x hx
    have h1 := (h.item (d := value x - value c) (by rw [List.map_map]; exact List.mem_map.2 ⟨x, hx, rfl⟩)).2
    rw [← sq_abs] at h1
    have h2 : (1 : ℚ) < 2 ^ (F.emax - 1) := by
      have : (2 : ℚ) ^ (0 : Int) < 2 ^ (F.emax - 1) := zpow_lt2 (by have := hF.size; omega)
      simpa using this
    by_contra hc
    push Not at hc
    nlinarith
  obtain ⟨va, sa, Ea, N, -, hsa, -, fsa, hsa0, hN, hEa, -, esa⟩ := C175_variance hF as hva bessel hfa hna h0 h64 (by nlinarith) w hma hm hra
  obtain ⟨vb, sb, Eb, N', -, hsb, -, fsb, hsb0, hN', hEb, -, esb⟩ := C175_variance hF bs hvb bessel hfb hnb h0 h64 (by nlinarith) w hmb hk hrb
  obtain ⟨c, N'', hc, fc, hN'', ec⟩ := C176_covariance hF as bs hva hvb bessel hfa hfb hna hnb h0 h64 (by nlinarith) w hma hm hmb hk
    (hdev hra) (hdev hrb) hlt
  have eN' : N' = N := by rw [hN', hN]
  have eN'' : N'' = N := by rw [hN'', hN]
  rw [eN'] at hEb
  rw [eN''] at ec
  have hda := deviations_average (value m) (as.vals.map value)
  have hdb := deviations_average (value k) (bs.vals.map value)
  have hcd := codeviations_average (value m) (value k) (as.vals.map value) (bs.vals.map value) (by simp; omega)
  rw [List.length_map, ← hna] at hda hcd
  rw [List.length_map, ← hnb] at hdb
  rw [← hda] at hEa
  rw [← hdb] at hEb
  rw [← hcd] at ec
  obtain ⟨hN1, hNn⟩ : 1 ≤ N ∧ N ≤ n := by
    rw [hN]
    cases bessel with
    | false => exact ⟨hn1', le_refl _⟩
    | true =>
      simp only [if_true] at h0 ⊢
      have : (2 : ℚ) ≤ n := by exact_mod_cast h0
      constructor <;> linarith
  have hN0 : 0 < N := by linarith
  have hmn := zpow_pos2 (F.emin + F.prec - 1)
  have hA := absCodeviations_nonneg (value m) (value k) (as.vals.map value) (bs.vals.map value)
  have hcs := codeviations_cauchy (value m) (value k) (as.vals.map value) (bs.vals.map value)
  have hca := codeviations_abs (value m) (value k) (as.vals.map value) (bs.vals.map value)
  have hlow : ∀ {l : List Fp} {c : Fp}, n = l.length → InRange F ((l.map value).map fun x => x - value c) → (∃ x ∈ l, value x ≠ value c) →
      2 * 2 ^ (F.emin + F.prec - 1) ≤ deviations (value c) (l.map value) / N ∧ deviations (value c) (l.map value) / N < 2 ^ (F.emax - 1) := by
    rintro l c hl hr ⟨x, hx, hxc⟩
    have hmem : value x - value c ∈ (l.map value).map fun x => x - value c := by
      rw [List.map_map]; exact List.mem_map.2 ⟨x, hx, rfl⟩
    have h1 := (hr.1 _ hmem).resolve_left (sub_ne_zero.2 hxc)
    have h2 : (value x - value c) ^ 2 ≤ deviations (value c) (l.map value) := sq_le_sumSquares hmem
    rw [List.length_map, List.length_map, ← hl] at h1
    constructor
    · rw [le_div_iff₀ hN0]
      exact le_quot hNn hmn h1 h2
    · rw [div_lt_iff₀ hN0]
      have h3 : deviations (value c) (l.map value) < 2 ^ (F.emax - 1) := hr.2
      exact lt_quot hN1 (deviations_nonneg (value c) (l.map value)) h3
  obtain ⟨la, ua⟩ := hlow hna hra hva0
  obtain ⟨lb, ub⟩ := hlow hnb hrb hvb0
  rw [← hEa] at la ua
  rw [← hEb] at lb ub
  have hcs' : (absCodeviations (value m) (value k) (as.vals.map value) (bs.vals.map value) / N) ^ 2 ≤ Ea * Eb := by
    rw [hEa, hEb, div_pow, div_mul_div_comm, ← sq]
    exact div_le_div_of_nonneg_right hcs (sq_nonneg _)
  have hca' : |codeviations (value m) (value k) (as.vals.map value) (bs.vals.map value) / N| ≤
      absCodeviations (value m) (value k) (as.vals.map value) (bs.vals.map value) / N := by
    rw [abs_div, abs_of_pos hN0]
    exact div_le_div_of_nonneg_right hca hN0.le
  have hA' := div_nonneg hA hN0.le
  have hrho : (codeviations (value m) (value k) (as.vals.map value) (bs.vals.map value) : ℝ) /
      Real.sqrt (deviations (value m) (as.vals.map value) * deviations (value k) (bs.vals.map value) : ℚ) =
      ((codeviations (value m) (value k) (as.vals.map value) (bs.vals.map value) / N : ℚ) : ℝ) / Real.sqrt (Ea * Eb : ℚ) := by
    have hNr : (0 : ℝ) < N := by exact_mod_cast hN0
    have e : ((Ea * Eb : ℚ) : ℝ) = (deviations (value m) (as.vals.map value) * deviations (value k) (bs.vals.map value) : ℚ) / (N : ℝ) ^ 2 := by
      rw [hEa, hEb]
      push_cast
      field_simp
    rw [e, Real.sqrt_div' _ (sq_nonneg _), Real.sqrt_sq hNr.le]
    push_cast
    rw [div_div_div_cancel_right₀ hNr.ne']
  rw [hrho]
  generalize absCodeviations (value m) (value k) (as.vals.map value) (bs.vals.map value) / N = A at hcs' hca' hA' ec
  generalize codeviations (value m) (value k) (as.vals.map value) (bs.vals.map value) / N = T at hca' ec ⊢
  clear hEa hEb hlt hcs hca hA hda hdb hcd
  have hrun : correlation F bessel as bs w = .ok (div F c (mul F sa sb)) w := by
    rw [correlation, Cpp.bind_ok hc, Cpp.bind_ok hsa, Cpp.bind_ok hsb]
    rfl
  refine ⟨_, hrun, ?_⟩
  exact quotient_bound hF fsa fsb fc hsa0 hsb0 hu la ua lb ub esa esb hcs' hca' hA' ec

example : mean (ω := Unit) double (fps [.fin false 1, .fin false 3]) () = .ok (.fin false 2) () ∧
    mean (ω := Unit) double (fps [.fin false 7, .fin true 1]) () = .ok (.fin false 3) () ∧
    InRange double ([1, 3].map fun x => x - 2) ∧ InRange double ([7, -1].map fun x => x - 3) ∧
    absCodeviations 2 3 [1, 3] [7, -1] < 2 ^ (double.emax - 2) ∧
    correlation (ω := Unit) double false (fps [.fin false 1, .fin false 3]) (fps [.fin false 7, .fin true 1]) () = .ok (.fin true 1) () := by
  refine ⟨?_, ?_, ⟨?_, ?_⟩, ⟨?_, ?_⟩, ?_, ?_⟩ <;> decide +kernel

end Efp.Props
