import Verif.IeeeOps
import Mathlib.Analysis.Real.Sqrt

/-! `sqrt` of `Verif/Ieee.lean` is the real square root rounded to nearest. -/

namespace Efp.Ieee

variable {F : Fmt}

/-- the approximation and the root lie in one cell of the grid of `2^k`: they are equal, or both strictly inside -/
theorem sqrtApprox_cell (p : Nat) {q : ℚ} (hq : 0 < q) :
    ∃ (k : Int) (r : Nat), k = ilog q / 2 - (p + 2) ∧ (2 : ℚ) ^ (k + p + 2) ≤ r * 2 ^ k ∧
      (((sqrtApprox p q : ℚ) : ℝ) = Real.sqrt q ∨
        ((r : ℚ) * 2 ^ k < sqrtApprox p q ∧ sqrtApprox p q < ((r : ℚ) + 1) * 2 ^ k ∧
         (((r : ℚ) * 2 ^ k : ℚ) : ℝ) < Real.sqrt q ∧ Real.sqrt q < ((((r : ℚ) + 1) * 2 ^ k : ℚ) : ℝ))) ∧
      (r : ℚ) * 2 ^ k ≤ sqrtApprox p q := by
  set k : Int := ilog q / 2 - (p + 2) with hk
  set n : Nat := ⌊q / 2 ^ (2 * k)⌋.toNat with hn
  set r := Nat.sqrt n with hr
  have hpk := zpow_pos2 k
  have hp2 := zpow_pos2 (2 * k)
  have h2k : (2 : ℚ) ^ (2 * k) = 2 ^ k * 2 ^ k := by rw [two_mul, zpow_add₀ (by norm_num)]
  have hfl : 0 ≤ ⌊q / 2 ^ (2 * k)⌋ := Int.floor_nonneg.2 (div_pos hq hp2).le
  have hnc : ((n : Nat) : ℚ) = ((⌊q / 2 ^ (2 * k)⌋ : Int) : ℚ) := by
    rw [hn]
    exact_mod_cast congrArg (Int.cast : Int → ℚ) (Int.toNat_of_nonneg hfl)
  have hn1 : (n : ℚ) * 2 ^ (2 * k) ≤ q := by
    rw [hnc, ← le_div_iff₀ hp2]
    exact Int.floor_le _
  have hn2 : q < ((n : ℚ) + 1) * 2 ^ (2 * k) := by
    rw [hnc, ← div_lt_iff₀ hp2]
    exact Int.lt_floor_add_one _
  have hr1 : (r : ℚ) * r ≤ n := by exact_mod_cast Nat.sqrt_le n
  have hr2 : (n : ℚ) + 1 ≤ (r + 1) * (r + 1) := by exact_mod_cast Nat.lt_succ_sqrt n
  have hlow : ((r : ℚ) * 2 ^ k) * ((r : ℚ) * 2 ^ k) ≤ q := by
    have := mul_le_mul_of_nonneg_right hr1 hp2.le
    rw [h2k] at this hn1
    nlinarith
  have hhigh : q < (((r : ℚ) + 1) * 2 ^ k) * (((r : ℚ) + 1) * 2 ^ k) := by
    have := mul_le_mul_of_nonneg_right hr2 hp2.le
    rw [h2k] at this hn2
    nlinarith
  have hbig : (2 : ℚ) ^ (k + p + 2) ≤ r * 2 ^ k := by
    have h1 : ((2 : ℚ) ^ (p + 2)) * 2 ^ (p + 2) ≤ n := by
      rw [hnc]
      have h2 : (2 : ℚ) ^ (2 * (p + 2) : Int) ≤ q / 2 ^ (2 * k) := by
        rw [le_div_iff₀ hp2, ← zpow_add₀ (by norm_num)]
        refine le_trans ?_ (ilog_spec hq).1
        exact zpow_le_zpow_right₀ (by norm_num) (by omega)
      have e : (2 : ℚ) ^ (2 * (p + 2) : Int) = (((2 ^ (p + 2) * 2 ^ (p + 2) : Nat) : Int) : ℚ) := by
        push_cast
        rw [two_mul, zpow_add₀ (by norm_num)]
        norm_cast
      rw [e] at h2
      have h3 : ((2 ^ (p + 2) * 2 ^ (p + 2) : Nat) : Int) ≤ ⌊q / 2 ^ (2 * k)⌋ := Int.le_floor.2 h2
      have h4 : (((2 ^ (p + 2) * 2 ^ (p + 2) : Nat) : Int) : ℚ) ≤ ((⌊q / 2 ^ (2 * k)⌋ : Int) : ℚ) := by exact_mod_cast h3
      refine le_trans (le_of_eq ?_) h4
      push_cast
      rfl
    have h2 : 2 ^ (p + 2) ≤ r := by
      rw [hr, Nat.le_sqrt]
      exact_mod_cast h1
    have h3 : ((2 : ℚ) ^ (p + 2)) ≤ r := by exact_mod_cast h2
    have e : (2 : ℚ) ^ (k + p + 2) = 2 ^ (p + 2) * 2 ^ k := by
      rw [← zpow_natCast, ← zpow_add₀ (by norm_num)]
      congr 1
      push_cast
      ring
    rw [e]
    exact mul_le_mul_of_nonneg_right h3 hpk.le
  have hr0 : (0 : ℚ) ≤ r * 2 ^ k := mul_nonneg (Nat.cast_nonneg _) hpk.le
  have hval : sqrtApprox p q = (if (r : ℚ) * r * 2 ^ (2 * k) = q then (r : ℚ) else r + 1 / 2) * 2 ^ k := rfl
  refine ⟨k, r, rfl, hbig, ?_, ?_⟩
  · by_cases he : (r : ℚ) * r * 2 ^ (2 * k) = q
    · left
      rw [hval, if_pos he]
      have : q = ((r : ℚ) * 2 ^ k) * ((r : ℚ) * 2 ^ k) := by rw [← he, h2k]; ring
      have h5 : (q : ℝ) = (((r : ℚ) * 2 ^ k : ℚ) : ℝ) * (((r : ℚ) * 2 ^ k : ℚ) : ℝ) := by rw [← Rat.cast_mul, ← this]
      rw [h5, Real.sqrt_mul_self]
      exact_mod_cast hr0
    · right
      have hne : ((r : ℚ) * 2 ^ k) * ((r : ℚ) * 2 ^ k) ≠ q := by
        intro h
        apply he
        rw [h2k, ← h]
        ring
      refine ⟨?_, ?_, ?_, ?_⟩
      · rw [hval, if_neg he]
        nlinarith
      · rw [hval, if_neg he]
        nlinarith
      · rw [Real.lt_sqrt (by exact_mod_cast hr0), sq]
        exact_mod_cast lt_of_le_of_ne hlow hne
      · rw [Real.sqrt_lt' (by
          have : (0 : ℚ) < ((r : ℚ) + 1) * 2 ^ k := by nlinarith
          exact_mod_cast this), sq]
        exact_mod_cast hhigh
  · rw [hval]
    split <;> nlinarith

/-- on one side of a point of the grid -/
theorem same_side {a t m r : ℝ} (h : |m - a| ≤ |r - a|) (hs : ∀ _ : m ≠ r, (a ≤ (m + r) / 2 ∧ t ≤ (m + r) / 2) ∨ ((m + r) / 2 ≤ a ∧ (m + r) / 2 ≤ t))
    (ha : ∀ _ : m ≠ r, a ≠ (m + r) / 2 ∨ a = t) : |m - t| ≤ |r - t| := by
  by_cases hmr : m = r
  · rw [hmr]
  · rw [← sq_le_sq] at h ⊢
    rcases ha hmr with h1 | rfl
    · rcases hs hmr with ⟨h2, h3⟩ | ⟨h2, h3⟩
      · have h4 : a < (m + r) / 2 := lt_of_le_of_ne h2 h1
        have : m ≤ r := by
          by_contra hlt
          push Not at hlt
          nlinarith
        nlinarith
      · have h4 : (m + r) / 2 < a := lt_of_le_of_ne h2 (Ne.symm h1)
        have : r ≤ m := by
          by_contra hlt
          push Not at hlt
          nlinarith
        nlinarith
    · exact h

/-- the sum of two multiples of twice the step, halved, is not strictly inside a cell -/
theorem grid_side {k : Int} (i j r : Int) :
    (r + 1) * (2 : ℚ) ^ k ≤ (i * 2 ^ (k + 1) + j * 2 ^ (k + 1)) / 2 ∨ (i * (2 : ℚ) ^ (k + 1) + j * 2 ^ (k + 1)) / 2 ≤ r * 2 ^ k := by
  have hp := zpow_pos2 k
  have e : ((i : ℚ) * (2 : ℚ) ^ (k + 1) + j * 2 ^ (k + 1)) / 2 = ((i + j : Int) : ℚ) * 2 ^ k := by
    rw [zpow_add_one₀ (by norm_num)]
    push_cast
    ring
  rw [e]
  rcases lt_or_ge r (i + j) with h | h
  · left
    have h1 : r + 1 ≤ i + j := h
    have : ((r : ℚ) + 1) ≤ ((i + j : Int) : ℚ) := by exact_mod_cast h1
    exact mul_le_mul_of_nonneg_right this hp.le
  · right
    have : ((i + j : Int) : ℚ) ≤ r := by exact_mod_cast h
    exact mul_le_mul_of_nonneg_right this hp.le

/-- a number whose last kept bit is at least `e` is a multiple of `2^e` -/
theorem multiple_of_lastBit {q : ℚ} {e : Int} (hr : Rep F q) (h : e ≤ lastBit F q) : ∃ n : Int, q = n * 2 ^ e := by
  obtain ⟨n, hn⟩ := rep_multiple hr
  obtain ⟨d, hd⟩ : ∃ d : Nat, lastBit F q = e + d := ⟨(lastBit F q - e).toNat, by omega⟩
  refine ⟨n * 2 ^ d, ?_⟩
  conv_lhs => rw [hn, hd, zpow_addn]
  push_cast
  ring

/-- a number of the format at least `2^(e + prec - 1)` is a multiple of `2^e` -/
theorem multiple_of_large {q : ℚ} {e : Int} (hr : Rep F q) (h : (2 : ℚ) ^ (e + F.prec - 1) ≤ q) : ∃ n : Int, q = n * 2 ^ e := by
  refine multiple_of_lastBit hr ?_
  have h0 : 0 < q := lt_of_lt_of_le (zpow_pos2 _) h
  have h1 := (ilog_spec h0).2
  have h2 := lt_of_zpow (lt_of_le_of_lt h h1)
  unfold lastBit
  rw [if_neg h0.ne', abs_of_pos h0]
  have := le_max_right F.emin (ilog q - (F.prec - 1))
  omega

/-- the rounded approximation is a number of the format nearest to the root -/
theorem sqrt_nearest (hF : F.Ok) {q : ℚ} (hq : 0 < q) (hmin : (2 : ℚ) ^ F.emin ≤ q) {r : ℚ} (hr : Rep F r) :
    |((round F (sqrtApprox F.prec q) : ℚ) : ℝ) - Real.sqrt q| ≤ |(r : ℝ) - Real.sqrt q| := by
  obtain ⟨k, c, hk, hbig, hcase, hca⟩ := sqrtApprox_cell F.prec hq
  set a := sqrtApprox F.prec q with ha
  have hprec := hF.prec
  have hrange := hF.range
  have hil : F.emin ≤ ilog q := by
    have := lt_of_zpow (lt_of_le_of_lt hmin (ilog_spec hq).2)
    omega
  have hbigk : F.emin ≤ k + F.prec + 1 := by omega
  have hrep2 : ∀ e : Int, F.emin ≤ e → Rep F (2 ^ e) := fun e he => rep_pow (by omega) he
  -- the result is large
  have hm2 : (2 : ℚ) ^ (k + F.prec + 1) ≤ round F a :=
    le_round_of_rep hF (hrep2 _ (by omega)) (le_trans (le_trans (zpow_le_zpow_right₀ (by norm_num) (by omega)) hbig) hca)
  obtain ⟨i, hi⟩ := multiple_of_large (e := k + 1) (round_rep hF a) (le_trans (zpow_le_zpow_right₀ (by norm_num) (by omega)) hm2)
  rcases hcase with heq | ⟨h1, h2, h3, h4⟩
  · rw [← heq]
    have := round_nearest (q := a) hr
    have h5 : |((round F a - a : ℚ) : ℝ)| ≤ |((r - a : ℚ) : ℝ)| := by exact_mod_cast this
    push_cast at h5
    exact h5
  · -- for numbers on the grid
    have key : ∀ {r : ℚ}, Rep F r → (∃ j : Int, r = j * 2 ^ (k + 1)) → |((round F a : ℚ) : ℝ) - Real.sqrt q| ≤ |(r : ℝ) - Real.sqrt q| := by
      rintro r hr ⟨j, hj⟩
      have hn : |((round F a - a : ℚ) : ℝ)| ≤ |((r - a : ℚ) : ℝ)| := by exact_mod_cast round_nearest (q := a) hr
      push_cast at hn
      have hg := grid_side (k := k) i j c
      rw [← hi, ← hj, Int.cast_natCast] at hg
      refine same_side hn (fun _ => ?_) (fun _ => Or.inl ?_)
      · rcases hg with hg | hg
        · left
          have h5 : (((c : ℚ) + 1) * 2 ^ k : ℚ) ≤ (((round F a + r) / 2 : ℚ)) := hg
          have h6 : ((((c : ℚ) + 1) * 2 ^ k : ℚ) : ℝ) ≤ (((round F a + r) / 2 : ℚ) : ℝ) := by exact_mod_cast h5
          have h7 : (a : ℝ) ≤ ((((c : ℚ) + 1) * 2 ^ k : ℚ) : ℝ) := by exact_mod_cast h2.le
          have e : (((round F a + r) / 2 : ℚ) : ℝ) = ((round F a : ℚ) + (r : ℝ)) / 2 := by push_cast; rfl
          rw [e] at h6
          exact ⟨h7.trans h6, h4.le.trans h6⟩
        · right
          have h6 : (((round F a + r) / 2 : ℚ) : ℝ) ≤ (((c : ℚ) * 2 ^ k : ℚ) : ℝ) := by exact_mod_cast hg
          have h7 : (((c : ℚ) * 2 ^ k : ℚ) : ℝ) ≤ (a : ℝ) := by exact_mod_cast h1.le
          have e : (((round F a + r) / 2 : ℚ) : ℝ) = ((round F a : ℚ) + (r : ℝ)) / 2 := by push_cast; rfl
          rw [e] at h6
          exact ⟨h6.trans h7, h6.trans h3.le⟩
      · intro he
        have h5 : a = (round F a + r) / 2 := by
          have e : (((round F a + r) / 2 : ℚ) : ℝ) = ((round F a : ℚ) + (r : ℝ)) / 2 := by push_cast; rfl
          rw [← e] at he
          exact_mod_cast he
        rcases hg with hg | hg
        · rw [← h5] at hg; linarith
        · rw [← h5] at hg; linarith
    rcases le_or_gt ((2 : ℚ) ^ (k + F.prec + 1)) r with h5 | h5
    · exact key hr (multiple_of_large hr (le_trans (zpow_le_zpow_right₀ (by norm_num) (by omega)) h5))
    · have hp := hrep2 (k + F.prec + 1) hbigk
      refine (key hp (multiple_of_large hp (zpow_le_zpow_right₀ (by norm_num) (by omega)))).trans ?_
      have h6 : (2 : ℚ) ^ (k + F.prec + 1) ≤ c * 2 ^ k := le_trans (zpow_le_zpow_right₀ (by norm_num) (by omega)) hbig
      have h7 : (((2 : ℚ) ^ (k + F.prec + 1) : ℚ) : ℝ) ≤ (((c : ℚ) * 2 ^ k : ℚ) : ℝ) := by exact_mod_cast h6
      have h8 : ((r : ℚ) : ℝ) < (((2 : ℚ) ^ (k + F.prec + 1) : ℚ) : ℝ) := by exact_mod_cast h5
      rw [abs_of_nonpos (by linarith), abs_of_nonpos (by linarith)]
      linarith

/-- **`sqrt` of a positive finite number** is a finite number of the format nearest to the real square root -/
theorem sqrt_correct (hF : F.Ok) {q : ℚ} (hx : Finite F (.fin false q)) (hq : 0 < q) :
    Finite F (sqrt F (.fin false q)) ∧ ∀ r, Rep F r → |((value (sqrt F (.fin false q)) : ℚ) : ℝ) - Real.sqrt q| ≤ |(r : ℝ) - Real.sqrt q| := by
  obtain ⟨s, m, hsm, hm0, hrep, hlt⟩ := hx
  cases hsm
  have hmin : (2 : ℚ) ^ F.emin ≤ q := by
    obtain ⟨m, e, hme, hm, he⟩ := hrep
    have h0 : 0 < m := by
      by_contra hneg
      push Not at hneg
      have : (m : ℚ) ≤ 0 := by exact_mod_cast hneg
      have := mul_nonpos_of_nonpos_of_nonneg this (zpow_pos2 e).le
      linarith
    have h1 : (1 : ℚ) ≤ m := by exact_mod_cast h0
    have h2 : (2 : ℚ) ^ F.emin ≤ 2 ^ e := zpow_le_zpow_right₀ (by norm_num) he
    rw [hme]
    nlinarith [zpow_pos2 e]
  have hfin : |round F (sqrtApprox F.prec q)| < 2 ^ F.emax := by
    have htop := hF.top
    have hprec := hF.prec
    have hrange := hF.range
    have hT : Rep F (2 ^ (F.emax - 1)) := rep_pow (by omega) (by omega)
    have hn := sqrt_nearest hF hq hmin hT
    have hs : Real.sqrt q ≤ (((2 : ℚ) ^ (F.emax - 1) : ℚ) : ℝ) := by
      rw [Real.sqrt_le_left (by exact_mod_cast (zpow_pos2 (F.emax - 1)).le), sq]
      have h1 : q ≤ (2 : ℚ) ^ (F.emax - 1) * 2 ^ (F.emax - 1) := by
        rw [← zpow_add₀ (by norm_num)]
        exact hlt.le.trans (zpow_le_zpow_right₀ (by norm_num) (by omega))
      exact_mod_cast h1
    rw [abs_of_nonneg (by linarith : 0 ≤ (((2 : ℚ) ^ (F.emax - 1) : ℚ) : ℝ) - Real.sqrt q)] at hn
    have h1 := (abs_le.1 hn).2
    have h2 : ((round F (sqrtApprox F.prec q) : ℚ) : ℝ) ≤ (((2 : ℚ) ^ (F.emax - 1) : ℚ) : ℝ) := by linarith
    have h3 : round F (sqrtApprox F.prec q) ≤ 2 ^ (F.emax - 1) := by exact_mod_cast h2
    rw [abs_of_nonneg (round_nonneg hF (sqrtApprox_nonneg _ _))]
    exact lt_of_le_of_lt h3 (zpow_lt2 (by omega))
  obtain ⟨h1, h2⟩ := ofExact_finite hF false hfin
  have e : sqrt F (.fin false q) = ofExact F false (sqrtApprox F.prec q) := by
    simp [sqrt, hq.ne']
  rw [e]
  refine ⟨h1, fun r hr => ?_⟩
  rw [h2]
  exact sqrt_nearest hF hq hmin hr

end Efp.Ieee
