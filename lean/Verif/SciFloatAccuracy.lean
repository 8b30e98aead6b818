import Verif.SciFloatMoreLemmas
import Verif.SciFloatMean
import Verif.IeeeSqrt

/-!
# Relative errors of sums of squares
-/

namespace Efp.SciFloat

open Efp.Prelude Efp.Ieee

variable {F : Fmt}

/-- `q` is the number `t`, which is not negative, after `k` roundings -/
def Near (F : Fmt) (k : Nat) (q t : ℚ) : Prop := 0 ≤ t ∧ (1 - unit F) ^ k * t ≤ q ∧ q ≤ (1 + unit F) ^ k * t

theorem unit_le (hF : F.Ok) : unit F ≤ 1 / 4 := by
  have h : (2 : ℚ) ^ (-(F.prec : Int)) ≤ 2 ^ (-2 : Int) := zpow_mono2 (by have := hF.prec; omega)
  unfold unit
  norm_num at h ⊢
  exact h

theorem Near.mono (hF : F.Ok) {k j : Nat} {q t : ℚ} (h : Near F k q t) (hkj : k ≤ j) : Near F j q t := by
  have hu := unit_pos F
  have hu' := unit_le hF
  obtain ⟨h0, h1, h2⟩ := h
  have e1 : (1 - unit F) ^ j ≤ (1 - unit F) ^ k := pow_le_pow_of_le_one (by linarith) (by linarith) hkj
  have e2 : (1 + unit F) ^ k ≤ (1 + unit F) ^ j := pow_le_pow_right₀ (by linarith) hkj
  exact ⟨h0, (mul_le_mul_of_nonneg_right e1 h0).trans h1, h2.trans (mul_le_mul_of_nonneg_right e2 h0)⟩

theorem Near.nonneg (hF : F.Ok) {k : Nat} {q t : ℚ} (h : Near F k q t) : 0 ≤ q := by
  have hu' := unit_le hF
  exact (mul_nonneg (pow_nonneg (by linarith) k) h.1).trans h.2.1

theorem Near.round (hF : F.Ok) {k : Nat} {q t : ℚ} (h : Near F k q t) (hr : |Ieee.round F q - q| ≤ unit F * |q|) :
    Near F (k + 1) (Ieee.round F q) t := by
  have hu := unit_pos F
  have hu' := unit_le hF
  have hq := h.nonneg hF
  obtain ⟨h0, h1, h2⟩ := h
  rw [abs_of_nonneg hq, abs_le] at hr
  refine ⟨h0, ?_, ?_⟩
  · rw [pow_succ]
    nlinarith
  · rw [pow_succ]
    nlinarith

theorem Near.add {k : Nat} {q t p s : ℚ} (h : Near F k q t) (h' : Near F k p s) : Near F k (q + p) (t + s) :=
  ⟨by linarith [h.1, h'.1], by linarith [h.2.1, h'.2.1], by linarith [h.2.2, h'.2.2]⟩

theorem Near.div {k : Nat} {q t : ℚ} (h : Near F k q t) {n : ℚ} (hn : 0 < n) : Near F k (q / n) (t / n) := by
  refine ⟨div_nonneg h.1 hn.le, ?_, ?_⟩
  · rw [← mul_div_assoc]
    exact div_le_div_of_nonneg_right h.2.1 hn.le
  · rw [← mul_div_assoc]
    exact div_le_div_of_nonneg_right h.2.2 hn.le

theorem pow_lower (hF : F.Ok) (k : Nat) : 1 - k * unit F ≤ (1 - unit F) ^ k := by
  have hu' := unit_le hF
  have := one_add_mul_le_pow (a := -unit F) (by linarith) k
  rw [← sub_eq_add_neg] at this
  linarith

theorem pow_upper (hF : F.Ok) {k : Nat} (hk : k * unit F ≤ 1 / 2) : (1 + unit F) ^ k ≤ 1 + 2 * (k * unit F) := by
  have hu := unit_pos F
  have hu' := unit_le hF
  have h1 := pow_lower hF k
  have hku : 0 ≤ k * unit F := mul_nonneg (by positivity) hu.le
  have h2 : (1 + unit F) ^ k * (1 - unit F) ^ k ≤ 1 := by
    rw [← mul_pow]
    exact pow_le_one₀ (by nlinarith) (by nlinarith)
  have h3 : (0 : ℚ) ≤ (1 + unit F) ^ k := pow_nonneg (by linarith) k
  have h4 : (1 + unit F) ^ k * (1 - k * unit F) ≤ 1 := (mul_le_mul_of_nonneg_left h1 h3).trans h2
  by_contra hc
  push Not at hc
  nlinarith

theorem Near.error (hF : F.Ok) {k : Nat} {q t : ℚ} (h : Near F k q t) (hk : k * unit F ≤ 1 / 2) :
    |q - t| ≤ 2 * (k * unit F) * t := by
  have hu := unit_pos F
  have h1 := mul_le_mul_of_nonneg_right (pow_lower hF k) h.1
  have h2 := mul_le_mul_of_nonneg_right (pow_upper hF hk) h.1
  have hku : 0 ≤ k * unit F * t := mul_nonneg (mul_nonneg (by positivity) hu.le) h.1
  have := h.2.1
  have := h.2.2
  rw [abs_le]
  constructor <;> nlinarith

theorem Near.le_two (hF : F.Ok) {k : Nat} {q t : ℚ} (h : Near F k q t) (hk : k * unit F ≤ 1 / 2) : q ≤ 2 * t ∧ t ≤ 2 * q := by
  have h1 := mul_le_mul_of_nonneg_right (pow_lower hF k) h.1
  have h2 := mul_le_mul_of_nonneg_right (pow_upper hF hk) h.1
  have := h.2.1
  have := h.2.2
  have := h.1
  constructor <;> nlinarith

/-! ### operations -/

theorem foldl_near (hF : F.Ok) {k : Nat} : ∀ (es : List Fp) (ts : List ℚ) (acc : Fp) (A : ℚ) (j : Nat),
    List.Forall₂ (fun e t => Finite F e ∧ Near F k (value e) t) es ts → Finite F acc → Near F j (value acc) A → k ≤ j →
    ((j + es.length : Nat) : ℚ) * unit F ≤ 1 / 2 → 2 * (A + ts.sum) < 2 ^ F.emax →
    Finite F (es.foldl (add F) acc) ∧ Near F (j + es.length) (value (es.foldl (add F) acc)) (A + ts.sum)
  | [], _, acc, A, j, .nil, ha, hn, _, _, _ => by simpa using ⟨ha, hn⟩
  | e :: es, _, acc, A, j, .cons (b := t) (l₂ := ts) ⟨he, ht⟩ hes, ha, hn, hkj, hu, hlt => by
    obtain ⟨z, hz⟩ := add_fin ha he
    have hN := (hn.add (ht.mono hF hkj)).round hF (round_add_error ha.value_rep he.value_rep)
    rw [List.sum_cons] at hlt ⊢
    have hsum : 0 ≤ ts.sum := by
      apply List.sum_nonneg
      intro x hx
      obtain ⟨i, hi, rfl⟩ := List.mem_iff_getElem.1 hx
      exact (hes.get (by rw [hes.length_eq]; exact hi) hi).2.1
    have hlen : j + (e :: es).length = j + 1 + es.length := by simp; omega
    rw [hlen] at hu ⊢
    have hj1 : ((j + 1 : Nat) : ℚ) * unit F ≤ 1 / 2 := by
      refine (mul_le_mul_of_nonneg_right ?_ (unit_pos F).le).trans hu
      exact_mod_cast Nat.le_add_right _ _
    have hfin : |Ieee.round F (value acc + value e)| < 2 ^ F.emax := by
      rw [abs_of_nonneg (hN.nonneg hF)]
      have := (hN.le_two hF hj1).1
      linarith
    obtain ⟨f1, f2⟩ := ofExact_finite hF z hfin
    rw [← hz] at f1 f2
    rw [← f2] at hN
    have := foldl_near hF es ts (add F acc e) (A + t) (j + 1) hes f1 hN (by omega) hu (by linarith)
    rw [List.foldl_cons, ← add_assoc]
    exact this

theorem sumL_near (hF : F.Ok) {k : Nat} (es : List Fp) (ts : List ℚ)
    (h : List.Forall₂ (fun e t => Finite F e ∧ Near F k (value e) t) es ts)
    (hu : ((k + (es.length - 1) : Nat) : ℚ) * unit F ≤ 1 / 2) (hlt : 2 * ts.sum < 2 ^ F.emax) :
    Finite F (sumL F es) ∧ Near F (k + (es.length - 1)) (value (sumL F es)) ts.sum := by
  cases h with
  | nil => exact ⟨zero_finite, by simp [sumL, value_zero, Near]⟩
  | cons h hes =>
    rename_i e t es ts
    obtain ⟨h1, h2⟩ := add_zero_left hF h.1
    simp only [List.length_cons, Nat.add_sub_cancel] at hu ⊢
    rw [List.sum_cons] at hlt ⊢
    exact foldl_near hF es ts (add F zero e) t k hes h1 (by rw [h2]; exact h.2) (le_refl _) hu hlt

theorem emax_half (F : Fmt) : (2 : ℚ) ^ F.emax = 2 * 2 ^ (F.emax - 1) := by
  rw [zpow_sub_one₀ (by norm_num)]
  ring

/-- a difference is off by one rounding -/
theorem sub_near (hF : F.Ok) {x y : Fp} (hx : Finite F x) (hy : Finite F y) (h : (value x - value y) ^ 2 < 2 ^ (F.emax - 1)) :
    Finite F (sub F x y) ∧ Near F 1 |value (sub F x y)| |value x - value y| := by
  obtain ⟨z, hz⟩ := sub_fin hx hy
  have hr := round_add_error hx.value_rep hy.value_rep.neg
  rw [← sub_eq_add_neg] at hr
  have hu := unit_pos F
  have hu' := unit_le hF
  have hd : |value x - value y| < 2 ^ (F.emax - 1) := by
    have h1 : (1 : ℚ) < 2 ^ (F.emax - 1) := by
      have : (2 : ℚ) ^ (0 : Int) < 2 ^ (F.emax - 1) := zpow_lt2 (by have := hF.size; omega)
      simpa using this
    rw [← sq_abs] at h
    by_contra hc
    push Not at hc
    nlinarith
  have h1 : |Ieee.round F (value x - value y)| ≤ (1 + unit F) * |value x - value y| := by
    have := abs_add_le (value x - value y) (Ieee.round F (value x - value y) - (value x - value y))
    rw [add_sub_cancel] at this
    linarith
  have h2 : (1 - unit F) * |value x - value y| ≤ |Ieee.round F (value x - value y)| := by
    have := abs_sub_abs_le_abs_sub (value x - value y) (Ieee.round F (value x - value y))
    rw [abs_sub_comm (value x - value y)] at this
    linarith
  have h0 := abs_nonneg (value x - value y)
  have hfin : |Ieee.round F (value x - value y)| < 2 ^ F.emax := by
    rw [emax_half]
    nlinarith
  obtain ⟨f1, f2⟩ := ofExact_finite hF z hfin
  rw [hz]
  refine ⟨f1, ?_⟩
  rw [f2]
  exact ⟨h0, by simpa using h2, by simpa using h1⟩

/-- the square of a number that is off by one rounding -/
theorem square_near (hF : F.Ok) {d : Fp} {D : ℚ} (hd : Finite F d) (h : Near F 1 |value d| |D|)
    (hlo : D = 0 ∨ 2 * 2 ^ (F.emin + F.prec - 1) ≤ D ^ 2) (hhi : D ^ 2 < 2 ^ (F.emax - 1)) :
    Finite F (square F d) ∧ Near F 3 (value (square F d)) (D ^ 2) := by
  have hu := unit_pos F
  have hu' := unit_le hF
  obtain ⟨z, hz⟩ := mul_fin hd hd
  have h0 := abs_nonneg D
  have hv := abs_nonneg (value d)
  obtain ⟨-, h1, h2⟩ := h
  rw [pow_one] at h1 h2
  have hsq : Near F 2 (value d * value d) (D ^ 2) := by
    rw [← abs_mul_abs_self (value d), ← sq_abs D]
    refine ⟨sq_nonneg _, ?_, ?_⟩
    · rw [← mul_pow, sq]
      exact mul_self_le_mul_self (mul_nonneg (by linarith) h0) h1
    · rw [← mul_pow, sq]
      exact mul_self_le_mul_self hv h2
  have hround : |Ieee.round F (value d * value d) - value d * value d| ≤ unit F * |value d * value d| := by
    rcases hlo with rfl | hlo
    · have : value d * value d = 0 := le_antisymm (by simpa using hsq.2.2) (mul_self_nonneg _)
      rw [this, round_zero]
      simp
    · apply round_normal
      rw [abs_of_nonneg (mul_self_nonneg _)]
      have := hsq.2.1
      have hpos := zpow_pos2 (F.emin + F.prec - 1)
      have h3 : (1 : ℚ) / 2 ≤ (1 - unit F) ^ 2 := by nlinarith
      nlinarith
  have hN := hsq.round hF hround
  have hfin : |Ieee.round F (value d * value d)| < 2 ^ F.emax := by
    rw [abs_of_nonneg (hN.nonneg hF), emax_half]
    have := hN.2.2
    have h3 : (1 + unit F) ^ (2 + 1) ≤ 2 := by
      have : (1 + unit F) ^ (2 + 1) ≤ (1 + 1 / 4) ^ 3 := pow_le_pow_left₀ (by linarith) (by linarith) 3
      norm_num at this ⊢
      linarith
    have h4 := mul_le_mul_of_nonneg_right h3 (sq_nonneg D)
    linarith
  obtain ⟨f1, f2⟩ := ofExact_finite hF z hfin
  rw [square, hz]
  exact ⟨f1, f2 ▸ hN⟩

/-- a number divided by a count -/
theorem div_near (hF : F.Ok) {s : Fp} {S : ℚ} {k n : Nat} (hs : Finite F s) (h : Near F k (value s) S) (hk : k * unit F ≤ 1 / 2)
    (hn : 0 < n) (h64 : n < 2 ^ 64) (hp : n < 2 ^ F.prec) (hlo : S = 0 ∨ 2 * 2 ^ (F.emin + F.prec - 1) ≤ S / n) :
    Finite F (div F s (ofInt F n)) ∧ Near F (k + 1) (value (div F s (ofInt F n))) (S / n) := by
  have hn' : (0 : ℚ) < n := by exact_mod_cast hn
  have hn1 : (1 : ℚ) ≤ n := by exact_mod_cast hn
  obtain ⟨e1, e2⟩ := ofInt_exact hF hn h64 hp
  have hv : value (ofInt F n) = n := by rw [e1]; rfl
  obtain ⟨z, hz⟩ := div_fin hs e2 (by rw [hv]; exact hn'.ne')
  rw [hv] at hz
  have hN := h.div hn'
  have hq := hN.nonneg hF
  have hround : |Ieee.round F (value s / n) - value s / n| ≤ unit F * |value s / n| := by
    rcases hlo with rfl | hlo
    · have : value s = 0 := le_antisymm (by simpa using h.2.2) (h.nonneg hF)
      rw [this, zero_div, round_zero]
      simp
    · apply round_normal
      rw [abs_of_nonneg hq]
      have := (hN.le_two hF hk).2
      linarith
  have hR := hN.round hF hround
  have hfin : |Ieee.round F (value s / n)| < 2 ^ F.emax := by
    rw [abs_of_nonneg (hR.nonneg hF)]
    refine lt_of_le_of_lt ?_ (lt_of_abs_lt hs.value_lt)
    refine round_le_of_rep hF hs.value_rep ?_
    rw [div_le_iff₀ hn']
    nlinarith [h.nonneg hF]
  obtain ⟨f1, f2⟩ := ofExact_finite hF z hfin
  rw [hz]
  exact ⟨f1, f2 ▸ hR⟩

/-- the square root has a small relative error -/
theorem sqrt_near (hF : F.Ok) {m : Fp} {M : ℚ} {k : Nat} (hm : Finite F m) (hs : m = .fin false (value m)) (h : Near F k (value m) M)
    (hk : k * unit F ≤ 1 / 2) (hlo : M = 0 ∨ 2 * 2 ^ (F.emin + F.prec - 1) ≤ M) :
    Finite F (Ieee.sqrt F m) ∧ Near F (k + 2) (value (Ieee.sqrt F m) ^ 2) M ∧ 0 ≤ value (Ieee.sqrt F m) := by
  have hu := unit_pos F
  have hu' := unit_le hF
  rcases hlo with rfl | hlo
  · have h0 : value m = 0 := le_antisymm (by simpa using h.2.2) (h.nonneg hF)
    rw [h0] at hs
    subst hs
    refine ⟨by simpa [Ieee.sqrt] using hm, ?_, ?_⟩ <;> simp [Ieee.sqrt, value, signed, Near]
  · have hmn := zpow_pos2 (F.emin + F.prec - 1)
    have hvn : (2 : ℚ) ^ (F.emin + F.prec - 1) ≤ value m := by
      have := (h.le_two hF hk).2
      linarith
    have hv0 : 0 < value m := lt_of_lt_of_le hmn hvn
    have hnn : NonNeg (Ieee.sqrt F m) := sqrt_nonneg_fp (.inr ⟨value m, hv0.le, hs⟩)
    obtain ⟨hf, hnear⟩ := sqrt_correct hF (hs ▸ hm) hv0
    rw [← hs] at hf hnear
    have hr0 : 0 ≤ value (Ieee.sqrt F m) := by
      rcases hnn with e | ⟨a, ha, e⟩
      · rw [e]; exact le_refl _
      · rw [e]; exact ha
    refine ⟨hf, ?_, hr0⟩
    set r := value (Ieee.sqrt F m)
    set v := value m
    have hv0' : (0 : ℝ) < (v : ℝ) := by exact_mod_cast hv0
    have hsq : Real.sqrt v ^ 2 = v := Real.sq_sqrt hv0'.le
    have hsp : 0 < Real.sqrt v := Real.sqrt_pos.2 hv0'
    have hsn : (((2 : ℚ) ^ (F.emin + F.prec - 1) : ℚ) : ℝ) ≤ Real.sqrt v := by
      have hone : ((2 : ℚ) ^ (F.emin + F.prec - 1)) ≤ 1 := by
        have : (2 : ℚ) ^ (F.emin + F.prec - 1) ≤ 2 ^ (0 : Int) := zpow_mono2 (by have := hF.range; omega)
        simpa using this
      apply Real.le_sqrt_of_sq_le
      have : ((2 : ℚ) ^ (F.emin + F.prec - 1)) ^ 2 ≤ v := by nlinarith
      exact_mod_cast this
    have huR : (0 : ℝ) < (unit F : ℚ) := by exact_mod_cast hu
    have huR' : ((unit F : ℚ) : ℝ) ≤ 1 / 4 := by
      have : ((unit F : ℚ) : ℝ) ≤ ((1 / 4 : ℚ) : ℝ) := by exact_mod_cast hu'
      simpa using this
    have hkey : |(r : ℝ) - Real.sqrt v| ≤ (unit F : ℚ) * Real.sqrt v := by
      apply le_of_forall_pos_le_add
      intro ε hε
      obtain ⟨s, hs1, hs2⟩ := exists_rat_btwn (show Real.sqrt v < Real.sqrt v + ε / 2 by linarith)
      have hspos : 0 < s := by exact_mod_cast hsp.trans hs1
      have hsnorm : (2 : ℚ) ^ (F.emin + F.prec - 1) ≤ |s| := by
        rw [abs_of_pos hspos]
        exact_mod_cast hsn.trans hs1.le
      have h1 := round_normal s hsnorm
      rw [abs_of_pos hspos] at h1
      have h1' : |((Ieee.round F s : ℚ) : ℝ) - s| ≤ (unit F : ℚ) * s := by exact_mod_cast h1
      have h2 := hnear _ (round_rep hF s)
      have h3 : |((Ieee.round F s : ℚ) : ℝ) - Real.sqrt v| ≤ |((Ieee.round F s : ℚ) : ℝ) - s| + |(s : ℝ) - Real.sqrt v| := abs_sub_le _ _ _
      rw [abs_of_pos (show (0 : ℝ) < s - Real.sqrt v by linarith)] at h3
      nlinarith
    rw [abs_le] at hkey
    have hr0' : (0 : ℝ) ≤ (r : ℚ) := by exact_mod_cast hr0
    have hlow : (1 - unit F) ^ 2 * v ≤ r ^ 2 := by
      have : (1 - ((unit F : ℚ) : ℝ)) ^ 2 * v ≤ (r : ℝ) ^ 2 := by
        rw [← hsq, ← mul_pow]
        exact pow_le_pow_left₀ (mul_nonneg (by linarith) hsp.le) (by linarith) 2
      exact_mod_cast this
    have hup : r ^ 2 ≤ (1 + unit F) ^ 2 * v := by
      have : (r : ℝ) ^ 2 ≤ (1 + ((unit F : ℚ) : ℝ)) ^ 2 * v := by
        rw [← hsq, ← mul_pow]
        exact pow_le_pow_left₀ hr0' (by linarith) 2
      exact_mod_cast this
    refine ⟨h.1, ?_, ?_⟩
    · refine le_trans ?_ hlow
      rw [pow_add, mul_comm _ ((1 - unit F) ^ 2), mul_assoc]
      exact mul_le_mul_of_nonneg_left h.2.1 (sq_nonneg _)
    · refine hup.trans ?_
      rw [pow_add, mul_comm _ ((1 + unit F) ^ 2), mul_assoc]
      exact mul_le_mul_of_nonneg_left h.2.2 (sq_nonneg _)

end Efp.SciFloat
