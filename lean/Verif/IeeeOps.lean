import Verif.IeeeLemmas

/-! The operations on floating-point numbers: when they are finite, and their values. -/

namespace Efp.Ieee

variable {F : Fmt} {x y : Fp} {q : ℚ}

theorem double_ok : double.Ok := ⟨by decide, by decide, by decide, by decide⟩
theorem single_ok : single.Ok := ⟨by decide, by decide, by decide, by decide⟩

theorem Finite.value_rep (h : Finite F x) : Rep F (value x) := by
  obtain ⟨s, m, rfl, h0, hr, -⟩ := h
  cases s with
  | false => exact hr
  | true => exact hr.neg

theorem Finite.value_lt (h : Finite F x) : |value x| < 2 ^ F.emax := by
  obtain ⟨s, m, rfl, h0, -, hl⟩ := h
  cases s with
  | false => simpa [value, signed, abs_of_nonneg h0] using hl
  | true => simpa [value, signed, abs_of_nonneg h0] using hl

theorem Finite.neg (h : Finite F x) : Finite F x.neg := by
  obtain ⟨s, m, rfl, h⟩ := h
  exact ⟨!s, m, rfl, h⟩

theorem value_neg (h : Finite F x) : value x.neg = -value x := by
  obtain ⟨s, m, rfl, h⟩ := h
  cases s <;> simp [value, signed, Fp.neg]

theorem ofExact_finite (hF : F.Ok) (z : Bool) (h : |round F q| < 2 ^ F.emax) :
    Finite F (ofExact F z q) ∧ value (ofExact F z q) = round F q := by
  unfold ofExact
  rw [if_neg (not_le.2 h)]
  refine ⟨⟨_, _, rfl, abs_nonneg _, (round_rep hF q).abs, h⟩, ?_⟩
  simp only [value, signed]
  rcases lt_trichotomy q 0 with hq | hq | hq
  · have : round F q ≤ 0 := by
      have := round_mono hF hq.le
      rwa [round_zero] at this
    rw [if_neg hq.ne, abs_of_nonpos this]
    simp [hq]
  · subst hq
    rw [round_zero]
    simp
  · rw [if_neg hq.ne', abs_of_nonneg (round_nonneg hF hq.le)]
    simp [not_lt.2 hq.le]

theorem ofExact_inf (z : Bool) (h : (2 : ℚ) ^ F.emax ≤ |round F q|) : ofExact F z q = .inf (decide (q < 0)) := by
  unfold ofExact
  rw [if_pos h]

/-- a rounded exact result is finite or infinite, and its value is known when it is finite -/
theorem ofExact_cases (hF : F.Ok) (z : Bool) (q : ℚ) :
    (Finite F (ofExact F z q) ∧ value (ofExact F z q) = round F q) ∨ ∃ s, ofExact F z q = .inf s := by
  rcases lt_or_ge |round F q| (2 ^ F.emax) with h | h
  · exact Or.inl (ofExact_finite hF z h)
  · exact Or.inr ⟨_, ofExact_inf z h⟩

/-- exact results that the format has are delivered exactly -/
theorem ofExact_rep (hF : F.Ok) (z : Bool) (hr : Rep F q) (h : |q| < 2 ^ F.emax) :
    Finite F (ofExact F z q) ∧ value (ofExact F z q) = q := by
  have := ofExact_finite hF z (q := q) (by rwa [round_of_rep hr])
  rwa [round_of_rep hr] at this

theorem ofExact_nonneg (h : 0 ≤ q) : NonNeg (ofExact F false q) := by
  unfold ofExact
  split
  · left
    simp [not_lt.2 h]
  · right
    refine ⟨|round F q|, abs_nonneg _, ?_⟩
    simp [not_lt.2 h]

theorem add_fin (hx : Finite F x) (hy : Finite F y) : ∃ z, add F x y = ofExact F z (value x + value y) := by
  obtain ⟨s, a, rfl, -⟩ := hx
  obtain ⟨t, b, rfl, -⟩ := hy
  exact ⟨_, rfl⟩

theorem sub_fin (hx : Finite F x) (hy : Finite F y) : ∃ z, sub F x y = ofExact F z (value x - value y) := by
  obtain ⟨z, hz⟩ := add_fin hx hy.neg
  refine ⟨z, ?_⟩
  rw [sub, hz, value_neg hy, sub_eq_add_neg]

theorem mul_fin (hx : Finite F x) (hy : Finite F y) : ∃ z, mul F x y = ofExact F z (value x * value y) := by
  obtain ⟨s, a, rfl, -⟩ := hx
  obtain ⟨t, b, rfl, -⟩ := hy
  exact ⟨_, rfl⟩

theorem div_fin (hx : Finite F x) (hy : Finite F y) (h0 : value y ≠ 0) : ∃ z, div F x y = ofExact F z (value x / value y) := by
  obtain ⟨s, a, rfl, -⟩ := hx
  obtain ⟨t, b, rfl, -⟩ := hy
  have hb : b ≠ 0 := by
    intro hb
    apply h0
    cases t <;> simp [value, signed, hb]
  refine ⟨s ^^ t, ?_⟩
  simp only [div]
  rw [if_neg hb]
  rfl

theorem add_finite_inv (hx : Finite F x ∨ ∃ s, x = .inf s) (hy : Finite F y ∨ ∃ s, y = .inf s) (h : Finite F (add F x y)) :
    Finite F x ∧ Finite F y := by
  rcases hx with hx | ⟨s, rfl⟩
  · rcases hy with hy | ⟨t, rfl⟩
    · exact ⟨hx, hy⟩
    · obtain ⟨s, a, rfl, -⟩ := hx
      obtain ⟨s', m, h, -⟩ := h
      cases h
  · obtain ⟨s', m, h, -⟩ := h
    rcases hy with ⟨t, b, rfl, -⟩ | ⟨t, rfl⟩
    · cases h
    · simp only [add] at h
      split at h <;> cases h

/-- adding finite numbers to a finite or infinite one never gives NaN -/
theorem add_not_nan (hF : F.Ok) (hx : Finite F x ∨ ∃ s, x = .inf s) (hy : Finite F y) :
    Finite F (add F x y) ∨ ∃ s, add F x y = .inf s := by
  rcases hx with hx | ⟨s, rfl⟩
  · obtain ⟨z, hz⟩ := add_fin hx hy
    rw [hz]
    rcases ofExact_cases hF z (value x + value y) with ⟨h, -⟩ | h
    · exact Or.inl h
    · exact Or.inr h
  · obtain ⟨t, b, rfl, -⟩ := hy
    exact Or.inr ⟨s, rfl⟩

theorem add_nonneg_fp (hx : NonNeg x) (hy : NonNeg y) : NonNeg (add F x y) := by
  rcases hx with rfl | ⟨a, ha, rfl⟩
  · rcases hy with rfl | ⟨b, hb, rfl⟩
    · exact Or.inl rfl
    · exact Or.inl rfl
  · rcases hy with rfl | ⟨b, hb, rfl⟩
    · exact Or.inl rfl
    · exact ofExact_nonneg (add_nonneg ha hb)

theorem mul_self_nonneg_fp (hx : Finite F x ∨ ∃ s, x = .inf s) : NonNeg (mul F x x) := by
  rcases hx with ⟨s, a, rfl, -⟩ | ⟨s, rfl⟩
  · simp only [mul, Bool.xor_self]
    exact ofExact_nonneg (mul_self_nonneg _)
  · simp only [mul, Bool.xor_self]
    exact Or.inl rfl

theorem div_nonneg_fp (hx : NonNeg x) {b : ℚ} (hb : 0 < b) : NonNeg (div F x (.fin false b)) := by
  rcases hx with rfl | ⟨a, ha, rfl⟩
  · exact Or.inl rfl
  · simp only [div, Bool.xor_self]
    rw [if_neg hb.ne']
    exact ofExact_nonneg (div_nonneg ha hb.le)

theorem sqrtApprox_nonneg (p : Nat) (q : ℚ) : 0 ≤ sqrtApprox p q := by
  unfold sqrtApprox
  refine mul_nonneg ?_ (zpow_pos2 _).le
  split <;> positivity

theorem sqrt_nonneg_fp (hx : NonNeg x) : NonNeg (sqrt F x) := by
  rcases hx with rfl | ⟨a, ha, rfl⟩
  · exact Or.inl rfl
  · simp only [sqrt]
    split
    · exact Or.inr ⟨0, le_refl _, rfl⟩
    · simpa using ofExact_nonneg (sqrtApprox_nonneg _ _)

/-- a positive count converted to the format -/
theorem ofInt_pos (hF : F.Ok) {n : Nat} (h1 : 0 < n) (h2 : n < 2 ^ 64) :
    ∃ b, ofInt F n = .fin false b ∧ 1 ≤ b ∧ Finite F (ofInt F n) ∧ b = round F n := by
  have h1' : (1 : ℚ) ≤ n := by exact_mod_cast h1
  have hr1 : (1 : ℚ) ≤ round F n := by
    have h : Rep F (2 ^ (0 : Int)) := rep_pow (by have := hF.prec; omega) (by have := hF.range; omega)
    rw [zpow_zero] at h
    exact le_round_of_rep hF h h1'
  have hr2 : round F (n : ℚ) ≤ 2 ^ (64 : Int) := by
    refine round_le_of_rep hF (rep_pow (by have := hF.prec; omega) (by have := hF.range; omega)) ?_
    have : (n : ℚ) < ((2 ^ 64 : Nat) : ℚ) := by exact_mod_cast h2
    exact this.le.trans_eq (by norm_num)
  have habs : |round F (n : ℚ)| = round F n := abs_of_nonneg (by linarith)
  have hlt : |round F (n : ℚ)| < 2 ^ F.emax := by
    rw [habs]
    exact lt_of_le_of_lt hr2 (zpow_lt2 hF.size)
  have hf := (ofExact_finite hF false hlt).1
  refine ⟨round F n, ?_, hr1, ?_, rfl⟩
  · unfold ofInt ofExact
    push_cast
    rw [if_neg (not_le.2 hlt), habs]
    have h0 : ¬ ((n : ℚ) = 0) := by linarith
    rw [if_neg h0]
    simp [not_lt.2 (show (0 : ℚ) ≤ n by linarith)]
  · unfold ofInt
    push_cast
    exact hf

end Efp.Ieee
