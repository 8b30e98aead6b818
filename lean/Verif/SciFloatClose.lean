import Verif.SciFloatAccuracy

/-!
# Absolute and relative errors of sums of products
-/

namespace Efp.SciFloat

open Efp.Prelude Efp.Ieee

variable {F : Fmt}

/-- `q` is `t`, of magnitude at most `a`, after `k` roundings, up to `b` -/
def Close (F : Fmt) (k : Nat) (q t a b : ℚ) : Prop := |t| ≤ a ∧ 0 ≤ b ∧ |q - t| ≤ ((1 + unit F) ^ k - 1) * a + b

theorem Close.nonneg {k : Nat} {q t a b : ℚ} (h : Close F k q t a b) : 0 ≤ a := (abs_nonneg t).trans h.1

theorem Close.mono {k j : Nat} {q t a b : ℚ} (h : Close F k q t a b) (hkj : k ≤ j) : Close F j q t a b := by
  have hu := unit_pos F
  have e2 : (1 + unit F) ^ k ≤ (1 + unit F) ^ j := pow_le_pow_right₀ (by linarith) hkj
  have := mul_le_mul_of_nonneg_right e2 h.nonneg
  exact ⟨h.1, h.2.1, h.2.2.trans (by linarith)⟩

theorem Close.abs_le {k : Nat} {q t a b : ℚ} (h : Close F k q t a b) : |q| ≤ (1 + unit F) ^ k * a + b := by
  have := abs_add_le t (q - t)
  rw [add_sub_cancel] at this
  have := h.1
  have := h.2.2
  linarith

theorem Close.round {k : Nat} {q t a b τ : ℚ} (h : Close F k q t a b) (h0 : 0 ≤ τ) (hr : |Ieee.round F q - q| ≤ unit F * |q| + τ) :
    Close F (k + 1) (Ieee.round F q) t a ((1 + unit F) * b + τ) := by
  have hu := unit_pos F
  have hq := h.abs_le
  refine ⟨h.1, by nlinarith [h.2.1], ?_⟩
  have h1 : |Ieee.round F q - t| ≤ |Ieee.round F q - q| + |q - t| := abs_sub_le _ _ _
  have h2 := h.2.2
  have h3 := mul_le_mul_of_nonneg_left hq hu.le
  rw [pow_succ]
  linarith

theorem Close.add {k : Nat} {q t a b p s c d : ℚ} (h : Close F k q t a b) (h' : Close F k p s c d) :
    Close F k (q + p) (t + s) (a + c) (b + d) := by
  refine ⟨(abs_add_le _ _).trans (add_le_add h.1 h'.1), add_nonneg h.2.1 h'.2.1, ?_⟩
  have := abs_add_le (q - t) (p - s)
  rw [show q - t + (p - s) = q + p - (t + s) by ring] at this
  linarith [h.2.2, h'.2.2]

theorem Close.div {k : Nat} {q t a b : ℚ} (h : Close F k q t a b) {n : ℚ} (hn : 0 < n) : Close F k (q / n) (t / n) (a / n) (b / n) := by
  refine ⟨?_, div_nonneg h.2.1 hn.le, ?_⟩
  · rw [abs_div, abs_of_pos hn]
    exact div_le_div_of_nonneg_right h.1 hn.le
  · rw [← sub_div, abs_div, abs_of_pos hn, ← mul_div_assoc, ← add_div]
    exact div_le_div_of_nonneg_right h.2.2 hn.le

theorem Close.error (hF : F.Ok) {k : Nat} {q t a b : ℚ} (h : Close F k q t a b) (hk : k * unit F ≤ 1 / 2) :
    |q - t| ≤ 2 * (k * unit F) * a + b := by
  have := mul_le_mul_of_nonneg_right (pow_upper hF hk) h.nonneg
  have := h.2.2
  linarith

theorem pow_le_two (hF : F.Ok) {k : Nat} (hk : k * unit F ≤ 1 / 2) : (1 + unit F) ^ k ≤ 2 := by
  have := pow_upper hF hk
  linarith

theorem Close.weaken {k : Nat} {q t a b c : ℚ} (h : Close F k q t a b) (hc : b ≤ c) : Close F k q t a c :=
  ⟨h.1, h.2.1.trans hc, h.2.2.trans (by linarith)⟩

theorem foldl_close (hF : F.Ok) {k : Nat} {β : ℚ} (hβ : 0 ≤ β) : ∀ (es : List Fp) (ts : List (ℚ × ℚ)) (acc : Fp) (T A b : ℚ) (j : Nat),
    List.Forall₂ (fun e t => Finite F e ∧ Close F k (value e) t.1 t.2 β) es ts → Finite F acc → 0 ≤ b →
    Close F j (value acc) T A ((1 + unit F) ^ j * b) → k ≤ j →
    ((j + es.length : Nat) : ℚ) * unit F ≤ 1 / 2 → 2 * (A + (ts.map (·.2)).sum) + 2 * (b + es.length * β) < 2 ^ F.emax →
    Finite F (es.foldl (add F) acc) ∧
    Close F (j + es.length) (value (es.foldl (add F) acc)) (T + (ts.map (·.1)).sum) (A + (ts.map (·.2)).sum)
      ((1 + unit F) ^ (j + es.length) * (b + es.length * β))
  | [], _, acc, T, A, b, j, .nil, ha, _, hn, _, _, _ => by simpa using ⟨ha, hn⟩
  | e :: es, _, acc, T, A, b, j, .cons (b := t) (l₂ := ts) ⟨he, ht⟩ hes, ha, hb, hn, hkj, hu, hlt => by
    have hu0 := unit_pos F
    obtain ⟨z, hz⟩ := add_fin ha he
    have h1p : (1 : ℚ) ≤ (1 + unit F) ^ j := one_le_pow₀ (by linarith)
    have hN := (hn.add (ht.mono hkj)).round (le_refl 0) (by
      rw [add_zero]
      exact round_add_error ha.value_rep he.value_rep)
    have hN := hN.weaken (c := (1 + unit F) ^ (j + 1) * (b + β)) (by
      rw [add_zero, pow_succ, mul_comm _ (1 + unit F), mul_assoc]
      apply mul_le_mul_of_nonneg_left _ (by linarith)
      nlinarith)
    simp only [List.map_cons, List.sum_cons, List.length_cons] at hlt hu ⊢
    have hsum : 0 ≤ (ts.map (·.2)).sum := by
      apply List.sum_nonneg
      intro x hx
      obtain ⟨y, hy, rfl⟩ := List.mem_map.1 hx
      obtain ⟨i, hi, rfl⟩ := List.mem_iff_getElem.1 hy
      exact (hes.get (by rw [hes.length_eq]; exact hi) hi).2.nonneg
    have hlen : j + (es.length + 1) = j + 1 + es.length := by omega
    rw [hlen] at hu ⊢
    have hj1 : ((j + 1 : Nat) : ℚ) * unit F ≤ 1 / 2 := by
      refine (mul_le_mul_of_nonneg_right ?_ hu0.le).trans hu
      exact_mod_cast Nat.le_add_right _ _
    have hnl : (0 : ℚ) ≤ es.length * β := mul_nonneg (by positivity) hβ
    push_cast at hlt ⊢
    have hA : 0 ≤ A + t.2 := add_nonneg hn.nonneg ht.nonneg
    have hfin : |Ieee.round F (value acc + value e)| < 2 ^ F.emax := by
      refine lt_of_le_of_lt hN.abs_le ?_
      have h1 := mul_le_mul_of_nonneg_right (pow_le_two hF hj1) hA
      have h2 := mul_le_mul_of_nonneg_right (pow_le_two hF hj1) (add_nonneg hb hβ)
      linarith
    obtain ⟨f1, f2⟩ := ofExact_finite hF z hfin
    rw [← hz] at f1 f2
    rw [← f2] at hN
    obtain ⟨g1, g2⟩ := foldl_close hF hβ es ts (add F acc e) (T + t.1) (A + t.2) (b + β) (j + 1) hes f1 (by linarith) hN (by omega) hu
      (by linarith)
    rw [List.foldl_cons]
    refine ⟨g1, ?_⟩
    rw [← add_assoc, ← add_assoc, show b + ((es.length : ℚ) + 1) * β = b + β + es.length * β by ring]
    exact g2

theorem sumL_close (hF : F.Ok) {k : Nat} {β : ℚ} (hβ : 0 ≤ β) (es : List Fp) (ts : List (ℚ × ℚ))
    (h : List.Forall₂ (fun e t => Finite F e ∧ Close F k (value e) t.1 t.2 β) es ts)
    (hu : ((k + (es.length - 1) : Nat) : ℚ) * unit F ≤ 1 / 2) (hlt : 2 * (ts.map (·.2)).sum + 2 * (es.length * β) < 2 ^ F.emax) :
    Finite F (sumL F es) ∧
    Close F (k + (es.length - 1)) (value (sumL F es)) (ts.map (·.1)).sum (ts.map (·.2)).sum (2 * (es.length * β)) := by
  have hu0 := unit_pos F
  cases h with
  | nil => exact ⟨zero_finite, by simp [sumL, value_zero, Close]⟩
  | cons h hes =>
    rename_i e t es ts
    obtain ⟨h1, h2⟩ := add_zero_left hF h.1
    simp only [List.length_cons, Nat.add_sub_cancel, List.map_cons, List.sum_cons] at hu hlt ⊢
    have h1p : (1 : ℚ) ≤ (1 + unit F) ^ k := one_le_pow₀ (by linarith)
    push_cast at hlt ⊢
    obtain ⟨g1, g2⟩ := foldl_close hF hβ es ts (add F zero e) t.1 t.2 β k hes h1 hβ
      (by rw [h2]; exact h.2.weaken (by nlinarith)) (le_refl _) hu (by linarith)
    refine ⟨g1, g2.weaken ?_⟩
    have hnl : (0 : ℚ) ≤ β + es.length * β := add_nonneg hβ (mul_nonneg (by positivity) hβ)
    have := mul_le_mul_of_nonneg_right (pow_le_two hF hu) hnl
    linarith

/-- a difference, with its sign -/
theorem sub_close (hF : F.Ok) {x y : Fp} (hx : Finite F x) (hy : Finite F y) (h : |value x - value y| < 2 ^ (F.emax - 1)) :
    Finite F (sub F x y) ∧ |value (sub F x y) - (value x - value y)| ≤ unit F * |value x - value y| := by
  obtain ⟨z, hz⟩ := sub_fin hx hy
  have hr := round_add_error hx.value_rep hy.value_rep.neg
  rw [← sub_eq_add_neg] at hr
  have hu := unit_pos F
  have hu' := unit_le hF
  have h1 : |Ieee.round F (value x - value y)| ≤ (1 + unit F) * |value x - value y| := by
    have := abs_add_le (value x - value y) (Ieee.round F (value x - value y) - (value x - value y))
    rw [add_sub_cancel] at this
    linarith
  have h0 := abs_nonneg (value x - value y)
  have hfin : |Ieee.round F (value x - value y)| < 2 ^ F.emax := by
    rw [emax_half]
    nlinarith
  obtain ⟨f1, f2⟩ := ofExact_finite hF z hfin
  rw [hz]
  exact ⟨f1, by rw [f2]; exact hr⟩

theorem tiny_le_unit (hF : F.Ok) : tiny F ≤ unit F / 2 := by
  have h : (2 : ℚ) ^ (F.emin - 1) ≤ 2 ^ (-(F.prec : Int) - 1) := zpow_mono2 (by have := hF.range; omega)
  rw [zpow_sub_one₀ (by norm_num) (-(F.prec : Int))] at h
  unfold tiny unit
  linarith

/-- the product of two differences -/
theorem mul_close (hF : F.Ok) {d e : Fp} {D E : ℚ} (hd : Finite F d) (he : Finite F e) (h1 : |value d - D| ≤ unit F * |D|)
    (h2 : |value e - E| ≤ unit F * |E|) (hlt : |D * E| < 2 ^ (F.emax - 2)) :
    Finite F (mul F d e) ∧ Close F 3 (value (mul F d e)) (D * E) |D * E| (tiny F) := by
  have hu := unit_pos F
  have hu' := unit_le hF
  obtain ⟨z, hz⟩ := mul_fin hd he
  have hC : Close F 2 (value d * value e) (D * E) |D * E| 0 := by
    refine ⟨le_refl _, le_refl _, ?_⟩
    have e1 : value d * value e - D * E = (value d - D) * (value e - E) + (value d - D) * E + D * (value e - E) := by ring
    rw [e1, add_zero, abs_mul]
    have h3 := abs_add_le ((value d - D) * (value e - E) + (value d - D) * E) (D * (value e - E))
    have h4 := abs_add_le ((value d - D) * (value e - E)) ((value d - D) * E)
    rw [abs_mul, abs_mul] at h4
    rw [abs_mul D] at h3
    have hD := abs_nonneg D
    have hE := abs_nonneg E
    have h5 : |value d - D| * |value e - E| ≤ unit F * |D| * (unit F * |E|) :=
      mul_le_mul h1 h2 (abs_nonneg _) (mul_nonneg hu.le hD)
    have h6 : |value d - D| * |E| ≤ unit F * |D| * |E| := mul_le_mul_of_nonneg_right h1 hE
    have h7 : |D| * |value e - E| ≤ |D| * (unit F * |E|) := mul_le_mul_of_nonneg_left h2 hD
    nlinarith
  have hR := hC.round (tiny_pos F).le (round_error F _)
  rw [mul_zero, zero_add] at hR
  have hfin : |Ieee.round F (value d * value e)| < 2 ^ F.emax := by
    refine lt_of_le_of_lt hR.abs_le ?_
    have h3 : (1 + unit F) ^ (2 + 1) ≤ 2 := by
      have : (1 + unit F) ^ (2 + 1) ≤ (1 + 1 / 4) ^ 3 := pow_le_pow_left₀ (by linarith) (by linarith) 3
      norm_num at this ⊢
      linarith
    have h4 := mul_le_mul_of_nonneg_right h3 (abs_nonneg (D * E))
    have h5 := tiny_le_unit hF
    have h6 : (1 : ℚ) ≤ 2 ^ (F.emax - 2) := by
      have : (2 : ℚ) ^ (0 : Int) ≤ 2 ^ (F.emax - 2) := zpow_mono2 (by have := hF.size; omega)
      simpa using this
    have h7 : (2 : ℚ) ^ F.emax = 4 * 2 ^ (F.emax - 2) := by
      rw [zpow_sub₀ (by norm_num)]
      norm_num
      ring
    rw [h7]
    linarith
  obtain ⟨f1, f2⟩ := ofExact_finite hF z hfin
  rw [hz]
  exact ⟨f1, f2 ▸ hR⟩

/-- a number divided by a count -/
theorem div_close (hF : F.Ok) {s : Fp} {T A b : ℚ} {k n : Nat} (hs : Finite F s) (h : Close F k (value s) T A b)
    (hn : 0 < n) (h64 : n < 2 ^ 64) (hp : n < 2 ^ F.prec) :
    Finite F (div F s (ofInt F n)) ∧ Close F (k + 1) (value (div F s (ofInt F n))) (T / n) (A / n) ((1 + unit F) * (b / n) + tiny F) := by
  have hn' : (0 : ℚ) < n := by exact_mod_cast hn
  have hn1 : (1 : ℚ) ≤ n := by exact_mod_cast hn
  obtain ⟨e1, e2⟩ := ofInt_exact hF hn h64 hp
  have hv : value (ofInt F n) = n := by rw [e1]; rfl
  obtain ⟨z, hz⟩ := div_fin hs e2 (by rw [hv]; exact hn'.ne')
  rw [hv] at hz
  have hR := (h.div hn').round (tiny_pos F).le (round_error F _)
  have hfin : |Ieee.round F (value s / n)| < 2 ^ F.emax := by
    rw [round_abs hF]
    refine lt_of_le_of_lt ?_ hs.value_lt
    refine round_le_of_rep hF hs.value_rep.abs ?_
    rw [abs_div, abs_of_pos hn', div_le_iff₀ hn']
    nlinarith [abs_nonneg (value s)]
  obtain ⟨f1, f2⟩ := ofExact_finite hF z hfin
  rw [hz]
  exact ⟨f1, f2 ▸ hR⟩

end Efp.SciFloat
