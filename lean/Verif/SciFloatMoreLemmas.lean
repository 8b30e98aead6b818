import Verif.SciFloatMore
import Verif.SciFloatLemmas
import Verif.IeeeOps

/-! Extrema and products of floating-point numbers (helper lemmas). -/

namespace Efp.SciFloat

open Efp.Prelude Efp.Ieee

variable {ω : Type} {F : Fmt}

/-! ### choosing the better of two -/

/-- what the folds of `max_elem` and `min_elem` ask of their comparison -/
structure Beats (g : Fp → Fp → Bool) : Prop where
  nanL : ∀ x, g .nan x = false
  nanR : ∀ x, g x .nan = false
  asymm : ∀ x y, g x y = true → g y x = false
  negtrans : ∀ x y z, y ≠ .nan → g x y = false → g y z = false → g x z = false

theorem lt_negtrans (x y z : Fp) (hy : y ≠ .nan) (h1 : lt x y = false) (h2 : lt y z = false) : lt x z = false := by
  cases x with
  | nan => rfl
  | inf s =>
    cases y with
    | nan => exact absurd rfl hy
    | inf t =>
      cases z with
      | nan => rfl
      | inf u => cases s <;> cases t <;> cases u <;> simp_all [lt]
      | fin u c => cases s <;> cases t <;> simp_all [lt]
    | fin t b =>
      cases z with
      | nan => rfl
      | inf u => cases s <;> cases u <;> simp_all [lt]
      | fin u c => cases s <;> simp_all [lt]
  | fin s a =>
    cases y with
    | nan => exact absurd rfl hy
    | inf t =>
      cases z with
      | nan => rfl
      | inf u => cases t <;> cases u <;> simp_all [lt]
      | fin u c => cases t <;> simp_all [lt]
    | fin t b =>
      cases z with
      | nan => rfl
      | inf u => cases u <;> simp_all [lt]
      | fin u c =>
        simp only [lt, decide_eq_false_iff_not, not_lt] at h1 h2 ⊢
        exact h2.trans h1

theorem lt_asymm (x y : Fp) (h : lt x y = true) : lt y x = false := by
  cases x with
  | nan => cases h
  | inf s => cases y <;> simp_all [lt]
  | fin s a =>
    cases y with
    | nan => simp_all [lt]
    | inf t => simp_all [lt]
    | fin t b =>
      simp only [lt, decide_eq_true_eq, decide_eq_false_iff_not, not_lt] at h ⊢
      exact h.le

theorem lt_nanR (x : Fp) : lt x .nan = false := by cases x <;> rfl

theorem beats_lt : Beats lt := ⟨fun _ => rfl, lt_nanR, lt_asymm, lt_negtrans⟩

theorem beats_gt : Beats (fun x y => lt y x) :=
  ⟨lt_nanR, fun _ => rfl, fun x y h => lt_asymm y x h, fun x y z hy h1 h2 => lt_negtrans z y x hy h2 h1⟩

/-- keep `a` if it beats `b` -/
def keep (g : Fp → Fp → Bool) (a b : Fp) : Fp := if g a b then a else b

theorem keep_spec {g : Fp → Fp → Bool} (hg : Beats g) : ∀ (l : List Fp) (acc : Fp), acc ≠ .nan → .nan ∉ l →
    (l.foldl (keep g) acc = acc ∨ l.foldl (keep g) acc ∈ l) ∧ l.foldl (keep g) acc ≠ .nan ∧
    (∀ x ∈ acc :: l, g x (l.foldl (keep g) acc) = false) ∧
    ((∃ x ∈ l, g acc x = false) → l.foldl (keep g) acc ∈ l) ∧ ((∀ x ∈ l, g acc x = true) → l.foldl (keep g) acc = acc)
  | [], acc, ha, _ => by
    refine ⟨.inl rfl, ha, ?_, by simp, fun _ => rfl⟩
    intro x hx
    simp only [List.mem_singleton] at hx
    subst hx
    cases h : g x x with
    | false => exact h
    | true => exact absurd (hg.asymm x x h) (by simp [h])
  | y :: l, acc, ha, hl => by
    simp only [List.mem_cons, not_or] at hl
    obtain ⟨hy, hl⟩ := hl
    rw [List.foldl_cons]
    cases h : g acc y with
    | true =>
      rw [show keep g acc y = acc from if_pos h]
      obtain ⟨h1, h2, h3, h4, h5⟩ := keep_spec hg l acc ha hl
      refine ⟨h1.imp id (List.mem_cons_of_mem _), h2, ?_, ?_, ?_⟩
      · intro x hx
        rcases List.mem_cons.mp hx with rfl | hx
        · exact h3 _ (by simp)
        · rcases List.mem_cons.mp hx with rfl | hx
          · exact hg.negtrans _ acc _ ha (hg.asymm _ _ h) (h3 _ (by simp))
          · exact h3 _ (List.mem_cons_of_mem _ hx)
      · rintro ⟨x, hx, hgx⟩
        rcases List.mem_cons.mp hx with rfl | hx
        · rw [h] at hgx; cases hgx
        · exact List.mem_cons_of_mem _ (h4 ⟨x, hx, hgx⟩)
      · exact fun hall => h5 fun x hx => hall x (List.mem_cons_of_mem _ hx)
    | false =>
      rw [show keep g acc y = y from if_neg (by simp [h])]
      obtain ⟨h1, h2, h3, h4, h5⟩ := keep_spec hg l y (fun e => hy e.symm) hl
      have hmem : l.foldl (keep g) y ∈ y :: l := by
        rcases h1 with h1 | h1
        · rw [h1]; simp
        · exact List.mem_cons_of_mem _ h1
      refine ⟨.inr hmem, h2, ?_, fun _ => hmem, ?_⟩
      · intro x hx
        rcases List.mem_cons.mp hx with rfl | hx
        · exact hg.negtrans _ y _ (fun e => hy e.symm) h (h3 _ (by simp))
        · exact h3 _ hx
      · intro hall
        have := hall y (by simp)
        rw [h] at this; cases this

theorem keep_nan {g : Fp → Fp → Bool} (hg : Beats g) (pre post : List Fp) (acc : Fp) (hp : .nan ∉ post) :
    (post = [] → (pre ++ .nan :: post).foldl (keep g) acc = .nan) ∧
    (post ≠ [] → (pre ++ .nan :: post).foldl (keep g) acc ∈ post ∧
      ∀ x ∈ post, g x ((pre ++ .nan :: post).foldl (keep g) acc) = false) := by
  have e : keep g (pre.foldl (keep g) acc) .nan = .nan := by
    unfold keep; rw [hg.nanR]; rfl
  rw [List.foldl_append, List.foldl_cons, e]
  cases post with
  | nil => exact ⟨fun _ => rfl, fun h => absurd rfl h⟩
  | cons y l =>
    refine ⟨fun h => absurd h (by simp), fun _ => ?_⟩
    rw [List.foldl_cons, show keep g .nan y = y from if_neg (by rw [hg.nanL]; simp)]
    simp only [List.mem_cons, not_or] at hp
    obtain ⟨h1, _, h3, _, _⟩ := keep_spec hg l y (fun e => hp.1 e.symm) hp.2
    refine ⟨?_, h3⟩
    rcases h1 with h1 | h1
    · rw [h1]; simp
    · exact List.mem_cons_of_mem _ h1

theorem maxElem_run (as : Inp Fp) (w : ω) :
    maxElem F as w = .ok (as.vals.foldl (keep fun x y => lt y x) (minNormal F)) w := foldl_run _ _ _ _

theorem minElem_run (as : Inp Fp) (w : ω) : minElem F as w = .ok (as.vals.foldl (keep lt) (maxFinite F)) w := foldl_run _ _ _ _

theorem maxMin_run (as : Inp Fp) (w : ω) {x y : Fp} (hx : maxElem F as w = .ok x w) (hy : minElem F as w = .ok y w) :
    maxMin F as w = .ok (sub F x y) w := by
  unfold maxMin
  rw [Cpp.bind_ok hx, Cpp.bind_ok hy]; rfl

/-- no finite number is above `max()` -/
theorem le_maxFinite {x : Fp} (hx : Finite F x) : lt (maxFinite F) x = false := by
  obtain ⟨s, m, rfl, h0, ⟨k, e, hq, hk, he⟩, hlt⟩ := hx
  have hpos : (0 : ℚ) < 2 ^ (F.emax - F.prec) := zpow_pos2 _
  have key : m ≤ (2 ^ F.prec - 1) * 2 ^ (F.emax - (F.prec : Int)) := by
    have hk1 : (k : ℚ) ≤ 2 ^ F.prec - 1 := by
      have : k ≤ 2 ^ F.prec - 1 := by have := abs_lt.mp hk; omega
      exact_mod_cast this
    have hp0 : (0 : ℚ) ≤ 2 ^ F.prec - 1 := by
      have : (1 : ℚ) ≤ 2 ^ F.prec := one_le_pow₀ (by norm_num)
      linarith
    by_cases hle : e ≤ F.emax - F.prec
    · rw [hq]
      exact mul_le_mul hk1 (zpow_mono2 hle) (zpow_pos2 _).le hp0
    · obtain ⟨n, hn⟩ : ∃ n : Nat, e = F.emax - F.prec + n := ⟨(e - (F.emax - F.prec)).toNat, by omega⟩
      rw [hq, hn, zpow_addn, mul_comm ((2 : ℚ) ^ _), ← mul_assoc] at hlt ⊢
      refine mul_le_mul_of_nonneg_right ?_ hpos.le
      have h1 : ((k * 2 ^ n : Int) : ℚ) * 2 ^ (F.emax - F.prec) < 2 ^ F.prec * 2 ^ (F.emax - (F.prec : Int)) := by
        have : (2 : ℚ) ^ F.emax = 2 ^ F.prec * 2 ^ (F.emax - (F.prec : Int)) := by
          rw [← zpow_natCast, ← zpow_add₀ (by norm_num)]; congr 1; omega
        rw [← this]
        push_cast at hlt ⊢
        exact hlt
      have h2 : ((k * 2 ^ n : Int) : ℚ) < 2 ^ F.prec := lt_of_mul_lt_mul_right h1 hpos.le
      have h3 : k * 2 ^ n < 2 ^ F.prec := by exact_mod_cast h2
      have h4 : k * 2 ^ n ≤ 2 ^ F.prec - 1 := by omega
      exact_mod_cast h4
  simp only [maxFinite, lt, decide_eq_false_iff_not, not_lt]
  refine le_trans ?_ (le_trans key (le_of_eq ?_))
  · cases s <;> simp [signed]; linarith
  · simp [signed]

/-! ### products -/

theorem product_run (as : Inp Fp) (w : ω) : product F as w = .ok (as.vals.foldl (mul F) one) w := foldl_run _ _ _ _

theorem foldl_mul_nan : ∀ (l : List Fp) (acc : Fp), acc = .nan ∨ .nan ∈ l → l.foldl (mul F) acc = .nan
  | [], acc, h => by simpa using h
  | x :: l, acc, h => by
    rw [List.foldl_cons]
    refine foldl_mul_nan l _ ?_
    rcases h with rfl | h
    · exact .inl rfl
    · rcases List.mem_cons.mp h with rfl | h
      · left; cases acc <;> rfl
      · exact .inr h

theorem one_finite (hF : F.Ok) : Finite F one := by
  refine ⟨false, 1, rfl, by norm_num, ?_, ?_⟩
  · have := rep_int hF (n := 1) (by rw [abs_one]; exact one_lt_pow₀ (by norm_num) (by have := hF.prec; omega))
    simpa using this
  · have : (2 : ℚ) ^ (0 : Int) < 2 ^ F.emax := zpow_lt2 (by have := hF.size; omega)
    simpa using this

/-- results with a full significand have a small relative error -/
theorem round_normal (q : ℚ) (h : (2 : ℚ) ^ (F.emin + F.prec - 1) ≤ |q|) : |round F q - q| ≤ unit F * |q| := by
  rcases round_error_or F q with h1 | ⟨_, h1⟩
  · exact h1
  · refine h1.trans ?_
    have h2 : tiny F = unit F * 2 ^ (F.emin + F.prec - 1) := by
      rw [tiny, unit, ← zpow_add₀ (by norm_num)]; congr 1; omega
    rw [h2]
    exact mul_le_mul_of_nonneg_left h (unit_pos F).le

/-- `acc` is the exact number `P` with `j` roundings; the prefixes of the rest stay among the normal numbers -/
theorem foldl_mul_error (hF : F.Ok) (n : Nat) : ∀ (l : List Fp) (acc : Fp) (P : ℚ) (j : Nat), Finite F acc →
    (∀ x ∈ l, Finite F x) → j + l.length ≤ n → |value acc - P| ≤ ((1 + unit F) ^ j - 1) * |P| →
    (∀ p, p ≠ [] → p <+: l → 2 ^ (F.emin + F.prec - 1) ≤ (2 - (1 + unit F) ^ n) * |P * (p.map value).prod| ∧
      (1 + unit F) ^ n * |P * (p.map value).prod| < 2 ^ F.emax) →
    Finite F (l.foldl (mul F) acc) ∧
    |value (l.foldl (mul F) acc) - P * (l.map value).prod| ≤ ((1 + unit F) ^ (j + l.length) - 1) * |P * (l.map value).prod|
  | [], acc, P, j, ha, _, _, he, _ => by simpa using ⟨ha, he⟩
  | x :: l, acc, P, j, ha, hl, hn, he, hp => by
    have hu := unit_pos F
    have hx := hl x (by simp)
    obtain ⟨z, hz⟩ := mul_fin ha hx
    obtain ⟨hlo, hhi⟩ := hp [x] (by simp) (by simp)
    simp only [List.map_cons, List.map_nil, List.prod_cons, List.prod_nil, mul_one] at hlo hhi
    rw [List.length_cons] at hn
    have h1j := one_le_pow_unit F j
    have hjn : (1 + unit F) ^ (j + 1) ≤ (1 + unit F) ^ n := pow_le_pow_right₀ (by linarith) (by omega)
    have hjn0 : (1 + unit F) ^ j ≤ (1 + unit F) ^ n := pow_le_pow_right₀ (by linarith) (by omega)
    have hX := abs_nonneg (value x)
    have hPx := abs_nonneg (P * value x)
    -- the exact product of the rounded prefix
    have hd : |value acc * value x - P * value x| ≤ ((1 + unit F) ^ j - 1) * |P * value x| := by
      rw [← sub_mul, abs_mul, abs_mul, ← mul_assoc]
      exact mul_le_mul_of_nonneg_right he hX
    have hup : |value acc * value x| ≤ (1 + unit F) ^ j * |P * value x| := by
      have := abs_add_le (value acc * value x - P * value x) (P * value x)
      rw [sub_add_cancel] at this
      linarith
    have hdown : (2 - (1 + unit F) ^ j) * |P * value x| ≤ |value acc * value x| := by
      have := abs_add_le (P * value x - value acc * value x) (value acc * value x)
      rw [sub_add_cancel, abs_sub_comm] at this
      linarith
    have hnorm : (2 : ℚ) ^ (F.emin + F.prec - 1) ≤ |value acc * value x| := by
      refine hlo.trans (le_trans ?_ hdown)
      exact mul_le_mul_of_nonneg_right (by linarith) hPx
    have hr := round_normal _ hnorm
    have hrup : |round F (value acc * value x)| ≤ (1 + unit F) ^ (j + 1) * |P * value x| := by
      have h3 := abs_add_le (round F (value acc * value x) - value acc * value x) (value acc * value x)
      rw [sub_add_cancel] at h3
      have h4 : |round F (value acc * value x)| ≤ (1 + unit F) * |value acc * value x| := by linarith
      refine h4.trans ?_
      rw [pow_succ, mul_comm ((1 + unit F) ^ j), mul_assoc]
      exact mul_le_mul_of_nonneg_left hup (by linarith)
    have hfin : |round F (value acc * value x)| < 2 ^ F.emax := by
      refine lt_of_le_of_lt hrup (lt_of_le_of_lt ?_ hhi)
      exact mul_le_mul_of_nonneg_right hjn hPx
    obtain ⟨hf1, hf2⟩ := ofExact_finite hF z hfin
    rw [← hz] at hf1 hf2
    have herr : |value (mul F acc x) - P * value x| ≤ ((1 + unit F) ^ (j + 1) - 1) * |P * value x| := by
      rw [hf2]
      have h3 := abs_add_le (round F (value acc * value x) - value acc * value x) (value acc * value x - P * value x)
      rw [sub_add_sub_cancel] at h3
      have h4 : unit F * |value acc * value x| ≤ unit F * ((1 + unit F) ^ j * |P * value x|) :=
        mul_le_mul_of_nonneg_left hup hu.le
      have h5 : ((1 + unit F) ^ (j + 1) - 1) * |P * value x| =
          unit F * ((1 + unit F) ^ j * |P * value x|) + ((1 + unit F) ^ j - 1) * |P * value x| := by rw [pow_succ]; ring
      linarith
    have := foldl_mul_error hF n l (mul F acc x) (P * value x) (j + 1) hf1 (fun y hy => hl y (by simp [hy])) (by omega) herr
      (fun p hne hpre => by
        have := hp (x :: p) (by simp) (by simpa using hpre)
        simpa [mul_assoc] using this)
    rw [List.foldl_cons, List.map_cons, List.prod_cons, List.length_cons, ← mul_assoc]
    rw [show j + 1 + l.length = j + (l.length + 1) by omega] at this
    exact this

/-- products of integers that stay within the precision are exact -/
theorem foldl_mul_exact (hF : F.Ok) : ∀ (l : List Fp) (acc : Fp), Finite F acc → (∀ x ∈ l, Finite F x) →
    (∃ n : Int, value acc = n) → (∀ x ∈ l, ∃ n : Int, value x = n) →
    (∀ p, p <+: l → |value acc * (p.map value).prod| < 2 ^ F.prec) →
    Finite F (l.foldl (mul F) acc) ∧ value (l.foldl (mul F) acc) = value acc * (l.map value).prod
  | [], acc, ha, _, _, _, _ => by simpa using ha
  | x :: l, acc, ha, hl, ⟨n, hn⟩, hi, hp => by
    obtain ⟨k, hk⟩ := hi x (by simp)
    have hx := hl x (by simp)
    obtain ⟨z, hz⟩ := mul_fin ha hx
    have hb := hp [x] (by simp)
    simp only [List.map_cons, List.map_nil, List.prod_cons, List.prod_nil, mul_one] at hb
    have hprod : value acc * value x = ((n * k : Int) : ℚ) := by rw [hn, hk]; push_cast; rfl
    have hrep : Rep F (value acc * value x) := by
      rw [hprod]
      apply rep_int hF
      rw [hprod] at hb
      exact_mod_cast hb
    have htop : |value acc * value x| < 2 ^ F.emax := by
      refine hb.trans ?_
      rw [← zpow_natCast]
      exact zpow_lt2 hF.top
    obtain ⟨h1, h2⟩ := ofExact_rep hF z hrep htop
    rw [← hz] at h1 h2
    obtain ⟨h3, h4⟩ := foldl_mul_exact hF l (mul F acc x) h1 (fun y hy => hl y (by simp [hy])) ⟨n * k, by rw [h2, hprod]⟩
      (fun y hy => hi y (by simp [hy])) (fun p hpre => by
        have := hp (x :: p) (by simpa using hpre)
        rw [h2]
        simpa [mul_assoc] using this)
    refine ⟨h3, ?_⟩
    rw [List.foldl_cons, h4, h2, List.map_cons, List.prod_cons, mul_assoc]

end Efp.SciFloat
