import Verif.SciFloatTrend
import Verif.Spec.SciFloatTrend
import Verif.SciFloatMoreLemmas
import Verif.ScientificAlgebra
import Mathlib.Algebra.BigOperators.Ring.Finset
import Mathlib.Algebra.Order.BigOperators.Group.Finset
import Mathlib.Tactic.LinearCombination

/-!
# Regression of numbers on a line is exact
-/

namespace Efp.SciFloat

open Efp.Prelude Efp.Ieee Efp.Spec
open Efp.Scientific (outInp outInp_valid)

variable {ω : Type} {x y : Fp} {q r : ℚ}

/-- a multiple of a quarter with 53 bits -/
def Qtr (q : ℚ) : Prop := ∃ n : Int, q = n / 4 ∧ |n| < 2 ^ 53

theorem Qtr.rep (h : Qtr q) : Rep double q := by
  obtain ⟨n, rfl, hn⟩ := h
  refine ⟨n, -2, ?_, hn, by decide⟩
  rw [show (2 : ℚ) ^ (-2 : Int) = 1 / 4 by norm_num]
  ring

theorem Qtr.lt (h : Qtr q) : |q| < 2 ^ double.emax := by
  obtain ⟨n, rfl, hn⟩ := h
  have h1 : |(n : ℚ)| < 2 ^ 53 := by exact_mod_cast hn
  have h2 : |(n : ℚ) / 4| ≤ |(n : ℚ)| := by
    rw [abs_div]
    have := abs_nonneg (n : ℚ)
    rw [show |(4 : ℚ)| = 4 by norm_num]
    linarith
  have h3 : (2 : ℚ) ^ 53 ≤ 2 ^ double.emax := by
    rw [← zpow_natCast]
    exact zpow_mono2 (by decide)
  linarith

theorem Qtr.of_int {n : Int} (h : |4 * n| < 2 ^ 53) : Qtr n := ⟨4 * n, by push_cast; ring, h⟩

theorem exactly_of (z : Bool) (h : Qtr q) : Exactly (ofExact double z q) q := ofExact_rep double_ok z h.rep h.lt

theorem _root_.Efp.Spec.Exactly.add (hx : Exactly x q) (hy : Exactly y r) (h : Qtr (q + r)) : Exactly (Ieee.add double x y) (q + r) := by
  obtain ⟨z, hz⟩ := add_fin hx.1 hy.1
  rw [hz, hx.2, hy.2]
  exact exactly_of z h

theorem _root_.Efp.Spec.Exactly.sub (hx : Exactly x q) (hy : Exactly y r) (h : Qtr (q - r)) : Exactly (Ieee.sub double x y) (q - r) := by
  obtain ⟨z, hz⟩ := sub_fin hx.1 hy.1
  rw [hz, hx.2, hy.2]
  exact exactly_of z h

theorem _root_.Efp.Spec.Exactly.mul (hx : Exactly x q) (hy : Exactly y r) (h : Qtr (q * r)) : Exactly (Ieee.mul double x y) (q * r) := by
  obtain ⟨z, hz⟩ := mul_fin hx.1 hy.1
  rw [hz, hx.2, hy.2]
  exact exactly_of z h

theorem _root_.Efp.Spec.Exactly.div (hx : Exactly x q) (hy : Exactly y r) (h0 : r ≠ 0) (h : Qtr (q / r)) : Exactly (Ieee.div double x y) (q / r) := by
  obtain ⟨z, hz⟩ := div_fin hx.1 hy.1 (by rw [hy.2]; exact h0)
  rw [hz, hx.2, hy.2]
  exact exactly_of z h

theorem exactly_ofInt {n : Int} (h : |4 * n| < 2 ^ 53) : Exactly (ofInt double n) n := exactly_of false (Qtr.of_int h)

/-! ## Sums -/

theorem qtr_sum (v : Nat → ℚ) (hq : ∀ i, ∃ k : Int, v i = k / 4) : ∀ n : Nat, ∃ k : Int, (∑ i ∈ Finset.range n, v i) = k / 4
  | 0 => ⟨0, by simp⟩
  | n + 1 => by
    obtain ⟨k, hk⟩ := qtr_sum v hq n
    obtain ⟨j, hj⟩ := hq n
    exact ⟨k + j, by rw [Finset.sum_range_succ, hk, hj]; push_cast; ring⟩

theorem abs_sum_le (v : Nat → ℚ) (B : ℚ) (n : Nat) (h : ∀ i < n, |v i| ≤ B) : |∑ i ∈ Finset.range n, v i| ≤ n * B := by
  refine (Finset.abs_sum_le_sum_abs _ _).trans ?_
  have := Finset.sum_le_card_nsmul (Finset.range n) (fun i => |v i|) B (fun i hi => h i (Finset.mem_range.1 hi))
  simpa using this

theorem qtr_of_sum (v : Nat → ℚ) (B : ℚ) (n : Nat) (hq : ∀ i, ∃ k : Int, v i = k / 4) (hB : ∀ i < n, |v i| ≤ B)
    (hn : n * B < 2 ^ 51) : Qtr (∑ i ∈ Finset.range n, v i) := by
  obtain ⟨k, hk⟩ := qtr_sum v hq n
  refine ⟨k, hk, ?_⟩
  have h := lt_of_le_of_lt (abs_sum_le v B n hB) hn
  rw [hk, abs_div, show |(4 : ℚ)| = 4 by norm_num, div_lt_iff₀ (by norm_num)] at h
  have h2 : |(k : ℚ)| < 2 ^ 53 := by
    refine h.trans_eq ?_
    norm_num
  exact_mod_cast h2

theorem foldl_exactly (v : Nat → ℚ) (B : ℚ) (hB0 : 0 ≤ B) (hq : ∀ i, ∃ k : Int, v i = k / 4) (zs : List Fp)
    (hz : ∀ (i : Nat) (z : Fp), zs[i]? = some z → Exactly z (v i)) (hB : ∀ i < zs.length, |v i| ≤ B) (hn : zs.length * B < 2 ^ 51) :
    Exactly (sumL double zs) (∑ i ∈ Finset.range zs.length, v i) := by
  induction zs using List.reverseRecOn with
  | nil => exact ⟨zero_finite, by simp [sumL, value_zero]⟩
  | append_singleton zs z ih =>
    have hlen : (zs ++ [z]).length = zs.length + 1 := by simp
    rw [hlen] at hB hn
    have hn' : (zs.length : ℚ) * B < 2 ^ 51 := by
      refine lt_of_le_of_lt ?_ hn
      push_cast
      nlinarith
    have h1 := ih (fun i y hi => hz i y (by
      have hlt := (List.getElem?_eq_some_iff.1 hi).1
      rw [List.getElem?_append_left hlt]; exact hi)) (fun i hi => hB i (by omega)) hn'
    have h2 := hz zs.length z (by simp)
    have : sumL double (zs ++ [z]) = Ieee.add double (sumL double zs) z := by simp [sumL]
    rw [this, hlen, Finset.sum_range_succ]
    refine h1.add h2 ?_
    rw [← Finset.sum_range_succ]
    exact qtr_of_sum v B _ hq hB (by exact_mod_cast hn)

/-! ## Closed forms -/

theorem sum_line (a b : ℚ) (n : Nat) : (∑ i ∈ Finset.range n, (a + b * i)) = n * (a + b * ((n - 1) / 2)) := by
  induction n with
  | zero => simp
  | succ n ih =>
    rw [Finset.sum_range_succ, ih]
    push_cast
    ring

theorem sum_sq (c : ℚ) (n : Nat) : (∑ i ∈ Finset.range n, ((i : ℚ) - c) * ((i : ℚ) - c)) =
    n * (n - 1) * (2 * n - 1) / 6 - c * n * (n - 1) + n * c * c := by
  induction n with
  | zero => simp
  | succ n ih =>
    rw [Finset.sum_range_succ, ih]
    push_cast
    ring

/-! ## The programs on a line -/

/-- what the theorems assume: at most 1290 elements and coefficients that leave the intermediate sums 53 bits -/
structure Small (a b : Int) (n : Nat) : Prop where
  lo : 2 ≤ n
  hi : n ≤ 1290
  ha : |a| ≤ 2 ^ 40
  hb : |b| ≤ 2 ^ 22

section line

variable {a b : Int} {n : Nat}

theorem Small.mul_le (h : Small a b n) {k : Int} {K : Int} (hk : |k| ≤ K) : |b * k| ≤ 2 ^ 22 * K := by
  rw [abs_mul]
  have := abs_nonneg b
  have := abs_nonneg k
  exact mul_le_mul h.hb hk (by omega) (by norm_num)

/-- the mean of the indices -/
def mid (n : Nat) : ℚ := ((n : ℚ) - 1) / 2

theorem mid_is (h : Small a b n) : Exactly (Ieee.div double (ofInt double ((n : Int) - 1)) (ofInt double 2)) (mid n) := by
  have h1 := h.lo; have h2 := h.hi
  have := (exactly_ofInt (n := (n : Int) - 1) (by rw [abs_lt]; constructor <;> omega)).div (exactly_ofInt (n := 2) (by norm_num))
    (by norm_num) ⟨2 * ((n : Int) - 1), by push_cast; ring, by rw [abs_lt]; constructor <;> omega⟩
  refine this.imp id fun e => e.trans ?_
  rw [mid]; push_cast; ring

/-- the mean of the line -/
def midLine (a b : Int) (n : Nat) : ℚ := a + b * mid n

theorem mean_line {l : List Fp} (h : Small a b l.length) (hl : OnLine a b l) : Exactly (meanL double l) (midLine a b l.length) := by
  generalize hn : l.length = n at h
  have h1 := h.lo; have h2 := h.hi; have h3 := h.ha
  have hs := foldl_exactly (fun i => (a : ℚ) + b * i) (2 ^ 40 + 2 ^ 22 * 1290) (by norm_num)
    (fun i => ⟨4 * (a + b * i), by push_cast; ring⟩) l hl (fun i hi => by
      have h5 : |b * (i : Int)| ≤ 2 ^ 22 * 1290 := h.mul_le (by rw [abs_of_nonneg (by omega)]; omega)
      have h6 : |a + b * (i : Int)| ≤ 2 ^ 40 + 2 ^ 22 * 1290 := (abs_add_le _ _).trans (by omega)
      exact_mod_cast h6) (by
      have : (l.length : ℚ) ≤ 1290 := by rw [hn]; exact_mod_cast h2
      nlinarith)
  rw [hn, sum_line] at hs
  have h0 : (n : ℚ) ≠ 0 := by
    rw [Nat.cast_ne_zero]; omega
  have hb1 : |b * ((n : Int) - 1)| ≤ 2 ^ 22 * 1290 := h.mul_le (by rw [abs_of_nonneg (by omega)]; omega)
  have hq : Qtr ((n : ℚ) * (a + b * ((n - 1) / 2)) / ((n : Int) : ℚ)) := by
    refine ⟨4 * a + 2 * (b * ((n : Int) - 1)), ?_, ?_⟩
    · push_cast; field_simp; ring
    · rw [abs_le] at h3 hb1
      rw [abs_lt]; constructor <;> omega
  have := hs.div (exactly_ofInt (n := (n : Int)) (by rw [abs_lt]; constructor <;> omega)) (by push_cast; exact h0) hq
  rw [meanL, hn]
  refine this.imp id fun e => e.trans ?_
  rw [midLine, mid]; push_cast; field_simp

/-- distance of an index from the mean, doubled -/
theorem off_le (h : Small a b n) {i : Nat} (hi : i < n) : |2 * (i : Int) - ((n : Int) - 1)| ≤ 1289 := by
  have := h.hi
  rw [abs_le]; constructor <;> omega

theorem index_is (h : Small a b n) {i : Nat} (hi : i < n) {x m : Fp} (hx : Exactly x ((i : Int) : ℚ)) (hm : Exactly m (mid n)) :
    Exactly (Ieee.sub double x m) ((i : ℚ) - mid n) := by
  have h1 := off_le h hi
  have := hx.sub hm ⟨2 * (2 * (i : Int) - ((n : Int) - 1)), by rw [mid]; push_cast; ring, by
    rw [abs_le] at h1; rw [abs_lt]; constructor <;> omega⟩
  simpa using this

theorem elem_is (h : Small a b n) {i : Nat} (hi : i < n) {x m : Fp} (hx : Exactly x (a + b * i)) (hm : Exactly m (midLine a b n)) :
    Exactly (Ieee.sub double x m) (b * ((i : ℚ) - mid n)) := by
  have h1 := h.mul_le (off_le h hi)
  have e : (a : ℚ) + b * i - midLine a b n = b * ((i : ℚ) - mid n) := by rw [midLine]; ring
  have := hx.sub hm ⟨2 * (b * (2 * (i : Int) - ((n : Int) - 1))), by rw [e, mid]; push_cast; ring, by
    rw [abs_le] at h1; rw [abs_lt]; constructor <;> omega⟩
  rwa [e] at this

theorem sq_le (h : Small a b n) {i : Nat} (hi : i < n) :
    |(2 * (i : Int) - ((n : Int) - 1)) * (2 * (i : Int) - ((n : Int) - 1))| ≤ 1289 * 1289 := by
  rw [abs_mul]
  exact mul_le_mul (off_le h hi) (off_le h hi) (abs_nonneg _) (by norm_num)

theorem prod_is (h : Small a b n) {i : Nat} (hi : i < n) {x y : Fp} (hx : Exactly x ((i : ℚ) - mid n))
    (hy : Exactly y (b * ((i : ℚ) - mid n))) :
    Exactly (Ieee.mul double x y) (b * (((i : ℚ) - mid n) * ((i : ℚ) - mid n))) := by
  have h1 := h.mul_le (sq_le h hi)
  have e : ((i : ℚ) - mid n) * (b * ((i : ℚ) - mid n)) = b * (((i : ℚ) - mid n) * ((i : ℚ) - mid n)) := by ring
  have := hx.mul hy ⟨b * ((2 * (i : Int) - ((n : Int) - 1)) * (2 * (i : Int) - ((n : Int) - 1))), by
    rw [mid]; push_cast; ring, by rw [abs_le] at h1; rw [abs_lt]; constructor <;> omega⟩
  rwa [e] at this

theorem square_is (h : Small a b n) {i : Nat} (hi : i < n) {x : Fp} (hx : Exactly x ((i : ℚ) - mid n)) :
    Exactly (square double x) (((i : ℚ) - mid n) * ((i : ℚ) - mid n)) := by
  have h1 := sq_le h hi
  exact hx.mul hx ⟨(2 * (i : Int) - ((n : Int) - 1)) * (2 * (i : Int) - ((n : Int) - 1)), by
    rw [mid]; push_cast; ring, by rw [abs_le] at h1; rw [abs_lt]; constructor <;> omega⟩

/-- the sum of the squared distances -/
def spread (n : Nat) : ℚ := n * (n * n - 1) / 12

theorem sum_spread (n : Nat) : (∑ i ∈ Finset.range n, ((i : ℚ) - mid n) * ((i : ℚ) - mid n)) = spread n := by
  rw [sum_sq, mid, spread]; ring

theorem spread_ne (h : Small a b n) : spread n ≠ 0 := by
  have h1 : (2 : ℚ) ≤ n := by exact_mod_cast h.lo
  have h2 : 0 < (n : ℚ) * (n * n - 1) := mul_pos (by linarith) (by nlinarith)
  rw [spread]
  exact (div_pos h2 (by norm_num)).ne'

theorem spread_eq (b : Int) (n : Nat) :
    (∑ i ∈ Finset.range n, (b : ℚ) * (((i : ℚ) - mid n) * ((i : ℚ) - mid n))) = b * spread n := by
  rw [← Finset.mul_sum, sum_spread]

theorem offsq (n i : Nat) : ((i : ℚ) - mid n) * ((i : ℚ) - mid n) =
    ((2 * (i : Int) - ((n : Int) - 1)) * (2 * (i : Int) - ((n : Int) - 1)) : Int) / 4 := by
  rw [mid]; push_cast; ring

theorem prods_sum (h : Small a b n) {zs : List Fp} (hn : zs.length = n)
    (hz : ∀ (i : Nat) (z : Fp), zs[i]? = some z → Exactly z (b * (((i : ℚ) - mid n) * ((i : ℚ) - mid n)))) :
    Exactly (sumL double zs) (b * spread n) := by
  have := foldl_exactly (fun i => (b : ℚ) * (((i : ℚ) - mid n) * ((i : ℚ) - mid n))) (2 ^ 22 * (1289 * 1289) / 4) (by norm_num)
    (fun i => ⟨b * ((2 * (i : Int) - ((n : Int) - 1)) * (2 * (i : Int) - ((n : Int) - 1))), by rw [offsq]; push_cast; ring⟩) zs hz
    (fun i hi => by
      have h1 := h.mul_le (sq_le h (i := i) (by omega))
      rw [offsq, ← mul_div_assoc, abs_div, show |(4 : ℚ)| = 4 by norm_num]
      apply div_le_div_of_nonneg_right _ (by norm_num)
      exact_mod_cast h1)
    (by
      have : (zs.length : ℚ) ≤ 1290 := by rw [hn]; exact_mod_cast h.hi
      nlinarith)
  rw [hn, spread_eq] at this
  exact this

theorem squares_sum (h : Small a b n) {zs : List Fp} (hn : zs.length = n)
    (hz : ∀ (i : Nat) (z : Fp), zs[i]? = some z → Exactly z (((i : ℚ) - mid n) * ((i : ℚ) - mid n))) :
    Exactly (sumL double zs) (spread n) ∧ Qtr (spread n) := by
  have hq : ∀ i : Nat, ∃ k : Int, ((i : ℚ) - mid n) * ((i : ℚ) - mid n) = k / 4 := fun i => ⟨_, offsq n i⟩
  have hB : ∀ i < n, |((i : ℚ) - mid n) * ((i : ℚ) - mid n)| ≤ 1289 * 1289 / 4 := fun i hi => by
    have h1 := sq_le h hi
    rw [offsq, abs_div, show |(4 : ℚ)| = 4 by norm_num]
    apply div_le_div_of_nonneg_right _ (by norm_num)
    exact_mod_cast h1
  have hN : (n : ℚ) * (1289 * 1289 / 4) < 2 ^ 51 := by
    have : (n : ℚ) ≤ 1290 := by exact_mod_cast h.hi
    nlinarith
  have h1 := foldl_exactly _ (1289 * 1289 / 4) (by norm_num) hq zs hz (by rw [hn]; exact hB) (by rw [hn]; exact hN)
  have h2 := qtr_of_sum _ (1289 * 1289 / 4) n hq hB hN
  rw [hn, sum_spread] at h1
  rw [sum_spread] at h2
  exact ⟨h1, h2⟩

theorem spread_qtr (h : Small a b n) : Qtr (spread n) := by
  have hB : ∀ i < n, |((i : ℚ) - mid n) * ((i : ℚ) - mid n)| ≤ 1289 * 1289 / 4 := fun i hi => by
    have h1 := sq_le h hi
    rw [offsq, abs_div, show |(4 : ℚ)| = 4 by norm_num]
    apply div_le_div_of_nonneg_right _ (by norm_num)
    exact_mod_cast h1
  have := qtr_of_sum (fun i => ((i : ℚ) - mid n) * ((i : ℚ) - mid n)) (1289 * 1289 / 4) n (fun i => ⟨_, offsq n i⟩) hB (by
    have : (n : ℚ) ≤ 1290 := by exact_mod_cast h.hi
    nlinarith)
  rwa [sum_spread] at this

/-- the coefficients from the sums -/
theorem betas_is (h : Small a b n) {sab saa ma mb : Fp} (h1 : Exactly sab (b * spread n)) (h2 : Exactly saa (spread n))
    (h3 : Exactly ma (mid n)) (h4 : Exactly mb (midLine a b n)) :
    Exactly (Ieee.div double sab saa) b ∧ Exactly (Ieee.sub double mb (Ieee.mul double (Ieee.div double sab saa) ma)) a := by
  have hb := h.hb; have ha := h.ha; have hlo := h.lo
  have e1 : (b : ℚ) * spread n / spread n = b := mul_div_cancel_right₀ _ (spread_ne h)
  have hb' : |4 * b| < 2 ^ 53 := by rw [abs_le] at hb; rw [abs_lt]; constructor <;> omega
  have hbeta : Exactly (Ieee.div double sab saa) b := by
    have := h1.div h2 (spread_ne h) (by rw [e1]; exact Qtr.of_int hb')
    rwa [e1] at this
  refine ⟨hbeta, ?_⟩
  have hb1 : |b * ((n : Int) - 1)| ≤ 2 ^ 22 * 1290 := h.mul_le (by have := h.hi; rw [abs_of_nonneg (by omega)]; omega)
  have hm := hbeta.mul h3 ⟨2 * (b * ((n : Int) - 1)), by rw [mid]; push_cast; ring, by
    rw [abs_le] at hb1; rw [abs_lt]; constructor <;> omega⟩
  have e2 : midLine a b n - (b : ℚ) * mid n = a := by rw [midLine]; ring
  have := h4.sub hm (by rw [e2]; exact Qtr.of_int (by rw [abs_le] at ha; rw [abs_lt]; constructor <;> omega))
  rwa [e2] at this

end line

/-! ## The runs -/

theorem mapIx_run (f : Nat → Fp → Fp) {as : Inp Fp} (hv : as.valid) (w : ω) :
    mapIx f as w = .ok (outInp [as] (as.vals.mapIdx f)) w ∧ (outInp [as] (as.vals.mapIdx f)).valid := by
  have hv' : ∀ a ∈ [as], a.valid := by simpa using hv
  have h := mapWithIndex_gives (ω := ω) (k := .trivial) zero (fun i => fun1 (f i)) (ass := [as]) (by simp)
    hv' (.inl rfl) w
  have e : ((List.range (shortest ([as].map Inp.vals))).mapM
        (fun i => fun1 (f i) (row i ([as].map Inp.vals))) : Cpp ω (List Fp))
      = pure (as.vals.mapIdx f) := by
    have h1 : ∀ i ∈ List.range (shortest ([as].map Inp.vals)),
        (fun1 (f i) (row i ([as].map Inp.vals)) : Cpp ω Fp) = pure (f i (as.vals[i]?.getD zero)) := by
      intro i hi
      have hi' : i < as.vals.length := by simpa [shortest] using hi
      simp [row, hi', fun1]
    rw [Scientific.mapM_congr h1, Scientific.mapM_pure]
    congr 1
    apply List.ext_getElem?
    intro i
    simp only [List.getElem?_map, List.map_cons, List.map_nil, shortest, List.getElem?_mapIdx]
    by_cases hi : i < as.vals.length
    · simp [hi]
    · simp [hi]
  rw [e] at h
  obtain ⟨r, h1, h2, h3⟩ := h
  refine ⟨?_, outInp_valid (by simp) hv' (by simp [shortest])⟩
  rw [mapIx, Cpp.bind_ok h1, asInp, h2.contents, h3]
  rfl

theorem regression_index_run {a b : Int} {as : Inp Fp} (hv : as.valid) (h : Small a b as.vals.length) (hl : OnLine a b as.vals) (w : ω) :
    ∃ b₁ b₂, linearRegressionWithIndex as w = .ok (b₁, b₂) w ∧ Exactly b₁ b ∧ Exactly b₂ a := by
  generalize hn : as.vals.length = n at h
  have hlo := h.lo; have hhi := h.hi
  have hm := mid_is h
  have hM := mean_line (by rw [hn]; exact h) hl
  rw [hn] at hM
  have r1 : (Scientific.int32 ((n : Int) - 1) : Cpp ω Int) = pure ((n : Int) - 1) := if_pos (by omega)
  have hb : (n : Int) * (n : Int) ≤ 1290 * 1290 := Int.mul_le_mul (by omega) (by omega) (by omega) (by omega)
  have hb0 : 0 ≤ (n : Int) * (n : Int) := Int.mul_nonneg (by omega) (by omega)
  have hb1 : 2 * 2 ≤ (n : Int) * (n : Int) := Int.mul_le_mul (by omega) (by omega) (by omega) (by omega)
  have r2 : (Scientific.int32 ((n : Int) * (n : Int)) : Cpp ω Int) = pure ((n : Int) * (n : Int)) := if_pos (by omega)
  have r3 : (Scientific.int32 ((n : Int) * (n : Int) - 1) : Cpp ω Int) = pure ((n : Int) * (n : Int) - 1) :=
    if_pos (by omega)
  have hc : (n : Int) * ((n : Int) * (n : Int) - 1) ≤ 1290 * (1290 * 1290 - 1) :=
    Int.mul_le_mul (by omega) (by omega) (by omega) (by omega)
  have hc0 : 0 ≤ (n : Int) * ((n : Int) * (n : Int) - 1) := Int.mul_nonneg (by omega) (by omega)
  have r4 : (Scientific.int32 ((n : Int) * ((n : Int) * (n : Int) - 1)) : Cpp ω Int)
      = pure ((n : Int) * ((n : Int) * (n : Int) - 1)) := if_pos (by omega)
  have hS : Exactly (Ieee.div double (ofInt double ((n : Int) * ((n : Int) * (n : Int) - 1))) (ofInt double 12)) (spread n) := by
    have e : (((n : Int) * ((n : Int) * (n : Int) - 1) : Int) : ℚ) / ((12 : Int) : ℚ) = spread n := by
      rw [spread]; push_cast; rfl
    have := (exactly_ofInt (n := (n : Int) * ((n : Int) * (n : Int) - 1)) (by rw [abs_lt]; constructor <;> omega)).div
      (exactly_ofInt (n := 12) (by norm_num)) (by norm_num) (by rw [e]; exact spread_qtr h)
    rwa [e] at this
  unfold linearRegressionWithIndex
  simp only [length, hn]
  rw [Scientific.toInt32_eq (by omega), r1, Cpp.pure_bind, Cpp.bind_ok (mean_run as w), Cpp.bind_ok (mapIx_run _ hv w).1,
    Cpp.bind_ok (sum_run _ w), r2, Cpp.pure_bind, r3, Cpp.pure_bind, r4, Cpp.pure_bind]
  refine ⟨_, _, rfl, betas_is h (prods_sum h ?_ ?_) hS hm hM⟩
  · simp [outInp, hn]
  · intro i z hz
    simp only [outInp, List.getElem?_mapIdx] at hz
    obtain ⟨x, hx, rfl⟩ := Option.map_eq_some_iff.1 hz
    have hi : i < n := by rw [← hn]; exact (List.getElem?_eq_some_iff.1 hx).1
    rw [Scientific.toInt32_eq (by omega)]
    exact prod_is h hi (index_is h hi (exactly_ofInt (by rw [abs_lt]; constructor <;> omega)) hm) (elem_is h hi (hl i x hx) hM)

theorem regression_run {a b : Int} {as bs : Inp Fp} (hva : as.valid) (hvb : bs.valid) (hlen : as.vals.length = bs.vals.length)
    (h : Small a b bs.vals.length) (hi : OnLine 0 1 as.vals) (hl : OnLine a b bs.vals) (w : ω) :
    ∃ b₁ b₂, linearRegression as bs w = .ok (b₁, b₂) w ∧ Exactly b₁ b ∧ Exactly b₂ a := by
  generalize hn : bs.vals.length = n at h hlen
  have h01 : Small 0 1 n := ⟨h.lo, h.hi, by norm_num, by norm_num⟩
  have hM := mean_line (by rw [hn]; exact h) hl
  have hm := mean_line (by rw [hlen]; exact h01) hi
  rw [hn] at hM
  rw [hlen] at hm
  have hm' : Exactly (meanL double as.vals) (mid n) := by
    refine hm.imp id fun e => e.trans ?_
    rw [midLine]; push_cast; ring
  unfold linearRegression
  have ha := map1_run (fun x => Ieee.sub double x (meanL double as.vals)) hva w
  have hb := map1_run (fun x => Ieee.sub double x (meanL double bs.vals)) hvb w
  rw [Cpp.bind_ok (mean_run as w), Cpp.bind_ok (mean_run bs w), Cpp.bind_ok ha.1, Cpp.bind_ok hb.1,
    Cpp.bind_ok (map2_run _ ha.2 hb.2 w).1, Cpp.bind_ok (sum_run _ w), Cpp.bind_ok (map1_run _ ha.2 w).1, Cpp.bind_ok (sum_run _ w)]
  have hdev : ∀ (i : Nat) (x : Fp), as.vals[i]? = some x → i < n →
      Exactly (Ieee.sub double x (meanL double as.vals)) ((i : ℚ) - mid n) := fun i x hx hin =>
    index_is h hin ((hi i x hx).imp id fun e => e.trans (by push_cast; ring)) hm'
  refine ⟨_, _, rfl, betas_is h (prods_sum h ?_ ?_) (squares_sum h ?_ ?_).1 hm' hM⟩
  · simp [outInp, hn, hlen]
  · intro i z hz
    simp only [outInp, List.getElem?_map, Option.map_eq_some_iff, List.getElem?_zip_eq_some] at hz
    obtain ⟨⟨x, y⟩, ⟨⟨p, hp, rfl⟩, ⟨r, hr, rfl⟩⟩, rfl⟩ := hz
    have hin : i < n := by rw [← hn]; exact (List.getElem?_eq_some_iff.1 hr).1
    exact prod_is h hin (hdev i p hp hin) (elem_is h hin (hl i r hr) hM)
  · simp [outInp, hlen]
  · intro i z hz
    simp only [outInp, List.getElem?_map, Option.map_eq_some_iff] at hz
    obtain ⟨_, ⟨p, hp, rfl⟩, rfl⟩ := hz
    have hin : i < n := by rw [← hlen]; exact (List.getElem?_eq_some_iff.1 hp).1
    exact square_is h hin (hdev i p hp hin)

theorem detrend_run {a b : Int} {as : Inp Fp} (hv : as.valid) (h : Small a b as.vals.length) (hl : OnLine a b as.vals) (w : ω) :
    ∃ rs, detrend as w = .ok rs w ∧ rs.vals.length = as.vals.length ∧ ∀ x ∈ rs.vals, Exactly x 0 := by
  obtain ⟨b₁, b₂, h1, h2, h3⟩ := regression_index_run hv h hl w
  refine ⟨_, by rw [detrend, Cpp.bind_ok h1, (mapIx_run _ hv w).1], by simp [outInp], fun z hz => ?_⟩
  obtain ⟨i, hi⟩ := List.mem_iff_getElem?.1 hz
  simp only [outInp, List.getElem?_mapIdx] at hi
  obtain ⟨x, hx, rfl⟩ := Option.map_eq_some_iff.1 hi
  have hin : i < as.vals.length := (List.getElem?_eq_some_iff.1 hx).1
  have hhi := h.hi; have ha := h.ha
  have hbi : |b * (i : Int)| ≤ 2 ^ 22 * 1290 := h.mul_le (by rw [abs_of_nonneg (by omega)]; omega)
  rw [abs_le] at hbi ha
  have q1 : Qtr ((b : ℚ) * ((i : Int) : ℚ)) := by
    have := Qtr.of_int (n := b * (i : Int)) (by rw [abs_lt]; constructor <;> omega)
    push_cast at this ⊢; exact this
  have q2 : Qtr ((b : ℚ) * ((i : Int) : ℚ) + a) := by
    have := Qtr.of_int (n := b * (i : Int) + a) (by rw [abs_lt]; constructor <;> omega)
    push_cast at this ⊢; exact this
  have e : (a : ℚ) + b * i - ((b : ℚ) * ((i : Int) : ℚ) + a) = 0 := by push_cast; ring
  have := (hl i x hx).sub ((h2.mul (exactly_ofInt (n := (i : Int)) (by rw [abs_lt]; constructor <;> omega)) q1).add h3 q2)
    (by rw [e]; exact ⟨0, by simp, by norm_num⟩)
  rwa [e] at this

end Efp.SciFloat
