import Verif.SciFloat
import Verif.IeeeOps
import Verif.ScientificLemmas

/-! Sums, means and variances of floating-point numbers. -/

namespace Efp.SciFloat

open Efp.Prelude Efp.Ieee
open Efp.Scientific (outInp outInp_valid mapM_pure rows_two)

variable {ω : Type} {F : Fmt}

/-! ### runs of the building blocks -/

theorem foldl_run (f : Fp → Fp → Fp) (z : Fp) (as : Inp Fp) (w : ω) :
    foldl (fun a b => pure (f a b)) z as w = .ok (as.vals.foldl f z) w := by
  rw [Prelude.foldl_eq, Scientific.foldlM_pure]
  rfl

/-- the sum of a list, from left to right -/
def sumL (F : Fmt) (l : List Fp) : Fp := l.foldl (add F) zero

theorem sum_run (as : Inp Fp) (w : ω) : sum F as w = .ok (sumL F as.vals) w := foldl_run _ _ _ _

theorem map1_run (f : Fp → Fp) {as : Inp Fp} (hv : as.valid) (w : ω) :
    map1 f as w = .ok (outInp [as] (as.vals.map f)) w ∧ (outInp [as] (as.vals.map f)).valid := by
  have hv' : ∀ a ∈ [as], a.valid := by simpa using hv
  have h := map_gives (ω := ω) (k := .trivial) zero (fun1 f) (ass := [as]) (by simp) hv' (.inl rfl) w
  have e : (rows ([as].map Inp.vals)).mapM (fun1 f) = (pure (as.vals.map f) : Cpp ω (List Fp)) := by
    rw [List.map_cons, List.map_nil, show rows [as.vals] = as.vals.map (fun a => [a]) from row_singleton _,
      List.mapM_map]
    exact mapM_pure f as.vals
  rw [e] at h
  obtain ⟨r, h1, h2, h3⟩ := h
  refine ⟨?_, outInp_valid (by simp) hv' (by simp [shortest])⟩
  rw [map1, Cpp.bind_ok h1, asInp, h2.contents, h3]
  rfl

theorem map2_run (f : Fp → Fp → Fp) {as bs : Inp Fp} (hva : as.valid) (hvb : bs.valid) (w : ω) :
    map2 f as bs w = .ok (outInp [as, bs] ((as.vals.zip bs.vals).map fun p => f p.1 p.2)) w
    ∧ (outInp [as, bs] ((as.vals.zip bs.vals).map fun p => f p.1 p.2)).valid := by
  have hv' : ∀ a ∈ [as, bs], a.valid := by simp [hva, hvb]
  have h := map_gives (ω := ω) (k := .trivial) zero (fun2 f) (ass := [as, bs]) (by simp) hv' (.inl rfl) w
  have e : (rows ([as, bs].map Inp.vals)).mapM (fun2 f)
      = (pure ((as.vals.zip bs.vals).map fun p => f p.1 p.2) : Cpp ω (List Fp)) := by
    rw [List.map_cons, List.map_cons, List.map_nil, rows_two, List.mapM_map]
    exact mapM_pure (fun p : Fp × Fp => f p.1 p.2) _
  rw [e] at h
  obtain ⟨r, h1, h2, h3⟩ := h
  refine ⟨?_, outInp_valid (by simp) hv' (by simp [shortest])⟩
  rw [map2, Cpp.bind_ok h1, asInp, h2.contents, h3]
  rfl

/-- the mean of a list -/
def meanL (F : Fmt) (l : List Fp) : Fp := div F (sumL F l) (ofInt F l.length)

theorem mean_run (as : Inp Fp) (w : ω) : mean F as w = .ok (meanL F as.vals) w := by
  rw [mean, Cpp.bind_ok (sum_run as w)]
  rfl

/-- the variance of a list -/
def varL (F : Fmt) (bessel : Bool) (l : List Fp) : Fp :=
  div F (sumL F (l.map fun x => square F (sub F x (meanL F l)))) (divisor F bessel l.length)

theorem variance_run {as : Inp Fp} (hv : as.valid) (bessel : Bool) (w : ω) :
    variance F bessel as w = .ok (varL F bessel as.vals) w := by
  rw [variance, Cpp.bind_ok (mean_run as w), Cpp.bind_ok (map1_run _ hv w).1, Cpp.bind_ok (sum_run _ w)]
  rfl

/-- the covariance of two lists -/
def covL (F : Fmt) (bessel : Bool) (l r : List Fp) : Fp :=
  div F (sumL F ((l.zip r).map fun p => mul F (sub F p.1 (meanL F l)) (sub F p.2 (meanL F r)))) (divisor F bessel l.length)

theorem covariance_run {as bs : Inp Fp} (hva : as.valid) (hvb : bs.valid) (bessel : Bool) (w : ω) :
    covariance F bessel as bs w = .ok (covL F bessel as.vals bs.vals) w := by
  rw [covariance, Cpp.bind_ok (mean_run as w), Cpp.bind_ok (mean_run bs w), Cpp.bind_ok (map2_run _ hva hvb w).1,
    Cpp.bind_ok (sum_run _ w)]
  rfl

theorem standardDeviation_run {as : Inp Fp} (hv : as.valid) (bessel : Bool) (w : ω) :
    standardDeviation F bessel as w = .ok (sqrt F (varL F bessel as.vals)) w := by
  rw [standardDeviation, Cpp.bind_ok (variance_run hv bessel w)]
  rfl

theorem correlation_run {as bs : Inp Fp} (hva : as.valid) (hvb : bs.valid) (bessel : Bool) (w : ω) :
    correlation F bessel as bs w = .ok (div F (covL F bessel as.vals bs.vals)
      (mul F (sqrt F (varL F bessel as.vals)) (sqrt F (varL F bessel bs.vals)))) w := by
  rw [correlation, Cpp.bind_ok (covariance_run hva hvb bessel w), Cpp.bind_ok (standardDeviation_run hva bessel w),
    Cpp.bind_ok (standardDeviation_run hvb bessel w)]
  rfl

theorem sse_run {as bs : Inp Fp} (hva : as.valid) (hvb : bs.valid) (w : ω) :
    sse F as bs w = .ok (sumL F ((as.vals.zip bs.vals).map fun p => square F (sub F p.1 p.2))) w := by
  rw [sse, Cpp.bind_ok (map2_run _ hva hvb w).1, sum_run]
  rfl

theorem mse_run {as bs : Inp Fp} (hva : as.valid) (hvb : bs.valid) (w : ω) :
    mse F as bs w = .ok (meanL F ((as.vals.zip bs.vals).map fun p => square F (sub F p.1 p.2))) w := by
  rw [mse, Cpp.bind_ok (map2_run _ hva hvb w).1, mean_run]
  rfl

/-! ### sums -/

theorem zero_finite : Finite F zero := ⟨false, 0, rfl, le_refl _, rep_zero, zpow_pos2 _⟩

theorem value_zero : value zero = 0 := rfl

/-- adding to zero is exact -/
theorem add_zero_left (hF : F.Ok) {x : Fp} (hx : Finite F x) : Finite F (add F zero x) ∧ value (add F zero x) = value x := by
  obtain ⟨z, hz⟩ := add_fin zero_finite hx
  rw [value_zero, zero_add] at hz
  rw [hz]
  exact ofExact_rep hF z hx.value_rep hx.value_lt

/-- the sum of magnitudes -/
def absSum (l : List Fp) : ℚ := (l.map fun x => |value x|).sum

theorem absSum_nonneg (l : List Fp) : 0 ≤ absSum l := by
  induction l with
  | nil => exact le_refl _
  | cons x l ih =>
    show 0 ≤ |value x| + absSum l
    have := abs_nonneg (value x)
    linarith

theorem value_sum_le (l : List Fp) : |(l.map value).sum| ≤ absSum l := by
  induction l with
  | nil => simp [absSum]
  | cons x l ih =>
    show |value x + (l.map value).sum| ≤ |value x| + absSum l
    exact (abs_add_le _ _).trans (by linarith)

theorem one_le_pow_unit (F : Fmt) (n : Nat) : 1 ≤ (1 + unit F) ^ n := one_le_pow₀ (by have := unit_pos F; linarith)

/-- if the magnitudes leave room, no intermediate result overflows, and the error is bounded -/
theorem foldl_error (hF : F.Ok) : ∀ (l : List Fp) (acc : Fp), Finite F acc → (∀ x ∈ l, Finite F x) →
    (1 + unit F) ^ l.length * (|value acc| + absSum l) < 2 ^ F.emax →
    Finite F (l.foldl (add F) acc) ∧
    |value (l.foldl (add F) acc) - (value acc + (l.map value).sum)| ≤ ((1 + unit F) ^ l.length - 1) * (|value acc| + absSum l)
  | [], acc, ha, _, _ => by simp [ha, absSum]
  | x :: l, acc, ha, hl, hlt => by
    have hu := unit_pos F
    have hx := hl x (by simp)
    obtain ⟨z, hz⟩ := add_fin ha hx
    have herr := round_add_error (F := F) ha.value_rep hx.value_rep
    have habs : |value acc + value x| ≤ |value acc| + |value x| := abs_add_le _ _
    have hS : absSum (x :: l) = |value x| + absSum l := rfl
    have hn := absSum_nonneg l
    have h1 := one_le_pow_unit F l.length
    rw [hS, List.length_cons, pow_succ] at hlt ⊢
    generalize hP : (1 + unit F) ^ l.length = P at *
    have hround : |round F (value acc + value x)| ≤ (1 + unit F) * (|value acc| + |value x|) := by
      have h3 : |round F (value acc + value x)| ≤ |value acc + value x| + |round F (value acc + value x) - (value acc + value x)| := by
        have := abs_add_le (value acc + value x) (round F (value acc + value x) - (value acc + value x))
        rwa [add_sub_cancel] at this
      have := mul_le_mul_of_nonneg_left habs hu.le
      linarith
    have hA := abs_nonneg (value acc)
    have hX := abs_nonneg (value x)
    have hfin : |round F (value acc + value x)| < 2 ^ F.emax := by
      refine lt_of_le_of_lt (hround.trans ?_) hlt
      have h4 : (1 + unit F) * (|value acc| + |value x|) ≤ (1 + unit F) * (|value acc| + (|value x| + absSum l)) :=
        mul_le_mul_of_nonneg_left (by linarith) (by linarith)
      have h5 : 0 ≤ (1 + unit F) * (|value acc| + (|value x| + absSum l)) := mul_nonneg (by linarith) (by linarith)
      nlinarith
    obtain ⟨hf1, hf2⟩ := ofExact_finite hF z hfin
    rw [← hz] at hf1 hf2
    have hbound : |value (add F acc x)| + absSum l ≤ (1 + unit F) * (|value acc| + (|value x| + absSum l)) := by
      rw [hf2]
      have := mul_nonneg hu.le hn
      linarith
    obtain ⟨h6, h7⟩ := foldl_error hF l (add F acc x) hf1 (fun y hy => hl y (by simp [hy])) (by
      rw [hP]
      refine lt_of_le_of_lt ?_ hlt
      have := mul_le_mul_of_nonneg_left hbound (show (0 : ℚ) ≤ P by linarith)
      linarith)
    rw [hP] at h7
    refine ⟨h6, ?_⟩
    rw [List.foldl_cons, List.map_cons, List.sum_cons]
    have h8 : |value (add F acc x) - (value acc + value x)| ≤ unit F * (|value acc| + |value x|) := by
      rw [hf2]
      exact herr.trans (mul_le_mul_of_nonneg_left habs hu.le)
    have h9 : |value (l.foldl (add F) (add F acc x)) - (value acc + (value x + (l.map value).sum))| ≤
        |value (l.foldl (add F) (add F acc x)) - (value (add F acc x) + (l.map value).sum)| +
        |value (add F acc x) - (value acc + value x)| := by
      have := abs_add_le (value (l.foldl (add F) (add F acc x)) - (value (add F acc x) + (l.map value).sum))
        (value (add F acc x) - (value acc + value x))
      refine le_trans (le_of_eq ?_) this
      congr 1
      ring
    refine h9.trans ?_
    have h10 : (P - 1) * (|value (add F acc x)| + absSum l) ≤ (P - 1) * ((1 + unit F) * (|value acc| + (|value x| + absSum l))) :=
      mul_le_mul_of_nonneg_left hbound (by linarith)
    have h11 := mul_nonneg hu.le hn
    nlinarith

/-- the sum: the first addition is exact -/
theorem sumL_error (hF : F.Ok) (l : List Fp) (hl : ∀ x ∈ l, Finite F x)
    (hlt : (1 + unit F) ^ (l.length - 1) * absSum l < 2 ^ F.emax) :
    Finite F (sumL F l) ∧ |value (sumL F l) - (l.map value).sum| ≤ ((1 + unit F) ^ (l.length - 1) - 1) * absSum l := by
  cases l with
  | nil => simp [sumL, zero_finite, value_zero, absSum]
  | cons x l =>
    obtain ⟨h1, h2⟩ := add_zero_left hF (hl x (by simp))
    have hS : absSum (x :: l) = |value x| + absSum l := rfl
    rw [hS, List.length_cons, Nat.add_sub_cancel] at hlt ⊢
    have := foldl_error hF l (add F zero x) h1 (fun y hy => hl y (by simp [hy])) (by rwa [h2])
    rw [h2] at this
    exact this

/-- sums of integers that stay within the precision are exact -/
theorem foldl_exact (hF : F.Ok) : ∀ (l : List Fp) (acc : Fp), Finite F acc → (∀ x ∈ l, Finite F x) → (∃ n : Int, value acc = n) →
    (∀ x ∈ l, ∃ n : Int, value x = n) → |value acc| + absSum l < 2 ^ F.prec →
    Finite F (l.foldl (add F) acc) ∧ value (l.foldl (add F) acc) = value acc + (l.map value).sum
  | [], acc, ha, _, _, _, _ => by simp [ha]
  | x :: l, acc, ha, hl, ⟨n, hn⟩, hi, hlt => by
    obtain ⟨k, hk⟩ := hi x (by simp)
    have hx := hl x (by simp)
    obtain ⟨z, hz⟩ := add_fin ha hx
    have hS : absSum (x :: l) = |value x| + absSum l := rfl
    have habs : |value acc + value x| ≤ |value acc| + |value x| := abs_add_le _ _
    have hnn := absSum_nonneg l
    rw [hS] at hlt
    have hsum : value acc + value x = ((n + k : Int) : ℚ) := by rw [hn, hk]; push_cast; rfl
    have hb : |value acc + value x| < 2 ^ F.prec := by linarith
    have hrep : Rep F (value acc + value x) := by
      rw [hsum]
      apply rep_int hF
      rw [hsum] at hb
      exact_mod_cast hb
    have htop : |value acc + value x| < 2 ^ F.emax := by
      refine hb.trans ?_
      rw [← zpow_natCast]
      exact zpow_lt2 hF.top
    obtain ⟨h1, h2⟩ := ofExact_rep hF z hrep htop
    rw [← hz] at h1 h2
    obtain ⟨h3, h4⟩ := foldl_exact hF l (add F acc x) h1 (fun y hy => hl y (by simp [hy])) ⟨n + k, by rw [h2, hsum]⟩
      (fun y hy => hi y (by simp [hy])) (by rw [h2]; linarith)
    refine ⟨h3, ?_⟩
    rw [List.foldl_cons, h4, h2, List.map_cons, List.sum_cons]
    ring

theorem foldl_not_nan (hF : F.Ok) : ∀ (l : List Fp) (acc : Fp), (Finite F acc ∨ ∃ s, acc = .inf s) → (∀ x ∈ l, Finite F x) →
    Finite F (l.foldl (add F) acc) ∨ ∃ s, l.foldl (add F) acc = .inf s
  | [], _, ha, _ => ha
  | x :: l, _, ha, hl => foldl_not_nan hF l _ (add_not_nan hF ha (hl x (by simp))) fun y hy => hl y (by simp [hy])

theorem foldl_nan : ∀ (l : List Fp) (acc : Fp), acc = .nan ∨ .nan ∈ l → l.foldl (add F) acc = .nan
  | [], _, h => by simpa using h
  | x :: l, acc, h => by
    apply foldl_nan l
    rcases h with rfl | h
    · exact Or.inl rfl
    · rcases List.mem_cons.1 h with rfl | h
      · left
        cases acc <;> rfl
      · exact Or.inr h

theorem foldl_nonneg : ∀ (l : List Fp) (acc : Fp), NonNeg acc → (∀ x ∈ l, NonNeg x) → NonNeg (l.foldl (add F) acc)
  | [], _, ha, _ => ha
  | x :: l, _, ha, hl => foldl_nonneg l _ (add_nonneg_fp ha (hl x (by simp))) fun y hy => hl y (by simp [hy])

/-! ### means and variances -/

theorem meanL_not_nan (hF : F.Ok) {l : List Fp} (h0 : l ≠ []) (hlen : l.length < 2 ^ 64) (hl : ∀ x ∈ l, Finite F x) :
    Finite F (meanL F l) ∨ ∃ s, meanL F l = .inf s := by
  obtain ⟨b, hb, hb1, hbf, -⟩ := ofInt_pos hF (List.length_pos_iff.2 h0) hlen
  rcases foldl_not_nan hF l zero (Or.inl zero_finite) hl with hs | ⟨s, hs⟩
  · obtain ⟨z, hz⟩ := div_fin hs hbf (by rw [hb]; simp only [value, signed]; intro h; simp at h; linarith)
    show Finite F (div F (sumL F l) _) ∨ ∃ s, div F (sumL F l) _ = _
    rw [sumL, hz]
    rcases ofExact_cases hF z _ with ⟨h, -⟩ | h
    · exact Or.inl h
    · exact Or.inr h
  · right
    refine ⟨s, ?_⟩
    rw [meanL, sumL, hs, hb]
    simp [Ieee.div]

theorem sub_not_nan (hF : F.Ok) {x m : Fp} (hx : Finite F x) (hm : Finite F m ∨ ∃ s, m = .inf s) :
    Finite F (sub F x m) ∨ ∃ s, sub F x m = .inf s := by
  rcases hm with hm | ⟨s, rfl⟩
  · obtain ⟨z, hz⟩ := sub_fin hx hm
    rw [hz]
    rcases ofExact_cases hF z (value x - value m) with ⟨h, -⟩ | h
    · exact Or.inl h
    · exact Or.inr h
  · obtain ⟨t, a, rfl, -⟩ := hx
    exact Or.inr ⟨!s, rfl⟩

theorem varL_nonneg (hF : F.Ok) (bessel : Bool) {l : List Fp} (h0 : (if bessel then 2 else 1) ≤ l.length) (hlen : l.length < 2 ^ 64)
    (hl : ∀ x ∈ l, Finite F x) : NonNeg (varL F bessel l) := by
  have hne : l ≠ [] := by
    rintro rfl
    cases bessel <;> simp at h0
  have hs : NonNeg (sumL F (l.map fun x => square F (sub F x (meanL F l)))) := by
    refine foldl_nonneg _ _ (Or.inr ⟨0, le_refl _, rfl⟩) fun y hy => ?_
    obtain ⟨x, hx, rfl⟩ := List.mem_map.1 hy
    exact mul_self_nonneg_fp (sub_not_nan hF (hl x hx) (meanL_not_nan hF hne hlen hl))
  have hd : ∃ b, divisor F bessel l.length = .fin false b ∧ 0 < b := by
    cases bessel with
    | false =>
      obtain ⟨b, hb, hb1, -⟩ := ofInt_pos hF (List.length_pos_iff.2 hne) hlen
      exact ⟨b, hb, by linarith⟩
    | true =>
      simp only [if_true] at h0
      obtain ⟨b, hb, hb1, -⟩ := ofInt_pos hF (n := l.length - 1) (by omega) (by omega)
      refine ⟨b, ?_, by linarith⟩
      rw [divisor, if_pos rfl, ← hb]
      congr 1
      omega
  obtain ⟨b, hb, hb0⟩ := hd
  rw [varL, hb]
  exact div_nonneg_fp hs hb0

end Efp.SciFloat
