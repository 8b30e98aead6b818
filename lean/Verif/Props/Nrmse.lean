import Verif.Props.Scientific

/-!
# Properties of `rms` and of the normalised errors (C87, C170)

`K` is any linearly ordered field and `sqrt` any square root function on it; `T` gives the limits of the
element type.
-/

namespace Efp.Props

open Efp.Prelude (Inp)
open Efp.Scientific Efp.Spec.Scientific Efp.Numeric

variable {ω K : Type} [Field K] [LinearOrder K] [IsStrictOrderedRing K]

/-- the error both functions divide: the square root of the mean squared difference -/
private theorem rmse_val {as bs : Inp K} (hva : as.valid) (hvb : bs.valid) (hna : as.vals ≠ []) (hnb : bs.vals ≠ [])
    (sqrt : K → K) (w : ω) :
    rmse sqrt as bs w = .ok (sqrt (sqErr as.vals bs.vals / (min as.vals.length bs.vals.length : Nat))) w := by
  rw [rmse, Cpp.bind_ok (mse_run hva hvb hna hnb w)]; rfl

omit [LinearOrder K] [IsStrictOrderedRing K] in
private theorem sqErr_affine (c d : K) (xs ys : List K) :
    sqErr (xs.map fun x => c * x + d) (ys.map fun x => c * x + d) = c * c * sqErr xs ys := by
  induction xs generalizing ys with
  | nil => simp [sqErr]
  | cons x xs ih =>
    cases ys with
    | nil => simp [sqErr]
    | cons y ys =>
      have := ih ys
      simp only [sqErr, List.map_cons, List.zip_cons_cons, List.sum_cons] at this ⊢
      rw [this]
      ring

private theorem sqErr_nonneg (xs ys : List K) : 0 ≤ sqErr xs ys := by
  apply List.sum_nonneg
  intro z hz
  obtain ⟨v, _, rfl⟩ := List.mem_map.mp hz
  positivity

private theorem sqrt_scale {sqrt : K → K} (hs : IsSqrt sqrt) {c x : K} (hc : 0 < c) (hx : 0 ≤ x) :
    sqrt (c * c * x) = c * sqrt x := by
  obtain ⟨h1, h2⟩ := hs x hx
  obtain ⟨h3, h4⟩ := hs (c * c * x) (by positivity)
  apply (mul_self_inj h3 (by positivity)).mp
  rw [h4]
  linear_combination (-(c * c)) * h2

private theorem sqDev_expand (xs : List K) (hne : xs ≠ []) :
    sqDev xs = (xs.map fun x => x ^ 2).sum - xs.length * avg xs ^ 2 := by
  have key : ∀ (m : K) (l : List K),
      (l.map fun x => (x - m) ^ 2).sum = (l.map fun x => x ^ 2).sum - 2 * m * l.sum + l.length * m ^ 2 := by
    intro m l
    induction l with
    | nil => simp
    | cons x l ih =>
      simp only [List.map_cons, List.sum_cons, List.length_cons, Nat.cast_add, Nat.cast_one, ih]
      ring
  have hl : (xs.length : K) ≠ 0 := by
    have := List.length_pos_iff.mpr hne
    exact_mod_cast (by omega : xs.length ≠ 0)
  have hs : xs.sum = xs.length * avg xs := by
    rw [avg]; field_simp
  rw [sqDev, key, hs]
  ring

/-- **C87, `rms`.**  `rms` is the square root of the mean of the squares; it is never negative, zero exactly if all
elements are zero, and its square is the square of the mean plus the variance. -/
theorem C87_rms (as : Inp K) (hva : as.valid) (hna : as.vals ≠ []) (sqrt : K → K) (hs : IsSqrt sqrt) (w : ω) :
    ∃ r m v, rms sqrt as w = .ok r w ∧ mean as w = .ok m w ∧ variance false as w = .ok v w
      ∧ r = sqrt ((as.vals.map fun x => x ^ 2).sum / as.vals.length) ∧ 0 ≤ r ∧ r ^ 2 = m ^ 2 + v
      ∧ (r = 0 ↔ ∀ x ∈ as.vals, x = 0) := by
  have hpos : (0 : K) < as.vals.length := by
    exact_mod_cast List.length_pos_iff.mpr hna
  have hnn : ∀ z ∈ as.vals.map (fun x => x ^ 2), (0 : K) ≤ z := by
    intro z hz
    obtain ⟨v, _, rfl⟩ := List.mem_map.mp hz
    positivity
  have h1 := map1_run (ω := ω) Scientific.square hva w
  have hne' : (outInp [as] (as.vals.map Scientific.square)).vals ≠ [] := by simpa [outInp] using hna
  have hrun : rms sqrt as w = .ok (sqrt ((as.vals.map fun x => x ^ 2).sum / as.vals.length)) w := by
    rw [rms, Cpp.bind_ok h1.1, Cpp.bind_ok (mean_run hne' w)]
    have : as.vals.map Scientific.square = as.vals.map fun x => x ^ 2 :=
      List.map_congr_left fun x _ => by rw [Scientific.square, pow_two]
    simp only [outInp, avg, List.length_map, this]
    rfl
  have hq : 0 ≤ (as.vals.map fun x => x ^ 2).sum / (as.vals.length : K) :=
    div_nonneg (List.sum_nonneg hnn) (le_of_lt hpos)
  obtain ⟨s1, s2⟩ := hs _ hq
  have hd : divisor K false as.vals.length ≠ 0 := by simpa [divisor] using hna
  refine ⟨_, _, _, hrun, mean_run hna w, variance_run hva hna false hd w, rfl, s1, ?_, ?_⟩
  · rw [pow_two, s2, sqDev_expand _ hna]
    simp only [divisor, Bool.false_eq_true, if_false]
    field_simp
    ring
  · constructor
    · intro h0 x hx
      rw [h0, mul_zero] at s2
      have hz : (as.vals.map fun x => x ^ 2).sum = 0 := by
        have := s2.symm
        rw [div_eq_zero_iff, or_iff_left (ne_of_gt hpos)] at this
        exact this
      have := Efp.Scientific.sum_eq_zero hnn hz (x ^ 2) (List.mem_map_of_mem (f := fun x : K => x ^ 2) hx)
      exact pow_eq_zero_iff (two_ne_zero) |>.mp this
    · intro hall
      have hz : (as.vals.map fun x => x ^ 2).sum / (as.vals.length : K) = 0 := by
        rw [div_eq_zero_iff]
        left
        have : (as.vals.map fun x => x ^ 2) = as.vals.map fun _ => 0 :=
          List.map_congr_left fun x hx => by rw [hall x hx]; simp
        rw [this]
        simp
      rw [hz] at s2 ⊢
      exact mul_self_eq_zero.mp s2

/-- **C170.**  `nrmse_mean` is the root mean square error divided by the mean of the second sequence; where
that is zero it divides by zero. -/
theorem C170_nrmse_mean (as bs : Inp K) (hva : as.valid) (hvb : bs.valid) (hna : as.vals ≠ []) (hnb : bs.vals ≠ [])
    (sqrt : K → K) (w : ω) :
    ∃ r, rmse sqrt as bs w = .ok r w
      ∧ (avg bs.vals ≠ 0 → nrmseMean sqrt as bs w = .ok (r / avg bs.vals) w)
      ∧ (avg bs.vals = 0 → nrmseMean sqrt as bs w = .ub .divZero) := by
  refine ⟨_, rmse_val hva hvb hna hnb sqrt w, fun h => ?_, fun h => ?_⟩
  · rw [nrmseMean, Cpp.bind_ok (rmse_val hva hvb hna hnb sqrt w), Cpp.bind_ok (mean_run hnb w), div_run h]
  · rw [nrmseMean, Cpp.bind_ok (rmse_val hva hvb hna hnb sqrt w), Cpp.bind_ok (mean_run hnb w), div, if_pos h]

/-- **C170.**  `nrmse_mean` does not change if both sequences are multiplied with the same positive number, as
by a change of units. -/
theorem C170_nrmse_mean_scale (as bs cas cbs : Inp K) (hva : as.valid) (hvb : bs.valid) (hvca : cas.valid)
    (hvcb : cbs.valid) (hna : as.vals ≠ []) (hnb : bs.vals ≠ []) (c : K) (hc : 0 < c)
    (ha : cas.vals = as.vals.map fun x => c * x) (hb : cbs.vals = bs.vals.map fun x => c * x)
    (sqrt : K → K) (hs : IsSqrt sqrt) (w : ω) :
    nrmseMean sqrt cas cbs w = nrmseMean sqrt as bs w := by
  have ha' : cas.vals = as.vals.map fun x => c * x + 0 := by simpa using ha
  have hb' : cbs.vals = bs.vals.map fun x => c * x + 0 := by simpa using hb
  have hnca : cas.vals ≠ [] := by rw [ha]; simpa using hna
  have hncb : cbs.vals ≠ [] := by rw [hb]; simpa using hnb
  have hm : avg cbs.vals = c * avg bs.vals := by
    rw [hb', avg_affine hnb, add_zero]
  have he : sqErr cas.vals cbs.vals / (min cas.vals.length cbs.vals.length : Nat)
      = c * c * (sqErr as.vals bs.vals / (min as.vals.length bs.vals.length : Nat)) := by
    rw [ha', hb', sqErr_affine, List.length_map, List.length_map, mul_div_assoc]
  have hq : 0 ≤ sqErr as.vals bs.vals / (min as.vals.length bs.vals.length : Nat) :=
    div_nonneg (sqErr_nonneg _ _) (Nat.cast_nonneg _)
  rw [nrmseMean, Cpp.bind_ok (rmse_val hvca hvcb hnca hncb sqrt w), Cpp.bind_ok (mean_run hncb w),
    nrmseMean, Cpp.bind_ok (rmse_val hva hvb hna hnb sqrt w), Cpp.bind_ok (mean_run hnb w), he, sqrt_scale hs hc hq, hm,
    div, div]
  by_cases h : avg bs.vals = 0
  · rw [if_pos h, if_pos (by rw [h, mul_zero])]
  · rw [if_neg h, if_neg (mul_ne_zero (ne_of_gt hc) h), mul_div_mul_left _ _ (ne_of_gt hc)]

/-- **C170, the part that holds.**  If some element of the second sequence is at least `NumericLimits::min()`,
`nrmse_max_min` is the root mean square error divided by the difference between the greatest and the least
element of the second sequence; where all are equal it divides by zero. -/
theorem C170_nrmse_max_min_partial (as bs : Inp K) (hva : as.valid) (hvb : bs.valid) (hna : as.vals ≠ [])
    (hnb : bs.vals ≠ []) (T : OrdTy K) (hhi : ∀ x ∈ bs.vals, x ≤ T.limMax) (hlo : ∃ x ∈ bs.vals, T.limMin ≤ x)
    (sqrt : K → K) (w : ω) :
    ∃ r hi lo, rmse sqrt as bs w = .ok r w ∧ hi ∈ bs.vals ∧ lo ∈ bs.vals ∧ (∀ x ∈ bs.vals, lo ≤ x ∧ x ≤ hi)
      ∧ (hi ≠ lo → nrmseMaxMin sqrt (fun x y => decide (x < y)) T as bs w = .ok (r / (hi - lo)) w)
      ∧ (hi = lo → nrmseMaxMin sqrt (fun x y => decide (x < y)) T as bs w = .ub .divZero) := by
  obtain ⟨⟨lo, l1, l2, l3⟩, hmax, _⟩ := C68_extrema_partial T bs hnb hhi w
  obtain ⟨hi, m1, m2, m3⟩ := hmax hlo
  refine ⟨_, hi, lo, rmse_val hva hvb hna hnb sqrt w, m2, l2, fun x hx => ⟨l3 x hx, m3 x hx⟩, fun h => ?_, fun h => ?_⟩
  · rw [nrmseMaxMin, Cpp.bind_ok (rmse_val hva hvb hna hnb sqrt w), Cpp.bind_ok m1, Cpp.bind_ok l1,
      div_run (sub_ne_zero.mpr h)]
  · rw [nrmseMaxMin, Cpp.bind_ok (rmse_val hva hvb hna hnb sqrt w), Cpp.bind_ok m1, Cpp.bind_ok l1, div,
      if_pos (sub_eq_zero.mpr h)]

/-- **C170, the part that holds.**  `nrmse_max_min` does not change if every element `x` of both sequences
becomes `c x + d` with `c` positive, as long as some element of each second sequence is at least
`NumericLimits::min()`. -/
theorem C170_nrmse_max_min_affine_partial (as bs cas cbs : Inp K) (hva : as.valid) (hvb : bs.valid)
    (hvca : cas.valid) (hvcb : cbs.valid) (hna : as.vals ≠ []) (hnb : bs.vals ≠ []) (c d : K) (hc : 0 < c)
    (ha : cas.vals = as.vals.map fun x => c * x + d) (hb : cbs.vals = bs.vals.map fun x => c * x + d)
    (T : OrdTy K) (hhi : ∀ x ∈ bs.vals, x ≤ T.limMax) (hlo : ∃ x ∈ bs.vals, T.limMin ≤ x)
    (hhi' : ∀ x ∈ cbs.vals, x ≤ T.limMax) (hlo' : ∃ x ∈ cbs.vals, T.limMin ≤ x)
    (sqrt : K → K) (hs : IsSqrt sqrt) (w : ω) :
    nrmseMaxMin sqrt (fun x y => decide (x < y)) T cas cbs w
      = nrmseMaxMin sqrt (fun x y => decide (x < y)) T as bs w := by
  have hnca : cas.vals ≠ [] := by rw [ha]; simpa using hna
  have hncb : cbs.vals ≠ [] := by rw [hb]; simpa using hnb
  have he : sqErr cas.vals cbs.vals / (min cas.vals.length cbs.vals.length : Nat)
      = c * c * (sqErr as.vals bs.vals / (min as.vals.length bs.vals.length : Nat)) := by
    rw [ha, hb, sqErr_affine, List.length_map, List.length_map, mul_div_assoc]
  have hq : 0 ≤ sqErr as.vals bs.vals / (min as.vals.length bs.vals.length : Nat) :=
    div_nonneg (sqErr_nonneg _ _) (Nat.cast_nonneg _)
  obtain ⟨r, hi, lo, hr, m, l, hb1, h1, h2⟩ := C170_nrmse_max_min_partial as bs hva hvb hna hnb T hhi hlo sqrt w
  obtain ⟨r', hi', lo', hr', m', l', hb1', h1', h2'⟩ :=
    C170_nrmse_max_min_partial cas cbs hvca hvcb hnca hncb T hhi' hlo' sqrt w
  have er : r = _ := (Out.ok.inj (hr.symm.trans (rmse_val hva hvb hna hnb sqrt w))).1
  have er' : r' = _ := (Out.ok.inj (hr'.symm.trans (rmse_val hvca hvcb hnca hncb sqrt w))).1
  rw [he, sqrt_scale hs hc hq, ← er] at er'
  have mem : ∀ x ∈ bs.vals, c * x + d ∈ cbs.vals := fun x hx => by
    rw [hb]; exact List.mem_map_of_mem (f := fun x => c * x + d) hx
  have ehi : hi' = c * hi + d := by
    apply le_antisymm
    · rw [hb] at m'
      obtain ⟨x, hx, rfl⟩ := List.mem_map.mp m'
      have := mul_le_mul_of_nonneg_left (hb1 x hx).2 (le_of_lt hc)
      linarith
    · exact (hb1' _ (mem _ m)).2
  have elo : lo' = c * lo + d := by
    apply le_antisymm
    · exact (hb1' _ (mem _ l)).1
    · rw [hb] at l'
      obtain ⟨x, hx, rfl⟩ := List.mem_map.mp l'
      have := mul_le_mul_of_nonneg_left (hb1 x hx).1 (le_of_lt hc)
      linarith
  by_cases h : hi = lo
  · rw [h2 h, h2' (by rw [ehi, elo, h])]
  · have hd : hi' ≠ lo' := by
      rw [ehi, elo]
      intro e
      exact h (mul_left_cancel₀ (ne_of_gt hc) (add_right_cancel e))
    rw [h1 h, h1' hd, ehi, elo, er']
    have : c * hi + d - (c * lo + d) = c * (hi - lo) := by ring
    rw [this, mul_div_mul_left _ _ (ne_of_gt hc)]

/-- **C170 is false for `nrmse_max_min`.**  If all elements of the second sequence are below
`NumericLimits::min()` (all negative, say), it divides by the difference between that limit and the least
element.  The result then differs from the one for the same data moved up by `d` to where it is right, whenever
corresponding elements differ somewhere. -/
theorem C170_refuted (as bs cas cbs : Inp K) (hva : as.valid) (hvb : bs.valid)
    (hvca : cas.valid) (hvcb : cbs.valid) (hna : as.vals ≠ []) (hnb : bs.vals ≠ []) (d : K)
    (ha : cas.vals = as.vals.map fun x => x + d) (hb : cbs.vals = bs.vals.map fun x => x + d)
    (T : OrdTy K) (hhi : ∀ x ∈ bs.vals, x ≤ T.limMax) (hlt : ∀ x ∈ bs.vals, x < T.limMin)
    (hhi' : ∀ x ∈ cbs.vals, x ≤ T.limMax) (hlo' : ∃ x ∈ cbs.vals, T.limMin ≤ x)
    (sqrt : K → K) (hs : IsSqrt sqrt) (hne : ∃ p ∈ as.vals.zip bs.vals, p.1 ≠ p.2) (w : ω) :
    (∃ r lo, rmse sqrt as bs w = .ok r w ∧ lo ∈ bs.vals ∧ (∀ x ∈ bs.vals, lo ≤ x)
      ∧ nrmseMaxMin sqrt (fun x y => decide (x < y)) T as bs w = .ok (r / (T.limMin - lo)) w)
    ∧ nrmseMaxMin sqrt (fun x y => decide (x < y)) T cas cbs w
      ≠ nrmseMaxMin sqrt (fun x y => decide (x < y)) T as bs w := by
  have hnca : cas.vals ≠ [] := by rw [ha]; simpa using hna
  have hncb : cbs.vals ≠ [] := by rw [hb]; simpa using hnb
  obtain ⟨⟨lo, l1, l2, l3⟩, _, _⟩ := C68_extrema_partial T bs hnb hhi w
  obtain ⟨m1, _⟩ := C68_float_max T bs hlt w
  have hr := rmse_val hva hvb hna hnb sqrt w
  have hpos : 0 < T.limMin - lo := sub_pos.mpr (hlt lo l2)
  have hrun : nrmseMaxMin sqrt (fun x y => decide (x < y)) T as bs w
      = .ok (sqrt (sqErr as.vals bs.vals / (min as.vals.length bs.vals.length : Nat)) / (T.limMin - lo)) w := by
    rw [nrmseMaxMin, Cpp.bind_ok hr, Cpp.bind_ok m1, Cpp.bind_ok l1, div_run (ne_of_gt hpos)]
  refine ⟨⟨_, lo, hr, l2, l3, hrun⟩, ?_⟩
  have ha' : cas.vals = as.vals.map fun x => 1 * x + d := by simpa using ha
  have hb' : cbs.vals = bs.vals.map fun x => 1 * x + d := by simpa using hb
  have he : sqErr cas.vals cbs.vals / (min cas.vals.length cbs.vals.length : Nat)
      = sqErr as.vals bs.vals / (min as.vals.length bs.vals.length : Nat) := by
    rw [ha', hb', sqErr_affine, List.length_map, List.length_map]
    ring
  obtain ⟨r', hi', lo', hr', m', l', hb1', h1', h2'⟩ :=
    C170_nrmse_max_min_partial cas cbs hvca hvcb hnca hncb T hhi' hlo' sqrt w
  have er' : r' = _ := (Out.ok.inj (hr'.symm.trans (rmse_val hvca hvcb hnca hncb sqrt w))).1
  rw [he] at er'
  obtain ⟨e, m, he1, he2, _, he4, he5, _, _, he8, he9, he10, he11⟩ := C87_errors as bs hva hvb hna hnb sqrt w
  have hm0 : m ≠ 0 := fun h => by
    obtain ⟨p, hp, hpn⟩ := hne
    exact hpn (he11.mp (he10.mpr h) p hp)
  rw [he4] at he5
  rw [← he5] at er' hrun
  have hr0 : r' ≠ 0 := by
    rw [er']
    intro h
    have := (hs m he9).2
    rw [h, mul_zero] at this
    exact hm0 this.symm
  rw [hrun, ← er']
  intro heq
  by_cases h : hi' = lo'
  · rw [h2' h] at heq
    exact nomatch heq
  · rw [h1' h] at heq
    have heq := (Out.ok.inj heq).1
    have h3 : hi' - lo' = T.limMin - lo := by
      have h4 : hi' - lo' ≠ 0 := sub_ne_zero.mpr h
      have h5 := ne_of_gt hpos
      field_simp at heq
      exact heq.symm
    rw [hb] at m' l'
    obtain ⟨x, hx, rfl⟩ := List.mem_map.mp m'
    obtain ⟨y, hy, rfl⟩ := List.mem_map.mp l'
    have h6 : lo ≤ y := l3 y hy
    have h7 := hlt x hx
    linarith

/-! ### The hypotheses can be met -/

/-- a vector argument -/
private def vec (xs : List ℝ) : Inp ℝ := ⟨.vector, xs, 0, false⟩

private theorem vec_valid {xs : List ℝ} (h : xs.length < Prelude.dyn) : (vec xs).valid :=
  ⟨h, fun h => nomatch h⟩

private theorem sqrt_is : IsSqrt Real.sqrt := fun x hx => ⟨Real.sqrt_nonneg x, Real.mul_self_sqrt hx⟩

/-- the limits of a floating-point type, roughly -/
private noncomputable def lims : OrdTy ℝ := ⟨-1000, 1 / 1000, 1000⟩

example : ∃ v, nrmseMean (ω := Unit) Real.sqrt (vec [1, 2]) (vec [3, 4]) () = .ok v () := by
  obtain ⟨r, _, h, _⟩ := C170_nrmse_mean (ω := Unit) (vec [1, 2]) (vec [3, 4])
    (vec_valid (by decide)) (vec_valid (by decide)) (by simp [vec]) (by simp [vec]) Real.sqrt ()
  exact ⟨_, h (by norm_num [avg, vec])⟩

example : ∃ r, rms (ω := Unit) Real.sqrt (vec [3, -4]) () = .ok r () ∧ r ≠ 0 := by
  obtain ⟨r, m, v, h, _, _, _, _, _, h0⟩ := C87_rms (ω := Unit) (vec [3, -4]) (vec_valid (by decide)) (by simp [vec])
    Real.sqrt sqrt_is ()
  exact ⟨r, h, fun e => by have := h0.mp e 3 (by simp [vec]); norm_num at this⟩

example : nrmseMean (ω := Unit) Real.sqrt (vec [2, 4]) (vec [6, 8]) () = nrmseMean Real.sqrt (vec [1, 2]) (vec [3, 4]) () :=
  C170_nrmse_mean_scale (vec [1, 2]) (vec [3, 4]) (vec [2, 4]) (vec [6, 8]) (vec_valid (by decide))
    (vec_valid (by decide)) (vec_valid (by decide)) (vec_valid (by decide)) (by simp [vec]) (by simp [vec]) 2 (by norm_num)
    (by norm_num [vec]) (by norm_num [vec]) Real.sqrt sqrt_is ()

example : nrmseMaxMin (ω := Unit) Real.sqrt (fun x y => decide (x < y)) lims (vec [3, 5]) (vec [7, 9]) ()
    = nrmseMaxMin Real.sqrt (fun x y => decide (x < y)) lims (vec [1, 2]) (vec [3, 4]) () :=
  C170_nrmse_max_min_affine_partial (vec [1, 2]) (vec [3, 4]) (vec [3, 5]) (vec [7, 9]) (vec_valid (by decide))
    (vec_valid (by decide)) (vec_valid (by decide)) (vec_valid (by decide)) (by simp [vec]) (by simp [vec]) 2 1
    (by norm_num) (by norm_num [vec]) (by norm_num [vec]) lims (by norm_num [vec, lims]) ⟨3, by simp [vec], by norm_num [lims]⟩
    (by norm_num [vec, lims]) ⟨7, by simp [vec], by norm_num [lims]⟩ Real.sqrt sqrt_is ()

/-- all elements negative -/
example : nrmseMaxMin (ω := Unit) Real.sqrt (fun x y => decide (x < y)) lims (vec [1, 2]) (vec [3, 4]) ()
    ≠ nrmseMaxMin Real.sqrt (fun x y => decide (x < y)) lims (vec [-9, -8]) (vec [-7, -6]) () :=
  (C170_refuted (vec [-9, -8]) (vec [-7, -6]) (vec [1, 2]) (vec [3, 4]) (vec_valid (by decide))
    (vec_valid (by decide)) (vec_valid (by decide)) (vec_valid (by decide)) (by simp [vec]) (by simp [vec]) 10
    (by norm_num [vec]) (by norm_num [vec]) lims (by norm_num [vec, lims]) (by norm_num [vec, lims])
    (by norm_num [vec, lims]) ⟨3, by simp [vec], by norm_num [lims]⟩ Real.sqrt sqrt_is
    ⟨(-9, -7), by simp [vec], by norm_num⟩ ()).2

end Efp.Props
