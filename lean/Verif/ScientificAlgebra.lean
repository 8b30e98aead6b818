import Verif.ScientificLemmas

/-! Algebra of the statistics functions on lists. -/

namespace Efp.Scientific

open Efp.Prelude Efp.Spec.Scientific

variable {ω K : Type} [Field K]

/-! ### Sums -/

theorem sum_map_lin {γ : Type} (c : K) (f g : γ → K) (l : List γ) :
    (l.map fun x => c * f x + g x).sum = c * (l.map f).sum + (l.map g).sum := by
  induction l with
  | nil => simp
  | cons a l ih => simp only [List.map_cons, List.sum_cons, ih]; ring

theorem sum_map_const {γ : Type} (c : K) (l : List γ) : (l.map fun _ => c).sum = (l.length : K) * c := by
  induction l with
  | nil => simp
  | cons a l ih => simp only [List.map_cons, List.sum_cons, ih, List.length_cons]; push_cast; ring

theorem sum_sq_dev (xs : List K) (m : K) :
    (xs.map fun x => (x - m) ^ 2).sum = (xs.map fun x => x ^ 2).sum - 2 * m * xs.sum + (xs.length : K) * m ^ 2 := by
  induction xs with
  | nil => simp
  | cons a l ih => simp only [List.map_cons, List.sum_cons, ih, List.length_cons]; push_cast; ring

theorem sum_dev (xs : List K) (m : K) : (xs.map fun x => x - m).sum = xs.sum - (xs.length : K) * m := by
  induction xs with
  | nil => simp
  | cons a l ih => simp only [List.map_cons, List.sum_cons, ih, List.length_cons]; push_cast; ring

theorem sum_affine (xs : List K) (c d : K) :
    (xs.map fun x => c * x + d).sum = c * xs.sum + (xs.length : K) * d := by
  induction xs with
  | nil => simp
  | cons a l ih => simp only [List.map_cons, List.sum_cons, ih, List.length_cons]; push_cast; ring

theorem avg_mul [CharZero K] {xs : List K} (h : xs ≠ []) : (xs.length : K) * avg xs = xs.sum := by
  have := length_ne h
  rw [avg]; field_simp

theorem avg_affine [CharZero K] {xs : List K} (h : xs ≠ []) (c d : K) :
    avg (xs.map fun x => c * x + d) = c * avg xs + d := by
  have h0 := length_ne h
  rw [avg, avg, sum_affine, List.length_map]
  field_simp

theorem coDev_self (xs : List K) : coDev xs xs = sqDev xs := by
  rw [coDev, sqDev]
  have : xs.zip xs = xs.map fun x => (x, x) := by
    induction xs with
    | nil => rfl
    | cons a l ih => simp [ih]
  rw [this, List.map_map]
  congr 1
  apply List.map_congr_left
  intro x _
  simp only [Function.comp_apply]
  ring

theorem lagDev_zero (xs : List K) : lagDev 0 xs = sqDev xs := by
  rw [lagDev, List.drop_zero, ← coDev_self]; rfl

theorem coDev_comm (xs ys : List K) : coDev xs ys = coDev ys xs := by
  rw [coDev, coDev, ← List.zip_swap ys xs, List.map_map]
  congr 1
  apply List.map_congr_left
  intro p _
  simp only [Function.comp_apply, Prod.fst_swap, Prod.snd_swap]
  ring

theorem coDev_affine [CharZero K] {xs : List K} (hx : xs ≠ []) (ys : List K) (c d : K) :
    coDev (xs.map fun x => c * x + d) ys = c * coDev xs ys := by
  rw [coDev, avg_affine hx, coDev]
  rw [show (xs.map fun x => c * x + d).zip ys = (xs.zip ys).map (fun p => (c * p.1 + d, p.2)) by
    rw [List.zip_map_left]; rfl, List.map_map]
  have := sum_map_lin c (fun p : K × K => (p.1 - avg xs) * (p.2 - avg ys)) (fun _ => 0) (xs.zip ys)
  rw [sum_map_const] at this
  rw [mul_zero, add_zero] at this
  rw [← this]
  congr 1
  apply List.map_congr_left
  intro p _
  simp only [Function.comp_apply]
  ring

theorem sqDev_affine [CharZero K] {xs : List K} (hx : xs ≠ []) (c d : K) :
    sqDev (xs.map fun x => c * x + d) = c ^ 2 * sqDev xs := by
  have hne : (xs.map fun x => c * x + d) ≠ [] := by simpa using hx
  rw [← coDev_self, coDev_affine hx, coDev_comm, coDev_affine hx, coDev_self]
  ring

theorem sqDev_dc [CharZero K] {xs : List K} (hx : xs ≠ []) : sqDev (xs.map fun x => x - avg xs) = sqDev xs := by
  have := sqDev_affine hx 1 (-avg xs)
  rw [one_pow, one_mul] at this
  rw [← this]
  congr 1
  apply List.map_congr_left
  intro x _
  ring

theorem avg_dc [CharZero K] {xs : List K} (hx : xs ≠ []) : avg (xs.map fun x => x - avg xs) = 0 := by
  rw [avg, sum_dev, avg_mul hx, sub_self, zero_div]

/-! ### The least squares line -/

theorem residual_expand (pts : List (K × K)) (c d : K) :
    residual pts c d = (pts.map fun p => p.2 * p.2).sum - 2 * c * (pts.map fun p => p.1 * p.2).sum
      - 2 * d * (pts.map fun p => p.2).sum + c ^ 2 * (pts.map fun p => p.1 * p.1).sum
      + 2 * c * d * (pts.map fun p => p.1).sum + (pts.length : K) * d ^ 2 := by
  induction pts with
  | nil => simp [residual]
  | cons a l ih =>
    have : residual (a :: l) c d = (a.2 - (c * a.1 + d)) ^ 2 + residual l c d := by simp [residual]
    rw [this, ih]
    simp only [List.map_cons, List.sum_cons, List.length_cons]
    push_cast
    ring

theorem dev_expand (pts : List (K × K)) (m m' : K) :
    (pts.map fun p => (p.1 - m) * (p.2 - m')).sum = (pts.map fun p => p.1 * p.2).sum
      - m * (pts.map fun p => p.2).sum - m' * (pts.map fun p => p.1).sum + (pts.length : K) * (m * m') := by
  induction pts with
  | nil => simp
  | cons a l ih => simp only [List.map_cons, List.sum_cons, ih, List.length_cons]; push_cast; ring

theorem zip_fst {xs ys : List K} (h : xs.length = ys.length) : (xs.zip ys).map (fun p => p.1) = xs :=
  List.map_fst_zip (by omega)

theorem zip_snd {xs ys : List K} (h : xs.length = ys.length) : (xs.zip ys).map (fun p => p.2) = ys :=
  List.map_snd_zip (by omega)

/-- the residual of any line in terms of the residual of the least squares line -/
theorem residual_least [CharZero K] {xs ys : List K} (hx : xs ≠ []) (hl : xs.length = ys.length) {b₁ b₂ : K}
    (h1 : b₁ * sqDev xs = coDev xs ys) (h2 : b₂ = avg ys - b₁ * avg xs) (c d : K) :
    residual (xs.zip ys) c d = residual (xs.zip ys) b₁ b₂
      + (xs.length : K) * (d - b₂ + (c - b₁) * avg xs) ^ 2 + (c - b₁) ^ 2 * sqDev xs := by
  have hy : ys ≠ [] := by intro h; rw [h] at hl; exact hx (List.length_eq_zero_iff.mp hl)
  have hlen : (xs.zip ys).length = xs.length := by rw [List.length_zip]; omega
  have e1 : ((xs.zip ys).map fun p => p.1).sum = (xs.length : K) * avg xs := by rw [zip_fst hl, avg_mul hx]
  have e2 : ((xs.zip ys).map fun p => p.2).sum = (xs.length : K) * avg ys := by
    rw [zip_snd hl, hl, avg_mul hy]
  have e3 : sqDev xs = ((xs.zip ys).map fun p => p.1 * p.1).sum - (xs.length : K) * avg xs ^ 2 := by
    have : ((xs.zip ys).map fun p => p.1 * p.1) = xs.map fun x => x ^ 2 := by
      have h := congrArg (List.map fun x => x ^ 2) (zip_fst hl)
      rw [List.map_map] at h
      rw [← h]
      apply List.map_congr_left
      intro p _
      simp only [Function.comp_apply]
      ring
    rw [this, sqDev, sum_sq_dev, ← avg_mul hx]
    ring
  have e4 : coDev xs ys = ((xs.zip ys).map fun p => p.1 * p.2).sum - (xs.length : K) * (avg xs * avg ys) := by
    rw [coDev, dev_expand, e1, e2, hlen]
    ring
  rw [residual_expand, residual_expand, e1, e2, hlen]
  rw [e3] at h1 ⊢
  rw [e4] at h1
  subst h2
  linear_combination 2 * (c - b₁) * h1

/-! ### Index sums -/

theorem sum_range (n : Nat) : 2 * (indices n : List K).sum = (n : K) * ((n : K) - 1) := by
  induction n with
  | zero => simp [indices]
  | succ n ih =>
    have : (indices (n + 1) : List K) = indices n ++ [(n : K)] := by simp [indices, List.range_succ]
    rw [this, List.sum_append, mul_add, ih]
    simp only [List.sum_cons, List.sum_nil]
    push_cast
    ring

theorem sum_sq_range (n : Nat) :
    6 * ((indices n : List K).map fun x => x ^ 2).sum = (n : K) * ((n : K) - 1) * (2 * (n : K) - 1) := by
  induction n with
  | zero => simp [indices]
  | succ n ih =>
    have : (indices (n + 1) : List K) = indices n ++ [(n : K)] := by simp [indices, List.range_succ]
    rw [this, List.map_append, List.sum_append, mul_add, ih]
    simp only [List.map_cons, List.map_nil, List.sum_cons, List.sum_nil]
    push_cast
    ring

theorem length_indices (n : Nat) : (indices n : List K).length = n := by simp [indices]

theorem indices_ne {n : Nat} (h : 1 ≤ n) : (indices n : List K) ≠ [] := by
  intro h'
  have := congrArg List.length h'
  rw [length_indices] at this
  simp at this
  omega

theorem avg_indices [CharZero K] {n : Nat} (h : 1 ≤ n) : avg (indices n : List K) = ((n : K) - 1) / 2 := by
  have h0 : (n : K) ≠ 0 := by rw [Nat.cast_ne_zero]; omega
  have h2 : (2 : K) ≠ 0 := by norm_num
  have := sum_range (K := K) n
  rw [avg, length_indices]
  field_simp
  linear_combination this

theorem sqDev_indices [CharZero K] {n : Nat} (h : 1 ≤ n) :
    sqDev (indices n : List K) = (n : K) * ((n : K) * (n : K) - 1) / 12 := by
  have h1 := sum_range (K := K) n
  have h2 := sum_sq_range (K := K) n
  rw [sqDev, avg_indices h, sum_sq_dev, length_indices]
  have h12 : (12 : K) ≠ 0 := by norm_num
  have h2' : (2 : K) ≠ 0 := by norm_num
  field_simp
  linear_combination 8 * h2 - 24 * ((n : K) - 1) * h1

theorem mapIdx_eq (xs : List K) (g : K → K → K) :
    (xs.mapIdx fun i a => g (i : K) a) = ((indices xs.length).zip xs).map fun p => g p.1 p.2 := by
  apply List.ext_getElem?
  intro i
  rw [List.getElem?_mapIdx, List.getElem?_map]
  by_cases hi : i < xs.length
  · have : ((indices xs.length).zip xs)[i]? = some ((i : K), xs[i]) := by
      simp [List.getElem?_zip_eq_some, hi, indices]
    rw [this, List.getElem?_eq_getElem hi]
    rfl
  · rw [List.getElem?_eq_none (by omega), List.getElem?_eq_none (by simp [indices]; omega)]
    rfl

variable [DecidableEq K]

theorem linearRegressionWithIndex_run [CharZero K] {as : Inp K} (hv : as.valid) (h2 : 2 ≤ as.vals.length)
    (hmax : as.vals.length ≤ 1290) (w : ω) :
    linearRegressionWithIndex as w = .ok
      (coDev (indices as.vals.length) as.vals / sqDev (indices as.vals.length : List K),
       avg as.vals - coDev (indices as.vals.length) as.vals / sqDev (indices as.vals.length : List K)
         * avg (indices as.vals.length)) w := by
  have hne : as.vals ≠ [] := by intro h; rw [h] at h2; simp at h2
  generalize hn : as.vals.length = n at h2 hmax
  have hn31 : n < 2 ^ 31 := by omega
  have r1 : (int32 ((n : Int) - 1) : Cpp ω Int) = pure ((n : Int) - 1) := if_pos (by omega)
  have hb : (n : Int) * (n : Int) ≤ 1290 * 1290 := Int.mul_le_mul (by omega) (by omega) (by omega) (by omega)
  have hb0 : 0 ≤ (n : Int) * (n : Int) := Int.mul_nonneg (by omega) (by omega)
  have hb1 : 2 * 2 ≤ (n : Int) * (n : Int) := Int.mul_le_mul (by omega) (by omega) (by omega) (by omega)
  have r2 : (int32 ((n : Int) * (n : Int)) : Cpp ω Int) = pure ((n : Int) * (n : Int)) := if_pos (by omega)
  have r3 : (int32 ((n : Int) * (n : Int) - 1) : Cpp ω Int) = pure ((n : Int) * (n : Int) - 1) :=
    if_pos (by omega)
  have hc : (n : Int) * ((n : Int) * (n : Int) - 1) ≤ 1290 * (1290 * 1290 - 1) :=
    Int.mul_le_mul (by omega) (by omega) (by omega) (by omega)
  have hc0 : 0 ≤ (n : Int) * ((n : Int) * (n : Int) - 1) := Int.mul_nonneg (by omega) (by omega)
  have r4 : (int32 ((n : Int) * ((n : Int) * (n : Int) - 1)) : Cpp ω Int)
      = pure ((n : Int) * ((n : Int) * (n : Int) - 1)) := if_pos (by omega)
  have e1 : (((n : Int) - 1 : Int) : K) / 2 = avg (indices n : List K) := by
    rw [avg_indices (by omega)]; push_cast; rfl
  have e2 : (((n : Int) * ((n : Int) * (n : Int) - 1) : Int) : K) / 12 = sqDev (indices n : List K) := by
    rw [sqDev_indices (by omega)]; push_cast; rfl
  have hss : sqDev (indices n : List K) ≠ 0 := by
    rw [← e2]
    apply div_ne_zero _ (by norm_num)
    rw [Int.cast_ne_zero]
    exact mul_ne_zero (by omega) (by omega)
  have e3 : (as.vals.mapIdx fun i a => (((toInt32 i : Int) : K) - avg (indices n)) * (a - avg as.vals)).sum
      = coDev (indices n) as.vals := by
    have : (as.vals.mapIdx fun i a => (((toInt32 i : Int) : K) - avg (indices n)) * (a - avg as.vals))
        = as.vals.mapIdx fun i a => ((i : K) - avg (indices n)) * (a - avg as.vals) := by
      apply List.ext_getElem?
      intro i
      rw [List.getElem?_mapIdx, List.getElem?_mapIdx]
      by_cases hi : i < as.vals.length
      · rw [List.getElem?_eq_getElem hi, toInt32_eq (by omega)]
        simp
      · rw [List.getElem?_eq_none (by omega)]
        rfl
    rw [this, mapIdx_eq as.vals (fun i a => (i - avg (indices n)) * (a - avg as.vals)), coDev, hn]
  have t1 : ∀ w : ω, div (((n : Int) - 1 : Int) : K) 2 w = .ok (avg (indices n : List K)) w := by
    intro w; rw [div_run (by norm_num), e1]
  have t2 : ∀ w : ω, div (((n : Int) * ((n : Int) * (n : Int) - 1) : Int) : K) 12 w
      = .ok (sqDev (indices n : List K)) w := by
    intro w; rw [div_run (by norm_num), e2]
  unfold linearRegressionWithIndex
  simp only [length, hn]
  rw [toInt32_eq hn31, r1, pure_bind, Cpp.bind_ok (t1 w), Cpp.bind_ok (mean_run hne w),
    Cpp.bind_ok (mapIx_run _ hv w).1, Cpp.bind_ok (sum_run _ w), r2, pure_bind, r3, pure_bind, r4, pure_bind,
    Cpp.bind_ok (t2 w)]
  simp only [outInp, e3]
  rw [Cpp.bind_ok (div_run hss w)]
  rfl

/-- from 1291 elements on `n * (n * n - 1)` overflows `int` -/
theorem linearRegressionWithIndex_ub [CharZero K] {as : Inp K} (hv : as.valid) (h : 1291 ≤ as.vals.length)
    (hmax : as.vals.length < 2 ^ 31) (w : ω) :
    linearRegressionWithIndex as w = .ub .overflow := by
  have hne : as.vals ≠ [] := by intro h'; rw [h'] at h; simp at h
  generalize hn : as.vals.length = n at h hmax
  have r1 : (int32 ((n : Int) - 1) : Cpp ω Int) = pure ((n : Int) - 1) := if_pos (by omega)
  have t1 : ∀ w : ω, div (((n : Int) - 1 : Int) : K) 2 w = .ok ((((n : Int) - 1 : Int) : K) / 2) w := by
    intro w; rw [div_run (by norm_num)]
  unfold linearRegressionWithIndex
  simp only [length, hn]
  rw [toInt32_eq hmax, r1, pure_bind, Cpp.bind_ok (t1 w), Cpp.bind_ok (mean_run hne w),
    Cpp.bind_ok (mapIx_run _ hv w).1, Cpp.bind_ok (sum_run _ w)]
  by_cases hsq : (n : Int) * (n : Int) < 2 ^ 31
  · have hb1 : 1291 * 1291 ≤ (n : Int) * (n : Int) := Int.mul_le_mul (by omega) (by omega) (by omega) (by omega)
    have r2 : (int32 ((n : Int) * (n : Int)) : Cpp ω Int) = pure ((n : Int) * (n : Int)) := if_pos (by omega)
    have r3 : (int32 ((n : Int) * (n : Int) - 1) : Cpp ω Int) = pure ((n : Int) * (n : Int) - 1) :=
      if_pos (by omega)
    have hc : 1291 * (1291 * 1291 - 1) ≤ (n : Int) * ((n : Int) * (n : Int) - 1) :=
      Int.mul_le_mul (by omega) (by omega) (by omega) (by omega)
    have r4 : (int32 ((n : Int) * ((n : Int) * (n : Int) - 1)) : Cpp ω Int) = Cpp.ub .overflow :=
      if_neg (by omega)
    rw [r2, pure_bind, r3, pure_bind, r4]
    exact Cpp.bind_ub rfl
  · have r2 : (int32 ((n : Int) * (n : Int)) : Cpp ω Int) = Cpp.ub .overflow := if_neg (by omega)
    rw [r2]
    exact Cpp.bind_ub rfl

/-! ### Order -/

section order

variable {K : Type} [Field K] [LinearOrder K] [IsStrictOrderedRing K]

theorem sum_nonneg {l : List K} (h : ∀ x ∈ l, 0 ≤ x) : 0 ≤ l.sum := by
  induction l with
  | nil => simp
  | cons a l ih =>
    rw [List.sum_cons]
    exact add_nonneg (h a (by simp)) (ih fun x hx => h x (by simp [hx]))

theorem sum_eq_zero {l : List K} (h : ∀ x ∈ l, 0 ≤ x) (hs : l.sum = 0) : ∀ x ∈ l, x = 0 := by
  induction l with
  | nil => simp
  | cons a l ih =>
    rw [List.sum_cons] at hs
    have h1 := h a (by simp)
    have h2 := sum_nonneg (l := l) fun x hx => h x (by simp [hx])
    have h3 : a = 0 := by linarith
    have h4 : l.sum = 0 := by linarith
    intro x hx
    rcases List.mem_cons.mp hx with rfl | hx
    · exact h3
    · exact ih (fun x hx => h x (by simp [hx])) h4 x hx

theorem sqDev_nonneg (xs : List K) : 0 ≤ sqDev xs := by
  apply sum_nonneg
  intro x hx
  obtain ⟨y, _, rfl⟩ := List.mem_map.mp hx
  positivity

theorem sqDev_pos {xs : List K} {x y : K} (hx : x ∈ xs) (hy : y ∈ xs) (hxy : x ≠ y) : 0 < sqDev xs := by
  rcases lt_or_eq_of_le (sqDev_nonneg xs) with h | h
  · exact h
  · exfalso
    have key : ∀ z ∈ xs, z = avg xs := by
      intro z hz
      have := sum_eq_zero (l := xs.map fun x => (x - avg xs) ^ 2)
        (by intro u hu; obtain ⟨v, _, rfl⟩ := List.mem_map.mp hu; positivity) h.symm
        ((z - avg xs) ^ 2) (List.mem_map_of_mem (f := fun x => (x - avg xs) ^ 2) hz)
      have := pow_eq_zero_iff (two_ne_zero) |>.mp this
      linarith
    exact hxy ((key x hx).trans (key y hy).symm)

/-- Cauchy-Schwarz -/
theorem cauchy {γ : Type} (l : List γ) (f g : γ → K) :
    (l.map fun x => f x * g x).sum ^ 2 ≤ (l.map fun x => f x ^ 2).sum * (l.map fun x => g x ^ 2).sum := by
  have hq : ∀ s t : K, 0 ≤ s ^ 2 * (l.map fun x => f x ^ 2).sum + 2 * s * t * (l.map fun x => f x * g x).sum
      + t ^ 2 * (l.map fun x => g x ^ 2).sum := by
    intro s t
    have : s ^ 2 * (l.map fun x => f x ^ 2).sum + 2 * s * t * (l.map fun x => f x * g x).sum
      + t ^ 2 * (l.map fun x => g x ^ 2).sum = (l.map fun x => (s * f x + t * g x) ^ 2).sum := by
      induction l with
      | nil => simp
      | cons a l ih =>
        simp only [List.map_cons, List.sum_cons, ← ih]
        ring
    rw [this]
    apply sum_nonneg
    intro x hx
    obtain ⟨y, _, rfl⟩ := List.mem_map.mp hx
    positivity
  generalize hA : (l.map fun x => f x ^ 2).sum = A at hq ⊢
  generalize hB : (l.map fun x => f x * g x).sum = B at hq ⊢
  have hC0 : 0 ≤ (l.map fun x => g x ^ 2).sum := by
    apply sum_nonneg
    intro x hx
    obtain ⟨y, _, rfl⟩ := List.mem_map.mp hx
    positivity
  have hzero : (l.map fun x => g x ^ 2).sum = 0 → B = 0 := by
    intro h0
    have hz : ∀ x ∈ l, g x = 0 := by
      intro x hx
      have := sum_eq_zero (l := l.map fun x => g x ^ 2)
        (by intro u hu; obtain ⟨v, _, rfl⟩ := List.mem_map.mp hu; positivity) h0
        (g x ^ 2) (List.mem_map_of_mem (f := fun x => g x ^ 2) hx)
      exact pow_eq_zero_iff (two_ne_zero) |>.mp this
    rw [← hB]
    have : (l.map fun x => f x * g x) = l.map fun _ => 0 :=
      List.map_congr_left fun x hx => by rw [hz x hx, mul_zero]
    rw [this, sum_map_const, mul_zero]
  generalize hC : (l.map fun x => g x ^ 2).sum = C at hq hC0 hzero ⊢
  rcases lt_or_eq_of_le hC0 with hpos | h0
  · have h1 := hq C (-B)
    have h2 : 0 ≤ C * (A * C - B ^ 2) := by linarith [h1, show C * (A * C - B ^ 2) = C ^ 2 * A + 2 * C * -B * B + (-B) ^ 2 * C by ring]
    have h3 := nonneg_of_mul_nonneg_right h2 hpos
    linarith
  · rw [hzero h0.symm, ← h0]; simp

theorem sum_le_of_append {l r : List K} (h : ∀ x ∈ r, 0 ≤ x) : l.sum ≤ (l ++ r).sum := by
  rw [List.sum_append]
  have := sum_nonneg h
  linarith

end order

end Efp.Scientific
