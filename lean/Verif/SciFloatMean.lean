import Verif.SciFloatLemmas

/-! Error of the mean, variance of constant sequences, `is_approx`, and symmetries. -/

namespace Efp.SciFloat

open Efp.Prelude Efp.Ieee

variable {F : Fmt}

/-! ### the mean -/

/-- a count of at most `prec` bits is converted exactly -/
theorem ofInt_exact (hF : F.Ok) {n : Nat} (h1 : 0 < n) (h2 : n < 2 ^ 64) (h3 : n < 2 ^ F.prec) :
    ofInt F n = .fin false n ∧ Finite F (ofInt F n) := by
  obtain ⟨b, hb, -, hf, he⟩ := ofInt_pos hF h1 h2
  have hr : Rep F ((n : Int) : ℚ) := rep_int hF (by rw [Nat.abs_cast]; exact_mod_cast h3)
  rw [Int.cast_natCast] at hr
  rw [round_of_rep hr] at he
  rw [hb, he] at hf ⊢
  exact ⟨rfl, hf⟩

theorem meanL_error (hF : F.Ok) (l : List Fp) (h0 : l ≠ []) (h2 : l.length < 2 ^ 64) (h3 : l.length < 2 ^ F.prec) (hl : ∀ x ∈ l, Finite F x)
    (hlt : (1 + unit F) ^ (l.length - 1) * absSum l < 2 ^ F.emax) :
    Finite F (meanL F l) ∧
    |value (meanL F l) - (l.map value).sum / l.length| ≤ ((1 + unit F) ^ l.length - 1) * (absSum l / l.length) + tiny F := by
  have hpos : 0 < l.length := List.length_pos_iff.2 h0
  obtain ⟨hs, he⟩ := sumL_error hF l hl hlt
  obtain ⟨hn, hnf⟩ := ofInt_exact hF hpos h2 h3
  have hnq : (1 : ℚ) ≤ l.length := by exact_mod_cast hpos
  have hv : value (ofInt F l.length) = l.length := by rw [hn]; simp [value, signed]
  obtain ⟨z, hz⟩ := div_fin hs hnf (by rw [hv]; linarith)
  rw [hv] at hz
  have hle : |value (sumL F l) / l.length| ≤ |value (sumL F l)| := by
    rw [abs_div, abs_of_pos (show (0 : ℚ) < l.length by linarith)]
    exact div_le_self (abs_nonneg _) hnq
  have hfin : |round F (value (sumL F l) / l.length)| < 2 ^ F.emax := by
    rw [round_abs hF]
    exact lt_of_le_of_lt (round_le_of_rep hF hs.value_rep.abs hle) hs.value_lt
  obtain ⟨h4, h5⟩ := ofExact_finite hF z hfin
  rw [meanL, hz]
  refine ⟨h4, ?_⟩
  rw [h5]
  have herr := round_error F (value (sumL F l) / l.length)
  obtain ⟨n, hn'⟩ : ∃ n, l.length = n + 1 := ⟨l.length - 1, by omega⟩
  have hu := unit_pos F
  have hA := absSum_nonneg l
  have hS := value_sum_le l
  rw [hn', Nat.add_sub_cancel] at he
  rw [hn'] at herr ⊢
  generalize value (sumL F l) = s at *
  generalize (l.map value).sum = S at *
  generalize absSum l = A at *
  have hN : (0 : ℚ) < ((n + 1 : Nat) : ℚ) := by rw [← hn']; linarith
  generalize ((n + 1 : Nat) : ℚ) = N at *
  rw [pow_succ]
  have h1 := one_le_pow_unit F n
  generalize (1 + unit F) ^ n = P at *
  have hs : |s| ≤ P * A := by
    have := abs_add_le (s - S) S
    rw [sub_add_cancel] at this
    linarith
  have e1 : |s / N - S / N| ≤ (P - 1) * (A / N) := by
    rw [← sub_div, abs_div, abs_of_pos hN, ← mul_div_assoc]
    exact (div_le_div_iff_of_pos_right hN).2 he
  have e2 : |s / N| ≤ P * (A / N) := by
    rw [abs_div, abs_of_pos hN, ← mul_div_assoc]
    exact (div_le_div_iff_of_pos_right hN).2 hs
  have e3 := abs_add_le (round F (s / N) - s / N) (s / N - S / N)
  rw [sub_add_sub_cancel] at e3
  have e4 := mul_le_mul_of_nonneg_left e2 hu.le
  calc |round F (s / N) - S / N| ≤ unit F * (P * (A / N)) + tiny F + (P - 1) * (A / N) := by linarith
    _ = (P * (1 + unit F) - 1) * (A / N) + tiny F := by ring

/-! ### constant sequences -/

theorem ofExact_zero (z : Bool) : ofExact F z 0 = .fin z 0 := by
  unfold ofExact
  rw [round_zero, abs_zero, if_neg (not_le.2 (zpow_pos2 _)), if_pos rfl]

theorem foldl_const (hF : F.Ok) {c : Fp} (hc : Finite F c) : ∀ (n k : Nat) (acc : Fp), Finite F acc → value acc = k * value c →
    (∀ i ≤ k + n, Rep F (i * value c)) → |((k + n : Nat) : ℚ) * value c| < 2 ^ F.emax →
    Finite F ((List.replicate n c).foldl (add F) acc) ∧ value ((List.replicate n c).foldl (add F) acc) = ((k + n : Nat) : ℚ) * value c
  | 0, k, acc, ha, hv, _, _ => by simpa using ⟨ha, hv⟩
  | n + 1, k, acc, ha, hv, hrep, hlt => by
    rw [List.replicate_succ, List.foldl_cons]
    obtain ⟨z, hz⟩ := add_fin ha hc
    have e : value acc + value c = ((k + 1 : Nat) : ℚ) * value c := by rw [hv]; push_cast; ring
    rw [e] at hz
    have hle : |((k + 1 : Nat) : ℚ) * value c| ≤ |((k + (n + 1) : Nat) : ℚ) * value c| := by
      rw [abs_mul, abs_mul]
      refine mul_le_mul_of_nonneg_right ?_ (abs_nonneg _)
      rw [Nat.abs_cast, Nat.abs_cast]
      exact_mod_cast (by omega : k + 1 ≤ k + (n + 1))
    obtain ⟨h1, h2⟩ := ofExact_rep hF z (hrep (k + 1) (by omega)) (lt_of_le_of_lt hle hlt)
    rw [← hz] at h1 h2
    have := foldl_const hF hc n (k + 1) (add F acc c) h1 h2 (fun i hi => hrep i (by omega)) (by
      rw [show k + 1 + n = k + (n + 1) by omega]
      exact hlt)
    rw [show k + 1 + n = k + (n + 1) by omega] at this
    exact this

theorem foldl_zero_fp (n : Nat) : (List.replicate n zero).foldl (add F) zero = zero := by
  induction n with
  | zero => rfl
  | succ n ih =>
    rw [List.replicate_succ, List.foldl_cons]
    have : add F zero zero = zero := by
      show ofExact F (false && false) (signed false 0 + signed false 0) = zero
      simp only [signed, Bool.false_eq_true, if_false, add_zero]
      exact ofExact_zero _
    rw [this, ih]

/-- the mean of a constant sequence is the constant if the partial sums are numbers of the format -/
theorem meanL_const (hF : F.Ok) {c : Fp} (hc : Finite F c) {n : Nat} (hpos : 0 < n) (h2 : n < 2 ^ 64)
    (h3 : n < 2 ^ F.prec) (hrep : ∀ i ≤ n, Rep F (i * value c)) (hlt : |(n : ℚ) * value c| < 2 ^ F.emax) :
    Finite F (meanL F (List.replicate n c)) ∧ value (meanL F (List.replicate n c)) = value c := by
  have hn0 : (n : ℚ) ≠ 0 := by exact_mod_cast hpos.ne'
  obtain ⟨hs, hsv⟩ := foldl_const hF hc n 0 zero zero_finite (by simp [value_zero]) (by simpa using hrep) (by simpa using hlt)
  rw [Nat.zero_add] at hsv
  obtain ⟨hn, hnf⟩ := ofInt_exact hF hpos h2 h3
  have hv : value (ofInt F n) = n := by rw [hn]; simp [value, signed]
  obtain ⟨z, hz⟩ := div_fin hs hnf (by rw [hv]; exact hn0)
  rw [hv, hsv, mul_div_cancel_left₀ _ hn0] at hz
  obtain ⟨hm, hmv⟩ := ofExact_rep hF z hc.value_rep hc.value_lt
  rw [← hz] at hm hmv
  have hmean : meanL F (List.replicate n c) = div F ((List.replicate n c).foldl (add F) zero) (ofInt F n) := by
    rw [meanL, List.length_replicate]
    rfl
  rw [hmean]
  exact ⟨hm, hmv⟩

/-- the variance of a constant sequence is zero if the partial sums are numbers of the format -/
theorem varL_const (hF : F.Ok) (bessel : Bool) {c : Fp} (hc : Finite F c) {n : Nat} (h0 : (if bessel then 2 else 1) ≤ n) (h2 : n < 2 ^ 64)
    (h3 : n < 2 ^ F.prec) (hrep : ∀ i ≤ n, Rep F (i * value c)) (hlt : |(n : ℚ) * value c| < 2 ^ F.emax) :
    varL F bessel (List.replicate n c) = zero := by
  have hpos : 0 < n := by cases bessel <;> simp at h0 <;> omega
  have hn0 : (n : ℚ) ≠ 0 := by exact_mod_cast hpos.ne'
  obtain ⟨hm, hmv⟩ := meanL_const hF hc hpos h2 h3 hrep hlt
  obtain ⟨hn, hnf⟩ := ofInt_exact hF hpos h2 h3
  obtain ⟨z', hz'⟩ := sub_fin hc hm
  rw [hmv, sub_self, ofExact_zero] at hz'
  have hsq : square F (sub F c (meanL F (List.replicate n c))) = zero := by
    rw [hz', square]
    show ofExact F (z' ^^ z') (signed z' 0 * signed z' 0) = zero
    have : signed z' 0 * signed z' 0 = 0 := by cases z' <;> simp [signed]
    rw [this, Bool.xor_self]
    exact ofExact_zero _
  have hsum : sumL F ((List.replicate n c).map fun x => square F (sub F x (meanL F (List.replicate n c)))) = zero := by
    rw [List.map_replicate, hsq, sumL]
    exact foldl_zero_fp n
  have hd : ∃ b, divisor F bessel n = .fin false b ∧ b ≠ 0 := by
    cases bessel with
    | false => exact ⟨_, hn, hn0⟩
    | true =>
      simp only [if_true] at h0
      obtain ⟨b, hb, hb1, -⟩ := ofInt_pos hF (n := n - 1) (by omega) (by omega)
      refine ⟨b, ?_, by linarith⟩
      rw [divisor, if_pos rfl, ← hb]
      congr 1
      omega
  obtain ⟨b, hb, hb0⟩ := hd
  rw [varL, hsum, List.length_replicate, hb]
  simp only [Ieee.div, zero, Bool.xor_self]
  rw [if_neg hb0]
  simp only [signed, Bool.false_eq_true, if_false, zero_div]
  exact ofExact_zero _

/-! ### is_approx -/

theorem isApprox_iff (hF : F.Ok) {x y : Fp} (hx : Finite F x) (hy : Finite F y) :
    isApprox F x y = true ↔ round F |value x - value y| ≤ 2 ^ (1 - (F.prec : Int)) := by
  obtain ⟨z, hz⟩ := sub_fin hx hy
  unfold isApprox
  rw [hz, ← round_abs hF]
  generalize value x - value y = d
  rcases lt_or_ge |round F d| (2 ^ F.emax) with h | h
  · unfold ofExact
    rw [if_neg (not_le.2 h)]
    generalize (if d = 0 then z else decide (d < 0)) = s
    have h0 := abs_nonneg (round F d)
    generalize |round F d| = m at *
    unfold abs epsilon zero
    rcases eq_or_lt_of_le h0 with rfl | hm
    · cases s <;> simp [lt, signed, le, Ieee.eq, zpow_pos2, (zpow_pos2 (1 - (F.prec : Int))).le]
    · cases s with
      | false =>
        have : ¬ m < 0 := not_lt.2 h0
        simp [lt, signed, le, Ieee.eq, this, le_iff_lt_or_eq]
      | true =>
        have : -m < 0 := by linarith
        simp [lt, signed, le, Ieee.eq, hm, Fp.neg, le_iff_lt_or_eq]
  · rw [ofExact_inf z h]
    have : ¬ |round F d| ≤ 2 ^ (1 - (F.prec : Int)) := by
      refine not_le.2 (lt_of_lt_of_le (zpow_lt2 ?_) h)
      have := hF.top
      have := hF.prec
      omega
    simp only [this, iff_false]
    generalize decide (d < 0) = s
    cases s <;> simp [abs, lt, le, zero, epsilon, Ieee.eq, Fp.neg]

theorem eps_rep (hF : F.Ok) : Rep F (2 ^ (1 - (F.prec : Int))) :=
  rep_pow (by have := hF.prec; omega) (by have := hF.range; omega)

theorem isApprox_of_near (hF : F.Ok) {x y : Fp} (hx : Finite F x) (hy : Finite F y) (h : |value x - value y| ≤ 2 ^ (1 - (F.prec : Int))) :
    isApprox F x y = true := (isApprox_iff hF hx hy).2 (round_le_of_rep hF (eps_rep hF) h)

theorem near_of_isApprox (hF : F.Ok) {x y : Fp} (hx : Finite F x) (hy : Finite F y) (h : isApprox F x y = true) :
    |value x - value y| * (1 - unit F) ≤ 2 ^ (1 - (F.prec : Int)) := by
  rw [isApprox_iff hF hx hy, ← round_abs hF] at h
  have h1 := round_add_error (F := F) hx.value_rep hy.value_rep.neg
  rw [← sub_eq_add_neg] at h1
  have h2 := abs_add_le (round F (value x - value y)) (-(round F (value x - value y) - (value x - value y)))
  rw [abs_neg] at h2
  have e : round F (value x - value y) + -(round F (value x - value y) - (value x - value y)) = value x - value y := by ring
  rw [e] at h2
  linarith

/-- a number of the format of magnitude at least `2` is a multiple of twice epsilon -/
theorem coarse {q : ℚ} (hr : Rep F q) (h : 2 ≤ |q|) : ∃ n : Int, q = n * 2 ^ (2 - (F.prec : Int)) := by
  obtain ⟨n, hn⟩ := rep_multiple hr
  have h0 : q ≠ 0 := by rintro rfl; simp at h; linarith
  have hl : 1 ≤ ilog |q| := by
    have := (ilog_spec (abs_pos.2 h0)).2
    have h1 : (2 : ℚ) ^ (1 : Int) < 2 ^ (ilog |q| + 1) := lt_of_le_of_lt (by simpa using h) this
    have := lt_of_zpow h1
    omega
  have hb : 2 - (F.prec : Int) ≤ lastBit F q := by
    unfold lastBit
    rw [if_neg h0]
    have := le_max_right F.emin (ilog |q| - (F.prec - 1))
    omega
  obtain ⟨d, hd⟩ : ∃ d : Nat, lastBit F q = 2 - (F.prec : Int) + d := ⟨(lastBit F q - (2 - (F.prec : Int))).toNat, by omega⟩
  refine ⟨n * 2 ^ d, ?_⟩
  conv_lhs => rw [hn, hd, zpow_addn]
  push_cast
  ring

theorem isApprox_large (hF : F.Ok) {x y : Fp} (hx : Finite F x) (hy : Finite F y) (h1 : 2 ≤ |value x|) (h2 : 2 ≤ |value y|) :
    isApprox F x y = true ↔ value x = value y := by
  constructor
  · intro h
    rw [isApprox_iff hF hx hy] at h
    by_contra hne
    obtain ⟨n, hn⟩ := coarse hx.value_rep h1
    obtain ⟨k, hk⟩ := coarse hy.value_rep h2
    have hp := zpow_pos2 (2 - (F.prec : Int))
    have hnk : n ≠ k := by
      rintro rfl
      exact hne (hn.trans hk.symm)
    have h3 : (2 : ℚ) ^ (2 - (F.prec : Int)) ≤ |value x - value y| := by
      rw [hn, hk, ← sub_mul, abs_mul, abs_of_pos hp]
      have : (1 : ℚ) ≤ |(n : ℚ) - k| := by
        have : 1 ≤ |n - k| := Int.one_le_abs (sub_ne_zero.2 hnk)
        exact_mod_cast this
      nlinarith
    have hrep : Rep F (2 ^ (2 - (F.prec : Int))) := rep_pow (by have := hF.prec; omega) (by have := hF.range; omega)
    have h4 := (le_round_of_rep hF hrep h3).trans h
    exact absurd h4 (not_le.2 (zpow_lt2 (by omega)))
  · intro h
    refine isApprox_of_near hF hx hy ?_
    rw [h, sub_self, abs_zero]
    exact (zpow_pos2 _).le

/-! ### symmetries -/

theorem mul_comm_fp (x y : Fp) : mul F x y = mul F y x := by
  cases x <;> cases y <;> simp [mul, Bool.xor_comm, _root_.mul_comm]

theorem square_fin (s : Bool) (m : ℚ) : square F (.fin s m) = ofExact F false (m * m) := by
  cases s <;> simp [square, mul, signed]

theorem square_ofExact_neg (z z' : Bool) (q : ℚ) : square F (ofExact F z (-q)) = square F (ofExact F z' q) := by
  unfold ofExact
  rw [round_neg, abs_neg]
  split
  · simp [square, mul]
  · rw [square_fin, square_fin]

theorem square_sub_comm (x y : Fp) : square F (sub F x y) = square F (sub F y x) := by
  cases x with
  | nan => cases y <;> rfl
  | inf s =>
    cases y with
    | nan => rfl
    | inf t => cases s <;> cases t <;> rfl
    | fin t b => cases s <;> cases t <;> rfl
  | fin s a =>
    cases y with
    | nan => rfl
    | inf t => cases s <;> cases t <;> rfl
    | fin t b =>
      simp only [sub, Fp.neg, add]
      have e : signed s a + signed (!t) b = -(signed t b + signed (!s) a) := by
        cases s <;> cases t <;> simp [signed]
      rw [e]
      exact square_ofExact_neg _ _ _

theorem covL_comm (bessel : Bool) {l r : List Fp} (h : l.length = r.length) : covL F bessel l r = covL F bessel r l := by
  unfold covL
  rw [h, ← List.zip_swap r l, List.map_map]
  congr 2
  apply List.map_congr_left
  intro p _
  exact mul_comm_fp _ _

theorem zip_self {α : Type} (l : List α) : l.zip l = l.map fun x => (x, x) := by
  induction l with
  | nil => rfl
  | cons x l ih => simp [ih]

theorem covL_self (bessel : Bool) (l : List Fp) : covL F bessel l l = varL F bessel l := by
  unfold covL varL
  rw [zip_self, List.map_map]
  rfl

theorem sse_comm (l r : List Fp) : (l.zip r).map (fun p => square F (sub F p.1 p.2)) = (r.zip l).map (fun p => square F (sub F p.1 p.2)) := by
  rw [← List.zip_swap r l, List.map_map]
  apply List.map_congr_left
  intro p _
  exact square_sub_comm _ _

theorem sse_self (l : List Fp) (hl : ∀ x ∈ l, Finite F x) : sumL F ((l.zip l).map fun p => square F (sub F p.1 p.2)) = zero := by
  have : (l.zip l).map (fun p => square F (sub F p.1 p.2)) = List.replicate l.length zero := by
    rw [zip_self, List.map_map, List.eq_replicate_iff]
    refine ⟨by simp, fun b hb => ?_⟩
    obtain ⟨x, hx, rfl⟩ := List.mem_map.1 hb
    obtain ⟨z, hz⟩ := sub_fin (hl x hx) (hl x hx)
    rw [sub_self, ofExact_zero] at hz
    show square F (sub F x x) = zero
    rw [hz, square_fin, mul_zero]
    exact ofExact_zero _
  rw [this]
  exact foldl_zero_fp _

/-! ### means of squares -/

theorem meanL_nonneg (hF : F.Ok) {l : List Fp} (h0 : l ≠ []) (hlen : l.length < 2 ^ 64) (hl : ∀ x ∈ l, NonNeg x) : NonNeg (meanL F l) := by
  obtain ⟨b, hb, hb1, -⟩ := ofInt_pos hF (List.length_pos_iff.2 h0) hlen
  rw [meanL, hb]
  exact div_nonneg_fp (foldl_nonneg _ _ (Or.inr ⟨0, le_refl _, rfl⟩) hl) (by linarith)

theorem squares_nonneg {l : List Fp} (hl : ∀ x ∈ l, Finite F x) : ∀ x ∈ l.map (square F), NonNeg x := by
  intro y hy
  obtain ⟨x, hx, rfl⟩ := List.mem_map.1 hy
  exact mul_self_nonneg_fp (Or.inl (hl x hx))

theorem errors_nonneg (hF : F.Ok) {l r : List Fp} (hl : ∀ x ∈ l, Finite F x) (hr : ∀ x ∈ r, Finite F x) :
    ∀ x ∈ (l.zip r).map (fun p => square F (sub F p.1 p.2)), NonNeg x := by
  intro y hy
  obtain ⟨p, hp, rfl⟩ := List.mem_map.1 hy
  obtain ⟨h1, h2⟩ := List.of_mem_zip hp
  exact mul_self_nonneg_fp (sub_not_nan hF (hl _ h1) (Or.inl (hr _ h2)))

theorem rms_run {ω : Type} {as : Inp Fp} (hv : as.valid) (w : ω) : rms F as w = .ok (Ieee.sqrt F (meanL F (as.vals.map (square F)))) w := by
  rw [rms, Cpp.bind_ok (map1_run _ hv w).1, Cpp.bind_ok (mean_run _ w)]
  rfl

theorem rmse_run {ω : Type} {as bs : Inp Fp} (hva : as.valid) (hvb : bs.valid) (w : ω) :
    rmse F as bs w = .ok (Ieee.sqrt F (meanL F ((as.vals.zip bs.vals).map fun p => square F (sub F p.1 p.2)))) w := by
  rw [rmse, Cpp.bind_ok (mse_run hva hvb w)]
  rfl

end Efp.SciFloat
