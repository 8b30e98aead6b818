import Verif.Spec.Ieee
import Mathlib.Tactic.Linarith
import Mathlib.Tactic.Ring
import Mathlib.Tactic.Positivity
import Mathlib.Tactic.FieldSimp

/-! Rounding to nearest: exactness, nearness, monotonicity and error. -/

namespace Efp.Ieee

variable {F : Fmt} {q r x y : ℚ}

theorem zpow_pos2 (e : Int) : (0 : ℚ) < 2 ^ e := zpow_pos (by norm_num) e

theorem zpow_mono2 {a b : Int} (h : a ≤ b) : (2 : ℚ) ^ a ≤ 2 ^ b := zpow_le_zpow_right₀ (by norm_num) h

theorem zpow_lt2 {a b : Int} (h : a < b) : (2 : ℚ) ^ a < 2 ^ b := zpow_lt_zpow_right₀ (by norm_num) h

theorem lt_of_zpow {a b : Int} (h : (2 : ℚ) ^ a < 2 ^ b) : a < b := by
  by_contra hc
  exact absurd (zpow_mono2 (by omega)) (not_le.2 h)

theorem zpow_addn (e : Int) (n : Nat) : (2 : ℚ) ^ (e + n) = 2 ^ e * ((2 ^ n : Int) : ℚ) := by
  rw [zpow_add₀ (by norm_num), zpow_natCast]
  push_cast
  rfl

/-! ### the logarithm -/

theorem log2_bounds {n : Nat} (h : n ≠ 0) : (2 : ℚ) ^ (Nat.log2 n : Int) ≤ n ∧ (n : ℚ) < 2 ^ ((Nat.log2 n : Int) + 1) := by
  constructor
  · rw [zpow_natCast]
    exact_mod_cast Nat.log2_self_le h
  · have : n < 2 ^ (Nat.log2 n + 1) := Nat.lt_log2_self
    rw [show ((Nat.log2 n : Int) + 1) = ((Nat.log2 n + 1 : Nat) : Int) by push_cast; rfl, zpow_natCast]
    exact_mod_cast this

theorem ilog_spec (h : 0 < q) : (2 : ℚ) ^ ilog q ≤ q ∧ q < 2 ^ (ilog q + 1) := by
  have hnum : 0 < q.num := Rat.num_pos.2 h
  obtain ⟨h1, h2⟩ := log2_bounds (n := q.num.natAbs) (by omega)
  obtain ⟨h3, h4⟩ := log2_bounds (n := q.den) q.den_nz
  have hd : (0 : ℚ) < q.den := by exact_mod_cast q.den_pos
  have hq : q = (q.num.natAbs : ℚ) / q.den := by
    have : ((q.num.natAbs : Int) : ℚ) = q.num := by rw [Int.natAbs_of_nonneg hnum.le]
    rw [← Int.cast_natCast, this, Rat.num_div_den]
  unfold ilog
  generalize (Nat.log2 q.num.natAbs : Int) = a at *
  generalize (Nat.log2 q.den : Int) = b at *
  generalize (q.num.natAbs : ℚ) = n at *
  generalize (q.den : ℚ) = d at *
  have hu : q < 2 ^ (a - b + 1) := by
    rw [hq, div_lt_iff₀ hd]
    have : (2 : ℚ) ^ (a + 1) = 2 ^ (a - b + 1) * 2 ^ b := by rw [← zpow_add₀ (by norm_num)]; congr 1; ring
    rw [this] at h2
    exact lt_of_lt_of_le h2 (mul_le_mul_of_nonneg_left h3 (zpow_pos2 _).le)
  have hl : (2 : ℚ) ^ (a - b - 1) ≤ q := by
    rw [hq, le_div_iff₀ hd]
    have : (2 : ℚ) ^ a = 2 ^ (a - b - 1) * 2 ^ (b + 1) := by rw [← zpow_add₀ (by norm_num)]; congr 1; ring
    rw [this] at h1
    exact le_trans (mul_le_mul_of_nonneg_left h4.le (zpow_pos2 _).le) h1
  split
  · rename_i hc
    exact ⟨hc, hu⟩
  · rename_i hc
    rw [sub_add_cancel]
    exact ⟨hl, not_le.1 hc⟩

theorem ilog_le {e : Int} (h : 0 < q) (hq : q < 2 ^ e) : ilog q < e :=
  lt_of_zpow (lt_of_le_of_lt (ilog_spec h).1 hq)

/-! ### the nearest integer -/

theorem nearestInt_near (x : ℚ) (n : Int) : |(nearestInt x : ℚ) - x| ≤ |(n : ℚ) - x| := by
  have h1 : (⌊x⌋ : ℚ) ≤ x := Int.floor_le x
  have h2 : x < ⌊x⌋ + 1 := Int.lt_floor_add_one x
  have hn : (n : ℚ) ≤ ⌊x⌋ ∨ (⌊x⌋ : ℚ) + 1 ≤ n := by
    rcases le_or_gt n ⌊x⌋ with h | h
    · exact Or.inl (by exact_mod_cast h)
    · exact Or.inr (by exact_mod_cast h)
  have key : |(n : ℚ) - x| ≥ min (x - ⌊x⌋) (⌊x⌋ + 1 - x) := by
    rcases hn with h | h
    · rw [abs_of_nonpos (by linarith)]
      exact le_trans (min_le_left _ _) (by linarith)
    · rw [abs_of_nonneg (by linarith)]
      exact le_trans (min_le_right _ _) (by linarith)
  refine le_trans ?_ key
  unfold nearestInt
  split
  · rw [abs_of_nonpos (by linarith)]
    refine le_min (by linarith) (by linarith)
  · split
    · push_cast
      rw [abs_of_nonneg (by linarith)]
      exact le_min (by linarith) (by linarith)
    · split
      · rw [abs_of_nonpos (by linarith)]
        exact le_min (by linarith) (by linarith)
      · push_cast
        rw [abs_of_nonneg (by linarith)]
        exact le_min (by linarith) (by linarith)

theorem nearestInt_half (x : ℚ) : |(nearestInt x : ℚ) - x| ≤ 1 / 2 := by
  have h1 : (⌊x⌋ : ℚ) ≤ x := Int.floor_le x
  have h2 : x < ⌊x⌋ + 1 := Int.lt_floor_add_one x
  rcases le_or_gt (x - ⌊x⌋) (1 / 2) with h | h
  · refine le_trans (nearestInt_near x ⌊x⌋) ?_
    rw [abs_of_nonpos (by linarith)]
    linarith
  · refine le_trans (nearestInt_near x (⌊x⌋ + 1)) ?_
    push_cast
    rw [abs_of_nonneg (by linarith)]
    linarith

theorem nearestInt_int (n : Int) : nearestInt (n : ℚ) = n := by
  have := nearestInt_near (n : ℚ) n
  rw [sub_self, abs_zero] at this
  have h := abs_nonpos_iff.1 this
  exact_mod_cast sub_eq_zero.1 h

/-- the nearest integer of a number of magnitude at most `N` has magnitude at most `N` -/
theorem nearestInt_abs_le {N : Int} (h : |x| ≤ N) : |nearestInt x| ≤ N := by
  by_contra hc
  have hh := nearestInt_half x
  rw [abs_le] at h hh
  have hc' : N + 1 ≤ |nearestInt x| := by omega
  have hx : (N : ℚ) + 1 ≤ |(nearestInt x : ℚ)| := by exact_mod_cast hc'
  rcases abs_cases (nearestInt x : ℚ) with ⟨h1, -⟩ | ⟨h1, -⟩ <;> rw [h1] at hx <;> linarith [h.1, h.2, hh.1, hh.2]

theorem nearestInt_neg (x : ℚ) : nearestInt (-x) = -nearestInt x := by
  have h1 : (⌊x⌋ : ℚ) ≤ x := Int.floor_le x
  have h2 : x < ⌊x⌋ + 1 := Int.lt_floor_add_one x
  rcases eq_or_lt_of_le h1 with h | h
  · rw [← h, ← Int.cast_neg, nearestInt_int, nearestInt_int]
  · have hf : ⌊-x⌋ = -⌊x⌋ - 1 := by
      rw [Int.floor_eq_iff]
      push_cast
      constructor <;> linarith
    unfold nearestInt
    rw [hf]
    push_cast
    have e1 : -x - (-(⌊x⌋ : ℚ) - 1) = 1 - (x - ⌊x⌋) := by ring
    rw [e1]
    generalize hfr : x - (⌊x⌋ : ℚ) = f
    rcases lt_trichotomy f (1 / 2) with hh | hh | hh
    · rw [if_neg (by linarith), if_pos (by linarith), if_pos hh]
      ring
    · subst hh
      norm_num only
      simp only [if_false]
      by_cases hp : ⌊x⌋ % 2 = 0
      · rw [if_pos hp, if_neg (by omega)]
        ring
      · rw [if_neg hp, if_pos (by omega)]
        ring
    · rw [if_pos (by linarith), if_neg (by linarith), if_pos hh]
      ring

/-! ### rounding -/

theorem rep_zero : Rep F 0 := ⟨0, F.emin, by simp, by simp, le_refl _⟩

theorem Rep.neg (h : Rep F q) : Rep F (-q) := by
  obtain ⟨m, e, h1, h2, h3⟩ := h
  exact ⟨-m, e, by rw [h1]; push_cast; ring, by rwa [abs_neg], h3⟩

theorem Rep.abs (h : Rep F q) : Rep F |q| := by
  rcases abs_choice q with h1 | h1 <;> rw [h1]
  · exact h
  · exact h.neg

theorem rep_int (hF : F.Ok) {n : Int} (h : |n| < 2 ^ F.prec) : Rep F n :=
  ⟨n, 0, by simp, h, by have := hF.range; omega⟩

theorem rep_pow {e : Int} (hp : 1 ≤ F.prec) (h : F.emin ≤ e) : Rep F (2 ^ e) := by
  refine ⟨1, e, by simp, ?_, h⟩
  have : (2 : Int) ^ 1 ≤ 2 ^ F.prec := pow_le_pow_right₀ (by norm_num) hp
  simp only [abs_one]
  omega

theorem lastBit_emin (F : Fmt) (q : ℚ) : F.emin ≤ lastBit F q := by
  unfold lastBit
  split
  · exact le_refl _
  · exact le_max_left _ _

/-- the number has at most `prec` bits above its last bit -/
theorem lt_lastBit (F : Fmt) (q : ℚ) : |q| < 2 ^ (lastBit F q + F.prec) := by
  by_cases h : q = 0
  · rw [h, abs_zero]
    exact zpow_pos2 _
  · have hp : 0 < |q| := abs_pos.2 h
    refine lt_of_lt_of_le (ilog_spec hp).2 (zpow_mono2 ?_)
    unfold lastBit
    rw [if_neg h]
    have := le_max_right F.emin (ilog |q| - (F.prec - 1))
    omega

/-- above the smallest last bit the number has its leading bit at the front -/
theorem lastBit_le (h : F.emin < lastBit F q) : q ≠ 0 ∧ lastBit F q = ilog |q| - (F.prec - 1) ∧ (2 : ℚ) ^ (lastBit F q + (F.prec - 1)) ≤ |q| := by
  have h0 : q ≠ 0 := by
    intro hq
    unfold lastBit at h
    rw [if_pos hq] at h
    exact absurd h (lt_irrefl _)
  have he : lastBit F q = ilog |q| - (F.prec - 1) := by
    unfold lastBit at h ⊢
    rw [if_neg h0] at h ⊢
    rcases max_choice F.emin (ilog |q| - (F.prec - 1)) with hm | hm
    · rw [hm] at h
      exact absurd h (lt_irrefl _)
    · exact hm
  refine ⟨h0, he, ?_⟩
  rw [he, sub_add_cancel]
  exact (ilog_spec (abs_pos.2 h0)).1

theorem round_eq (F : Fmt) (q : ℚ) : round F q = nearestInt (q / 2 ^ lastBit F q) * 2 ^ lastBit F q := rfl

/-- multiples of the last bit are no nearer than the rounded number -/
theorem round_near_multiple (F : Fmt) (q : ℚ) (n : Int) : |round F q - q| ≤ |n * 2 ^ lastBit F q - q| := by
  have hp := zpow_pos2 (lastBit F q)
  have h := nearestInt_near (q / 2 ^ lastBit F q) n
  have e : ∀ a : ℚ, |a * 2 ^ lastBit F q - q| = |a - q / 2 ^ lastBit F q| * 2 ^ lastBit F q := by
    intro a
    rw [← abs_of_pos hp, ← abs_mul, abs_of_pos hp, sub_mul, div_mul_cancel₀ _ hp.ne']
  rw [round_eq, e, e]
  exact mul_le_mul_of_nonneg_right h hp.le

theorem round_half (F : Fmt) (q : ℚ) : |round F q - q| ≤ 2 ^ (lastBit F q - 1) := by
  have hp := zpow_pos2 (lastBit F q)
  have h := nearestInt_half (q / 2 ^ lastBit F q)
  have e : |round F q - q| = |(nearestInt (q / 2 ^ lastBit F q) : ℚ) - q / 2 ^ lastBit F q| * 2 ^ lastBit F q := by
    rw [← abs_of_pos hp, ← abs_mul, abs_of_pos hp, sub_mul, div_mul_cancel₀ _ hp.ne', round_eq]
  rw [e, zpow_sub_one₀ (by norm_num)]
  have := mul_le_mul_of_nonneg_right h hp.le
  linarith

theorem round_rep (hF : F.Ok) (q : ℚ) : Rep F (round F q) := by
  have hp := zpow_pos2 (lastBit F q)
  have h1 : |q / 2 ^ lastBit F q| ≤ ((2 ^ F.prec : Int) : ℚ) := by
    rw [abs_div, abs_of_pos hp, div_le_iff₀ hp]
    refine (lt_lastBit F q).le.trans_eq ?_
    rw [zpow_addn]
    ring
  have h2 := nearestInt_abs_le h1
  rcases lt_or_eq_of_le h2 with h | h
  · exact ⟨_, _, round_eq F q, h, lastBit_emin F q⟩
  · have hpr := hF.prec
    obtain ⟨p', hp'⟩ : ∃ p', F.prec = p' + 1 := ⟨F.prec - 1, by omega⟩
    have h2p : (2 : Int) ^ F.prec = 2 * 2 ^ p' := by rw [hp', pow_succ]; ring
    have hpos : (0 : Int) < 2 ^ p' := by positivity
    have hs : ∃ s : Int, nearestInt (q / 2 ^ lastBit F q) = s * 2 ^ F.prec ∧ |s| = 1 := by
      rcases abs_cases (nearestInt (q / 2 ^ lastBit F q)) with ⟨h3, -⟩ | ⟨h3, -⟩
      · exact ⟨1, by rw [← h, h3]; ring, rfl⟩
      · exact ⟨-1, by rw [← h, h3]; ring, rfl⟩
    obtain ⟨s, hs1, hs2⟩ := hs
    refine ⟨s * 2 ^ p', lastBit F q + 1, ?_, ?_, ?_⟩
    · rw [round_eq, hs1, h2p, zpow_add_one₀ (by norm_num)]
      push_cast
      ring
    · rw [abs_mul, hs2, one_mul, abs_of_pos hpos, h2p]
      omega
    · have := lastBit_emin F q
      omega

/-- a number of the format is a multiple of the last bit that rounding it keeps -/
theorem rep_multiple (h : Rep F q) : ∃ n : Int, q = n * 2 ^ lastBit F q := by
  obtain ⟨m, e, h1, h2, h3⟩ := h
  have he : lastBit F q ≤ e := by
    rcases eq_or_lt_of_le (lastBit_emin F q) with h | h
    · omega
    · obtain ⟨h0, -, h4⟩ := lastBit_le h
      have h5 : |q| < 2 ^ (e + F.prec) := by
        rw [h1, abs_mul, abs_of_pos (zpow_pos2 e), zpow_addn, mul_comm]
        exact mul_lt_mul_of_pos_left (by exact_mod_cast h2) (zpow_pos2 e)
      have := lt_of_zpow (lt_of_le_of_lt h4 h5)
      omega
  obtain ⟨d, hd⟩ : ∃ d : Nat, e = lastBit F q + d := ⟨(e - lastBit F q).toNat, by omega⟩
  refine ⟨m * 2 ^ d, ?_⟩
  conv_lhs => rw [h1, hd, zpow_addn]
  push_cast
  ring

theorem round_of_rep (h : Rep F q) : round F q = q := by
  obtain ⟨n, hn⟩ := rep_multiple h
  have hp := zpow_pos2 (lastBit F q)
  have : q / 2 ^ lastBit F q = n := by
    rw [div_eq_iff hp.ne']
    exact hn
  rw [round_eq, this, nearestInt_int]
  exact hn.symm

/-- no number of the format is nearer -/
theorem round_nearest (h : Rep F r) : |round F q - q| ≤ |r - q| := by
  by_cases hm : ∃ n : Int, r = n * 2 ^ lastBit F q
  · obtain ⟨n, hn⟩ := hm
    rw [hn]
    exact round_near_multiple F q n
  · obtain ⟨m, e, h1, h2, h3⟩ := h
    have he : e < lastBit F q := by
      by_contra hc
      apply hm
      obtain ⟨d, hd⟩ : ∃ d : Nat, e = lastBit F q + d := ⟨(e - lastBit F q).toNat, by omega⟩
      refine ⟨m * 2 ^ d, ?_⟩
      rw [h1, hd, zpow_addn]
      push_cast
      ring
    obtain ⟨h0, -, h4⟩ := lastBit_le (lt_of_le_of_lt h3 he)
    have h5 : |r| ≤ 2 ^ (lastBit F q + (F.prec - 1)) := by
      have : |r| < 2 ^ (e + F.prec) := by
        rw [h1, abs_mul, abs_of_pos (zpow_pos2 e), zpow_addn, mul_comm]
        exact mul_lt_mul_of_pos_left (by exact_mod_cast h2) (zpow_pos2 e)
      exact this.le.trans (zpow_mono2 (by omega))
    by_cases hp1 : F.prec = 0
    · rw [hp1] at h2
      have : m = 0 := by
        rw [pow_zero] at h2
        exact Int.abs_lt_one_iff.1 h2
      exact absurd ⟨0, by rw [h1, this]; simp⟩ hm
    · obtain ⟨p', hp'⟩ : ∃ p' : Nat, (F.prec : Int) - 1 = p' := ⟨F.prec - 1, by omega⟩
      rw [hp'] at h4 h5
      rw [zpow_addn] at h4 h5
      rcases lt_or_gt_of_ne h0 with hneg | hpos
      · refine (round_near_multiple F q (-2 ^ p')).trans ?_
        rw [abs_of_neg hneg] at h4
        push_cast at h4 h5 ⊢
        have h6 := (abs_le.1 h5).1
        rw [abs_of_nonneg (by linarith), abs_of_nonneg (by linarith)]
        linarith
      · refine (round_near_multiple F q (2 ^ p')).trans ?_
        rw [abs_of_pos hpos] at h4
        push_cast at h4 h5 ⊢
        have h6 := (abs_le.1 h5).2
        rw [abs_of_nonpos (by linarith), abs_of_nonpos (by linarith)]
        linarith

theorem round_mono (hF : F.Ok) (h : x ≤ y) : round F x ≤ round F y := by
  rcases eq_or_lt_of_le h with rfl | h
  · exact le_refl _
  · by_contra hc
    rw [not_le] at hc
    have h1 := sq_le_sq.2 (round_nearest (q := x) (round_rep hF y))
    have h2 := sq_le_sq.2 (round_nearest (q := y) (round_rep hF x))
    nlinarith

theorem lastBit_neg (F : Fmt) (q : ℚ) : lastBit F (-q) = lastBit F q := by
  unfold lastBit
  simp only [neg_eq_zero, abs_neg]

theorem round_neg (F : Fmt) (q : ℚ) : round F (-q) = -round F q := by
  rw [round_eq, round_eq, lastBit_neg, neg_div, nearestInt_neg]
  push_cast
  ring

theorem round_zero (F : Fmt) : round F 0 = 0 := round_of_rep rep_zero

theorem round_nonneg (hF : F.Ok) (h : 0 ≤ q) : 0 ≤ round F q := by
  have := round_mono hF h
  rwa [round_zero] at this

theorem round_abs (hF : F.Ok) (q : ℚ) : |round F q| = round F |q| := by
  rcases le_total 0 q with h | h
  · rw [abs_of_nonneg h, abs_of_nonneg (round_nonneg hF h)]
  · rw [abs_of_nonpos h, round_neg, abs_of_nonpos]
    have := round_nonneg hF (neg_nonneg.2 h)
    rw [round_neg] at this
    linarith

theorem round_le_of_rep (hF : F.Ok) (hr : Rep F r) (h : q ≤ r) : round F q ≤ r := by
  have := round_mono hF h
  rwa [round_of_rep hr] at this

theorem le_round_of_rep (hF : F.Ok) (hr : Rep F r) (h : r ≤ q) : r ≤ round F q := by
  have := round_mono hF h
  rwa [round_of_rep hr] at this

theorem unit_pos (F : Fmt) : 0 < unit F := zpow_pos2 _

theorem tiny_pos (F : Fmt) : 0 < tiny F := zpow_pos2 _

theorem round_error_or (F : Fmt) (q : ℚ) : |round F q - q| ≤ unit F * |q| ∨ (lastBit F q = F.emin ∧ |round F q - q| ≤ tiny F) := by
  have h := round_half F q
  rcases eq_or_lt_of_le (lastBit_emin F q) with he | he
  · right
    rw [← he] at h
    exact ⟨he.symm, h⟩
  · left
    obtain ⟨-, -, h2⟩ := lastBit_le he
    refine h.trans ?_
    have : (2 : ℚ) ^ (lastBit F q - 1) = unit F * 2 ^ (lastBit F q + (F.prec - 1)) := by
      unfold unit
      rw [← zpow_add₀ (by norm_num)]
      congr 1
      ring
    rw [this]
    exact mul_le_mul_of_nonneg_left h2 (unit_pos F).le

theorem round_error (F : Fmt) (q : ℚ) : |round F q - q| ≤ unit F * |q| + tiny F := by
  have h1 := mul_nonneg (unit_pos F).le (abs_nonneg q)
  have h2 := tiny_pos F
  rcases round_error_or F q with h | ⟨-, h⟩ <;> linarith

/-- sums of numbers of the format have no absolute error term: where the format is coarse in absolute terms they are exact -/
theorem round_add_error (hx : Rep F x) (hy : Rep F y) : |round F (x + y) - (x + y)| ≤ unit F * |x + y| := by
  rcases round_error_or F (x + y) with h | ⟨he, -⟩
  · exact h
  · obtain ⟨a, ea, ha, -, ha3⟩ := hx
    obtain ⟨b, eb, hb, -, hb3⟩ := hy
    have hmul : ∀ (m e : Int), F.emin ≤ e → ∃ n : Int, (m : ℚ) * 2 ^ e = n * 2 ^ F.emin := by
      intro m e he
      obtain ⟨d, hd⟩ : ∃ d : Nat, e = F.emin + d := ⟨(e - F.emin).toNat, by omega⟩
      refine ⟨m * 2 ^ d, ?_⟩
      rw [hd, zpow_addn]
      push_cast
      ring
    obtain ⟨n1, h1⟩ := hmul a ea ha3
    obtain ⟨n2, h2⟩ := hmul b eb hb3
    have hs : x + y = ((n1 + n2 : Int) : ℚ) * 2 ^ lastBit F (x + y) := by
      rw [he, ha, hb, h1, h2]
      push_cast
      ring
    have := round_near_multiple F (x + y) (n1 + n2)
    rw [← hs, sub_self, abs_zero] at this
    exact this.trans (mul_nonneg (unit_pos F).le (abs_nonneg _))

end Efp.Ieee
