import Verif.NumericSqrtLemmas
import Verif.Spec.Numeric

/-!
# C158: `sqrt` of integers

`Numeric.sqrtInt T a` is `efp::sqrt(a)` for an `a` of the integer type `T`; `Nat.sqrt n` is the greatest `k` with `k * k ≤ n`.
-/

namespace Efp.Props

open Efp.Numeric Efp.Spec.Numeric Efp.Ieee

variable {ω : Type}

/-- **C158 is false:** in 64 bits the root can be one too large. -/
theorem C158_refuted :
    ¬ ∀ (T : IntTy) (a : Int), T.size ≤ 8 → 0 ≤ a → InRange T.num a → ∀ w : Unit, sqrtInt T a w = .ok (Nat.sqrt a.toNat : Int) w := by
  intro h
  have h1 := h ⟨8, false⟩ (2 ^ 52 + 2 ^ 27) (by decide) (by decide) (by unfold InRange; decide) ()
  have h2 : sqrtInt (ω := Unit) ⟨8, false⟩ (2 ^ 52 + 2 ^ 27) () = .ok (2 ^ 26 + 1) () := by decide +kernel
  rw [h2] at h1
  have h3 : Nat.sqrt (Int.toNat (2 ^ 52 + 2 ^ 27)) = 2 ^ 26 := (Nat.eq_sqrt.2 ⟨by decide, by decide⟩).symm
  rw [h3] at h1
  revert h1
  decide

theorem Numeric.floor_run {T : IntTy} {v : ℚ} {k : Int} (h1 : (k : ℚ) ≤ v) (h2 : v < k + 1) (hk : InRange T.num k) (w : ω) :
    toInt T (.fin false v) w = .ok k w := by
  have : ⌊v⌋ = k := Int.floor_eq_iff.2 ⟨h1, h2⟩
  simp only [toInt, this, Bool.false_eq_true, if_false]
  rw [if_pos ⟨hk.1, hk.2⟩]
  rfl

/-- values between zero and a value of the type are values of the type -/
theorem Numeric.inRange_le {T : IntTy} {a b : Int} (ha : InRange T.num a) (h0 : 0 ≤ b) (h : b ≤ a) : InRange T.num b := by
  refine ⟨le_trans ?_ h0, h.trans ha.2⟩
  unfold IntTy.num
  split
  · have : (0 : Int) < 2 ^ (8 * T.size - 1) := by positivity
    show -_ ≤ (0 : Int)
    omega
  · exact le_refl _

/-- **C158, the part that holds.**  Below `2^52 + 2^27`, so for every type of at most 32 bits, the root of a number that is not
negative is its integer root. -/
theorem C158_sqrt_partial (T : IntTy) (n : Nat) (hT : InRange T.num n) (hn : n < 2 ^ 52 + 2 ^ 27) (w : ω) :
    sqrtInt T n w = .ok (Nat.sqrt n : Int) w := by
  rcases Nat.eq_zero_or_pos n with rfl | h0
  · have e : Ieee.sqrt double (ofInt double ((0 : Nat) : Int)) = .fin false 0 := by decide +kernel
    unfold sqrtInt
    rw [e]
    exact Numeric.floor_run (by simp) (by simp) (by simpa using hT) w
  · obtain ⟨v, hv, hv0, hnear⟩ := root_of h0 (by omega)
    have h1 : Nat.sqrt n * Nat.sqrt n ≤ n := Nat.sqrt_le n
    have h2 : n < (Nat.sqrt n + 1) * (Nat.sqrt n + 1) := Nat.lt_succ_sqrt n
    have hk := Nat.sqrt_le_self n
    have hk2 : Nat.sqrt n < 2 ^ 32 := Nat.sqrt_lt.2 (by omega)
    unfold sqrtInt
    rw [hv]
    exact Numeric.floor_run (by exact_mod_cast root_ge (Nat.sqrt_pos.2 h0) h1 hk2 hnear)
      (by exact_mod_cast root_lt hn h2 h1 hnear) (Numeric.inRange_le hT (by positivity) (by exact_mod_cast hk)) w

example : sqrtInt (ω := Unit) ⟨4, true⟩ 2147483647 () = .ok 46340 () := by
  have h := C158_sqrt_partial (ω := Unit) ⟨4, true⟩ 2147483647 (by unfold InRange; decide) (by decide) ()
  rwa [show Nat.sqrt 2147483647 = 46340 from (Nat.eq_sqrt.2 ⟨by decide, by decide⟩).symm] at h

/-- **C158, squares.**  The root of a square is exact in every type of at most 64 bits. -/
theorem C158_squares_partial (T : IntTy) (k : Nat) (hT : InRange T.num (k * k)) (h64 : k * k < 2 ^ 64) (w : ω) :
    sqrtInt T (k * k) w = .ok (k : Int) w := by
  rcases Nat.eq_zero_or_pos k with rfl | h0
  · exact C158_sqrt_partial T 0 (by simpa using hT) (by decide) w
  · have hk2 : k < 2 ^ 32 := by
      by_contra hh
      have := Nat.mul_self_le_mul_self (Nat.not_lt.1 hh)
      omega
    obtain ⟨v, hv, hv0, hnear⟩ := root_of (n := k * k) (by positivity) h64
    unfold sqrtInt
    rw [show ((k : Int) * k) = ((k * k : Nat) : Int) by push_cast; rfl, hv]
    have h1 := root_ge h0 (le_refl _) hk2 hnear
    have h2 := root_le hk2.le (le_refl _) hnear
    exact Numeric.floor_run (by exact_mod_cast h1) (by push_cast; linarith)
      (Numeric.inRange_le hT (by positivity) (by exact_mod_cast Nat.le_mul_self k)) w

example : sqrtInt (ω := Unit) ⟨8, false⟩ (4294967295 * 4294967295) () = .ok 4294967295 () :=
  C158_squares_partial ⟨8, false⟩ 4294967295 (by unfold InRange; decide) (by decide) ()

/-- **C158, beyond.**  For every number of at most 64 bits that is not negative the result is the integer root or one more. -/
theorem C158_at_most_one_more_partial (T : IntTy) (n : Nat) (hT : InRange T.num n) (h64 : n < 2 ^ 64) (w : ω) :
    sqrtInt T n w = .ok (Nat.sqrt n : Int) w ∨ sqrtInt T n w = .ok (Nat.sqrt n + 1 : Int) w := by
  rcases Nat.lt_or_ge n (2 ^ 52 + 2 ^ 27) with hn | hn
  · exact .inl (C158_sqrt_partial T n hT hn w)
  · obtain ⟨v, hv, hv0, hnear⟩ := root_of (n := n) (by omega) h64
    have h1 : Nat.sqrt n * Nat.sqrt n ≤ n := Nat.sqrt_le n
    have h2 : n < (Nat.sqrt n + 1) * (Nat.sqrt n + 1) := Nat.lt_succ_sqrt n
    have hk := Nat.sqrt_lt_self (n := n) (by omega)
    have hk2 : Nat.sqrt n < 2 ^ 32 := Nat.sqrt_lt.2 (by omega)
    have h3 := root_ge (Nat.sqrt_pos.2 (by omega)) h1 hk2 hnear
    have h4 := root_le (c := Nat.sqrt n + 1) (by omega) h2.le hnear
    push_cast at h4
    unfold sqrtInt
    rw [hv]
    rcases lt_or_ge v (Nat.sqrt n + 1) with h | h
    · exact .inl (Numeric.floor_run (by exact_mod_cast h3) (by exact_mod_cast h)
        (Numeric.inRange_le hT (by positivity) (by exact_mod_cast hk.le)) w)
    · exact .inr (Numeric.floor_run (by push_cast; exact h) (by push_cast; linarith)
        (Numeric.inRange_le hT (by positivity) (by exact_mod_cast hk)) w)

example : sqrtInt (ω := Unit) ⟨8, false⟩ (2 ^ 64 - 1) () = .ok (2 ^ 32) () := by decide +kernel
example : InRange (IntTy.num ⟨8, false⟩) ((2 ^ 64 - 1 : Nat) : Int) := by unfold InRange; decide

/-- **C158, negative numbers.**  The root of a negative number is undefined. -/
theorem C158_negative (T : IntTy) (a : Int) (h : a < 0) (w : ω) : ∃ u, sqrtInt T a w = .ub u := by
  have hq : (a : ℚ) < 0 := by exact_mod_cast h
  have h1 : Ieee.round double (a : ℚ) ≤ -1 := by
    refine round_le_of_rep double_ok ?_ (by exact_mod_cast (by omega : a ≤ -1))
    simpa using rep_int double_ok (n := -1) (by decide)
  have h2 : |Ieee.round double (a : ℚ)| ≠ 0 := by
    rw [abs_of_neg (by linarith)]; linarith
  unfold sqrtInt ofInt ofExact
  split
  · simp only [hq, decide_true, Ieee.sqrt, if_true]
    exact ⟨_, rfl⟩
  · simp only [hq, hq.ne, decide_true, Ieee.sqrt, if_true, if_false, h2]
    exact ⟨_, rfl⟩

example : sqrtInt (ω := Unit) ⟨4, true⟩ (-4) () = .ub .overflow := by decide +kernel

end Efp.Props
