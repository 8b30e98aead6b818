import Verif.NumericApprox
import Verif.Props.Numeric
import Mathlib.Tactic.Linarith

/-!
# `is_approx` on integers, and its symmetry (C84)

`Numeric.isApproxInt A B` is the call with arguments of the integer types `A` and `B`; `IntTy.num` gives the values of a type.  For
integer types epsilon is 0, so the property says: true exactly for equal arguments.
-/

namespace Efp.Props

open Efp.Numeric Efp.Spec.Numeric

variable {ω : Type}

/-- the type both arguments are converted to -/
def Numeric.common (A B : IntTy) : IntTy := if A.size > B.size then A else B

theorem Numeric.cast_id {T : IntTy} {x : Int} (h : InRange T.num x) : T.cast x = x := by
  unfold IntTy.cast
  have := h.1; have := h.2
  rw [Int.emod_eq_of_lt (by omega) (by omega)]
  omega

theorem Numeric.two_pow_pos (n : Nat) : (0 : Int) < 2 ^ n := by exact_mod_cast Nat.two_pow_pos n

theorem Numeric.half (n : Nat) (h : 0 < n) : (2 : Int) ^ (8 * n) = 2 * 2 ^ (8 * n - 1) := by
  rw [show 8 * n = 8 * n - 1 + 1 by omega, pow_succ]; simp [mul_comm]

theorem Numeric.small_pow {n : Nat} (h : n < 4) : (2 : Int) ^ (8 * n) ≤ 2 ^ 24 := by
  exact_mod_cast Nat.pow_le_pow_right (by omega : 0 < 2) (by omega : 8 * n ≤ 24)

/-- **C84, integers, the part that holds.**  If both values are values of the common type, and, where that is a signed type of at
least the size of `int`, they differ by less than half its range, `is_approx` is true exactly for equal values. -/
theorem C84_integers_partial (A B : IntTy) (hA : 0 < A.size) (hB : 0 < B.size) (x y : Int)
    (hx : InRange (Numeric.common A B).num x) (hy : InRange (Numeric.common A B).num y)
    (hd : (Numeric.common A B).signed = true → 4 ≤ (Numeric.common A B).size →
      |x - y| < 2 ^ (8 * (Numeric.common A B).size - 1)) (w : ω) :
    isApproxInt A B x y w = .ok (decide (x = y)) w := by
  have hT : 0 < (Numeric.common A B).size := by unfold Numeric.common; split <;> assumption
  unfold isApproxInt
  change (do
    let d ← arith (Numeric.common A B).promote.num ((Numeric.common A B).cast x - (Numeric.common A B).cast y)
    let e ← Numeric.abs (Numeric.common A B).promote.num d
    pure (decide (e ≤ 0)) : Cpp ω Bool) w = _
  rw [Numeric.cast_id hx, Numeric.cast_id hy]
  generalize Numeric.common A B = T at *
  have hp := Numeric.two_pow_pos (8 * T.size - 1)
  have hh := Numeric.half T.size hT
  -- the case of arithmetic that stays in range
  have key : ∀ N : Meta.NumTy, InRange N (x - y) → InRange N (y - x) → (do
      let d ← arith N (x - y)
      let e ← Numeric.abs N d
      pure (decide (e ≤ 0)) : Cpp ω Bool) w = .ok (decide (x = y)) w := by
    intro N h1 h2
    have e1 : (arith N (x - y) : Cpp ω Int) = pure (x - y) := by unfold arith Meta.NumTy.reduce; rw [if_pos ⟨h1.1, h1.2⟩]
    have e2 : (arith N (-(x - y)) : Cpp ω Int) = pure (-(x - y)) := by
      unfold arith Meta.NumTy.reduce; rw [if_pos (by have := h2.1; have := h2.2; omega)]
    rw [e1, pure_bind]
    unfold Numeric.abs
    by_cases hn : x - y < 0
    · rw [if_pos hn, e2, pure_bind]
      show Out.ok _ _ = _
      congr 1
      rw [decide_eq_decide]; omega
    · rw [if_neg hn, pure_bind]
      show Out.ok _ _ = _
      congr 1
      rw [decide_eq_decide]; omega
  by_cases hsz : T.size < 4
  · have hs := Numeric.small_pow hsz
    have hb : -(2 ^ 24 : Int) < x - y ∧ x - y < 2 ^ 24 := by
      have h1 := hx.1; have h2 := hx.2; have h3 := hy.1; have h4 := hy.2
      unfold IntTy.num at h1 h2 h3 h4
      split at h1 <;> simp_all <;> constructor <;> omega
    have hpm : T.promote.num = ⟨-(2 ^ 31), 2 ^ 31 - 1, .trap⟩ := by unfold IntTy.promote; rw [if_pos hsz]; rfl
    rw [hpm]
    exact key _ ⟨by dsimp only; omega, by dsimp only; omega⟩ ⟨by dsimp only; omega, by dsimp only; omega⟩
  · have hpm : T.promote = T := by unfold IntTy.promote; rw [if_neg hsz]
    rw [hpm]
    cases hsg : T.signed with
    | true =>
      have hd := abs_lt.1 (hd hsg (by omega))
      have hn : T.num = ⟨-(2 ^ (8 * T.size - 1)), 2 ^ (8 * T.size - 1) - 1, .trap⟩ := by unfold IntTy.num; rw [if_pos hsg]
      rw [hn]
      exact key _ ⟨by dsimp only; omega, by dsimp only; omega⟩ ⟨by dsimp only; omega, by dsimp only; omega⟩
    | false =>
      have hn : T.num = ⟨0, 2 ^ (8 * T.size) - 1, .wrap⟩ := by unfold IntTy.num; rw [hsg]; rfl
      rw [hn] at hx hy ⊢
      obtain ⟨x0, x1⟩ := hx
      obtain ⟨y0, y1⟩ := hy
      dsimp only at x0 x1 y0 y1
      by_cases hlt : x < y
      · have e1 : (arith ⟨0, 2 ^ (8 * T.size) - 1, .wrap⟩ (x - y) : Cpp ω Int) = pure (x - y + 2 ^ (8 * T.size)) := by
          unfold arith Meta.NumTy.reduce
          dsimp only
          rw [if_neg (by omega)]
          dsimp only
          rw [show x - y - 0 = x - y by omega, show (2 : Int) ^ (8 * T.size) - 1 - 0 + 1 = 2 ^ (8 * T.size) by omega,
            ← Int.add_emod_right, Int.emod_eq_of_lt (by omega) (by omega)]
          congr 1; omega
        rw [e1, pure_bind]
        unfold Numeric.abs
        rw [if_neg (by omega), pure_bind]
        show Out.ok _ _ = _
        congr 1
        rw [decide_eq_decide]; omega
      · have e1 : (arith ⟨0, 2 ^ (8 * T.size) - 1, .wrap⟩ (x - y) : Cpp ω Int) = pure (x - y) := by
          unfold arith Meta.NumTy.reduce
          dsimp only
          rw [if_pos (by omega)]
        rw [e1, pure_bind]
        unfold Numeric.abs
        rw [if_neg (by omega), pure_bind]
        show Out.ok _ _ = _
        congr 1
        rw [decide_eq_decide]; omega

/-- **C84 is false for a negative value and an unsigned type of at least its size**: every negative value counts as equal to the
value it is converted to. -/
theorem C84_integers_signed_unsigned (A B : IntTy) (hA : A.signed = true) (hB : B.signed = false) (h1 : 1 ≤ A.size)
    (hs : A.size ≤ B.size) (x : Int) (hx : InRange A.num x) (hneg : x < 0) (w : ω) :
    InRange B.num (x + 2 ^ (8 * B.size)) ∧ x ≠ x + 2 ^ (8 * B.size) ∧ isApproxInt A B x (x + 2 ^ (8 * B.size)) w = .ok true w := by
  have hA' : A.num = ⟨-(2 ^ (8 * A.size - 1)), 2 ^ (8 * A.size - 1) - 1, .trap⟩ := by unfold IntTy.num; rw [if_pos hA]
  have hB' : B.num = ⟨0, 2 ^ (8 * B.size) - 1, .wrap⟩ := by unfold IntTy.num; rw [hB]; rfl
  have hle : (2 : Int) ^ (8 * A.size - 1) ≤ 2 ^ (8 * B.size) := by
    exact_mod_cast Nat.pow_le_pow_right (by omega : 0 < 2) (by omega : 8 * A.size - 1 ≤ 8 * B.size)
  have hx1 := hx.1
  rw [hA'] at hx1
  dsimp only at hx1
  have hr : InRange B.num (x + 2 ^ (8 * B.size)) := by
    rw [hB']; exact ⟨by dsimp only; omega, by dsimp only; omega⟩
  have hc : Numeric.common A B = B := by unfold Numeric.common; rw [if_neg (by omega)]
  have hcx : B.cast x = x + 2 ^ (8 * B.size) := by
    have hr1 := hr.1; have hr2 := hr.2
    unfold IntTy.cast
    rw [hB'] at hr1 hr2 ⊢
    dsimp only at hr1 hr2 ⊢
    rw [show x - 0 = x by omega, show (2 : Int) ^ (8 * B.size) - 1 - 0 + 1 = 2 ^ (8 * B.size) by omega, ← Int.add_emod_right,
      Int.emod_eq_of_lt (by omega) (by omega)]
    omega
  refine ⟨hr, by have := Numeric.two_pow_pos (8 * B.size); omega, ?_⟩
  have hsame := C84_integers_partial B B (by omega) (by omega) (x + 2 ^ (8 * B.size)) (x + 2 ^ (8 * B.size))
    (by unfold Numeric.common; simpa using hr) (by unfold Numeric.common; simpa using hr)
    (by intro _ _; rw [sub_self, abs_zero]; exact Numeric.two_pow_pos _) w
  rw [decide_eq_true rfl] at hsame
  rw [← hsame]
  unfold isApproxInt
  rw [if_neg (by omega : ¬ A.size > B.size), if_neg (by omega : ¬ B.size > B.size), Numeric.cast_id hr, hcx]

/-- **C84 is undefined for signed values that are far apart**: in a signed type of at least the size of `int`, whenever the difference
is not representable. -/
theorem C84_integers_overflow (A : IntTy) (hA : A.signed = true) (hs : 4 ≤ A.size) (x y : Int) (hx : InRange A.num x)
    (hy : InRange A.num y) (hd : ¬ InRange A.num (x - y)) (w : ω) : isApproxInt A A x y w = .ub .overflow := by
  unfold isApproxInt
  rw [if_neg (by omega : ¬ A.size > A.size), Numeric.cast_id hx, Numeric.cast_id hy]
  have hp : A.promote = A := by unfold IntTy.promote; rw [if_neg (by omega)]
  have ho : A.num.over = .trap := by unfold IntTy.num; rw [if_pos hA]
  have e1 : (arith A.num (x - y) : Cpp ω Int) = Cpp.ub .overflow := by
    unfold arith Meta.NumTy.reduce; rw [if_neg (fun h => hd ⟨h.1, h.2⟩), ho]
  rw [hp, e1]
  rfl

/-- **C84 is not symmetric**: `is_approx(1.5f, 1)` compares as `int` and is true, `is_approx(1, 1.5f)` compares as `float` and is
false; likewise for every floating-point type, integer type of its size and value that is not an integer. -/
theorem C84_asymmetric (A B : ApproxTy) (hsize : A.size = B.size) (hA : A.isInt = false) (hB : B.isInt = true) (heps : B.eps = 0)
    (n : Nat) (x : Rat) (h1 : (n : Rat) + A.eps < x) (h0 : 0 ≤ A.eps) (h2 : x < n + 1) :
    isApprox A B x n = true ∧ isApprox B A n x = false := by
  refine ⟨C84_truncation A B (by omega) hB heps n x (by linarith) h2, ?_⟩
  rw [← Bool.not_eq_true, (C84_is_approx_partial B A n x).1 (by rw [if_neg (by omega)]; exact hA), if_neg (by omega)]
  unfold dist
  split <;> linarith

/-- `is_approx(INT_MAX, INT_MAX - 1)`, `is_approx((uint8_t)3, (uint8_t)200)` and `is_approx(-1, 4294967295u)` -/
example : isApproxInt ⟨4, true⟩ ⟨4, true⟩ 2147483647 2147483646 () = .ok false () ∧
    isApproxInt ⟨1, false⟩ ⟨1, false⟩ 3 200 () = .ok false () ∧
    isApproxInt ⟨4, true⟩ ⟨4, false⟩ (-1) 4294967295 () = .ok true () ∧
    isApproxInt ⟨4, true⟩ ⟨4, true⟩ (-2147483648) 1 () = .ub .overflow := by decide +kernel
/-- `float` and `int` -/
example : isApprox ⟨4, false, 1 / 2 ^ 23⟩ ⟨4, true, 0⟩ (3 / 2) 1 = true ∧ isApprox ⟨4, true, 0⟩ ⟨4, false, 1 / 2 ^ 23⟩ 1 (3 / 2) = false := by
  decide +kernel

end Efp.Props
