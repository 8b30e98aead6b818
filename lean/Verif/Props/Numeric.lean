import Verif.NumericLemmas
import Mathlib.Algebra.Order.Ring.Rat

/-!
# Properties of numeric.hpp (C68, C82-C84)
-/

namespace Efp.Props

open Efp.Prelude (Inp)
open Efp.Meta (NumTy)
open Efp.Numeric Efp.Spec.Numeric

variable {ω ν : Type}

/-! ## C68: extrema -/

/-- **C68, the part that holds.**  For a non-empty sequence `min_elem` is an element not above any
other, for every element type.  `max_elem` is an element not below any other whenever some element is
at least `NumericLimits::min()`: always for integer types, whose `min()` is the lowest value. -/
theorem C68_extrema_partial [LinearOrder ν] (T : OrdTy ν) (as : Inp ν) (hne : as.vals ≠ [])
    (hhi : ∀ x ∈ as.vals, x ≤ T.limMax) (w : ω) :
    (∃ r, minElem (fun x y => decide (x < y)) T as w = .ok r w ∧ r ∈ as.vals ∧ ∀ x ∈ as.vals, r ≤ x)
    ∧ ((∃ x ∈ as.vals, T.limMin ≤ x) →
        ∃ r, maxElem (fun x y => decide (x < y)) T as w = .ok r w ∧ r ∈ as.vals ∧ ∀ x ∈ as.vals, x ≤ r)
    ∧ (T.limMin = T.lowest → (∀ x ∈ as.vals, T.lowest ≤ x) → ∃ x ∈ as.vals, T.limMin ≤ x) := by
  refine ⟨?_, ?_, ?_⟩
  · obtain ⟨h1, h2, h3⟩ := foldl_min_spec as.vals T.limMax
    refine ⟨_, by rw [minElem, Prelude.foldl_eq, Numeric.foldlM_pure]; rfl, ?_, h3⟩
    rcases h1 with h1 | h1
    · obtain ⟨y, hy⟩ := List.exists_mem_of_ne_nil _ hne
      have h4 := h3 y hy
      rw [h1] at h4 ⊢
      rw [le_antisymm h4 (hhi y hy)]
      exact hy
    · exact h1
  · rintro ⟨y, hy, hle⟩
    obtain ⟨h1, h2, h3⟩ := foldl_max_spec as.vals T.limMin
    refine ⟨_, by rw [maxElem, Prelude.foldl_eq, Numeric.foldlM_pure]; rfl, ?_, h3⟩
    rcases h1 with h1 | h1
    · have h4 := h3 y hy
      rw [h1] at h4 ⊢
      rw [le_antisymm hle h4]
      exact hy
    · exact h1
  · intro h hlo
    obtain ⟨y, hy⟩ := List.exists_mem_of_ne_nil _ hne
    exact ⟨y, hy, h ▸ hlo y hy⟩

/-- **C68 is false for floating-point types.**  If all elements are below `NumericLimits::min()`, the
least positive normal value there (all elements negative or zero, say), `max_elem` returns that value,
which is not an element. -/
theorem C68_float_max [LinearOrder ν] (T : OrdTy ν) (as : Inp ν) (hlt : ∀ x ∈ as.vals, x < T.limMin) (w : ω) :
    maxElem (fun x y => decide (x < y)) T as w = .ok T.limMin w ∧ T.limMin ∉ as.vals := by
  refine ⟨?_, fun h => lt_irrefl _ (hlt _ h)⟩
  obtain ⟨h1, h2, h3⟩ := foldl_max_spec as.vals T.limMin
  rw [maxElem, Prelude.foldl_eq, Numeric.foldlM_pure]
  rcases h1 with h1 | h1
  · rw [h1]; rfl
  · exact absurd (lt_of_lt_of_le (hlt _ h1) h2) (lt_irrefl _)

/-- **C68, `max_min` on integer types.**  It is the difference of the greatest and the least element
when that is representable; otherwise, for signed types, it is undefined behaviour. -/
theorem C68_max_min (A : NumTy) (as : Inp Int) (hne : as.vals ≠ []) (hr : ∀ x ∈ as.vals, InRange A x) (w : ω) :
    ∃ hi lo, hi ∈ as.vals ∧ lo ∈ as.vals ∧ (∀ x ∈ as.vals, lo ≤ x ∧ x ≤ hi)
      ∧ (InRange A (hi - lo) → maxMin A as w = .ok (hi - lo) w)
      ∧ (A.over = .trap → ¬ InRange A (hi - lo) → maxMin A as w = .ub .overflow) := by
  obtain ⟨⟨lo, l1, l2, l3⟩, hmax, hex⟩ := C68_extrema_partial A.ord as hne (fun x hx => (hr x hx).2) w
  obtain ⟨hi, m1, m2, m3⟩ := hmax (hex rfl fun x hx => (hr x hx).1)
  refine ⟨hi, lo, m2, l2, fun x hx => ⟨l3 x hx, m3 x hx⟩, fun h => ?_, fun ht h => ?_⟩
  · rw [maxMin, Cpp.bind_ok m1, Cpp.bind_ok l1, arith_in h]; rfl
  · rw [maxMin, Cpp.bind_ok m1, Cpp.bind_ok l1, arith_trap ht h]

example : maxElem (ω := Unit) (fun x y => decide (x < y)) (⟨-100, 1, 100⟩ : OrdTy Int)
    ⟨.vector, [-3, -1, -2], 0, false⟩ () = .ok 1 () := rfl
example : maxMin (ω := Unit) ⟨-2147483648, 2147483647, .trap⟩ ⟨.vector, [-3, 9, -2], 0, false⟩ () = .ok 12 () := rfl
example : maxMin (ω := Unit) ⟨-2147483648, 2147483647, .trap⟩ ⟨.vector, [-3, 2147483647], 0, false⟩ ()
    = .ub .overflow := rfl

/-! ## C82: sum and product -/

/-- **C82, the part that holds.**  On types with wrapping arithmetic (unsigned types, types narrower than
`int`) `sum` and `product` are exact whenever the result is representable; on every integer type they are exact
whenever every prefix result is representable. -/
theorem C82_sum_product_partial (A : NumTy) (hlh : A.lo ≤ 0 ∧ 1 ≤ A.hi) (as : Inp Int) (w : ω) :
    (A.over = .wrap → InRange A as.vals.sum → sum A as w = .ok as.vals.sum w)
    ∧ (A.over = .wrap → InRange A (prod as.vals) → product A as w = .ok (prod as.vals) w)
    ∧ ((∀ s ∈ prefixSums 0 as.vals, InRange A s) → sum A as w = .ok as.vals.sum w)
    ∧ ((∀ s ∈ prefixProducts 1 as.vals, InRange A s) → product A as w = .ok (prod as.vals) w) := by
  obtain ⟨h0, h1⟩ := hlh
  refine ⟨fun hw hr => ?_, fun hw hr => ?_, fun h => ?_, fun h => ?_⟩
  · obtain ⟨r, e1, e2, e3⟩ := sum_wrap (ω := ω) hw (by omega) as.vals 0 ⟨h0, by omega⟩
    rw [Int.zero_add] at e3
    rw [sum, Prelude.foldl_eq, e1, congr_range e2 hr e3]; rfl
  · obtain ⟨r, e1, e2, e3⟩ := product_wrap (ω := ω) hw (by omega) as.vals 1 ⟨by omega, h1⟩
    rw [Int.one_mul] at e3
    rw [product, Prelude.foldl_eq, e1, congr_range e2 hr e3]; rfl
  · rw [sum, Prelude.foldl_eq, sum_prefix as.vals 0 h, Int.zero_add]; rfl
  · rw [product, Prelude.foldl_eq, product_prefix as.vals 1 h, Int.one_mul]; rfl

/-- **C82 is false for `int` and wider signed types.**  Whenever a prefix result is not representable the
behaviour is undefined, even if the final result is; such sequences exist for every such type. -/
theorem C82_signed_prefix (A : NumTy) (ht : A.over = .trap) (hlh : A.lo ≤ -1 ∧ 1 ≤ A.hi) (w : ω) :
    (∀ as : Inp Int, (∃ s ∈ prefixSums 0 as.vals, ¬ InRange A s) → sum A as w = .ub .overflow)
    ∧ (∀ as : Inp Int, (∃ s ∈ prefixProducts 1 as.vals, ¬ InRange A s) → product A as w = .ub .overflow)
    ∧ ∃ as : Inp Int, as.valid ∧ (∀ x ∈ as.vals, InRange A x) ∧ InRange A as.vals.sum
        ∧ sum A as w = .ub .overflow := by
  have h1 : ∀ as : Inp Int, (∃ s ∈ prefixSums 0 as.vals, ¬ InRange A s) → sum A as w = .ub .overflow := by
    intro as h
    rw [sum, Prelude.foldl_eq, sum_trap ht as.vals 0 h]
  refine ⟨h1, fun as h => ?_, ⟨.vector, [A.hi, 1, -1], 0, false⟩, ?_, ?_, ?_, h1 _ ?_⟩
  · rw [product, Prelude.foldl_eq, product_trap ht as.vals 1 h]
  · simp [Inp.valid, Prelude.dyn]
  · intro x hx
    simp only [List.mem_cons, List.not_mem_nil, or_false] at hx
    obtain ⟨a, b⟩ := hlh
    rcases hx with rfl | rfl | rfl <;> exact ⟨by omega, by omega⟩
  · obtain ⟨a, b⟩ := hlh
    exact ⟨by simp; omega, by simp⟩
  · exact ⟨A.hi + 1, by simp [prefixSums], fun h => by have := h.2; omega⟩

example : sum (ω := Unit) ⟨-128, 127, .wrap⟩ ⟨.vector, [100, 100, -120], 0, false⟩ () = .ok 80 () := rfl
example : sum (ω := Unit) ⟨-2147483648, 2147483647, .trap⟩ ⟨.vector, [100, 100, -120], 0, false⟩ () = .ok 80 () := rfl
example : product (ω := Unit) ⟨-2147483648, 2147483647, .trap⟩ ⟨.vector, [4, 5, -2], 0, false⟩ () = .ok (-40) () := rfl

/-! ## C83: abs and square -/

/-- **C83, the part that holds.**  `abs` is the absolute value wherever that is representable (everywhere
but at the lowest value of a signed type); `square` is the square wherever that is representable. -/
theorem C83_abs_square_partial (A : NumTy) (x : Int) (hx : InRange A x) (w : ω) :
    (InRange A (Int.natAbs x) → Numeric.abs A x w = .ok (Int.natAbs x) w)
    ∧ (InRange A (x * x) → square A x w = .ok (x * x) w) := by
  refine ⟨fun h => ?_, fun h => ?_⟩
  · unfold Numeric.abs
    by_cases hn : x < 0
    · have : ((Int.natAbs x : Nat) : Int) = -x := by omega
      rw [this] at h ⊢
      rw [if_pos hn, arith_in h]; rfl
    · have : ((Int.natAbs x : Nat) : Int) = x := by omega
      rw [if_neg hn, this]; rfl
  · rw [square, arith_in h]; rfl

/-- **C83 is false at the lowest value.**  For `int` and wider, `abs` of the lowest value is undefined; for
narrower signed types it is negative. -/
theorem C83_abs_lowest (A : NumTy) (hlo : A.lo = -A.hi - 1) (hhi : 1 ≤ A.hi) (w : ω) :
    (A.over = .trap → Numeric.abs A A.lo w = .ub .overflow)
    ∧ (A.over = .wrap → Numeric.abs A A.lo w = .ok A.lo w) := by
  have hn : A.lo < 0 := by omega
  have hnr : ¬ InRange A (-A.lo) := fun h => by have := h.2; omega
  refine ⟨fun ht => ?_, fun hw => ?_⟩
  · rw [Numeric.abs, if_pos hn, arith_trap ht hnr]
  · obtain ⟨r, e1, e2, e3⟩ := arith_wrap (ω := ω) hw (show A.lo ≤ A.hi by omega) (-A.lo)
    have hm : (A.lo - -A.lo) % (A.hi - A.lo + 1) = 0 := by
      have : A.lo - -A.lo = (A.hi - A.lo + 1) * (-1) := by omega
      rw [this]; exact Int.mul_emod_right _ _
    have hd : (r - A.lo) % (A.hi - A.lo + 1) = 0 := by
      have : r - A.lo = (r - -A.lo) - (A.lo - -A.lo) := by omega
      rw [this]
      exact Int.emod_eq_zero_of_dvd (Int.dvd_sub (Int.dvd_of_emod_eq_zero e3) (Int.dvd_of_emod_eq_zero hm))
    rw [Numeric.abs, if_pos hn, e1, congr_range e2 ⟨by omega, by omega⟩ hd]; rfl

example : Numeric.abs (ω := Unit) ⟨-128, 127, .wrap⟩ (-128) () = .ok (-128) () := rfl
example : Numeric.abs (ω := Unit) ⟨-2147483648, 2147483647, .trap⟩ (-7) () = .ok 7 () := rfl

/-! ## C84: is_approx -/

/-- **C84, the part that holds.**  When the larger type (the second one for equal sizes) is a floating-point
type, or when both values are integers, `is_approx` holds exactly if the values differ by at most the epsilon of that
type; it is symmetric for arguments of one type. -/
theorem C84_is_approx_partial (A B : ApproxTy) (x y : Rat) :
    ((if A.size > B.size then A else B).isInt = false →
      (isApprox A B x y = true ↔ dist x y ≤ (if A.size > B.size then A else B).eps))
    ∧ (x.den = 1 → y.den = 1 → (isApprox A B x y = true ↔ dist x y ≤ (if A.size > B.size then A else B).eps))
    ∧ isApprox A A x y = isApprox A A y x := by
  have key : ∀ u v : Rat, (if u - v < 0 then -(u - v) else u - v) = dist u v := by
    intro u v
    unfold dist
    by_cases h : u ≤ v
    · rw [if_pos h]
      by_cases h' : u - v < 0
      · rw [if_pos h']; grind
      · rw [if_neg h']; grind
    · rw [if_neg h, if_neg (by grind)]
  have symm : ∀ u v : Rat, dist u v = dist v u := by
    intro u v
    unfold dist
    by_cases h : u ≤ v
    · rw [if_pos h]
      by_cases h' : v ≤ u
      · rw [if_pos h']; grind
      · rw [if_neg h']
    · rw [if_neg h, if_pos (by grind)]
  have hint : ∀ (T : ApproxTy) (u : Rat), u.den = 1 → T.cast u = u := by
    intro T u hu
    unfold ApproxTy.cast
    split
    · rw [hu]
      simp only [Nat.cast_one, Int.tdiv_one]
      exact Rat.ext rfl (by simp [hu])
    · rfl
  refine ⟨fun h => ?_, fun hx hy => ?_, ?_⟩
  · simp only [isApprox, ApproxTy.cast, h, Bool.false_eq_true, if_false, key, decide_eq_true_eq]
  · simp only [isApprox, hint _ x hx, hint _ y hy, key, decide_eq_true_eq]
  · simp only [isApprox, key, symm (ApproxTy.cast _ y)]

/-- **C84 is false for a floating-point value and an integer type of at least its size.**  Both are then
converted to the integer type, so values that differ by almost 1 count as approximately equal. -/
theorem C84_truncation (A B : ApproxTy) (hsize : A.size ≤ B.size) (hB : B.isInt = true) (heps : B.eps = 0) (n : Nat)
    (x : Rat) (h1 : (n : Rat) ≤ x) (h2 : x < n + 1) :
    isApprox A B x (n : Rat) = true := by
  have hsel : (if A.size > B.size then A else B) = B := if_neg (by omega)
  have hq : x.num.tdiv x.den = n := by
    have hd : (0 : Int) < x.den := by exact_mod_cast x.den_pos
    have hx0 : 0 ≤ x.num := by
      apply Rat.num_nonneg.mpr
      exact le_trans (by exact_mod_cast Nat.zero_le n) h1
    rw [Int.tdiv_eq_ediv_of_nonneg hx0]
    have e : (x.num / (x.den : Int)) = x.floor := by
      rw [Rat.floor_def]
    rw [e]
    apply le_antisymm
    · have : x.floor < (n : Int) + 1 := by
        rw [Rat.floor_lt_iff]
        push_cast
        exact h2
      omega
    · rw [Rat.le_floor_iff]
      exact_mod_cast h1
  simp only [isApprox, hsel, ApproxTy.cast, hB, if_true, hq]
  have : ((n : Rat).num.tdiv ((n : Rat).den : Int) : Int) = n := by simp
  rw [this]
  simp [heps]

example : isApprox ⟨8, false, 1 / 4503599627370496⟩ ⟨8, true, 0⟩ (99 / 100) 0 = true := by decide +kernel
example : isApprox ⟨8, false, 1 / 4503599627370496⟩ ⟨4, true, 0⟩ (99 / 100) 0 = false := by decide +kernel

end Efp.Props
