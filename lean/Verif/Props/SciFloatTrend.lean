import Verif.SciFloatTrendLemmas
import Verif.Props.SciFloat

/-!
# Regression and removal of the trend in double arithmetic (C155)

`OnLine a b l` says that the elements of `l` are exactly `a`, `a + b`, `a + 2 * b`, ... for integers `a` and `b`.
-/

namespace Efp.Props

open Efp.Prelude (Inp)
open Efp.Ieee
open Efp.SciFloat

variable {ω : Type}

/-- **C155 is false.**  What `detrend` leaves of three equal numbers 0.1 is not zero but three negative
numbers, and one element alone becomes NaN. -/
theorem C155_refuted :
    (∃ rs, detrend (ω := Unit) (fps [tenth, tenth, tenth]) () = .ok rs () ∧
      rs.vals = List.replicate 3 (.fin true (1 / 2 ^ 56))) ∧
    (∃ rs, detrend (ω := Unit) (fps [ofInt double 7]) () = .ok rs () ∧ rs.vals = [.nan]) := by
  refine ⟨⟨⟨.vector, List.replicate 3 (.fin true (1 / 2 ^ 56)), 0, false⟩, ?_, rfl⟩,
    ⟨⟨.vector, [.nan], 0, false⟩, ?_, rfl⟩⟩ <;> decide +kernel

/-- **C155, the part that holds** (2 to 1290 integers on a line): `linear_regression_with_index` gives back the slope and the
value at index 0, with no rounding error at all. -/
theorem C155_regression_with_index_partial (as : Inp Fp) (hv : as.valid) (h2 : 2 ≤ as.vals.length) (hmax : as.vals.length ≤ 1290)
    (a b : Int) (ha : |a| ≤ 2 ^ 40) (hb : |b| ≤ 2 ^ 22) (hl : Spec.OnLine a b as.vals) (w : ω) :
    ∃ slope start, linearRegressionWithIndex as w = .ok (slope, start) w ∧ Spec.Exactly slope b ∧ Spec.Exactly start a :=
  regression_index_run hv ⟨h2, hmax, ha, hb⟩ hl w

/-- **C155, the part that holds**: `linear_regression` of 2 to 1290 integers on a line against the numbers 0, 1, 2, ... gives
back the slope and the value at 0. -/
theorem C155_regression_partial (as bs : Inp Fp) (hva : as.valid) (hvb : bs.valid) (hlen : as.vals.length = bs.vals.length)
    (h2 : 2 ≤ bs.vals.length) (hmax : bs.vals.length ≤ 1290) (a b : Int) (ha : |a| ≤ 2 ^ 40) (hb : |b| ≤ 2 ^ 22)
    (hi : Spec.OnLine 0 1 as.vals) (hl : Spec.OnLine a b bs.vals) (w : ω) :
    ∃ slope start, linearRegression as bs w = .ok (slope, start) w ∧ Spec.Exactly slope b ∧ Spec.Exactly start a :=
  regression_run hva hvb hlen ⟨h2, hmax, ha, hb⟩ hi hl w

/-- **C155, the part that holds**: `detrend` of 2 to 1290 integers on a line leaves as many zeros. -/
theorem C155_detrend_partial (as : Inp Fp) (hv : as.valid) (h2 : 2 ≤ as.vals.length) (hmax : as.vals.length ≤ 1290)
    (a b : Int) (ha : |a| ≤ 2 ^ 40) (hb : |b| ≤ 2 ^ 22) (hl : Spec.OnLine a b as.vals) (w : ω) :
    ∃ rs, detrend as w = .ok rs w ∧ rs.vals.length = as.vals.length ∧ ∀ x ∈ rs.vals, Spec.Exactly x 0 :=
  detrend_run hv ⟨h2, hmax, ha, hb⟩ hl w

/-! ## Cases that meet the hypotheses -/

theorem onLine_ofInt (a b : Int) (n : Nat) (h : ∀ i < n, |4 * (a + b * i)| < 2 ^ 53) :
    Spec.OnLine a b ((List.range n).map fun i : Nat => ofInt double (a + b * i)) := by
  intro i x hx
  obtain ⟨j, hj, rfl⟩ := List.getElem?_map .. ▸ hx |> Option.map_eq_some_iff.1
  obtain ⟨hlt, rfl⟩ := List.getElem?_eq_some_iff.1 hj
  simp only [List.getElem_range] at *
  have := exactly_ofInt (n := a + b * i) (h i (by simpa using hlt))
  push_cast at this
  exact this

/-- 1, 3, 5, 7 -/
def odds : Inp Fp := fps ((List.range 4).map fun i : Nat => ofInt double (1 + 2 * i))

theorem odds_line : Spec.OnLine 1 2 odds.vals := onLine_ofInt 1 2 4 (by decide)

example : ∃ slope start, linearRegressionWithIndex odds () = .ok (slope, start) () ∧ Spec.Exactly slope 2 ∧ Spec.Exactly start 1 := by
  simpa using C155_regression_with_index_partial odds (by simp [odds, fps, Inp.valid, Prelude.dyn]) (by decide) (by decide) 1 2 (by decide)
    (by decide) odds_line ()
example : ∃ slope start, linearRegression (fps ((List.range 4).map fun i : Nat => ofInt double (0 + 1 * i))) odds ()
    = .ok (slope, start) () ∧ Spec.Exactly slope 2 ∧ Spec.Exactly start 1 := by
  simpa using C155_regression_partial (fps ((List.range 4).map fun i : Nat => ofInt double (0 + 1 * i))) odds
    (by simp [fps, Inp.valid, Prelude.dyn]) (by simp [odds, fps, Inp.valid, Prelude.dyn]) (by decide) (by decide) (by decide) 1 2 (by decide) (by decide)
    (onLine_ofInt 0 1 4 (by decide)) odds_line ()
example : ∃ rs, detrend odds () = .ok rs () ∧ rs.vals.length = 4 ∧ ∀ x ∈ rs.vals, Spec.Exactly x 0 :=
  C155_detrend_partial odds (by simp [odds, fps, Inp.valid, Prelude.dyn]) (by decide) (by decide) 1 2 (by decide) (by decide) odds_line ()
example : linearRegressionWithIndex (ω := Unit) odds () = .ok (.fin false 2, .fin false 1) () := by decide +kernel

end Efp.Props
