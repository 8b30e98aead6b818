import Verif.SciFloatAuto
import Verif.Props.SciFloatMore

/-!
# Autocovariance and removal of the mean of floating-point numbers (C142, C143)
-/

namespace Efp.Props

open Efp.Prelude (Inp)
open Efp.Ieee
open Efp.SciFloat

variable {ω : Type} {F : Fmt}

/-! ## C142: autocovariance and autocorrelation at lag zero -/

/-- **C142, autocovariance.**  At lag zero `autocovariance`, adjusted or not, is the `variance`, bit for bit. -/
theorem C142_autocovariance (as : Inp Fp) (hv : as.valid) (hlen : as.vals.length < 2 ^ 31) (bessel adjusted : Bool) (w : ω) :
    autocovariance F bessel adjusted as 0 w = variance F bessel as w := by
  rw [autocovariance_zero hlen, variance_run hv]

example : autocovariance (ω := Unit) double true true (fps [.fin false 1, .fin false 2, .fin false 4]) 0 ()
    = variance double true (fps [.fin false 1, .fin false 2, .fin false 4]) () :=
  C142_autocovariance _ (by trivial) (by decide) _ _ _

/-- **C142 is false.**  The autocorrelation at lag zero of a constant sequence is NaN, of a single element too, and so it is if
the variance overflows. -/
theorem C142_refuted :
    autocorrelation (ω := Unit) double false false (fps [.fin false 5, .fin false 5]) 0 () = .ok .nan () ∧
    autocorrelation (ω := Unit) double false true (fps [.fin false 3]) 0 () = .ok .nan () ∧
    autocorrelation (ω := Unit) double false false (fps [dblMax, .fin false 1]) 0 () = .ok .nan () := by
  refine ⟨?_, ?_, ?_⟩ <;> decide +kernel

/-- **C142, what holds.**  The autocorrelation at lag zero is exactly 1 if the computed variance is a number other than zero, and
NaN otherwise. -/
theorem C142_autocorrelation_partial (hF : F.Ok) (as : Inp Fp) (hv : as.valid) (hlen : as.vals.length < 2 ^ 31)
    (bessel adjusted : Bool) (w : ω) :
    ∃ v, variance F bessel as w = .ok v w ∧
      ((∃ s m, v = .fin s m ∧ m ≠ 0) → autocorrelation F bessel adjusted as 0 w = .ok (.fin false 1) w) ∧
      ((¬ ∃ s m, v = .fin s m ∧ m ≠ 0) → autocorrelation F bessel adjusted as 0 w = .ok .nan w) := by
  refine ⟨_, variance_run hv bessel w, ?_, ?_⟩
  · rintro ⟨s, m, e, hm⟩
    rw [autocorrelation_zero hv hlen, e, div_self_fp hF s hm]
    rfl
  · intro h
    rw [autocorrelation_zero hv hlen]
    generalize varL F bessel as.vals = v at h
    cases v with
    | nan => rfl
    | inf s => rfl
    | fin s m =>
      have : m = 0 := Decidable.byContradiction fun hm => h ⟨s, m, rfl, hm⟩
      simp [Ieee.div, this]

example : autocorrelation (ω := Unit) double true false (fps [.fin false 1, .fin false 2, .fin false 4]) 0 () = .ok (.fin false 1) () := by
  decide +kernel
example : ∃ v, variance (ω := Unit) double false (fps [.fin false 1, .fin true 7]) () = .ok v () ∧ ∃ s m, v = .fin s m ∧ m ≠ 0 :=
  ⟨.fin false 16, by decide +kernel, false, 16, rfl, by norm_num⟩

/-- **C142, NaN.**  A NaN among the elements makes the autocovariance NaN at every lag below the length. -/
theorem C142_nan (as : Inp Fp) (hlen : as.vals.length < 2 ^ 31) (lag : Nat) (hlag : lag < as.vals.length) (h : .nan ∈ as.vals)
    (bessel adjusted : Bool) (w : ω) : autocovariance F bessel adjusted as lag w = .ok .nan w :=
  autocovariance_nan hlen hlag h bessel adjusted w

example : autocovariance (ω := Unit) single false true (fps [.fin false 1, .fin false 2, .nan]) 1 () = .ok .nan () :=
  C142_nan _ (by decide) 1 (by decide) (by decide) _ _ _

/-- **C142, the terms.**  At a lag up to the length, `autocovariance` is the rounded sum, from left to right, of the rounded
products of the deviations of the elements that many places apart, divided by the length, less one with Bessel's correction
and less the lag if adjusted (these divisors taken in `size_t` before they are rounded). -/
theorem C142_lag (as : Inp Fp) (hlen : as.vals.length < 2 ^ 31) (lag : Nat) (hlag : lag ≤ as.vals.length) (bessel adjusted : Bool)
    (hpos : (if adjusted then lag else 0) + (if bessel then 1 else 0) ≤ as.vals.length) (w : ω) :
    ∃ m, mean F as w = .ok m w ∧
      autocovariance F bessel adjusted as lag w =
        .ok (Ieee.div F (((List.range (as.vals.length - lag)).map fun i =>
            mul F (sub F (as.vals.getD i .nan) m) (sub F (as.vals.getD (i + lag) .nan) m)).foldl (add F) (.fin false 0))
          (ofInt F ((as.vals.length - (if adjusted then lag else 0) - (if bessel then 1 else 0) : Nat) : Int))) w := by
  refine ⟨_, mean_run as w, ?_⟩
  rw [autocovariance_run hlen hlag]
  have e1 : lagProds F (meanL F as.vals) lag as.vals = (List.range (as.vals.length - lag)).map fun i =>
      mul F (sub F (as.vals.getD i .nan) (meanL F as.vals)) (sub F (as.vals.getD (i + lag) .nan) (meanL F as.vals)) := by
    apply List.ext_getElem
    · simp [lagProds]
    · intro i h1 h2
      simp only [lagProds, List.length_map, List.length_zip, List.length_drop] at h1
      have a1 : i < as.vals.length := by omega
      have a2 : i + lag < as.vals.length := by omega
      simp [lagProds, List.getD_eq_getElem?_getD, List.getElem?_eq_getElem a1, List.getElem?_eq_getElem a2, Nat.add_comm lag i]
  have e2 : autoDivisor F bessel adjusted as.vals.length lag
      = ofInt F ((as.vals.length - (if adjusted then lag else 0) - (if bessel then 1 else 0) : Nat) : Int) := by
    unfold autoDivisor
    cases adjusted <;> cases bessel <;> simp only [if_true, if_false, Bool.false_eq_true] at hpos ⊢
    · rfl
    all_goals
      congr 1
      unfold Scientific.subLag
      omega
  rw [e1, e2]
  rfl

example : autocovariance (ω := Unit) double false true (fps [.fin false 1, .fin false 2, .fin false 3, .fin false 6]) 2 ()
    = .ok (.fin true (3 / 2)) () := by decide +kernel

/-! ## C143: the mean removed -/

/-- **C143 is false.**  `remove_dc` of finite numbers can be infinite: the mean overflows. -/
theorem C143_refuted : ∃ bs, removeDc (ω := Unit) double (fps [dblMax, dblMax]) () = .ok bs () ∧ bs.vals = [.inf true, .inf true] :=
  ⟨⟨.vector, [.inf true, .inf true], 0, false⟩, by decide +kernel, rfl⟩

/-- **C143, what holds.**  If twice the sum of the magnitudes cannot overflow, `remove_dc` gives for every element a finite
number that differs from the element less the exact average by at most one rounding of that difference and the error of the
mean (C120). -/
theorem C143_remove_dc_partial (hF : F.Ok) (as : Inp Fp) (hv : as.valid) (h0 : as.vals ≠ []) (h64 : as.vals.length < 2 ^ 64)
    (hn : as.vals.length < 2 ^ F.prec) (hl : ∀ x ∈ as.vals, Finite F x)
    (hroom : (1 + unit F) ^ (as.vals.length - 1) * (as.vals.map fun x => |value x|).sum < 2 ^ (F.emax - 1)) (w : ω) :
    ∃ bs, removeDc F as w = .ok bs w ∧ bs.vals.length = as.vals.length ∧
      ∀ (i : Nat) x y, as.vals[i]? = some x → bs.vals[i]? = some y → Finite F y ∧
        |value y - (value x - (as.vals.map value).sum / as.vals.length)| ≤
          unit F * |value x - (as.vals.map value).sum / as.vals.length| +
          (1 + unit F) * (((1 + unit F) ^ as.vals.length - 1) * ((as.vals.map fun x => |value x|).sum / as.vals.length) + tiny F) := by
  refine ⟨_, removeDc_run hv w, by simp [Scientific.outInp], ?_⟩
  intro i x y hx hy
  have hy' : (as.vals.map fun x => sub F x (meanL F as.vals))[i]? = some y := hy
  rw [List.getElem?_map, hx] at hy'
  cases hy'
  exact removeDc_error hF as.vals h0 h64 hn hl hroom (List.mem_of_getElem? hx)

example : ∃ bs, removeDc (ω := Unit) double (fps [tenth, quarter]) () = .ok bs () ∧ bs.vals.length = 2 ∧
    ∀ (i : Nat) x y, [tenth, quarter][i]? = some x → bs.vals[i]? = some y → Finite double y := by
  obtain ⟨bs, h1, h2, h3⟩ := C143_remove_dc_partial double_ok (fps [tenth, quarter]) (by trivial) (by decide) (by decide) (by decide)
    (by
      intro x hx
      rcases List.mem_cons.1 hx with rfl | hx
      · exact tenth_finite
      · rcases List.mem_cons.1 hx with rfl | hx
        · exact quarter_finite
        · cases hx)
    (by decide +kernel) ()
  exact ⟨bs, h1, h2, fun i x y hx hy => (h3 i x y hx hy).1⟩

end Efp.Props
