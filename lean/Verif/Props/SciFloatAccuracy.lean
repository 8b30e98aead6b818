import Verif.SciFloatAccuracy
import Verif.Props.SciFloat

/-!
# Accuracy of the error measures of floating-point numbers (C174)

`Finite F x`: `x` is a finite number of the format `F`; `value x` is the number it stands for; `unit F` is the unit roundoff,
`2^-53` for `double` (`Verif.Spec.Ieee`).
-/

namespace Efp.Props

open Efp.Prelude (Inp)
open Efp.Ieee
open Efp.SciFloat

variable {ω : Type} {F : Fmt}

/-- the exact sum of the squares -/
def sumSquares (ds : List ℚ) : ℚ := (ds.map fun d => d ^ 2).sum

/-- The numbers can be squared, and the mean of the squares taken, without leaving the normal numbers of the format: no number is so
small, unless it is zero, and their sum is not so large. -/
def InRange (F : Fmt) (ds : List ℚ) : Prop :=
  (∀ d ∈ ds, d = 0 ∨ 2 * ds.length * 2 ^ (F.emin + F.prec - 1) ≤ d ^ 2) ∧ sumSquares ds < 2 ^ (F.emax - 1)

/-- the exact differences of the elements at the same position -/
def differences (as bs : List Fp) : List ℚ := List.zipWith (fun a b => value a - value b) as bs

theorem sq_le_sumSquares {ds : List ℚ} {d : ℚ} (h : d ∈ ds) : d ^ 2 ≤ sumSquares ds :=
  List.single_le_sum (by
    intro x hx
    obtain ⟨y, -, rfl⟩ := List.mem_map.1 hx
    exact sq_nonneg y) _ (List.mem_map.2 ⟨d, h, rfl⟩)

theorem InRange.item {ds : List ℚ} (h : InRange F ds) {d : ℚ} (hd : d ∈ ds) :
    (d = 0 ∨ 2 * 2 ^ (F.emin + F.prec - 1) ≤ d ^ 2) ∧ d ^ 2 < 2 ^ (F.emax - 1) := by
  refine ⟨(h.1 d hd).imp id fun h' => ?_, lt_of_le_of_lt (sq_le_sumSquares hd) h.2⟩
  have hn : (1 : ℚ) ≤ ds.length := by exact_mod_cast List.length_pos_of_mem hd
  have := zpow_pos2 (F.emin + F.prec - 1)
  nlinarith

theorem InRange.mean {ds : List ℚ} (h : InRange F ds) :
    sumSquares ds = 0 ∨ 2 * 2 ^ (F.emin + F.prec - 1) ≤ sumSquares ds / ds.length := by
  by_cases hz : ∀ d ∈ ds, d = 0
  · left
    apply List.sum_eq_zero
    intro x hx
    obtain ⟨y, hy, rfl⟩ := List.mem_map.1 hx
    rw [hz y hy]; norm_num
  · right
    push Not at hz
    obtain ⟨d, hd, hd0⟩ := hz
    have hn : (0 : ℚ) < ds.length := by exact_mod_cast List.length_pos_of_mem hd
    rw [le_div_iff₀ hn]
    have := (h.1 d hd).resolve_left hd0
    have := sq_le_sumSquares hd
    linarith

/-- what the sums of the squares need of the numbers that are squared -/
theorem squares_near (hF : F.Ok) {es : List Fp} {ds : List ℚ} (h : InRange F ds)
    (he : List.Forall₂ (fun e d => Finite F e ∧ Near F 3 (value e) (d ^ 2)) es ds) (h0 : ds ≠ []) (h64 : ds.length < 2 ^ 64)
    (hu : (ds.length + 3) * unit F ≤ 1 / 2) :
    (Finite F (sumL F es) ∧ Near F (ds.length + 2) (value (sumL F es)) (sumSquares ds)) ∧
    Finite F (meanL F es) ∧ Near F (ds.length + 3) (value (meanL F es)) (sumSquares ds / ds.length) := by
  have hlen := he.length_eq
  have hpos := List.length_pos_iff.2 h0
  have hu0 := unit_pos F
  have hs := sumL_near hF (k := 3) es (ds.map fun d => d ^ 2) (by
      rw [List.forall₂_map_right_iff]; exact he) (by
      rw [show 3 + (es.length - 1) = ds.length + 2 by omega]
      push_cast
      nlinarith) (by have := h.2; rw [emax_half]; unfold sumSquares at this; linarith)
  rw [show 3 + (es.length - 1) = ds.length + 2 by omega] at hs
  refine ⟨hs, ?_⟩
  have hp : ds.length < 2 ^ F.prec := by
    have h1 : (ds.length : ℚ) * unit F < 1 := by nlinarith
    have h2 : unit F * 2 ^ F.prec = 1 := by
      unfold unit
      rw [zpow_neg, zpow_natCast]
      exact inv_mul_cancel₀ (by positivity)
    have h3 : (ds.length : ℚ) < 2 ^ F.prec := by
      by_contra hc
      push Not at hc
      nlinarith
    exact_mod_cast h3
  have hd := div_near hF hs.1 hs.2 (by push_cast; nlinarith) hpos h64 hp h.mean
  unfold meanL
  rw [hlen]
  exact hd

theorem errors_near (hF : F.Ok) : ∀ (as bs : List Fp), (∀ x ∈ as, Finite F x) → (∀ x ∈ bs, Finite F x) →
    (∀ d ∈ differences as bs, (d = 0 ∨ 2 * 2 ^ (F.emin + F.prec - 1) ≤ d ^ 2) ∧ d ^ 2 < 2 ^ (F.emax - 1)) →
    List.Forall₂ (fun e d => Finite F e ∧ Near F 3 (value e) (d ^ 2)) ((as.zip bs).map fun p => square F (sub F p.1 p.2))
      (differences as bs)
  | [], _, _, _, _ => by simp [differences]
  | _ :: _, [], _, _, _ => by simp [differences]
  | a :: as, b :: bs, ha, hb, h => by
    simp only [differences, List.zipWith_cons_cons, List.zip_cons_cons, List.map_cons] at h ⊢
    obtain ⟨h1, h2⟩ := h (value a - value b) (by simp)
    obtain ⟨s1, s2⟩ := sub_near hF (ha a (by simp)) (hb b (by simp)) h2
    exact .cons (square_near hF s1 s2 h1 h2)
      (errors_near hF as bs (fun x hx => ha x (by simp [hx])) (fun x hx => hb x (by simp [hx])) fun d hd => h d (List.mem_cons_of_mem _ hd))

theorem squares_near' (hF : F.Ok) : ∀ (as : List Fp), (∀ x ∈ as, Finite F x) →
    (∀ d ∈ as.map value, (d = 0 ∨ 2 * 2 ^ (F.emin + F.prec - 1) ≤ d ^ 2) ∧ d ^ 2 < 2 ^ (F.emax - 1)) →
    List.Forall₂ (fun e d => Finite F e ∧ Near F 3 (value e) (d ^ 2)) (as.map (square F)) (as.map value)
  | [], _, _ => by simp
  | a :: as, ha, h => by
    obtain ⟨h1, h2⟩ := h (value a) (by simp)
    have hN : Near F 0 |value a| |value a| := ⟨abs_nonneg _, by simp, by simp⟩
    exact .cons (square_near hF (ha a (by simp)) (hN.mono hF (Nat.zero_le _)) h1 h2)
      (squares_near' hF as (fun x hx => ha x (by simp [hx])) fun d hd => h d (List.mem_cons_of_mem _ hd))

theorem nonneg_fin {x : Fp} (h : NonNeg x) (hf : Finite F x) : x = .fin false (value x) := by
  rcases h with rfl | ⟨m, -, rfl⟩
  · obtain ⟨_, _, e, _⟩ := hf
    cases e
  · rfl

/-- **C174.**  `sse`, `mse` and `rmse` of finite data in range are finite and off by a relative error of at most `2(n+2)`, `2(n+3)`
and, for its square, `2(n+5)` times the unit roundoff, where `n` is the number of differences. -/
theorem C174_errors (hF : F.Ok) (as bs : Inp Fp) (hva : as.valid) (hvb : bs.valid) (hfa : ∀ x ∈ as.vals, Finite F x)
    (hfb : ∀ x ∈ bs.vals, Finite F x) {n : Nat} (hn : n = (differences as.vals bs.vals).length) (h0 : 0 < n) (h64 : n < 2 ^ 64)
    (hu : (n + 5) * unit F ≤ 1 / 2) (hr : InRange F (differences as.vals bs.vals)) (w : ω) :
    ∃ s m r, sse F as bs w = .ok s w ∧ mse F as bs w = .ok m w ∧ rmse F as bs w = .ok r w ∧
      Finite F s ∧ Finite F m ∧ Finite F r ∧ 0 ≤ value r ∧
      |value s - sumSquares (differences as.vals bs.vals)| ≤ 2 * ((n + 2) * unit F) * sumSquares (differences as.vals bs.vals) ∧
      |value m - sumSquares (differences as.vals bs.vals) / n| ≤ 2 * ((n + 3) * unit F) * (sumSquares (differences as.vals bs.vals) / n) ∧
      |value r ^ 2 - sumSquares (differences as.vals bs.vals) / n| ≤ 2 * ((n + 5) * unit F) * (sumSquares (differences as.vals bs.vals) / n) := by
  subst hn
  have hu0 := unit_pos F
  obtain ⟨⟨s1, s2⟩, m1, m2⟩ := squares_near hF hr (errors_near hF _ _ hfa hfb fun d hd => hr.item hd) (List.length_pos_iff.1 h0) h64
    (by nlinarith)
  have hz : (as.vals.zip bs.vals).map (fun p => square F (sub F p.1 p.2)) ≠ [] := by
    apply List.length_pos_iff.1
    simpa [differences] using h0
  have hnn := meanL_nonneg hF hz (by simpa [differences] using h64) (errors_nonneg hF hfa hfb)
  obtain ⟨r1, r2, r3⟩ := sqrt_near hF m1 (nonneg_fin hnn m1) m2 (by push_cast; nlinarith)
    (hr.mean.imp (fun h => by rw [h, zero_div]) id)
  have e1 := s2.error hF (by push_cast; nlinarith)
  have e2 := m2.error hF (by push_cast; nlinarith)
  have e3 := r2.error hF (by push_cast; nlinarith)
  push_cast at e1 e2 e3
  exact ⟨_, _, _, sse_run hva hvb w, mse_run hva hvb w, rmse_run hva hvb w, s1, m1, r1, r3, e1, e2, by
    rw [show ((differences as.vals bs.vals).length : ℚ) + 3 + 2 = (differences as.vals bs.vals).length + 5 by ring] at e3
    exact e3⟩

/-- **C174.**  So does `rms` of finite data in range. -/
theorem C174_rms (hF : F.Ok) (as : Inp Fp) (hva : as.valid) (hfa : ∀ x ∈ as.vals, Finite F x)
    {n : Nat} (hn : n = as.vals.length) (h0 : 0 < n) (h64 : n < 2 ^ 64)
    (hu : (n + 5) * unit F ≤ 1 / 2) (hr : InRange F (as.vals.map value)) (w : ω) :
    ∃ r, rms F as w = .ok r w ∧ Finite F r ∧ 0 ≤ value r ∧
      |value r ^ 2 - sumSquares (as.vals.map value) / n| ≤ 2 * ((n + 5) * unit F) * (sumSquares (as.vals.map value) / n) := by
  subst hn
  have hu0 := unit_pos F
  obtain ⟨-, m1, m2⟩ := squares_near hF hr (squares_near' hF _ hfa fun d hd => hr.item hd) (by simpa using List.length_pos_iff.1 h0)
    (by simpa using h64) (by rw [List.length_map]; nlinarith)
  have hmean := hr.mean
  rw [List.length_map] at m2 hmean
  have hnn := meanL_nonneg hF (l := as.vals.map (square F)) (by simpa using List.length_pos_iff.1 h0) (by simpa using h64) (squares_nonneg hfa)
  obtain ⟨r1, r2, r3⟩ := sqrt_near hF m1 (nonneg_fin hnn m1) m2 (by push_cast; nlinarith) (hmean.imp (fun h => by rw [h, zero_div]) id)
  have e3 := r2.error hF (by push_cast; nlinarith)
  push_cast at e3
  refine ⟨_, rms_run hva w, r1, r3, ?_⟩
  rw [show (as.vals.length : ℚ) + 3 + 2 = as.vals.length + 5 by ring] at e3
  exact e3

example : InRange double (differences [.fin false 3, .fin false 1] [.fin false 1, .fin false 1]) ∧ ((2 : Nat) + 5) * unit double ≤ 1 / 2 ∧
    mse (ω := Unit) double (fps [.fin false 3, .fin false 1]) (fps [.fin false 1, .fin false 1]) () = .ok (.fin false 2) () := by
  refine ⟨⟨?_, ?_⟩, ?_, ?_⟩ <;> decide +kernel

/-- **C174, why the range matters.**  `rmse({2^600}, {0})` is infinite and `rmse({2^-600}, {0})` is zero. -/
theorem C174_out_of_range :
    rmse (ω := Unit) double (fps [.fin false (2 ^ 600)]) (fps [.fin false 0]) () = .ok (.inf false) () ∧
    rmse (ω := Unit) double (fps [.fin false (1 / 2 ^ 600)]) (fps [.fin false 0]) () = .ok zero () := by
  refine ⟨?_, ?_⟩ <;> decide +kernel

end Efp.Props
