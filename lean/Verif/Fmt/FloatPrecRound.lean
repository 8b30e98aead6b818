import Verif.Fmt.FloatPrecValue
import Verif.Fmt.BigintPow
import Verif.Spec.FloatPrec

/-!
# Digits of floating-point numbers with a given precision: both ways to find them round correctly
-/

namespace Efp
namespace Fmt

open Dragonbox
open Spec (Format binary32 binary64 IsRoundEven IsExp10)

/-- rounding by the integer part and a comparison of the rest with one half -/
theorem isRoundEven_of_floor {y : ℚ} {V : Nat} {up : Bool} (h1 : (V : ℚ) ≤ y) (h2 : y < V + 1)
    (hup : up = true ↔ 1 < 2 * (y - V) ∨ 2 * (y - V) = 1 ∧ V % 2 = 1) : IsRoundEven y (if up then V + 1 else V) := by
  unfold IsRoundEven
  cases up with
  | true =>
    have h := hup.1 rfl
    simp only [if_true]
    push_cast
    rw [abs_of_nonpos (by linarith)]
    rcases h with h | ⟨h, ho⟩
    · exact ⟨by linarith, fun h' => by exfalso; linarith⟩
    · exact ⟨by linarith, fun _ => by omega⟩
  | false =>
    have h : ¬ (1 < 2 * (y - V) ∨ 2 * (y - V) = 1 ∧ V % 2 = 1) := fun h => by simpa using hup.2 h
    push Not at h
    simp only [Bool.false_eq_true, if_false]
    rw [abs_of_nonneg (by linarith)]
    refine ⟨by linarith [h.1], fun h' => ?_⟩
    have := h.2 (by linarith)
    omega

theorem toDigits_pow_ten (j : Nat) : Nat.toDigits 10 (10 ^ j) = '1' :: List.replicate j '0' := by
  have hz : ∀ n, padDigits n 0 = List.replicate n '0' := by
    intro n
    induction n with
    | zero => rfl
    | succ n ih => rw [padDigits, Nat.zero_div, ih, List.replicate_succ']
  rw [← padDigits_toDigits j (10 ^ j) (Nat.pow_lt_pow_right (by decide) (by omega)) (.inr (le_refl _)), Nat.add_comm,
    padDigits_add, Nat.div_self (Nat.pos_of_ne_zero (by positivity)), ← padDigits_mod j, Nat.mod_self, hz]
  rfl

/-- what both ways produce: the digits of the rounded number `n` at `10 ^ E`, or with one zero less -/
def digitsOf (n P : Nat) (fixed : Bool) (E : Int) : Str × Int :=
  if fixed = false ∧ n = 10 ^ P then (Nat.toDigits 10 (10 ^ (P - 1)), E + 1) else (Nat.toDigits 10 n, E)

theorem roundUpDigits_eq {P V : Nat} (up fixed : Bool) (E : Int) (hP : 1 ≤ P) (h1 : 10 ^ (P - 1) ≤ V) (h2 : V < 10 ^ P) :
    roundUpDigits (padDigits P V) up fixed E = digitsOf (if up then V + 1 else V) P fixed E := by
  obtain ⟨n, rfl⟩ : ∃ n, P = n + 1 := ⟨P - 1, by omega⟩
  rw [Nat.add_sub_cancel] at h1
  rw [roundUpDigits_spec n V up fixed E h2]
  unfold digitsOf
  by_cases hc : up = true ∧ V + 1 = 10 ^ (n + 1)
  · obtain ⟨rfl, hc⟩ := hc
    simp only [hc, and_self, if_true, and_true, Nat.add_sub_cancel, toDigits_pow_ten]
    cases fixed <;> simp
  · rw [if_neg hc]
    have hn : (if up then V + 1 else V) < 10 ^ (n + 1) := by
      cases up with
      | true =>
        simp only [true_and] at hc
        simp only [if_true]
        omega
      | false => simpa using h2
    generalize hw : (if up then V + 1 else V) = W at *
    have hW : 10 ^ n ≤ W := by rw [← hw]; split <;> omega
    rw [if_neg (fun h => absurd h.2 (by omega)), padDigits_toDigits n _ hn (.inr hW)]

/-- the digits of the first segment are those of the number rounded to them -/
theorem segmentDigits_round {T d P : Nat} {more : Bool} {x : ℚ} (hd : d = 18 ∨ d = 19) (hT1 : 10 ^ (d - 1) ≤ T)
    (hT2 : T < 10 ^ d) (hx1 : (T : ℚ) ≤ x) (hx2 : x < T + 1) (hm : more = true ↔ x ≠ T) (hP : 1 ≤ P) (hPd : P < d) :
    ∃ V up, segmentDigits (T * 10 ^ (19 - d)) more P = .ok (padDigits P V, up) ∧ 10 ^ (P - 1) ≤ V ∧ V < 10 ^ P ∧
      IsRoundEven (x / 10 ^ (d - P)) (if up then V + 1 else V) := by
  have hc : 0 < 10 ^ (19 - d) := Nat.pos_of_ne_zero (by positivity)
  have hS : T * 10 ^ (19 - d) < 10 ^ 19 := by
    calc T * 10 ^ (19 - d) < 10 ^ d * 10 ^ (19 - d) := Nat.mul_lt_mul_of_pos_right hT2 hc
      _ = 10 ^ 19 := by rw [← Nat.pow_add, Nat.add_sub_cancel' (by omega)]
  have hD : 10 ^ (19 - P) = 10 ^ (d - P) * 10 ^ (19 - d) := by rw [← Nat.pow_add, show d - P + (19 - d) = 19 - P by omega]
  have hD0 : 0 < 10 ^ (d - P) := Nat.pos_of_ne_zero (by positivity)
  have hdiv : T * 10 ^ (19 - d) / 10 ^ (19 - P) = T / 10 ^ (d - P) := by rw [hD, Nat.mul_div_mul_right _ _ hc]
  have hmod : T * 10 ^ (19 - d) % 10 ^ (19 - P) = T % 10 ^ (d - P) * 10 ^ (19 - d) := by rw [hD, Nat.mul_mod_mul_right]
  have hspec := segmentDigits_spec more hS hP (by omega)
  rw [hdiv, hmod] at hspec
  refine ⟨T / 10 ^ (d - P), _, hspec, ?_, ?_, ?_⟩
  · rw [Nat.le_div_iff_mul_le hD0, ← Nat.pow_add, show P - 1 + (d - P) = d - 1 by omega]; exact hT1
  · rw [Nat.div_lt_iff_lt_mul hD0, ← Nat.pow_add, show P + (d - P) = d by omega]; exact hT2
  · have hDe : 10 ^ (d - P) % 2 = 0 :=
      Nat.mod_eq_zero_of_dvd (Dvd.dvd.trans (by decide : 2 ∣ 10) (dvd_pow_self _ (by omega)))
    have hcast : ((10 ^ (d - P) : Nat) : ℚ) = 10 ^ (d - P) := by push_cast; rfl
    rw [← hcast]
    have hdm := Nat.div_add_mod T (10 ^ (d - P))
    have hlt := Nat.mod_lt T hD0
    rw [hD]
    generalize 10 ^ (19 - d) = c at *
    generalize 10 ^ (d - P) = D at *
    generalize T / D = V at *
    generalize T % D = t at *
    have hDq : (0 : ℚ) < D := by exact_mod_cast hD0
    have hTq : (T : ℚ) = D * V + t := by rw [← hdm]; push_cast; ring
    have htq : (t : ℚ) + 1 ≤ D := by exact_mod_cast hlt
    have hy : x / D - V = (x - D * V) / D := by field_simp
    have ht0 : (0 : ℚ) ≤ t := by positivity
    apply isRoundEven_of_floor
    · rw [le_div_iff₀ hDq]; linarith [mul_comm (D : ℚ) V]
    · rw [div_lt_iff₀ hDq]; linarith [mul_comm (D : ℚ) V, show ((V : ℚ) + 1) * D = D * V + D by ring]
    · rw [decide_eq_true_eq, hy]
      have e1 : D * c < 2 * (t * c) ↔ D < 2 * t := by
        rw [show 2 * (t * c) = 2 * t * c by ring]
        exact ⟨fun h => Nat.lt_of_mul_lt_mul_right h, fun h => Nat.mul_lt_mul_of_pos_right h hc⟩
      have e2 : 2 * (t * c) = D * c ↔ 2 * t = D := by
        rw [show 2 * (t * c) = 2 * t * c by ring]
        exact ⟨fun h => Nat.eq_of_mul_eq_mul_right hc h, fun h => by rw [h]⟩
      rw [e1, e2, hm]
      have e3 : 1 < 2 * ((x - D * V) / D) ↔ (D : ℚ) < 2 * (x - D * V) := by
        rw [← mul_div_assoc, lt_div_iff₀ hDq, one_mul]
      have e4 : 2 * ((x - D * V) / D) = 1 ↔ 2 * (x - D * V) = (D : ℚ) := by
        rw [← mul_div_assoc, div_eq_iff hDq.ne', one_mul]
      rw [e3, e4]
      rcases Nat.lt_trichotomy (2 * t) D with h | h | h
      · have : 2 * t + 2 ≤ D := by omega
        have : (2 * t + 2 : ℚ) ≤ D := by exact_mod_cast this
        refine iff_of_false ?_ ?_
        · rintro (h' | ⟨h', -⟩) <;> omega
        · rintro (h' | ⟨h', -⟩) <;> linarith
      · have hq : (2 * t : ℚ) = D := by exact_mod_cast h
        constructor
        · rintro (h' | ⟨-, h' | h'⟩)
          · omega
          · by_cases hxT : x = T
            · right; exact ⟨by rw [hxT, hTq]; linarith, h'⟩
            · left
              have : (T : ℚ) < x := lt_of_le_of_ne hx1 (Ne.symm hxT)
              linarith
          · left
            have : (T : ℚ) < x := lt_of_le_of_ne hx1 (Ne.symm h')
            linarith
        · rintro (h' | ⟨h', ho⟩)
          · right
            refine ⟨h, .inr fun hxT => ?_⟩
            rw [hxT, hTq] at h'
            linarith
          · right; exact ⟨h, .inl ho⟩
      · have hq : (D : ℚ) < 2 * t := by exact_mod_cast h
        exact iff_of_true (.inl h) (.inl (by linarith))

/-! ## Long division -/

open Bigint in
/-- the digits of the quotient, one by one -/
theorem dragonDigits_spec {den : Bigint} (hd : Norm den) (h0 : 0 < toNat den) : ∀ (n : Nat) (a : Bigint), Norm a →
    toNat a < 10 * toNat den →
    (a.exp ≤ den.exp ∨ 0 < toNat a ∧ toNat den ≤ toNat a ∧ (toNat den ≠ toNat a ∨ den.bigits.head? ≠ some 0)) →
    ∃ r, dragonDigits den n a = .ok (padDigits n (toNat a * 10 ^ n / (10 * toNat den)), r) ∧ Norm r ∧
      toNat r = toNat a * 10 ^ n % (10 * toNat den) ∧ (n = 0 → r = a) ∧ (0 < n → r.exp ≤ den.exp) := by
  intro n
  induction n with
  | zero =>
    intro a ha hlt _
    refine ⟨a, rfl, ha, ?_, fun _ => rfl, fun h => by omega⟩
    rw [Nat.pow_zero, Nat.mul_one, Nat.mod_eq_of_lt hlt]
  | succ n ih =>
    intro a ha hlt he
    obtain ⟨r, g1, g2, g3, g4⟩ := divmodAssign_spec ha hd h0 hlt he
    obtain ⟨s, k1, k2, k3, k4⟩ := mul_spec g2 (value := 10) (by decide) (by decide)
    have hrlt : toNat r < toNat den := by rw [g3]; exact Nat.mod_lt _ h0
    obtain ⟨w, m1, m2, m3, m4, m5⟩ := ih s k2 (by rw [k3]; omega) (.inl (by rw [k4]; exact g4))
    have hdm := Nat.div_add_mod (toNat a) (toNat den)
    rw [← g3] at hdm
    have hten : toNat a / toNat den < 10 := (Nat.div_lt_iff_lt_mul h0).2 hlt
    rw [k3] at m1 m3
    unfold dragonDigits
    rw [g1, ok_bind]
    simp only
    rw [k1, ok_bind, m1, ok_bind]
    generalize toNat den = D at *
    generalize toNat r = R at *
    generalize toNat a = A at *
    generalize hq : A / D = q at *
    have e1 : R * 10 * 10 ^ n / (10 * D) = R * 10 ^ n / D := by
      rw [show R * 10 * 10 ^ n = 10 * (R * 10 ^ n) by ring, Nat.mul_div_mul_left _ _ (by decide)]
    have e2 : A * 10 ^ (n + 1) / (10 * D) = q * 10 ^ n + R * 10 ^ n / D := by
      rw [show A * 10 ^ (n + 1) = 10 * (A * 10 ^ n) by ring, Nat.mul_div_mul_left _ _ (by decide), ← hdm,
        show (D * q + R) * 10 ^ n = D * (q * 10 ^ n) + R * 10 ^ n by ring, Nat.mul_add_div h0]
    have hsm : R * 10 ^ n / D < 10 ^ n := by
      rw [Nat.div_lt_iff_lt_mul h0, Nat.mul_comm]
      exact Nat.mul_lt_mul_of_pos_left hrlt (Nat.pos_of_ne_zero (by positivity))
    refine ⟨w, ?_, m2, ?_, fun h => by omega, fun _ => ?_⟩
    · rw [e1, e2]
      simp only
      rw [Nat.add_comm n 1, padDigits_add, ← padDigits_mod n (q * 10 ^ n + _)]
      rw [Nat.mul_comm q, Nat.mul_add_div (Nat.pos_of_ne_zero (by positivity)), Nat.div_eq_of_lt hsm, Nat.add_zero,
        Nat.mul_add_mod, Nat.mod_eq_of_lt hsm, padDigits_one _ hten]
      rfl
    · rw [m3, show A * 10 ^ (n + 1) = 10 * (A * 10 ^ n) by ring, ← hdm,
        show 10 * ((D * q + R) * 10 ^ n) = 10 * D * (q * 10 ^ n) + R * 10 * 10 ^ n by ring, Nat.mul_add_mod]
    · rcases Nat.eq_zero_or_pos n with hn | hn
      · rw [m4 hn, k4]; exact g4
      · exact m5 hn

open Bigint in
/-- numerator and denominator are in the ratio of the number to the power of 10 of its first digit -/
theorem dragonStart_spec {f : Nat} {e k : Int} (closer : Bool) (hf0 : 0 < f) (hf : f < 2 ^ 53) (he1 : -1074 ≤ e)
    (he2 : e ≤ 971) (hk1 : -1000 < k) (hk2 : k < 1000) (hx : IsExp10 (f * 2 ^ e) k) :
    ∃ a d, dragonStart f e closer k = .ok (a, d) ∧ Norm a ∧ Norm d ∧ 0 < toNat d ∧
      (toNat a : ℚ) = toNat d * (f * 2 ^ e / 10 ^ k) ∧
      (a.exp ≤ d.exp ∨ 0 < toNat a ∧ toNat d ≤ toNat a ∧ (toNat d ≠ toNat a ∨ d.bigits.head? ≠ some 0)) := by
  obtain ⟨hx1, hx2⟩ := hx
  obtain ⟨s, hs, hs1, hs2⟩ : ∃ s : Nat, (if closer = true then (2 : Int) else 1) = (s : Int) ∧ 1 ≤ s ∧ s ≤ 2 := by
    cases closer
    · exact ⟨1, rfl, by omega, by omega⟩
    · exact ⟨2, rfl, by omega, by omega⟩
  have hfq : (1 : ℚ) ≤ f := by exact_mod_cast hf0
  unfold dragonStart
  simp only [hs]
  by_cases h0 : e ≥ 0
  · rw [if_pos h0]
    obtain ⟨e, rfl⟩ := Int.eq_ofNat_of_zero_le h0
    rw [zpow_natCast] at *
    have hk0 : 0 ≤ k := by
      by_contra hc
      have h1 : (1 : ℚ) ≤ f * 2 ^ e := by
        have : (1 : ℚ) ≤ 2 ^ e := one_le_pow₀ (by norm_num)
        nlinarith
      have h2 : (10 : ℚ) ^ (k + 1) ≤ 10 ^ (0 : Int) := zpow_le_zpow_right₀ (by norm_num) (by omega)
      rw [zpow_zero] at h2
      linarith
    obtain ⟨k, rfl⟩ := Int.eq_ofNat_of_zero_le hk0
    rw [zpow_natCast] at *
    obtain ⟨a, a1, a2, a3, a4⟩ := ofNat_spec hf0 (by omega)
    obtain ⟨b, b1, b2, b3, b4⟩ := shiftLeft_spec a2 (e + s)
    obtain ⟨c, c1, c2, c3, c4⟩ := pow10_spec k (by omega)
    obtain ⟨d, d1, d2, d3, d4⟩ := shiftLeft_spec c2 s
    push_cast at b1
    have hd0 : 0 < toNat d := by rw [d3, c3]; positivity
    refine ⟨b, d, ?_, b2, d2, hd0, ?_, ?_⟩
    · show (ofNat f >>= _) = _
      rw [a1, ok_bind, b1, ok_bind, c1, ok_bind, d1, ok_bind]
    · rw [b3, d3, a3, c3]
      push_cast
      rw [pow_add]
      field_simp
    · rw [b4, d4, a4, c4, b3, d3, a3, c3, Nat.pow_add]
      have hle : 10 ^ k ≤ f * 2 ^ e := by exact_mod_cast hx1
      have hle' : 10 ^ k * 2 ^ s ≤ f * (2 ^ e * 2 ^ s) := by rw [← Nat.mul_assoc]; exact Nat.mul_le_mul_right _ hle
      by_cases heq : 10 ^ k = f * 2 ^ e
      · left
        have h10 : (10 : Nat) ^ k = 2 ^ k * 5 ^ k := by rw [← Nat.mul_pow]
        have hek : e ≤ k := by
          have : 2 ^ e ∣ 2 ^ k * 5 ^ k := by rw [← h10, heq]; exact Dvd.intro_left _ rfl
          have := (Nat.Coprime.pow e k (by decide : Nat.Coprime 2 5)).dvd_of_dvd_mul_right this
          exact (Nat.pow_dvd_pow_iff_le_right (by decide)).1 this
        have hk23 : k < 23 := by
          have : 5 ^ k ∣ f * 2 ^ e := by rw [← heq, h10]; exact Dvd.intro_left _ rfl
          have := (Nat.Coprime.pow k e (by decide : Nat.Coprime 5 2)).dvd_of_dvd_mul_right this
          have h5 := Nat.le_of_dvd hf0 this
          by_contra hc
          have : 5 ^ 23 ≤ 5 ^ k := Nat.pow_le_pow_right (by decide) (by omega)
          have : (2 : Nat) ^ 53 ≤ 5 ^ 23 := by decide
          omega
        omega
      · right
        refine ⟨by positivity, hle', .inl ?_⟩
        rw [← Nat.mul_assoc]
        intro h
        exact heq (Nat.eq_of_mul_eq_mul_right (Nat.two_pow_pos s) h)
  · rw [if_neg h0]
    obtain ⟨j, hj⟩ : ∃ j : Nat, e = -(j : Int) := ⟨e.natAbs, by omega⟩
    subst hj
    by_cases hk0 : k < 0
    · rw [if_pos hk0]
      obtain ⟨i, hi⟩ : ∃ i : Nat, k = -(i : Int) := ⟨k.natAbs, by omega⟩
      subst hi
      obtain ⟨a, a1, a2, a3, a4⟩ := pow10_spec i (by omega)
      obtain ⟨b, b1, b2, b3, b4⟩ := mulWide_spec a2 hf0 (by omega)
      obtain ⟨c, c1, c2, c3, c4⟩ := shiftLeft_spec b2 s
      obtain ⟨d, d1, d2, d3, d4⟩ := ofNat_spec (n := 1) (by decide) (by decide)
      obtain ⟨x, x1, x2, x3, x4⟩ := shiftLeft_spec d2 (s + j)
      have hsj : (s : Int) - -(j : Int) = ((s + j : Nat) : Int) := by push_cast; ring
      refine ⟨c, x, ?_, c2, x2, by rw [x3, d3]; positivity, ?_, .inl ?_⟩
      · rw [neg_neg, a1, ok_bind, b1, ok_bind, c1, ok_bind, d1, ok_bind, hsj, x1, ok_bind]
      · rw [c3, b3, a3, x3, d3]
        push_cast
        rw [pow_add, zpow_neg, zpow_neg, zpow_natCast, zpow_natCast]
        field_simp
      · rw [c4, b4, a4, x4, d4]
        have : i ≤ s + j := by
          by_contra hc
          have h1 : (10 : ℚ) ^ (-(i : Int) + 1) ≤ 2 ^ (-(j : Int)) := by
            rw [show -(i : Int) + 1 = -((i - 1 : Nat) : Int) by omega, zpow_neg, zpow_neg, zpow_natCast, zpow_natCast]
            refine inv_anti₀ (by positivity) ?_
            calc (2 : ℚ) ^ j ≤ 2 ^ (i - 1) := pow_le_pow_right₀ (by norm_num) (by omega)
              _ ≤ 10 ^ (i - 1) := pow_le_pow_left₀ (by norm_num) (by norm_num) _
          have h2 : (2 : ℚ) ^ (-(j : Int)) ≤ f * 2 ^ (-(j : Int)) := by
            have : (0 : ℚ) < 2 ^ (-(j : Int)) := by positivity
            nlinarith
          linarith
        omega
    · rw [if_neg hk0]
      obtain ⟨i, rfl⟩ := Int.eq_ofNat_of_zero_le (show 0 ≤ k by omega)
      obtain ⟨a, a1, a2, a3, a4⟩ := ofNat_spec hf0 (by omega)
      obtain ⟨b, b1, b2, b3, b4⟩ := shiftLeft_spec a2 s
      obtain ⟨c, c1, c2, c3, c4⟩ := pow10_spec i (by omega)
      obtain ⟨d, d1, d2, d3, d4⟩ := shiftLeft_spec c2 (s + j)
      have hsj : (s : Int) - -(j : Int) = ((s + j : Nat) : Int) := by push_cast; ring
      refine ⟨b, d, ?_, b2, d2, by rw [d3, c3]; positivity, ?_, .inl ?_⟩
      · rw [a1, ok_bind, b1, ok_bind, c1, ok_bind, hsj, d1, ok_bind]
      · rw [b3, a3, d3, c3]
        push_cast
        rw [pow_add, zpow_neg, zpow_natCast, zpow_natCast]
        field_simp
      · rw [b4, a4, d4, c4]; omega

open Bigint in
/-- `format_dragon` rounds the number to `P` digits -/
theorem formatDragon_spec {f : Nat} {e k : Int} {P : Nat} (closer fixed : Bool) (hf0 : 0 < f) (hf : f < 2 ^ 53)
    (he1 : -1074 ≤ e) (he2 : e ≤ 971) (hk1 : -1000 < k) (hk2 : k < 1000) (hx : IsExp10 (f * 2 ^ e) k) (hP : 1 ≤ P) :
    ∃ n, formatDragon f e closer fixed P k = .ok (digitsOf n P fixed (k + 1 - P)) ∧
      IsRoundEven (f * 2 ^ e / 10 ^ (k + 1 - P)) n := by
  obtain ⟨a, d, g1, ha, hd, h0, hq, he⟩ := dragonStart_spec closer hf0 hf he1 he2 hk1 hk2 hx
  obtain ⟨hx1, hx2⟩ := hx
  have h10 : (0 : ℚ) < 10 ^ k := by positivity
  have hdq : (0 : ℚ) < toNat d := by exact_mod_cast h0
  have hlo : toNat d ≤ toNat a := by
    have : (toNat d : ℚ) ≤ toNat a := by
      rw [hq]
      have : (1 : ℚ) ≤ f * 2 ^ e / 10 ^ k := by rw [le_div_iff₀ h10, one_mul]; exact hx1
      nlinarith
    exact_mod_cast this
  have hhi : toNat a < 10 * toNat d := by
    have : (toNat a : ℚ) < 10 * toNat d := by
      rw [hq]
      have : (f * 2 ^ e / 10 ^ k : ℚ) < 10 := by
        rw [div_lt_iff₀ h10, mul_comm 10, ← zpow_add_one₀ (by norm_num)]; exact hx2
      nlinarith
    exact_mod_cast this
  obtain ⟨m, rfl⟩ : ∃ m, P = m + 1 := ⟨P - 1, by omega⟩
  obtain ⟨r, k1, k2, k3, k4, k5⟩ := dragonDigits_spec hd h0 m a ha hhi he
  have hr : toNat r < 10 * toNat d := by rw [k3]; exact Nat.mod_lt _ (by omega)
  obtain ⟨w, m1, m2, m3, m4⟩ := divmodAssign_spec k2 hd h0 hr (by
    rcases Nat.eq_zero_or_pos m with hm | hm
    · rw [k4 hm]; exact he
    · exact .inl (k5 hm))
  obtain ⟨c1, c2⟩ := addCompare_spec m2 hd h0 m4
  have hto : (((m + 1 : Nat) : Int)).toNat - 1 = m := by omega
  -- the quotient and its last digit
  obtain ⟨V, hV⟩ : ∃ V, V = toNat a * 10 ^ m / toNat d := ⟨_, rfl⟩
  have hD : toNat a * 10 ^ m / (10 * toNat d) = V / 10 := by rw [hV, Nat.div_div_eq_div_mul, Nat.mul_comm 10]
  have hdig : toNat r / toNat d = V % 10 := by
    rw [k3, hV, Nat.mul_comm 10, Nat.mod_mul_right_div_self]
  have hrem : toNat w = toNat a * 10 ^ m % toNat d := by
    rw [m3, k3, Nat.mod_mod_of_dvd _ (Dvd.intro_left 10 rfl)]
  have hV1 : 10 ^ m ≤ V := by
    rw [hV, Nat.le_div_iff_mul_le h0, Nat.mul_comm]; exact Nat.mul_le_mul_right _ hlo
  have hV2 : V < 10 ^ (m + 1) := by
    rw [hV, Nat.div_lt_iff_lt_mul h0, show 10 ^ (m + 1) * toNat d = 10 * toNat d * 10 ^ m by ring]
    exact Nat.mul_lt_mul_of_pos_right hhi (Nat.pos_of_ne_zero (by positivity))
  have hup0 := isRoundEven_of_floor (y := f * 2 ^ e / 10 ^ (k + 1 - ((m + 1 : Nat) : Int))) (V := V)
    (up := decide (toNat d < 2 * toNat w ∨ toNat d = 2 * toNat w ∧ V % 10 % 2 ≠ 0))
  have hy : (f * 2 ^ e / 10 ^ (k + 1 - ((m + 1 : Nat) : Int)) : ℚ) = (toNat a * 10 ^ m : Nat) / toNat d := by
    push_cast
    rw [hq, show k + 1 - ((m : Int) + 1) = k - m by ring, zpow_sub₀ (by norm_num), zpow_natCast]
    field_simp
  have hdm : ((toNat a * 10 ^ m : Nat) : ℚ) = toNat d * V + toNat w := by
    rw [hrem, hV]
    exact_mod_cast (Nat.div_add_mod _ _).symm
  have hwlt : toNat w < toNat d := by rw [hrem]; exact Nat.mod_lt _ h0
  have hwq : (toNat w : ℚ) < toNat d := by exact_mod_cast hwlt
  have hw0 : (0 : ℚ) ≤ toNat w := by positivity
  have hyV : (f * 2 ^ e / 10 ^ (k + 1 - ((m + 1 : Nat) : Int)) : ℚ) = V + toNat w / toNat d := by
    rw [hy, hdm]; field_simp
  have hround := hup0 (by rw [hyV]; have := div_nonneg hw0 hdq.le; linarith)
    (by rw [hyV]; have := (div_lt_one hdq).2 hwq; linarith) (by
      rw [hyV, decide_eq_true_eq, add_sub_cancel_left, ← mul_div_assoc, lt_div_iff₀ hdq, div_eq_iff hdq.ne', one_mul]
      have e1 : (toNat d : ℚ) < 2 * toNat w ↔ toNat d < 2 * toNat w := by exact_mod_cast Iff.rfl
      have e2 : 2 * (toNat w : ℚ) = toNat d ↔ toNat d = 2 * toNat w := by
        rw [eq_comm]; exact_mod_cast Iff.rfl
      rw [e1, e2, show V % 10 % 2 ≠ 0 ↔ V % 2 = 1 by omega])
  refine ⟨_, ?_, hround⟩
  rw [← roundUpDigits_eq _ _ _ (by omega) (by simpa using hV1) hV2]
  unfold formatDragon
  rw [g1, ok_bind]
  simp only
  rw [if_neg (by omega), hto, k1, ok_bind]
  simp only
  rw [m1, ok_bind, hD, hdig]
  simp only
  have hE : k - (((m + 1 : Nat) : Int) - 1) = k + 1 - ((m + 1 : Nat) : Int) := by ring
  rw [hE]
  have hpad : padDigits (m + 1) V = padDigits m (V / 10) ++ [Char.ofNat (48 + V % 10)] := rfl
  by_cases hup : toNat d < 2 * toNat w ∨ toNat d = 2 * toNat w ∧ V % 10 % 2 ≠ 0
  · rw [if_pos (by rw [gt_iff_lt, c1, c2]; exact hup), decide_eq_true hup]
    unfold roundUpDigits
    simp only [if_true]
    rw [hpad, List.reverse_append]
    simp only [List.reverse_cons, List.reverse_nil, List.nil_append, List.singleton_append]
    rw [charSucc_digit _ (Nat.mod_lt _ (by decide))]
    obtain ⟨i1, i2⟩ := carryLoop_spec overTest_gt m V
    obtain ⟨j1, j2⟩ := carryLoop_spec overTest_eq m V
    by_cases h9 : V % 10 = 9
    · rw [if_pos h9]
      rw [h9, show Char.ofNat (48 + (9 + 1)) = ':' from rfl] at i1 i2 j1 j2
      rw [h9, show Char.ofNat (48 + (9 + 1)) = ':' from rfl]
      by_cases hc : V + 1 = 10 ^ (m + 1)
      · rw [i2 hc, j2 hc]
        simp only [List.head?_cons, if_true, List.drop_one, List.tail_cons]
        rw [if_pos (show ':' > '9' by decide)]
        cases fixed <;> rfl
      · rw [i1 (by omega), j1 (by omega)]
        obtain ⟨x, hx, t, ht⟩ : ∃ x < 10, ∃ t, padDigits (m + 1) (V + 1) = Char.ofNat (48 + x) :: t := by
          rw [show m + 1 = 1 + m by omega, padDigits_add]
          exact ⟨_, Nat.mod_lt _ (by decide), padDigits m (V + 1), rfl⟩
        rw [ht]
        simp only [List.head?_cons, Option.some.injEq]
        rw [if_neg (over_digit x hx).2, if_neg (by
          have := (over_digit x hx).1
          simpa using this)]
    · rw [if_neg h9]
      have hlt : V + 1 < 10 ^ (m + 1) := by
        have : 10 ∣ 10 ^ (m + 1) := dvd_pow_self _ (by omega)
        omega
      rw [i1 hlt]
      have hv : padDigits (m + 1) (V + 1) = padDigits m (V / 10) ++ [Char.ofNat (48 + (V % 10 + 1))] := by
        rw [padDigits, show (V + 1) / 10 = V / 10 by omega, show (V + 1) % 10 = V % 10 + 1 by omega]
      obtain ⟨x, hx, t, ht⟩ : ∃ x < 10, ∃ t, padDigits (m + 1) (V + 1) = Char.ofNat (48 + x) :: t := by
        rw [show m + 1 = 1 + m by omega, padDigits_add]
        exact ⟨_, Nat.mod_lt _ (by decide), padDigits m (V + 1), rfl⟩
      rw [← hv, ht]
      simp only
      rw [if_neg (over_digit x hx).2]
  · rw [if_neg (by rw [gt_iff_lt, c1, c2]; exact hup), decide_eq_false hup]
    unfold roundUpDigits
    rw [hpad]
    rfl

end Fmt
end Efp
