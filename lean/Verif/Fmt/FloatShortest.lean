import Verif.Fmt.FloatBest
import Verif.Fmt.DragonboxShort

/-!
# `to_decimal` finds the shortest decimal, for every finite `float` and `double`
-/

namespace Efp
namespace Spec

open Fmt Fmt.Dragonbox

/-- the middles of a number without stored significand bits -/
theorem Format.rounds_iff_short (F : Format) (hs : 0 < F.sig) {m : Nat} (hfin : F.Finite m)
    (hf : F.frac m = 0) (hb : 0 < F.biased m) (q : ℚ) : F.Rounds q m ↔
      ((4 * 2 ^ F.sig - if F.biased m = 1 then 2 else 1 : Nat) : ℚ) * 2 ^ (F.ulp m - 2) ≤ q ∧
        q ≤ ((4 * 2 ^ F.sig + 2 : Nat) : ℚ) * 2 ^ (F.ulp m - 2) := by
  obtain ⟨h1, h2⟩ := F.split m
  have h0 := Nat.two_pow_pos F.sig
  have hm0 : 0 < m := by
    rw [h1]
    have : 0 < F.biased m * 2 ^ F.sig := Nat.mul_pos hb h0
    omega
  rw [F.rounds_iff hm0 hfin, F.mag_succ]
  have hev : m % 2 = 0 := by
    obtain ⟨s, hs'⟩ : ∃ s, F.sig = s + 1 := ⟨F.sig - 1, by omega⟩
    rw [h1, hf, hs', Nat.pow_succ]
    simp [Nat.mul_mod]
  have hmag : F.mag m = 2 ^ F.sig * 2 ^ F.ulp m := by
    rw [F.mag_eq]; unfold Format.full; rw [if_neg (by omega), hf]; simp
  have hulp : F.ulp (m - 1) = F.ulp m - if F.biased m = 1 then 0 else 1 := by
    have hm1 : m - 1 = (F.biased m - 1) * 2 ^ F.sig + (2 ^ F.sig - 1) := by
      obtain ⟨b, hb'⟩ : ∃ b, F.biased m = b + 1 := ⟨F.biased m - 1, by omega⟩
      rw [hb', hf, Nat.add_mul] at h1
      rw [hb', Nat.add_sub_cancel]
      omega
    obtain ⟨h3, -⟩ := F.parts (b := F.biased m - 1) (f := 2 ^ F.sig - 1) (by omega)
    rw [← hm1] at h3
    unfold Format.ulp
    rw [h3]
    split
    · rw [if_neg (by omega), if_pos (by omega), show F.biased m = 1 by omega]; simp
    · rw [if_neg (by omega), if_neg (by omega)]; omega
  have hlo : F.mag (m - 1) = F.mag m - 2 ^ F.ulp (m - 1) := by
    have := F.mag_succ (m - 1)
    rw [show m - 1 + 1 = m by omega] at this
    linarith
  have h4 : (2 : ℚ) ^ F.ulp m = 4 * 2 ^ (F.ulp m - 2) := by
    conv_lhs => rw [show F.ulp m = (F.ulp m - 2) + 2 by ring, zpow_add₀ (by norm_num)]
    norm_num
    ring
  have h2 : (2 : ℚ) ^ (F.ulp m - 1) = 2 * 2 ^ (F.ulp m - 2) := by
    conv_lhs => rw [show F.ulp m - 1 = (F.ulp m - 2) + 1 by ring, zpow_add₀ (by norm_num)]
    norm_num
    ring
  rw [hlo, hulp, hmag]
  have hU : (0 : ℚ) < 2 ^ (F.ulp m - 2) := by positivity
  simp only [hev, and_true]
  rw [show ∀ a b : ℚ, (a < b ∨ a = b) ↔ a ≤ b from fun a b => le_iff_lt_or_eq.symm,
    show ∀ a b : ℚ, (a < b ∨ a = b) ↔ a ≤ b from fun a b => le_iff_lt_or_eq.symm]
  have hup : ((4 * 2 ^ F.sig + 2 : Nat) : ℚ) = 4 * 2 ^ F.sig + 2 := by push_cast; ring
  rw [hup]
  by_cases hb1 : F.biased m = 1
  · rw [if_pos hb1, if_pos hb1, Nat.cast_sub (by omega)]
    push_cast
    rw [sub_zero, h4]
    constructor <;> rintro ⟨g1, g2⟩ <;> constructor <;> nlinarith
  · rw [if_neg hb1, if_neg hb1, Nat.cast_sub (by omega)]
    push_cast
    rw [h2, h4]
    constructor <;> rintro ⟨g1, g2⟩ <;> constructor <;> nlinarith

/-- the checked decimal, unscaled -/
theorem Format.best_of_short (F : Format) (hs : 0 < F.sig) {m : Nat} (hfin : F.Finite m)
    (hf : F.frac m = 0) (hb : 0 < F.biased m) {X Y n : Nat} {E : Int} (hY : 0 < Y)
    (hXY : (X : ℚ) * 10 ^ (E - 1) = Y * 2 ^ (F.ulp m - 2))
    (h : okShort (2 ^ F.sig) (4 * 2 ^ F.sig - if F.biased m = 1 then 2 else 1) n X Y = true) :
    0 < n ∧ n < 20 * 2 ^ F.sig ∧ Best (F.Rounds · m) (F.mag m) n E := by
  have hI := F.rounds_iff_short hs hfin hf hb
  generalize hlo : (4 * 2 ^ F.sig - if F.biased m = 1 then 2 else 1 : Nat) = lo at *
  generalize hhi : (4 * 2 ^ F.sig + 2 : Nat) = hi at *
  have hmag : 2 * F.mag m = ((8 * 2 ^ F.sig : Nat) : ℚ) * 2 ^ (F.ulp m - 2) := by
    rw [F.mag_eq]; unfold Format.full; rw [if_neg (by omega), hf]
    conv_lhs => rw [show F.ulp m = (F.ulp m - 2) + 2 by ring, zpow_add₀ (by norm_num)]
    push_cast
    norm_num
    ring
  generalize (2 : ℚ) ^ (F.ulp m - 2) = U at *
  have hS : (0 : ℚ) < 10 ^ (E - 1) := by positivity
  have hS10 : (10 : ℚ) ^ E = 10 * 10 ^ (E - 1) := by
    conv_lhs => rw [show E = (E - 1) + 1 by ring, zpow_add₀ (by norm_num), zpow_one]
    ring
  have hS100 : (10 : ℚ) ^ (E + 1) = 100 * 10 ^ (E - 1) := by
    conv_lhs => rw [show E + 1 = (E - 1) + 2 by ring, zpow_add₀ (by norm_num)]
    norm_num
    ring
  have hYq : (0 : ℚ) < Y := by exact_mod_cast hY
  have eL : ∀ z : ℚ, z * U * Y = z * X * 10 ^ (E - 1) := by intro z; rw [mul_assoc z U, mul_comm U, ← hXY]; ring
  have c1 : ∀ a k : Nat, ((a : ℚ) * U ≤ k * 10 ^ (E - 1) ↔ a * X ≤ k * Y) := by
    intro a k
    rw [← mul_le_mul_iff_left₀ hYq, eL, show (k : ℚ) * 10 ^ (E - 1) * Y = (k * Y) * 10 ^ (E - 1) by ring,
      mul_le_mul_iff_left₀ hS]
    norm_cast
  have c2 : ∀ a k : Nat, ((k : ℚ) * 10 ^ (E - 1) ≤ a * U ↔ k * Y ≤ a * X) := by
    intro a k
    rw [← mul_le_mul_iff_left₀ hYq, eL, show (k : ℚ) * 10 ^ (E - 1) * Y = (k * Y) * 10 ^ (E - 1) by ring,
      mul_le_mul_iff_left₀ hS]
    norm_cast
  have c3 : ∀ a k : Nat, ((k : ℚ) * 10 ^ (E - 1) = a * U ↔ k * Y = a * X) := by
    intro a k
    rw [le_antisymm_iff, c1, c2, ← Nat.le_antisymm_iff]
  have hI' : ∀ k : Nat, F.Rounds (k * 10 ^ (E - 1)) m ↔ lo * X ≤ k * Y ∧ k * Y ≤ hi * X := by
    intro k
    rw [hI, c1, c2]
  simp only [okShort, force_eq, hhi, Bool.and_eq_true, Bool.or_eq_true, decide_eq_true_eq] at h
  obtain ⟨⟨⟨⟨⟨⟨⟨hn, hnlt⟩, hmem1⟩, hmem2⟩, hnone⟩, hbelow⟩, habove⟩, hdigit⟩ := h
  have hn1 : ((n - 1 : Nat) : ℚ) = n - 1 := by rw [Nat.cast_sub (by omega)]; simp
  have hn2 : ((2 * n - 1 : Nat) : ℚ) = 2 * n - 1 := by rw [Nat.cast_sub (by omega)]; push_cast; ring
  refine ⟨hn, hnlt, ⟨?_, ?_, ?_, ?_, ?_⟩⟩
  · show F.Rounds _ m
    rw [hS10, show (n : ℚ) * (10 * 10 ^ (E - 1)) = ((10 * n : Nat) : ℚ) * 10 ^ (E - 1) by push_cast; ring, hI']
    exact ⟨hmem1, hmem2⟩
  · intro k hk
    rw [hS100, show (k : ℚ) * (100 * 10 ^ (E - 1)) = ((100 * k : Nat) : ℚ) * 10 ^ (E - 1) by push_cast; ring, hI'] at hk
    obtain ⟨k1, k2⟩ := hk
    have hk' : k ≤ hi * X / (100 * Y) := by
      rw [Nat.le_div_iff_mul_le (by omega)]
      calc k * (100 * Y) = 100 * k * Y := by ring
        _ ≤ _ := k2
    have : 100 * k * Y ≤ 100 * (hi * X / (100 * Y)) * Y := Nat.mul_le_mul_right _ (Nat.mul_le_mul_left _ hk')
    omega
  · intro hk
    rw [hS10, ← hn1, show ((n - 1 : Nat) : ℚ) * (10 * 10 ^ (E - 1)) = ((10 * (n - 1) : Nat) : ℚ) * 10 ^ (E - 1) by
      push_cast; ring, hI'] at hk
    rw [hS10, ← hn2, show ((2 * n - 1 : Nat) : ℚ) * (10 * 10 ^ (E - 1)) = (((2 * n - 1) * 10 : Nat) : ℚ) * 10 ^ (E - 1) by
      push_cast; ring, hmag, c2, c3]
    rcases hbelow with (hb | hb) | hb
    · omega
    · exact ⟨by omega, by omega⟩
    · exact ⟨by omega, fun _ => hb.2⟩
  · intro hk
    rw [hS10, show ((n : ℚ) + 1) * (10 * 10 ^ (E - 1)) = ((10 * (n + 1) : Nat) : ℚ) * 10 ^ (E - 1) by
      push_cast; ring, hI'] at hk
    rw [hS10, show (2 * (n : ℚ) + 1) * (10 * 10 ^ (E - 1)) = (((2 * n + 1) * 10 : Nat) : ℚ) * 10 ^ (E - 1) by
      push_cast; ring, hmag, c1, eq_comm, c3]
    rcases habove with (hb | hb) | hb
    · omega
    · exact ⟨by omega, by omega⟩
    · exact ⟨by omega, fun _ => hb.2⟩
  · intro hk _
    rw [show (9 : ℚ) * 10 ^ (E - 1) = ((9 : Nat) : ℚ) * 10 ^ (E - 1) by push_cast; ring, hI'] at hk
    rw [show (19 : ℚ) * 10 ^ (E - 1) = ((19 : Nat) : ℚ) * 10 ^ (E - 1) by push_cast; ring, hmag, ← not_le, c1]
    omega

/-- the library's constants for a type are those of the format -/
structure Agrees (F : Flt) (G : Format) (κ : Nat) : Prop where
  ok : OkFlt F κ
  sig : F.sigBits = G.sig
  expo : F.expBits = G.expo
  max : F.maxExponent - 1 = G.bias
  min : F.minExponent - 1 = 1 - G.bias
  pos : 0 < G.sig

/-- the decimal of the regular case and the scale it was found at -/
structure RegularOk (F : Flt) (G : Format) (κ m : Nat) : Prop where
  ex : ∃ (l : Int) (X Y n t : Nat), regularCase F (G.full m) (G.ulp m) = .ok ⟨n, l - κ + t⟩ ∧ 0 < Y ∧
    (X : ℚ) * 10 ^ (l - κ) = Y * 2 ^ (G.ulp m - 1) ∧ 10 ^ κ * Y ≤ 2 * X ∧ 2 * X < 10 ^ (κ + 1) * Y ∧
    (In (G.full m) X Y (9 * 10 ^ κ) → In (G.full m) X Y (10 * 10 ^ κ) → 19 * 10 ^ κ * Y < 4 * G.full m * X) ∧
    Found κ (G.full m) X Y n t

theorem toDecimal_of {F : Flt} {G : Format} {κ : Nat} (hA : Agrees F G κ) {m : Nat} (hm : 0 < m) (hfin : G.Finite m)
    (hreg : G.frac m ≠ 0 → RegularOk F G κ m)
    (hshort : G.frac m = 0 → okShortRow F (G.ulp m) = true) :
    ∃ n E, toDecimal F m = .ok ⟨n, E⟩ ∧ 0 < n ∧ n ≤ 20 * 2 ^ G.sig ∧ Best (G.Rounds · m) (G.mag m) n E := by
  obtain ⟨h1, h2⟩ := G.split m
  have h0 := Nat.two_pow_pos G.sig
  have e1 : m &&& (2 ^ F.sigBits - 1) = G.frac m := by rw [hA.sig, Nat.and_two_pow_sub_one_eq_mod]; rfl
  have e2 : (m &&& (2 ^ F.expBits - 1) * 2 ^ F.sigBits) / 2 ^ F.sigBits = G.biased m := by
    rw [hA.sig, ← Nat.shiftRight_eq_div_pow, Nat.shiftRight_and_distrib, Nat.shiftRight_eq_div_pow,
      Nat.shiftRight_eq_div_pow, Nat.mul_div_cancel _ h0, Nat.and_two_pow_sub_one_eq_mod]
    refine Nat.mod_eq_of_lt ?_
    rw [hA.expo]
    exact Nat.lt_of_lt_of_le hfin (Nat.sub_le _ _)
  have e3 : toDecimal F m = if G.biased m ≠ 0 then
      if G.frac m = 0 then shorterIntervalCase F (G.ulp m) else regularCase F (G.full m) (G.ulp m)
      else regularCase F (G.full m) (G.ulp m) := by
    unfold toDecimal
    simp only [e1, e2]
    by_cases hb : G.biased m = 0
    · have hf0 : G.frac m ≠ 0 := by
        intro h; rw [hb, h] at h1; omega
      rw [if_neg (by omega), if_neg hf0, if_neg (by omega)]
      congr 1
      · unfold Format.full; rw [if_pos hb]
      · unfold Format.ulp; rw [if_pos hb, hA.sig]; have := hA.min; omega
    · have hu : (G.biased m : Int) - (F.maxExponent - 1 + F.sigBits) = G.ulp m := by
        unfold Format.ulp; rw [if_neg hb, hA.sig, hA.max]; ring
      rw [if_pos (by omega), if_pos hb, hu]
      split
      · rfl
      · congr 1
        unfold Format.full; rw [if_neg hb, hA.sig, Nat.or_comm]
        have := Nat.two_pow_add_eq_or_of_lt (b := G.frac m) (i := G.sig) h2 1
        rw [Nat.mul_one] at this
        exact this.symm
  have regular : G.frac m ≠ 0 → ∃ n E, regularCase F (G.full m) (G.ulp m) = .ok ⟨n, E⟩ ∧ 0 < n ∧ n ≤ 20 * 2 ^ G.sig ∧
      Best (G.Rounds · m) (G.mag m) n E := by
    intro hf
    obtain ⟨l, X, Y, n, t, g1, g2, g3, g4, g5, g6, g7⟩ := (hreg hf).ex
    have hfull : 0 < G.full m ∧ G.full m + 1 ≤ 2 * 2 ^ G.sig := by unfold Format.full; split <;> omega
    obtain ⟨k1, k2⟩ := G.best_of_found hA.pos hm hfin (Or.inl hf) hfull.1 hA.ok.kpos g2 g3 g4 g6 g7
    refine ⟨n, _, g1, Nat.pos_of_ne_zero k1, ?_, k2⟩
    have hle := g7.1.le.2
    have hκt : κ ≤ t := by rcases g7.2.2 with ⟨h, -⟩ | ⟨h, -⟩ <;> omega
    have a1 : n * 10 ^ κ ≤ n * 10 ^ t := Nat.mul_le_mul_left _ (Nat.pow_le_pow_right (by omega) hκt)
    have a2 : n * 10 ^ κ * Y ≤ n * 10 ^ t * Y := Nat.mul_le_mul_right _ a1
    have a3 : (2 * G.full m + 1) * X * 2 ≤ (2 * (2 * 2 ^ G.sig)) * (2 * X) := by
      have : 2 * G.full m + 1 ≤ 2 * (2 * 2 ^ G.sig) := by omega
      have := Nat.mul_le_mul_right (2 * X) this
      calc (2 * G.full m + 1) * X * 2 = (2 * G.full m + 1) * (2 * X) := by ring
        _ ≤ _ := this
    have a4 : (2 * (2 * 2 ^ G.sig)) * (2 * X) ≤ (2 * (2 * 2 ^ G.sig)) * (10 ^ (κ + 1) * Y) := Nat.mul_le_mul_left _ g5.le
    have a5 : n * 10 ^ κ * Y * 2 ≤ (2 * (2 * 2 ^ G.sig)) * (10 ^ (κ + 1) * Y) := by omega
    have a6 : (2 * (2 * 2 ^ G.sig)) * (10 ^ (κ + 1) * Y) = (20 * 2 ^ G.sig) * (10 ^ κ * Y * 2) := by
      rw [Nat.pow_succ]; ring
    rw [a6, show n * 10 ^ κ * Y * 2 = n * (10 ^ κ * Y * 2) by ring] at a5
    exact Nat.le_of_mul_le_mul_right a5 (by positivity)
  rw [e3]
  by_cases hb : G.biased m = 0
  · have hf0 : G.frac m ≠ 0 := by
      intro h; rw [hb, h] at h1; omega
    rw [if_neg (by omega)]
    exact regular hf0
  · rw [if_pos hb]
    by_cases hf : G.frac m = 0
    · rw [if_pos hf]
      have hrow := hshort hf
      unfold okShortRow at hrow
      split at hrow
      · rename_i n E hcase
        simp only [force_eq] at hrow
        have hlo : (if G.ulp m = F.minExponent - 1 - F.sigBits then 2 else 1) = if G.biased m = 1 then 2 else 1 := by
          have := hA.min
          have : (G.ulp m = F.minExponent - 1 - F.sigBits) ↔ G.biased m = 1 := by
            unfold Format.ulp; rw [if_neg hb, hA.sig, hA.min]; omega
          simp only [this]
        rw [hA.sig] at hrow hlo
        rw [hlo] at hrow
        have hden : 0 < denom (G.ulp m - 1) (1 - E) := by unfold denom; positivity
        have hnd := numer_denom (G.ulp m - 1) (1 - E)
        obtain ⟨k1, k2, k3⟩ := G.best_of_short (E := E) hA.pos hfin hf (Nat.pos_of_ne_zero hb) hden (by
          rw [hnd, show (1 - E) = -(E - 1) by ring, zpow_neg, show G.ulp m - 1 - 1 = G.ulp m - 2 by ring]
          field_simp) hrow
        exact ⟨n, E, hcase, k1, k2.le, k3⟩
      · simp at hrow
    · rw [if_neg hf]
      exact regular hf

theorem agrees64 : Agrees flt64 binary64 2 := ⟨okFlt64, rfl, rfl, by decide, by decide, by decide⟩

theorem agrees32 : Agrees flt32 binary32 1 := ⟨okFlt32, rfl, rfl, by decide, by decide, by decide⟩

/-- the digit condition holds for all but the smallest significands -/
theorem digit_of_large {κ f X Y : Nat} (hf : 10 ≤ f) (hY : 0 < Y) (hlow : 10 ^ κ * Y ≤ 2 * X) :
    19 * 10 ^ κ * Y < 4 * f * X := by
  have h1 : 0 < 10 ^ κ * Y := by positivity
  calc 19 * 10 ^ κ * Y = 19 * (10 ^ κ * Y) := by ring
    _ < 20 * (10 ^ κ * Y) := by omega
    _ ≤ (2 * f) * (2 * X) := Nat.mul_le_mul (by omega) hlow
    _ = 4 * f * X := by ring

theorem regular64 {m : Nat} (hfin : binary64.Finite m) (hf : binary64.frac m ≠ 0) : RegularOk flt64 binary64 2 m := by
  have hfin' : binary64.biased m < 2047 := hfin
  have hfl : binary64.frac m < 2 ^ 52 := (binary64.split m).2
  have hulp : -1074 ≤ binary64.ulp m ∧ binary64.ulp m ≤ 971 := by
    unfold Format.ulp
    rw [show binary64.bias = 1023 from rfl, show binary64.sig = 52 from rfl]
    split <;> omega
  have hfull : 0 < binary64.full m ∧ binary64.full m < 2 ^ 53 ∧
      (binary64.ulp m ≠ -1074 → 2 ^ 52 ≤ binary64.full m) := by
    unfold Format.full Format.ulp
    rw [show binary64.bias = 1023 from rfl, show binary64.sig = 52 from rfl]
    split <;> refine ⟨?_, ?_, ?_⟩ <;> omega
  obtain ⟨l, lb, cache, X, Y, row⟩ := row64 (okRowDouble_all (e := binary64.ulp m) (by omega) (by omega))
  obtain ⟨n, t, g1, g2⟩ := regularCase_spec okFlt64 row hfull.1 (by split <;> omega)
    (by show _ ≤ 2 ^ (52 + 2); omega) (by omega) (by omega)
  have hlow : 10 ^ 2 * Y ≤ 2 * X := row.lower
  refine ⟨l, X, Y, n, t, g1, row.pos, ?_, hlow, row.upper, ?_, g2⟩
  · rw [row.hX, row.hY, numer_denom]
    show (_ * (_ * 10 ^ (-(l - (2 : Nat))))) * _ = _
    rw [zpow_neg]
    field_simp
  · by_cases h10 : 10 ≤ binary64.full m
    · exact fun _ _ => digit_of_large h10 row.pos hlow
    · have he : binary64.ulp m = -1074 := by
        by_contra hc
        have := hfull.2.2 hc
        omega
      have hl : l = -324 := by
        have := row.log
        rw [he, show floorLog10Pow2 (-1074) = .ok (-324) by decide] at this
        injection this with this
        exact this.symm
      have hX : X = numer (-1074) 326 := by rw [row.hX, he, hl]; rfl
      have hY : Y = denom (-1074) 326 := by rw [row.hY, he, hl]; rfl
      have hcheck : ∀ f < 10, In f (numer (-1074) 326) (denom (-1074) 326) (9 * 10 ^ 2) →
          In f (numer (-1074) 326) (denom (-1074) 326) (10 * 10 ^ 2) →
          19 * 10 ^ 2 * denom (-1074) 326 < 4 * f * numer (-1074) 326 := by
        unfold In
        decide +kernel
      rw [hX, hY]
      exact hcheck _ (by omega)

/-- the result for the one significand that the cached power of `float` does not tell from its neighbours -/
theorem exception32 : regularCase flt32 14855922 (-81) = .ok ⟨61442653, -25⟩ ∧
    regularCase flt32 14855922 (-80) = .ok ⟨12288531, -24⟩ := by decide +kernel

theorem found_81 : Found 1 14855922 1490116119384765625 72057594037927936 61442653 1 := by
  unfold Found In
  simp only [show (14855922 : Nat) % 2 = 0 from rfl, if_true]
  refine ⟨by omega, by omega, Or.inr ⟨trivial, fun m h => ?_, by omega, by omega, by omega⟩⟩
  omega

theorem found_80 : Found 1 14855922 1490116119384765625 36028797018963968 12288531 2 := by
  unfold Found In
  simp only [show (14855922 : Nat) % 2 = 0 from rfl, if_true]
  refine ⟨by omega, by omega, Or.inl ⟨by omega, fun m h => ?_⟩⟩
  omega

theorem regular32 {m : Nat} (hfin : binary32.Finite m) (hf : binary32.frac m ≠ 0) : RegularOk flt32 binary32 1 m := by
  have hfin' : binary32.biased m < 255 := hfin
  have hfl : binary32.frac m < 2 ^ 23 := (binary32.split m).2
  have hulp : -149 ≤ binary32.ulp m ∧ binary32.ulp m ≤ 104 := by
    unfold Format.ulp
    rw [show binary32.bias = 127 from rfl, show binary32.sig = 23 from rfl]
    split <;> omega
  have hfull : 0 < binary32.full m ∧ binary32.full m < 2 ^ 24 ∧
      (binary32.ulp m ≠ -149 → 2 ^ 23 ≤ binary32.full m) := by
    unfold Format.full Format.ulp
    rw [show binary32.bias = 127 from rfl, show binary32.sig = 23 from rfl]
    split <;> refine ⟨?_, ?_, ?_⟩ <;> omega
  by_cases hexc : (binary32.ulp m = -81 ∨ binary32.ulp m = -80) ∧ binary32.full m = 14855922
  · obtain ⟨he | he, hfx⟩ := hexc
    · refine ⟨-25, 1490116119384765625, 72057594037927936, 61442653, 1, ?_⟩
      rw [he, hfx]
      refine ⟨exception32.1, by omega, ?_, by omega, by omega, fun _ _ => by omega, found_81⟩
      have := numer_denom (-81) 26
      rw [show numer (-81) 26 = 1490116119384765625 by decide, show denom (-81) 26 = 72057594037927936 by decide] at this
      rw [this, show (-25 - ((1 : Nat) : Int)) = -26 by decide, zpow_neg, show (26 : Int) = ((26 : Nat) : Int) by rfl, zpow_natCast]
      field_simp
    · refine ⟨-25, 1490116119384765625, 36028797018963968, 12288531, 2, ?_⟩
      rw [he, hfx]
      refine ⟨exception32.2, by omega, ?_, by omega, by omega, fun _ _ => by omega, found_80⟩
      have := numer_denom (-80) 26
      rw [show numer (-80) 26 = 1490116119384765625 by decide, show denom (-80) 26 = 36028797018963968 by decide] at this
      rw [this, show (-25 - ((1 : Nat) : Int)) = -26 by decide, zpow_neg, show (26 : Int) = ((26 : Nat) : Int) by rfl, zpow_natCast]
      field_simp
  obtain ⟨l, lb, cache, X, Y, row⟩ := row32 (okRowFloat_all (e := binary32.ulp m) (by omega) (by omega))
  obtain ⟨n, t, g1, g2⟩ := regularCase_spec okFlt32 row hfull.1 (by split <;> omega)
    (by show _ ≤ 2 ^ (23 + 2); omega) (by split <;> omega) (by split <;> omega)
  have hlow : 10 ^ 1 * Y ≤ 2 * X := row.lower
  refine ⟨l, X, Y, n, t, g1, row.pos, ?_, hlow, row.upper, ?_, g2⟩
  · rw [row.hX, row.hY, numer_denom]
    show (_ * (_ * 10 ^ (-(l - (1 : Nat))))) * _ = _
    rw [zpow_neg]
    field_simp
  · by_cases h10 : 10 ≤ binary32.full m
    · exact fun _ _ => digit_of_large h10 row.pos hlow
    · have he : binary32.ulp m = -149 := by
        by_contra hc
        have := hfull.2.2 hc
        omega
      have hl : l = -45 := by
        have := row.log
        rw [he, show floorLog10Pow2 (-149) = .ok (-45) by decide] at this
        injection this with this
        exact this.symm
      have hX : X = numer (-149) 46 := by rw [row.hX, he, hl]; rfl
      have hY : Y = denom (-149) 46 := by rw [row.hY, he, hl]; rfl
      have hcheck : ∀ f < 10, In f (numer (-149) 46) (denom (-149) 46) (9 * 10 ^ 1) →
          In f (numer (-149) 46) (denom (-149) 46) (10 * 10 ^ 1) →
          19 * 10 ^ 1 * denom (-149) 46 < 4 * f * numer (-149) 46 := by
        unfold In
        decide +kernel
      rw [hX, hY]
      exact hcheck _ (by omega)

theorem ulp_range64 {m : Nat} (hfin : binary64.Finite m) : -1074 ≤ binary64.ulp m ∧ binary64.ulp m ≤ 971 := by
  have hfin' : binary64.biased m < 2047 := hfin
  unfold Format.ulp
  rw [show binary64.bias = 1023 from rfl, show binary64.sig = 52 from rfl]
  split <;> omega

theorem ulp_range32 {m : Nat} (hfin : binary32.Finite m) : -149 ≤ binary32.ulp m ∧ binary32.ulp m ≤ 104 := by
  have hfin' : binary32.biased m < 255 := hfin
  unfold Format.ulp
  rw [show binary32.bias = 127 from rfl, show binary32.sig = 23 from rfl]
  split <;> omega

theorem Format.rounds_convex (F : Format) {m : Nat} (hm : 0 < m) {a b c : ℚ} (hab : a ≤ b) (hbc : b ≤ c)
    (ha : F.Rounds a m) (hc : F.Rounds c m) : F.Rounds b m := by
  have hfin := ha.1
  rw [F.rounds_iff hm hfin] at ha hc ⊢
  obtain ⟨h1, -⟩ := ha
  obtain ⟨-, h2⟩ := hc
  constructor
  · rcases h1 with h | ⟨h, h'⟩
    · left; linarith
    · rcases lt_or_eq_of_le hab with g | g
      · left; linarith
      · right; exact ⟨by linarith, h'⟩
  · rcases h2 with h | ⟨h, h'⟩
    · left; linarith
    · rcases lt_or_eq_of_le hbc with g | g
      · left; linarith
      · right; exact ⟨by linarith, h'⟩

theorem Format.shortest_of_best (F : Format) {m n : Nat} {E : Int} (hm : 0 < m) (hn : 0 < n)
    (h : Best (F.Rounds · m) (F.mag m) n E) : F.Shortest m n E ∧ n % 10 ≠ 0 := by
  refine ⟨⟨h.mem, fun n' E' hn' h' => ?_⟩, fun hc => ?_⟩
  · exact shortest_of (I := fun q => F.Rounds q m) (fun h1 h2 h3 h4 => F.rounds_convex hm h1 h2 h3 h4) (by omega) h n' E' hn' h'
  · refine h.none (n / 10) ?_
    have := h.mem
    have e : (n : ℚ) = (n / 10 : Nat) * 10 := by exact_mod_cast (by omega : n = n / 10 * 10)
    rw [zpow_add₀ (by norm_num), zpow_one, show ((n / 10 : Nat) : ℚ) * (10 ^ E * 10) = ((n / 10 : Nat) * 10) * 10 ^ E by ring,
      ← e]
    exact this

/-- `to_decimal` of `double` -/
theorem toDecimal64 {m : Nat} (hm : 0 < m) (hfin : binary64.Finite m) :
    ∃ n E, toDecimal flt64 m = .ok ⟨n, E⟩ ∧ 0 < n ∧ n < 10 ^ 17 ∧ n % 10 ≠ 0 ∧ binary64.Shortest m n E := by
  obtain ⟨n, E, h1, h2, h3, h4⟩ := toDecimal_of agrees64 hm hfin (fun h => regular64 hfin h)
    (fun _ => okShortRow64_all (ulp_range64 hfin).1 (ulp_range64 hfin).2)
  obtain ⟨h5, h6⟩ := binary64.shortest_of_best hm h2 h4
  refine ⟨n, E, h1, h2, ?_, h6, h5⟩
  have : n ≤ 20 * 2 ^ 52 := h3
  omega

/-- `to_decimal` of `float` -/
theorem toDecimal32 {m : Nat} (hm : 0 < m) (hfin : binary32.Finite m) :
    ∃ n E, toDecimal flt32 m = .ok ⟨n, E⟩ ∧ 0 < n ∧ n < 10 ^ 9 ∧ n % 10 ≠ 0 ∧ binary32.Shortest m n E := by
  obtain ⟨n, E, h1, h2, h3, h4⟩ := toDecimal_of agrees32 hm hfin (fun h => regular32 hfin h)
    (fun _ => okShortRow32_all (ulp_range32 hfin).1 (ulp_range32 hfin).2)
  obtain ⟨h5, h6⟩ := binary32.shortest_of_best hm h2 h4
  refine ⟨n, E, h1, h2, ?_, h6, h5⟩
  have : n ≤ 20 * 2 ^ 23 := h3
  omega

end Spec
end Efp
