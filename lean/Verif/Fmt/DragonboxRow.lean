import Verif.Fmt.DragonboxCert

/-!
# What the tables of powers give

`Row` collects what `to_decimal` gets from the tables for one binary exponent, in terms of the exact fraction
`X / Y = 2 ^ (e - 1) * 10 ^ k`.
-/

namespace Efp
namespace Fmt
namespace Dragonbox

/-- the facts about one binary exponent -/
structure Row (F : Flt) (e l lb : Int) (cache : F.Cache) (X Y U0 exc : Nat) : Prop where
  log : floorLog10Pow2 e = .ok l
  power : F.cachedPower (-(l - F.kappa)) = .ok cache
  log2 : floorLog2Pow10 (-(l - F.kappa)) = .ok lb
  hX : X = numer e (-(l - F.kappa))
  hY : Y = denom e (-(l - F.kappa))
  pos : 0 < Y
  lower : F.smallDivisor * Y ≤ 2 * X
  upper : 2 * X < F.bigDivisor * Y
  delta : F.computeDelta cache (e + lb) = .ok (2 * X / Y)
  mul : ∀ u, 0 < u → U0 ≤ u → u ≤ 2 ^ (F.sigBits + 2) → ∃ v, shl F.w u (e + lb) = .ok v ∧
    (F.computeMul v cache).1 = u * X / Y ∧ (u ≠ exc → ((F.computeMul v cache).2 = true ↔ Y ∣ u * X))
  parity : ∀ u, 0 < u → U0 ≤ u → u ≤ 2 ^ (F.sigBits + 2) → ∃ p i, F.computeMulParity u cache (e + lb) = .ok (p, i) ∧
    (p = true ↔ u * X / Y % 2 = 1) ∧ (u ≠ exc → (i = true ↔ Y ∣ u * X))

theorem shl_ok {w x : Nat} {n : Int} (h0 : 0 ≤ n) (h1 : n < w) : shl w x n = .ok (x * 2 ^ n.toNat % 2 ^ w) :=
  if_pos ⟨h0, h1⟩

theorem shr_ok {w x : Nat} {n : Int} (h0 : 0 ≤ n) (h1 : n < w) : shr w x n = .ok (x / 2 ^ n.toNat) := if_pos ⟨h0, h1⟩

theorem assert_ok {c : Prop} [Decidable c] (h : c) : assert c = .ok () := if_pos h

@[simp] theorem ok_bind {α β : Type} (a : α) (f : α → Res β) : (Res.ok a >>= f) = f a := rfl

/-- the upper two words of a product of three -/
theorem umul192Upper128_eq {x : Nat} {y : U128} (hx : x < 2 ^ 64) (hh : y.hi < 2 ^ 64) (hl : y.lo < 2 ^ 64) :
    umul192Upper128 x y = ⟨x * (y.hi * 2 ^ 64 + y.lo) / 2 ^ 128, x * (y.hi * 2 ^ 64 + y.lo) / 2 ^ 64 % 2 ^ 64⟩ := by
  obtain ⟨hi, lo⟩ := y
  simp only at hh hl
  have p1 : x * hi ≤ (2 ^ 64 - 1) * (2 ^ 64 - 1) := Nat.mul_le_mul (by omega) (by omega)
  have p2 : x * lo ≤ (2 ^ 64 - 1) * (2 ^ 64 - 1) := Nat.mul_le_mul (by omega) (by omega)
  have e : x * (hi * 2 ^ 64 + lo) = x * hi * 2 ^ 64 + x * lo := by ring
  rw [e]
  simp only [umul192Upper128, umul128, U128.add64, umul128Upper64]
  generalize x * hi = s at *
  generalize x * lo = t at *
  congr 1 <;> omega

/-- the lower two words of a product of three -/
theorem umul192Lower128_eq {x : Nat} {y : U128} (hx : x < 2 ^ 64) (hh : y.hi < 2 ^ 64) (hl : y.lo < 2 ^ 64) :
    umul192Lower128 x y =
      ⟨x * (y.hi * 2 ^ 64 + y.lo) / 2 ^ 64 % 2 ^ 64, x * (y.hi * 2 ^ 64 + y.lo) % 2 ^ 64⟩ := by
  obtain ⟨hi, lo⟩ := y
  simp only at hh hl
  have p1 : x * hi ≤ (2 ^ 64 - 1) * (2 ^ 64 - 1) := Nat.mul_le_mul (by omega) (by omega)
  have p2 : x * lo ≤ (2 ^ 64 - 1) * (2 ^ 64 - 1) := Nat.mul_le_mul (by omega) (by omega)
  have e : x * (hi * 2 ^ 64 + lo) = x * hi * 2 ^ 64 + x * lo := by ring
  rw [e]
  simp only [umul192Lower128, umul128]
  generalize x * hi = s at *
  generalize x * lo = t at *
  congr 1 <;> omega

/-- what the parity test of `double` computes -/
theorem parity64 {u hi lo β : Nat} {b : Int} (hu : u < 2 ^ 64) (hh : hi < 2 ^ 64) (hl : lo < 2 ^ 64) (hb : b = β)
    (h1 : 1 ≤ β) (h9 : β ≤ 9) : flt64.computeMulParity u ⟨hi, lo⟩ b =
      .ok (decide (u * (hi * 2 ^ 64 + lo) / 2 ^ (128 - β) % 2 = 1),
        decide (u * (hi * 2 ^ 64 + lo) / 2 ^ (64 - β) % 2 ^ 64 = 0)) := by
  subst hb
  show (do
    assert ((β : Int) ≥ 1)
    assert ((β : Int) < 64)
    let r := umul192Lower128 u ⟨hi, lo⟩
    let a ← shr 64 r.hi (64 - (β : Int))
    let b ← shl 64 r.hi β
    let c ← shr 64 r.lo (64 - (β : Int))
    Res.ok (decide (a % 2 ≠ 0), decide (b ||| c = 0))) = _
  rw [umul192Lower128_eq hu hh hl]
  simp only
  rw [assert_ok (by omega), assert_ok (by omega), shr_ok (by omega) (by omega), shl_ok (by omega) (by omega),
    shr_ok (by omega) (by omega)]
  simp only [ok_bind, Int.toNat_natCast]
  rw [show (64 - (β : Int)).toNat = 64 - β by omega]
  generalize u * (hi * 2 ^ 64 + lo) = V
  have hsplit : (2 : Nat) ^ 64 = 2 ^ (64 - β) * 2 ^ β := by rw [← Nat.pow_add]; congr 1; omega
  have e2 : V / 2 ^ 64 % 2 ^ 64 / 2 ^ (64 - β) = V / 2 ^ (128 - β) % 2 ^ β := by
    rw [hsplit, Nat.mod_mul_right_div_self, Nat.div_div_eq_div_mul]
    congr 2
    rw [Nat.mul_assoc, Nat.mul_comm (2 ^ β), ← Nat.mul_assoc, ← Nat.pow_add, ← Nat.pow_add]
    congr 1; omega
  congr 2
  · rw [e2, Nat.mod_mod_of_dvd _ (Dvd.intro_left (2 ^ (β - 1)) (by rw [← Nat.pow_succ]; congr 1; omega))]
    apply decide_eq_decide.mpr
    omega
  · apply decide_eq_decide.mpr
    rw [Nat.or_eq_zero_iff]
    have hb0 : 0 < 2 ^ β := by positivity
    have hc0 : 0 < 2 ^ (64 - β) := by positivity
    rw [hsplit]
    generalize 2 ^ β = B at *
    generalize 2 ^ (64 - β) = C at *
    rw [Nat.mod_mul_right_div_self, ← Nat.div_div_eq_div_mul]
    generalize V / C = W
    have e4 : W % (C * B) = W % B + B * (W / B % C) := by rw [Nat.mul_comm C B, Nat.mod_mul]
    rw [e4, Nat.mul_mod_mul_right, Nat.mod_mod_of_dvd _ (Dvd.intro _ rfl), Nat.add_eq_zero_iff, Nat.mul_eq_zero,
      Nat.mul_eq_zero]
    omega

/-- What a checked row of the table of `double` gives. -/
theorem row64 {e : Int} {U0 : Nat} (h : okRow64 e U0 = true) : ∃ l lb cache X Y, Row flt64 e l lb cache X Y U0 0 := by
  unfold okRow64 at h
  split at h
  case h_2 => simp at h
  case h_1 l hl =>
  split at h
  case h_2 => simp at h
  case h_1 c lb hc hlb =>
  simp only [force_eq, Bool.and_eq_true, decide_eq_true_eq, beq_iff_eq] at h
  obtain ⟨⟨⟨⟨⟨⟨⟨h1, h2⟩, h3⟩, h4⟩, h5⟩, h6⟩, h7⟩, h8⟩ := h
  have hp0 : ∀ u, 0 < u → U0 ≤ u → u ≤ 2 ^ 54 → _ := fun u a b c => okPower_spec h7 a c b
  have hY : 0 < denom e (-(l - 2)) := by unfold denom; positivity
  generalize hX' : numer e (-(l - 2)) = X at *
  generalize hY' : denom e (-(l - 2)) = Y at *
  obtain ⟨β, hβ⟩ := Int.eq_ofNat_of_zero_le (show 0 ≤ e + lb by omega)
  rw [hβ, Int.toNat_natCast] at h7 h8 hp0
  obtain ⟨hi, lo⟩ := c
  simp only at h3 h4 h7 h8 hp0
  generalize hφ : hi * 2 ^ 64 + lo = φ at *
  have hβ9 : β ≤ 9 := by omega
  have hβ1 : 1 ≤ β := by omega
  have hpow : 2 ^ β ≤ 2 ^ 9 := Nat.pow_le_pow_right (by omega) hβ9
  have hval : ∀ u, u ≤ 2 ^ 54 → u * 2 ^ β < 2 ^ 64 := by
    intro u hu
    calc u * 2 ^ β ≤ 2 ^ 54 * 2 ^ 9 := Nat.mul_le_mul hu hpow
      _ < _ := by omega
  refine ⟨l, lb, ⟨hi, lo⟩, X, Y, hl, hc, hlb, hX'.symm, hY'.symm, hY, h5, h6, ?_, ?_, ?_⟩
  · show (do let d ← shr 64 hi (64 - 1 - (e + lb)); Res.ok (d % 2 ^ 32)) = _
    rw [shr_ok (by omega) (by omega)]
    simp only [ok_bind]
    rw [hβ, show (64 - 1 - (β : Int)).toNat = 63 - β by omega, h8]
    rw [Nat.mod_eq_of_lt]
    rw [Nat.div_lt_iff_lt_mul hY]
    calc 2 * X < 1000 * Y := h6
      _ ≤ _ := Nat.mul_le_mul_right _ (by omega)
  · intro u hu hU hN
    obtain ⟨-, ha, hx⟩ := hp0 u hu hU hN
    refine ⟨u * 2 ^ β, ?_, ?_⟩
    · rw [hβ, shl_ok (by omega) (by show (β : Int) < (64 : Nat); omega), Int.toNat_natCast]
      rw [show flt64.w = 64 from rfl, Nat.mod_eq_of_lt (hval u hN)]
    · show ((umul192Upper128 (u * 2 ^ β) ⟨hi, lo⟩).hi = _) ∧
        (_ → (decide ((umul192Upper128 (u * 2 ^ β) ⟨hi, lo⟩).lo = 0) = true ↔ _))
      rw [umul192Upper128_eq (hval u hN) h3 h4]
      simp only [hφ, decide_eq_true_eq]
      rw [show u * 2 ^ β * φ = u * (φ * 2 ^ β) by ring]
      exact ⟨ha, hx⟩
  · intro u hu hU hN
    obtain ⟨-, ha, hx⟩ := hp0 u hu hU hN
    have hu64 : u < 2 ^ 64 := by
      have : u ≤ 2 ^ 54 := hN
      omega
    refine ⟨_, _, parity64 hu64 h3 h4 hβ hβ1 hβ9, ?_, fun hne => ?_⟩
    · simp only [decide_eq_true_eq]
      rw [← ha, hφ]
      have e1 : u * (φ * 2 ^ β) / 2 ^ (2 * 64) = u * φ / 2 ^ (128 - β) := by
        rw [← Nat.mul_assoc, show (2 : Nat) ^ (2 * 64) = 2 ^ (128 - β) * 2 ^ β by rw [← Nat.pow_add]; congr 1; omega,
          Nat.mul_div_mul_right _ _ (by positivity)]
      rw [e1]
    · simp only [decide_eq_true_eq]
      have hxe : _ ↔ _ := hx hne
      rw [← hxe, hφ]
      have e3 : u * (φ * 2 ^ β) / 2 ^ 64 = u * φ / 2 ^ (64 - β) := by
        rw [← Nat.mul_assoc, show (2 : Nat) ^ 64 = 2 ^ (64 - β) * 2 ^ β by rw [← Nat.pow_add]; congr 1; omega,
          Nat.mul_div_mul_right _ _ (by positivity)]
      rw [e3]

/-- what the parity test of `float` computes -/
theorem parity32 {u c β : Nat} {b : Int} (hb : b = β) (h1 : 1 ≤ β) (h6 : β ≤ 6) :
    flt32.computeMulParity u c b =
      .ok (decide (u * c / 2 ^ (64 - β) % 2 = 1), decide (u * c / 2 ^ (32 - β) % 2 ^ 32 = 0)) := by
  subst hb
  show (do
    assert ((β : Int) ≥ 1)
    assert ((β : Int) < 64)
    let r := umul96Lower64 u c
    let a ← shr 64 r (64 - (β : Int))
    let b ← shr 64 r (32 - (β : Int))
    Res.ok (decide (a % 2 ≠ 0), decide (b % 2 ^ 32 = 0))) = _
  rw [assert_ok (by omega), assert_ok (by omega)]
  simp only [ok_bind]
  rw [shr_ok (by omega) (by omega), shr_ok (by omega) (by omega)]
  simp only [ok_bind, umul96Lower64]
  rw [show (64 - (β : Int)).toNat = 64 - β by omega, show (32 - (β : Int)).toNat = 32 - β by omega]
  generalize u * c = V
  have e1 : V % 2 ^ 64 / 2 ^ (64 - β) % 2 = V / 2 ^ (64 - β) % 2 := by
    rw [show (2 : Nat) ^ 64 = 2 ^ (64 - β) * 2 ^ β by rw [← Nat.pow_add]; congr 1; omega, Nat.mod_mul_right_div_self,
      Nat.mod_mod_of_dvd _ (Dvd.intro_left (2 ^ (β - 1)) (by rw [← Nat.pow_succ]; congr 1; omega))]
  have e2 : V % 2 ^ 64 / 2 ^ (32 - β) % 2 ^ 32 = V / 2 ^ (32 - β) % 2 ^ 32 := by
    rw [show (2 : Nat) ^ 64 = 2 ^ (32 - β) * 2 ^ (32 + β) by rw [← Nat.pow_add]; congr 1; omega,
      Nat.mod_mul_right_div_self, Nat.mod_mod_of_dvd _ (Dvd.intro (2 ^ β) (by rw [← Nat.pow_add]))]
  rw [e1, e2]
  congr 2
  apply decide_eq_decide.mpr
  omega

/-- What a checked row of the table of `float` gives. -/
theorem row32 {e : Int} {U0 exc : Nat} (h : okRow32 e U0 exc = true) :
    ∃ l lb cache X Y, Row flt32 e l lb cache X Y U0 exc := by
  unfold okRow32 at h
  split at h
  case h_2 => simp at h
  case h_1 l hl =>
  split at h
  case h_2 => simp at h
  case h_1 c lb hc hlb =>
  simp only [force_eq, Bool.and_eq_true, decide_eq_true_eq, beq_iff_eq] at h
  obtain ⟨⟨⟨⟨⟨⟨h1, h2⟩, h3⟩, h5⟩, h6⟩, h7⟩, h8⟩ := h
  have hp0 : ∀ u, 0 < u → U0 ≤ u → u ≤ 2 ^ 25 → _ := fun u a b c => okPower_spec h7 a c b
  have hY : 0 < denom e (-(l - 1)) := by unfold denom; positivity
  generalize hX' : numer e (-(l - 1)) = X at *
  generalize hY' : denom e (-(l - 1)) = Y at *
  obtain ⟨β, hβ⟩ := Int.eq_ofNat_of_zero_le (show 0 ≤ e + lb by omega)
  rw [hβ, Int.toNat_natCast] at h7 h8 hp0
  have hβ9 : β ≤ 6 := by omega
  have hβ1 : 1 ≤ β := by omega
  have hpow : 2 ^ β ≤ 2 ^ 6 := Nat.pow_le_pow_right (by omega) hβ9
  have hval : ∀ u, u ≤ 2 ^ 25 → u * 2 ^ β < 2 ^ 32 := by
    intro u hu
    calc u * 2 ^ β ≤ 2 ^ 25 * 2 ^ 6 := Nat.mul_le_mul hu hpow
      _ < _ := by omega
  refine ⟨l, lb, c, X, Y, hl, hc, hlb, hX'.symm, hY'.symm, hY, h5, h6, ?_, ?_, ?_⟩
  · show (do let d ← shr 64 c (64 - 1 - (e + lb)); Res.ok (d % 2 ^ 32)) = _
    rw [shr_ok (by omega) (by omega)]
    simp only [ok_bind]
    rw [hβ, show (64 - 1 - (β : Int)).toNat = 63 - β by omega, h8]
    rw [Nat.mod_eq_of_lt]
    rw [Nat.div_lt_iff_lt_mul hY]
    calc 2 * X < 100 * Y := h6
      _ ≤ _ := Nat.mul_le_mul_right _ (by omega)
  · intro u hu hU hN
    obtain ⟨-, ha, hx⟩ := hp0 u hu hU hN
    refine ⟨u * 2 ^ β, ?_, ?_⟩
    · rw [hβ, shl_ok (by omega) (by show (β : Int) < (32 : Nat); omega), Int.toNat_natCast]
      rw [show flt32.w = 32 from rfl, Nat.mod_eq_of_lt (hval u hN)]
    · show (umul96Upper64 (u * 2 ^ β) c / 2 ^ 32 % 2 ^ 32 = _) ∧
        (_ → (decide (umul96Upper64 (u * 2 ^ β) c % 2 ^ 32 = 0) = true ↔ _))
      have hv := hval u hN
      have p1 : u * 2 ^ β * c ≤ (2 ^ 32 - 1) * (2 ^ 64 - 1) := Nat.mul_le_mul (by omega) (by omega)
      have e1 : umul96Upper64 (u * 2 ^ β) c = u * 2 ^ β * c / 2 ^ 32 := by
        unfold umul96Upper64 umul128Upper64
        rw [Nat.mod_eq_of_lt (a := u * 2 ^ β * 2 ^ 32) (by omega),
          show u * 2 ^ β * 2 ^ 32 * c = u * 2 ^ β * c * 2 ^ 32 by ring]
        omega
      rw [e1, decide_eq_true_eq]
      have e2 : u * 2 ^ β * c = u * (c * 2 ^ β) := by ring
      unfold Approx at ha
      unfold Exact at hx
      rw [← ha, ← e2]
      rw [← e2] at hx
      refine ⟨by omega, fun hne => hx hne⟩
  · intro u hu hU hN
    obtain ⟨-, ha, hx⟩ := hp0 u hu hU hN
    refine ⟨_, _, parity32 hβ hβ1 hβ9, ?_, fun hne => ?_⟩
    · simp only [decide_eq_true_eq]
      rw [← ha]
      have e1 : u * (c * 2 ^ β) / 2 ^ (2 * 32) = u * c / 2 ^ (64 - β) := by
        rw [← Nat.mul_assoc, show (2 : Nat) ^ (2 * 32) = 2 ^ (64 - β) * 2 ^ β by rw [← Nat.pow_add]; congr 1; omega,
          Nat.mul_div_mul_right _ _ (by positivity)]
      rw [e1]
    · simp only [decide_eq_true_eq]
      have hxe : _ ↔ _ := hx hne
      rw [← hxe]
      have e3 : u * (c * 2 ^ β) / 2 ^ 32 = u * c / 2 ^ (32 - β) := by
        rw [← Nat.mul_assoc, show (2 : Nat) ^ 32 = 2 ^ (32 - β) * 2 ^ β by rw [← Nat.pow_add]; congr 1; omega,
          Nat.mul_div_mul_right _ _ (by positivity)]
      rw [e3]

end Dragonbox
end Fmt
end Efp
