import Verif.Fmt.DragonboxRow

/-!
# Division and trailing zeros

The multiplications that replace divisions in `to_decimal` compute what they stand for.
-/

namespace Efp
namespace Fmt
namespace Dragonbox

/-- multiplication by a rounded up reciprocal -/
theorem magic_div {n m B d ε : Nat} (hd : 0 < d) (h : d * m = B + ε) (hn : n * ε < B) : n * m / B = n / d := by
  have hdm := Nat.div_add_mod n d
  have hlt := Nat.mod_lt n hd
  generalize n / d = a at *
  generalize n % d = b at *
  have key : d * (n * m) = n * B + n * ε := by
    calc d * (n * m) = n * (d * m) := by ring
      _ = _ := by rw [h]; ring
  apply Nat.div_eq_of_lt_le
  · apply Nat.le_of_mul_le_mul_left (c := d) _ hd
    calc d * (a * B) = d * a * B := by ring
      _ ≤ n * B := Nat.mul_le_mul_right _ (by omega)
      _ ≤ _ := by omega
  · apply Nat.lt_of_mul_lt_mul_left (a := d)
    have : (n + 1) * B ≤ d * (a + 1) * B := Nat.mul_le_mul_right _ (by rw [Nat.mul_add]; omega)
    calc d * (n * m) = n * B + n * ε := key
      _ < (n + 1) * B := by rw [Nat.add_mul]; omega
      _ ≤ d * (a + 1) * B := this
      _ = d * ((a + 1) * B) := by ring

/-- `divide_by_10_to_kappa_plus_1` of `double` divides by 1000 -/
theorem divideBig64 {n : Nat} (h : n < 2 ^ 63) : flt64.divideBig n = n / 1000 := by
  show n * 2361183241434822607 / 2 ^ 64 % 2 ^ 64 / 2 ^ 7 = n / 1000
  rw [Nat.mod_eq_of_lt (a := n * 2361183241434822607 / 2 ^ 64) (by omega), Nat.div_div_eq_div_mul]
  exact magic_div (ε := 152) (by omega) (by omega) (by omega)

/-- `divide_by_10_to_kappa_plus_1` of `float` divides by 100 -/
theorem divideBig32 {n : Nat} (h : n < 2 ^ 32) : flt32.divideBig n = n / 100 := by
  show n * 1374389535 % 2 ^ 64 / 2 ^ 37 % 2 ^ 32 = n / 100
  rw [Nat.mod_eq_of_lt (a := n * 1374389535) (by omega)]
  rw [magic_div (d := 100) (ε := 28) (by omega) (by omega) (by omega)]
  omega

/-- division by 100 with a test for divisibility -/
theorem checkDivisibility64 {n : Nat} (h : n ≤ 1000) :
    checkDivisibilityAndDivide 100 n = .ok (n / 100, decide (n % 100 = 0)) := by
  have : ∀ n < 1001, checkDivisibilityAndDivide 100 n = .ok (n / 100, decide (n % 100 = 0)) := by decide +kernel
  exact this n (by omega)

/-- division by 10 with a test for divisibility -/
theorem checkDivisibility32 {n : Nat} (h : n ≤ 100) :
    checkDivisibilityAndDivide 10 n = .ok (n / 10, decide (n % 10 = 0)) := by
  have : ∀ n < 101, checkDivisibilityAndDivide 10 n = .ok (n / 10, decide (n % 10 = 0)) := by decide +kernel
  exact this n (by omega)

/-- a rotation as a sum -/
theorem rotr_eq {w p r : Nat} (hr : r ≤ w) (hp : p < 2 ^ w) : rotr w p r = p / 2 ^ r + p % 2 ^ r * 2 ^ (w - r) := by
  unfold rotr
  have hw : (2 : Nat) ^ w = 2 ^ r * 2 ^ (w - r) := by rw [← Nat.pow_add]; congr 1; omega
  have e1 : p * 2 ^ (w - r) % 2 ^ w = p % 2 ^ r * 2 ^ (w - r) := by rw [hw, Nat.mul_mod_mul_right]
  have e2 : p / 2 ^ r < 2 ^ (w - r) := by
    rw [Nat.div_lt_iff_lt_mul (by positivity), Nat.mul_comm, ← hw]
    exact hp
  rw [e1, Nat.or_comm, Nat.mul_comm, ← Nat.two_pow_add_eq_or_of_lt e2]
  omega

/-- multiplication by an inverse modulo `2 ^ w` and a rotation divide by `2 ^ r * k`, and the result is small exactly if
the division has no remainder -/
theorem rotr_inverse {w r k inv c n : Nat} (hr : r ≤ w) (hk : 0 < k) (hinv : k * inv = 1 + c * 2 ^ w) (hn : n < 2 ^ w) :
    let q := rotr w (n * inv % 2 ^ w) r
    (q ≤ (2 ^ w - 1) / (2 ^ r * k) ↔ n % (2 ^ r * k) = 0) ∧ (n % (2 ^ r * k) = 0 → q = n / (2 ^ r * k)) := by
  have hw0 : 0 < 2 ^ w := by positivity
  have hr0 : 0 < 2 ^ r := by positivity
  have hd : 0 < 2 ^ r * k := Nat.mul_pos hr0 hk
  have hp : n * inv % 2 ^ w < 2 ^ w := Nat.mod_lt _ hw0
  have hkp : k * (n * inv % 2 ^ w) % 2 ^ w = n := by
    rw [Nat.mul_mod, Nat.mod_mod, ← Nat.mul_mod, show k * (n * inv) = n * (k * inv) by ring, hinv,
      show n * (1 + c * 2 ^ w) = n + n * c * 2 ^ w by ring, Nat.add_mul_mod_self_right, Nat.mod_eq_of_lt hn]
  have hwr : (2 : Nat) ^ w = 2 ^ r * 2 ^ (w - r) := by rw [← Nat.pow_add]; congr 1; omega
  have hdiv : n % (2 ^ r * k) = 0 → rotr w (n * inv % 2 ^ w) r = n / (2 ^ r * k) := by
    intro h0
    have hdm := Nat.div_add_mod n (2 ^ r * k)
    rw [h0, Nat.add_zero] at hdm
    generalize n / (2 ^ r * k) = m at *
    have e1 : n * inv % 2 ^ w = 2 ^ r * m := by
      rw [← hdm, show 2 ^ r * k * m * inv = 2 ^ r * m * (k * inv) by ring, hinv,
        show 2 ^ r * m * (1 + c * 2 ^ w) = 2 ^ r * m + 2 ^ r * m * c * 2 ^ w by ring, Nat.add_mul_mod_self_right]
      apply Nat.mod_eq_of_lt
      refine Nat.lt_of_le_of_lt ?_ hn
      rw [← hdm]
      exact Nat.mul_le_mul_right _ (Nat.le_mul_of_pos_right _ hk)
    rw [rotr_eq hr hp, e1, Nat.mul_div_cancel_left _ hr0, Nat.mul_mod_right]
    simp
  refine ⟨⟨fun h => ?_, fun h => ?_⟩, hdiv⟩
  · rw [Nat.le_div_iff_mul_le hd, rotr_eq hr hp] at h
    generalize n * inv % 2 ^ w = p at *
    have hp0 : p % 2 ^ r = 0 := by
      apply Nat.eq_zero_of_not_pos
      intro hpos
      have h1 : 2 ^ (w - r) ≤ p / 2 ^ r + p % 2 ^ r * 2 ^ (w - r) :=
        (Nat.le_mul_of_pos_left _ hpos).trans (Nat.le_add_left _ _)
      have h2 : 2 ^ (w - r) * 2 ^ r ≤ (p / 2 ^ r + p % 2 ^ r * 2 ^ (w - r)) * (2 ^ r * k) :=
        Nat.mul_le_mul h1 (Nat.le_mul_of_pos_right _ hk)
      rw [Nat.mul_comm, ← hwr] at h2
      omega
    have hpe := Nat.div_add_mod p (2 ^ r)
    rw [hp0, Nat.zero_mul, Nat.add_zero] at h
    rw [hp0, Nat.add_zero] at hpe
    have : k * p = p / 2 ^ r * (2 ^ r * k) := by
      calc k * p = k * (2 ^ r * (p / 2 ^ r)) := by rw [hpe]
        _ = _ := by ring
    rw [this, Nat.mod_eq_of_lt (by omega)] at hkp
    rw [← hkp, Nat.mul_mod_left]
  · rw [hdiv h]
    exact Nat.div_le_div_right (by omega)

theorem rotr25_64 {n : Nat} (hn : n < 2 ^ 64) : let q := rotr 64 (n * 0x8f5c28f5c28f5c29 % 2 ^ 64) 2
    (q ≤ (2 ^ 64 - 1) / 100 ↔ n % 100 = 0) ∧ (n % 100 = 0 → q = n / 100) :=
  rotr_inverse (r := 2) (k := 25) (c := 14) (by omega) (by omega) (by omega) hn

theorem rotr5_64 {n : Nat} (hn : n < 2 ^ 64) : let q := rotr 64 (n * 0xcccccccccccccccd % 2 ^ 64) 1
    (q ≤ (2 ^ 64 - 1) / 10 ↔ n % 10 = 0) ∧ (n % 10 = 0 → q = n / 10) :=
  rotr_inverse (r := 1) (k := 5) (c := 4) (by omega) (by omega) (by omega) hn

theorem rotr25_32 {n : Nat} (hn : n < 2 ^ 32) : let q := rotr 32 (n * 0xc28f5c29 % 2 ^ 32) 2
    (q ≤ (2 ^ 32 - 1) / 100 ↔ n % 100 = 0) ∧ (n % 100 = 0 → q = n / 100) :=
  rotr_inverse (r := 2) (k := 25) (c := 19) (by omega) (by omega) (by omega) hn

theorem rotr5_32 {n : Nat} (hn : n < 2 ^ 32) : let q := rotr 32 (n * 0xcccccccd % 2 ^ 32) 1
    (q ≤ (2 ^ 32 - 1) / 10 ↔ n % 10 = 0) ∧ (n % 10 = 0 → q = n / 10) :=
  rotr_inverse (r := 1) (k := 5) (c := 4) (by omega) (by omega) (by omega) hn

/-- the loop takes out pairs of zeros -/
theorem removeLoop_spec {w inv25 : Nat} (hrot : ∀ n, n < 2 ^ w → let q := rotr w (n * inv25 % 2 ^ w) 2
    (q ≤ (2 ^ w - 1) / 100 ↔ n % 100 = 0) ∧ (n % 100 = 0 → q = n / 100)) {fuel n s : Nat} (hn : n ≠ 0) (hw : n < 2 ^ w)
    (hf : n < 100 ^ fuel) (hs : s % 2 = 0) :
    ∃ m t, removeLoop w inv25 fuel n s = .ok (m, t) ∧ m ≠ 0 ∧ m < 2 ^ w ∧ m % 100 ≠ 0 ∧ t % 2 = 0 ∧ s ≤ t ∧
      n = m * 10 ^ (t - s) := by
  induction fuel generalizing n s with
  | zero => simp at hf; omega
  | succ fuel ih =>
    obtain ⟨h1, h2⟩ := hrot n hw
    unfold removeLoop
    simp only
    by_cases hq : n % 100 = 0
    · rw [if_neg (by rw [Nat.not_lt, h1]; exact hq), h2 hq]
      have : n < 100 ^ fuel * 100 := by rw [← Nat.pow_succ]; exact hf
      obtain ⟨m, t, g1, g2, g3, g4, g5, g6, g7⟩ := ih (n := n / 100) (s := s + 2) (by omega) (by omega) (by omega) (by omega)
      refine ⟨m, t, g1, g2, g3, g4, g5, by omega, ?_⟩
      have : t - s = t - (s + 2) + 2 := by omega
      rw [this, Nat.pow_add, ← Nat.mul_assoc, ← g7]
      omega
    · rw [if_pos (Nat.not_le.mp fun h => hq (h1.mp h))]
      exact ⟨n, s, rfl, hn, hw, hq, hs, Nat.le_refl _, by simp⟩

/-- the last zero -/
theorem removeLast_spec {w inv5 : Nat} (hrot : ∀ n, n < 2 ^ w → let q := rotr w (n * inv5 % 2 ^ w) 1
    (q ≤ (2 ^ w - 1) / 10 ↔ n % 10 = 0) ∧ (n % 10 = 0 → q = n / 10)) {n s : Nat} (hw : n < 2 ^ w) (hn : n % 100 ≠ 0)
    (hs : s % 2 = 0) :
    ∃ m t, removeLast w inv5 n s = (m, t) ∧ m % 10 ≠ 0 ∧ s ≤ t ∧ n = m * 10 ^ (t - s) := by
  obtain ⟨h1, h2⟩ := hrot n hw
  unfold removeLast
  simp only
  by_cases hq : n % 10 = 0
  · rw [if_pos (by rw [h1]; exact hq), h2 hq]
    have e : s ||| 1 = s + 1 := by
      have := Nat.two_pow_add_eq_or_of_lt (i := 1) (b := 1) (by omega) (s / 2)
      rw [show 2 ^ 1 * (s / 2) = s by omega] at this
      exact this.symm
    refine ⟨_, _, rfl, by omega, by omega, ?_⟩
    rw [e, Nat.add_sub_cancel_left]
    omega
  · rw [if_neg (by rw [h1]; exact hq)]
    exact ⟨n, s, rfl, hq, Nat.le_refl _, by simp⟩

/-- both parts together -/
theorem removeZeros_spec {w inv25 inv5 : Nat} (h25 : ∀ n, n < 2 ^ w → let q := rotr w (n * inv25 % 2 ^ w) 2
    (q ≤ (2 ^ w - 1) / 100 ↔ n % 100 = 0) ∧ (n % 100 = 0 → q = n / 100))
    (h5 : ∀ n, n < 2 ^ w → let q := rotr w (n * inv5 % 2 ^ w) 1
    (q ≤ (2 ^ w - 1) / 10 ↔ n % 10 = 0) ∧ (n % 10 = 0 → q = n / 10)) {fuel n s : Nat} (hn : n ≠ 0) (hw : n < 2 ^ w)
    (hf : n < 100 ^ fuel) (hs : s % 2 = 0) :
    ∃ m t, (do
      let (n, s) ← removeLoop w inv25 fuel n s
      Res.ok (removeLast w inv5 n s)) = .ok (m, t) ∧ m % 10 ≠ 0 ∧ s ≤ t ∧ n = m * 10 ^ (t - s) := by
  obtain ⟨m, t, g1, g2, g3, g4, g5, g6, g7⟩ := removeLoop_spec h25 hn hw hf hs
  obtain ⟨m', t', k1, k2, k3, k4⟩ := removeLast_spec h5 g3 g4 g5
  refine ⟨m', t', ?_, k2, by omega, ?_⟩
  · rw [g1, ok_bind]
    simp only
    rw [k1]
  · rw [g7, k4, Nat.mul_assoc, ← Nat.pow_add]
    congr 2
    omega

/-- `remove_trailing_zeros(uint32_t&, int)` takes out all trailing zeros and counts them. -/
theorem removeTrailingZeros32_spec {n s : Nat} (hn : n ≠ 0) (hw : n < 2 ^ 32) (hs : s % 2 = 0) :
    ∃ m t, removeTrailingZeros32 n s = .ok (m, t) ∧ m % 10 ≠ 0 ∧ s ≤ t ∧ n = m * 10 ^ (t - s) := by
  have hf : n < 100 ^ 32 := Nat.lt_of_lt_of_le hw (by decide)
  obtain ⟨m, t, g1, g2⟩ := removeZeros_spec (fun _ h => rotr25_32 h) (fun _ h => rotr5_32 h) hn hw hf hs
  refine ⟨m, t, ?_, g2⟩
  unfold removeTrailingZeros32
  rw [assert_ok hn, ok_bind]
  generalize removeLoop 32 0xc28f5c29 32 n s = r at *
  cases r
  · exact g1
  · exact g1
  · exact g1

/-- the test for eight zeros -/
theorem eight_zeros {a b V : Nat} (ha : a < 10 ^ 8) (hb : b < 10 ^ 8)
    (hV : V = a * 2 ^ 90 + (a * 875776 + b * 12379400392853802749)) :
    (V / 2 ^ 64 % 2 ^ 64 % 2 ^ 26 = 0 ∧ V % 2 ^ 64 < 12379400392853802749 ↔ b = 0) ∧
      V / 2 ^ 64 % 2 ^ 64 / 2 ^ 26 % 2 ^ 32 = a := by
  obtain ⟨R, hR⟩ : ∃ R, R = a * 875776 + b * 12379400392853802749 := ⟨_, rfl⟩
  have hlt : R < 2 ^ 90 := by omega
  have hlow : R < 12379400392853802749 ↔ b = 0 := by omega
  rw [← hR] at hV
  clear hR
  have hV0 : V / 2 ^ 64 % 2 ^ 64 = a * 2 ^ 26 + R / 2 ^ 64 := by omega
  have hV1 : V % 2 ^ 64 = R % 2 ^ 64 := by omega
  rw [hV0, hV1]
  omega

/-- `remove_trailing_zeros(uint64_t&)` takes out all trailing zeros and counts them. -/
theorem removeTrailingZeros64_spec {n : Nat} (hn : n ≠ 0) (hw : n < 10 ^ 16) :
    ∃ m t, removeTrailingZeros64 n = .ok (m, t) ∧ m % 10 ≠ 0 ∧ n = m * 10 ^ t := by
  have hand : ∀ x : Nat, x &&& (2 ^ (90 - 64) - 1) = x % 2 ^ (90 - 64) :=
    fun x => Nat.and_two_pow_sub_one_eq_mod x (90 - 64)
  obtain ⟨e1, e2⟩ := eight_zeros (a := n / 10 ^ 8) (b := n % 10 ^ 8) (V := n * 12379400392853802749) (by omega) (by omega)
    (by omega)
  have hhi : (umul128 n 12379400392853802749).hi = n * 12379400392853802749 / 2 ^ 64 % 2 ^ 64 := rfl
  have hlo : (umul128 n 12379400392853802749).lo = n * 12379400392853802749 % 2 ^ 64 := rfl
  rw [← hhi, ← hlo] at e1
  rw [← hhi] at e2
  clear hhi hlo
  unfold removeTrailingZeros64
  rw [assert_ok hn, ok_bind]
  by_cases h8 : n % 10 ^ 8 = 0
  · obtain ⟨m, t, g1, g2, g3, g4⟩ := removeTrailingZeros32_spec (n := n / 10 ^ 8) (s := 8) (by omega) (by omega) (by omega)
    refine ⟨m, t, ?_, g2, ?_⟩
    · rw [if_pos]
      · rw [e2]
        exact g1
      · rw [hand]
        exact e1.mpr h8
    · rw [show t = t - 8 + 8 by omega, Nat.pow_add, ← Nat.mul_assoc, ← g4]
      omega
  · have hf : n < 100 ^ 64 := Nat.lt_of_lt_of_le hw (by decide)
    obtain ⟨m, t, g1, g2, -, g4⟩ := removeZeros_spec (s := 0) (fun _ h => rotr25_64 h) (fun _ h => rotr5_64 h) hn
      (Nat.lt_of_lt_of_le hw (by decide)) hf (by omega)
    refine ⟨m, t, ?_, g2, g4⟩
    rw [if_neg]
    · generalize removeLoop 64 0x8f5c28f5c28f5c29 64 n 0 = r at *
      exact g1
    · rw [hand]
      exact fun h => h8 (e1.mp h)

/-- The multiplication without a 128-bit type gives the same product. -/
theorem umul128Fallback_eq {x y : Nat} (hx : x < 2 ^ 64) (hy : y < 2 ^ 64) : umul128Fallback x y = umul128 x y := by
  unfold umul128Fallback umul128
  have ex : x = x / 2 ^ 32 * 2 ^ 32 + x % 2 ^ 32 := by omega
  have ey : y = y / 2 ^ 32 * 2 ^ 32 + y % 2 ^ 32 := by omega
  have ha : x / 2 ^ 32 < 2 ^ 32 := by omega
  have hc : y / 2 ^ 32 < 2 ^ 32 := by omega
  have hb : x % 2 ^ 32 < 2 ^ 32 := by omega
  have hd : y % 2 ^ 32 < 2 ^ 32 := by omega
  simp only
  generalize x / 2 ^ 32 = a at *
  generalize x % 2 ^ 32 = b at *
  generalize y / 2 ^ 32 = c at *
  generalize y % 2 ^ 32 = d at *
  have e : x * y = a * c * 2 ^ 64 + (a * d + b * c) * 2 ^ 32 + b * d := by rw [ex, ey]; ring
  rw [e]
  have p1 : a * c ≤ (2 ^ 32 - 1) * (2 ^ 32 - 1) := Nat.mul_le_mul (by omega) (by omega)
  have p2 : a * d ≤ (2 ^ 32 - 1) * (2 ^ 32 - 1) := Nat.mul_le_mul (by omega) (by omega)
  have p3 : b * c ≤ (2 ^ 32 - 1) * (2 ^ 32 - 1) := Nat.mul_le_mul (by omega) (by omega)
  have p4 : b * d ≤ (2 ^ 32 - 1) * (2 ^ 32 - 1) := Nat.mul_le_mul (by omega) (by omega)
  generalize a * c = ac at *
  generalize a * d = ad at *
  generalize b * c = bc at *
  generalize b * d = bd at *
  rw [U128.mk.injEq]
  constructor <;> omega

end Dragonbox
end Fmt
end Efp
