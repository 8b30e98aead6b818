import Verif.Fmt.DragonboxAux

/-!
# The decimal found in the regular case

Numbers are scaled by a power of ten, so that the significand `f` with exponent `e` is `2 * f * X / Y` and the numbers
rounding to it lie between `(2 * f - 1) * X / Y` and `(2 * f + 1) * X / Y`.  A multiple of the larger power of ten in
that interval is found if there is one; otherwise the multiple of the smaller one nearest to the number is.
-/

namespace Efp
namespace Fmt
namespace Dragonbox

/-- what is used of a floating-point type beside its table -/
structure OkFlt (F : Flt) (κ : Nat) : Prop where
  w : 32 ≤ F.w
  kappa : F.kappa = κ
  small : F.smallDivisor = 10 ^ κ
  big : F.bigDivisor = 10 ^ (κ + 1)
  kpos : 1 ≤ κ
  kle : κ ≤ 2
  size : 2 ^ (F.sigBits + 2) * (5 * 10 ^ κ) ≤ 2 ^ (F.w - 1)
  divide : ∀ n < 2 ^ (F.w - 1), F.divideBig n = n / 10 ^ (κ + 1)
  check : ∀ n ≤ 10 ^ (κ + 1), checkDivisibilityAndDivide (10 ^ κ) n = .ok (n / 10 ^ κ, decide (n % 10 ^ κ = 0))
  zeros : ∀ n, n ≠ 0 → n * 10 ^ (κ + 1) < 2 ^ (F.w - 1) →
    ∃ m t, F.removeTrailingZeros n = .ok (m, t) ∧ m % 10 ≠ 0 ∧ n = m * 10 ^ t

theorem okFlt64 : OkFlt flt64 2 where
  w := by show 32 ≤ 64; omega
  kappa := rfl
  small := rfl
  big := rfl
  kpos := by omega
  kle := by omega
  size := by show 2 ^ (52 + 2) * (5 * 10 ^ 2) ≤ 2 ^ (64 - 1); omega
  divide n h := divideBig64 h
  check n h := checkDivisibility64 h
  zeros n h0 h := by
    have h' : n * 10 ^ 3 < 2 ^ 63 := h
    exact removeTrailingZeros64_spec h0 (by omega)

theorem okFlt32 : OkFlt flt32 1 where
  w := by show 32 ≤ 32; omega
  kappa := rfl
  small := rfl
  big := rfl
  kpos := by omega
  kle := by omega
  size := by show 2 ^ (23 + 2) * (5 * 10 ^ 1) ≤ 2 ^ (32 - 1); omega
  divide n h := divideBig32 (by have h' : n < 2 ^ 31 := h; omega)
  check n h := checkDivisibility32 h
  zeros n h0 h := by
    have h' : n * 10 ^ 2 < 2 ^ 31 := h
    obtain ⟨m, t, h1, h2, -, h4⟩ := removeTrailingZeros32_spec (s := 0) h0 (by omega) (by omega)
    exact ⟨m, t, h1, h2, h4⟩

/-- the scaled integer `m` rounds to the number with significand `f` -/
def In (f X Y m : Nat) : Prop :=
  if f % 2 = 0 then (2 * f - 1) * X ≤ m * Y ∧ m * Y ≤ (2 * f + 1) * X
  else (2 * f - 1) * X < m * Y ∧ m * Y < (2 * f + 1) * X

theorem In.le {f X Y m : Nat} (h : In f X Y m) : (2 * f - 1) * X ≤ m * Y ∧ m * Y ≤ (2 * f + 1) * X := by
  unfold In at h
  split at h <;> omega

theorem In.of_lt {f X Y m : Nat} (h1 : (2 * f - 1) * X < m * Y) (h2 : m * Y < (2 * f + 1) * X) : In f X Y m := by
  unfold In
  split <;> omega

/-- the result for one significand: either the only multiple of `10 ^ (κ + 1)` in the interval, without trailing zeros,
or there is none and the multiple of `10 ^ κ` nearest to the number, even in case of a tie -/
def Found (κ f X Y n t : Nat) : Prop :=
  In f X Y (n * 10 ^ t) ∧ n % 10 ≠ 0 ∧
    ((κ + 1 ≤ t ∧ ∀ m, In f X Y (m * 10 ^ (κ + 1)) → m * 10 ^ (κ + 1) = n * 10 ^ t) ∨
      (t = κ ∧ (∀ m, ¬ In f X Y (m * 10 ^ (κ + 1))) ∧ 2 * (n * 10 ^ κ * Y) ≤ 2 * (2 * f * X) + 10 ^ κ * Y ∧
        2 * (2 * f * X) ≤ 2 * (n * 10 ^ κ * Y) + 10 ^ κ * Y ∧
        (2 * (n * 10 ^ κ * Y) = 2 * (2 * f * X) + 10 ^ κ * Y ∨ 2 * (2 * f * X) = 2 * (n * 10 ^ κ * Y) + 10 ^ κ * Y →
          n % 2 = 0)))

/-- Multiples of `Q` in the interval are the largest one below the right end, if at all. -/
theorem in_unique {f X Y Q s r m : Nat} (hf : 0 < f) (hX : 2 * X < Q * Y) (hz : (2 * f + 1) * X / Y = s * Q + r)
    (hr : r < Q) (hY : 0 < Y) (h : In f X Y (m * Q)) : m = s := by
  obtain ⟨h1, h2⟩ := h.le
  have hdm := Nat.div_add_mod ((2 * f + 1) * X) Y
  have hlt := Nat.mod_lt ((2 * f + 1) * X) hY
  rw [hz] at hdm
  have e1 : (2 * f + 1) * X = (2 * f - 1) * X + 2 * X := by
    rw [← Nat.add_mul]; congr 1; omega
  rcases Nat.lt_trichotomy m s with hm | hm | hm
  · exfalso
    have : (m + 1) * Q * Y ≤ s * Q * Y := Nat.mul_le_mul_right _ (Nat.mul_le_mul_right _ hm)
    have e2 : (m + 1) * Q * Y = m * Q * Y + Q * Y := by ring
    have e3 : Y * (s * Q + r) = s * Q * Y + Y * r := by ring
    omega
  · exact hm
  · exfalso
    have : (s + 1) * Q * Y ≤ m * Q * Y := Nat.mul_le_mul_right _ (Nat.mul_le_mul_right _ hm)
    have e2 : (s + 1) * Q * Y = s * Q * Y + Q * Y := by ring
    have e3 : Y * (s * Q + r) = s * Q * Y + Y * r := by ring
    have e4 : (r + 1) * Y ≤ Q * Y := Nat.mul_le_mul_right _ hr
    have e5 : (r + 1) * Y = Y * r + Y := by ring
    omega

/-- A multiple of the smaller power at most half of it away from the number is in the interval. -/
theorem in_of_near {f X Y P n : Nat} (hf : 0 < f) (hY : 0 < Y) (hP : 0 < P) (hX : P * Y ≤ 2 * X)
    (h1 : 2 * (n * P * Y) ≤ 2 * (2 * f * X) + P * Y) (h2 : 2 * (2 * f * X) ≤ 2 * (n * P * Y) + P * Y) :
    In f X Y (n * P) := by
  have hX0 : 0 < X := by
    have := Nat.mul_pos hP hY
    omega
  have e1 : (2 * f + 1) * X = 2 * f * X + X := by ring
  have e2 : (2 * f - 1) * X + X = 2 * f * X := by
    have : (2 * f - 1) * X + X = (2 * f - 1 + 1) * X := by ring
    rw [this]; congr 1; omega
  have key : P * Y = 2 * X → n * P * Y = 2 * n * X := by
    intro h
    rw [Nat.mul_assoc, h]; ring
  have hne : ∀ k, k % 2 = 1 → n * P * Y = k * X → P * Y = 2 * X → False := by
    intro k hk h h'
    rw [key h'] at h
    have := Nat.eq_of_mul_eq_mul_right hX0 h
    omega
  apply In.of_lt
  · apply Nat.lt_of_le_of_ne (by omega)
    intro h
    exact hne (2 * f - 1) (by omega) h.symm (by omega)
  · apply Nat.lt_of_le_of_ne (by omega)
    intro h
    exact hne (2 * f + 1) (by omega) h (by omega)

/-- what is known about the number from the right end of the interval and its width -/
theorem center {X Y f z δ : Nat} (hY : 0 < Y) (hz : (2 * f + 1) * X / Y = z) (hd : 2 * X / Y = δ) :
    (2 * f * X / Y = z - δ / 2 ∨ (2 * f * X / Y + 1 = z - δ / 2 ∧ 2 * f * X % Y ≠ 0)) ∧ δ / 2 ≤ z := by
  have d1 := Nat.div_add_mod ((2 * f + 1) * X) Y
  have d2 := Nat.div_add_mod (2 * f * X) Y
  have d3 := Nat.div_add_mod (2 * X) Y
  have l1 := Nat.mod_lt ((2 * f + 1) * X) hY
  have l2 := Nat.mod_lt (2 * f * X) hY
  have l3 := Nat.mod_lt (2 * X) hY
  rw [hz] at d1
  rw [hd] at d3
  have e1 : (2 * f + 1) * X = 2 * f * X + X := by ring
  generalize (2 * f + 1) * X % Y = ζ at *
  generalize 2 * X % Y = d at *
  generalize 2 * f * X % Y = η at *
  generalize 2 * f * X / Y = y at *
  generalize 2 * f * X = V at *
  have m1 : δ / 2 = 0 ∨ 2 * (δ / 2) ≤ δ := by omega
  have hδ : δ = 2 * (δ / 2) + δ % 2 := by omega
  have hb : δ % 2 < 2 := by omega
  generalize δ / 2 = h at *
  generalize δ % 2 = b at *
  subst hδ
  have e2 : Y * (2 * h + b) = 2 * (Y * h) + Y * b := by ring
  have hb2 : b = 0 ∨ b = 1 := by omega
  have e3 : Y * b = 0 ∨ Y * b = Y := by rcases hb2 with rfl | rfl <;> simp
  have hle : h ≤ z := by
    apply Nat.le_of_not_lt
    intro hlt
    have : Y * (z + 1) ≤ Y * h := Nat.mul_le_mul_left _ hlt
    rw [Nat.mul_add] at this
    omega
  refine ⟨?_, hle⟩
  obtain ⟨k, rfl⟩ := Nat.exists_eq_add_of_le hle
  rw [Nat.add_sub_cancel_left]
  rw [Nat.mul_add] at d1
  rcases Nat.lt_trichotomy y k with hk | hk | hk
  · right
    have hy : y + 1 = k := by
      apply Nat.le_antisymm hk
      apply Nat.le_of_not_lt
      intro hlt
      have : Y * (y + 2) ≤ Y * k := Nat.mul_le_mul_left _ hlt
      rw [Nat.mul_add] at this
      omega
    refine ⟨hy, ?_⟩
    rw [← hy, Nat.mul_add] at d1
    rcases e3 with e3 | e3 <;> omega
  · left; exact hk
  · exfalso
    have : Y * (k + 1) ≤ Y * y := Nat.mul_le_mul_left _ hk
    rw [Nat.mul_add] at this
    omega

/-- step 3: the multiple of the smaller power nearest to the number -/
theorem smallDivisorCase_spec {F : Flt} {κ : Nat} (hF : OkFlt F κ) {e l lb : Int} {cache : F.Cache} {X Y U0 exc f : Nat}
    (row : Row F e l lb cache X Y U0 exc) (hf : 0 < f) (hU : U0 ≤ 2 * f) (hN : 2 * f ≤ 2 ^ (F.sigBits + 2))
    (hexc : 2 * f ≠ exc) {s r : Nat} (hz : (2 * f + 1) * X / Y = s * 10 ^ (κ + 1) + r)
    (hzlt : (2 * f + 1) * X / Y < 2 ^ (F.w - 1)) (hr : 2 * X / Y ≤ r) (hr' : r ≤ 10 ^ (κ + 1))
    (hno : ∀ m, ¬ In f X Y (m * 10 ^ (κ + 1))) :
    ∃ n, smallDivisorCase F cache (l - F.kappa) (e + lb) (2 * f) s r (2 * X / Y) = .ok ⟨n, l - F.kappa + F.kappa⟩ ∧
      Found κ f X Y n κ := by
  have hY := row.pos
  have hlow := row.lower
  have hs := hF.small
  have hP10 : 10 ^ (κ + 1) = 10 * 10 ^ κ := by rw [Nat.pow_succ]; ring
  have hPle : 10 ^ κ ≤ 10 ^ 2 := Nat.pow_le_pow_right (by omega) hF.kle
  have hPeven : 10 ^ κ % 2 = 0 := by
    obtain ⟨k, hk⟩ := Nat.exists_eq_add_of_le hF.kpos
    rw [hk, Nat.pow_add]; omega
  have hP0 : 0 < 10 ^ κ := by positivity
  rw [hs] at hlow
  have hW : 2 ^ F.w = 2 * 2 ^ (F.w - 1) := by
    rw [← Nat.pow_succ']; congr 1; have := hF.w; omega
  have hW31 : 2 ^ 31 ≤ 2 ^ (F.w - 1) := Nat.pow_le_pow_right (by omega) (by have := hF.w; omega)
  -- it is enough to find a near multiple
  suffices hmain : ∃ n, smallDivisorCase F cache (l - F.kappa) (e + lb) (2 * f) s r (2 * X / Y) =
      .ok ⟨n, l - F.kappa + F.kappa⟩ ∧
      2 * (n * 10 ^ κ * Y) ≤ 2 * (2 * f * X) + 10 ^ κ * Y ∧ 2 * (2 * f * X) ≤ 2 * (n * 10 ^ κ * Y) + 10 ^ κ * Y ∧
        (2 * (n * 10 ^ κ * Y) = 2 * (2 * f * X) + 10 ^ κ * Y ∨ 2 * (2 * f * X) = 2 * (n * 10 ^ κ * Y) + 10 ^ κ * Y →
          n % 2 = 0) by
    obtain ⟨n, h1, h2, h3, h4⟩ := hmain
    have hin := in_of_near hf hY hP0 hlow h2 h3
    refine ⟨n, h1, hin, ?_, Or.inr ⟨rfl, hno, h2, h3, h4⟩⟩
    intro h10
    apply hno (n / 10)
    have : n / 10 * 10 ^ (κ + 1) = n * 10 ^ κ := by
      rw [hP10, ← Nat.mul_assoc]; congr 1; omega
    rw [this]; exact hin
  obtain ⟨hc, hcle⟩ := center hY rfl rfl (X := X) (f := f)
  have hdP : 10 ^ κ ≤ 2 * X / Y := by rw [Nat.le_div_iff_mul_le hY]; exact hlow
  obtain ⟨p, i, hpar, hp, hi⟩ := row.parity (2 * f) (by omega) hU hN
  replace hi := hi hexc
  rw [Nat.dvd_iff_mod_eq_zero] at hi
  have dm := Nat.div_add_mod (2 * f * X) Y
  have lm := Nat.mod_lt (2 * f * X) hY
  rw [hz] at hc hcle hzlt
  rw [hP10] at hc hcle hzlt hr'
  unfold smallDivisorCase
  rw [hpar, hs]
  generalize 2 * X / Y = δ at *
  generalize 2 * f * X / Y = y at *
  generalize 2 * f * X % Y = η at *
  generalize 2 * f * X = V at *
  have hdist : (r + 2 ^ 32 - δ / 2 + 10 ^ κ / 2) % 2 ^ 32 = r - δ / 2 + 10 ^ κ / 2 := by omega
  rw [hdist]
  have hx : ∀ a b : Nat, ((a ^^^ b) % 2 ≠ 0) ↔ (a + b) % 2 = 1 := by
    intro a b
    have := @Nat.xor_mod_two_eq_one a b
    omega
  have hchk := hF.check (r - δ / 2 + 10 ^ κ / 2) (by rw [hP10]; omega)
  simp only [hchk, ok_bind]
  have hPh : 10 ^ κ = 2 * (10 ^ κ / 2) := by omega
  have hap : decide (((r - δ / 2 + 10 ^ κ / 2) ^^^ 10 ^ κ / 2) % 2 ≠ 0) = decide ((s * (10 * 10 ^ κ) + r - δ / 2) % 2 = 1) := by
    apply decide_eq_decide.mpr
    rw [hx]
    have : s * (10 * 10 ^ κ) = 2 * (s * (10 * (10 ^ κ / 2))) := by
      conv => lhs; rw [hPh]
      ring
    omega
  rw [hap]
  have dmP := Nat.div_add_mod (r - δ / 2 + 10 ^ κ / 2) (10 ^ κ)
  have lmP := Nat.mod_lt (r - δ / 2 + 10 ^ κ / 2) hP0
  have hyt : s * (10 * 10 ^ κ) + r - δ / 2 = s * (10 * 10 ^ κ) + (r - δ / 2) := by omega
  have hs10 : s * 10 * 10 ^ κ = s * (10 * 10 ^ κ) := by ring
  have hs1 : s * 10 ≤ s * (10 * 10 ^ κ) := by
    rw [← hs10]; exact Nat.le_mul_of_pos_right _ hP0
  have hq1 : (r - δ / 2 + 10 ^ κ / 2) / 10 ^ κ ≤ r - δ / 2 + 10 ^ κ / 2 := Nat.div_le_self _ _
  rw [Nat.mod_eq_of_lt (a := s * 10) (by omega)]
  rw [Nat.mod_eq_of_lt (a := s * 10 + _) (by omega)]
  have hnP : (s * 10 + (r - δ / 2 + 10 ^ κ / 2) / 10 ^ κ) * 10 ^ κ =
      s * (10 * 10 ^ κ) + 10 ^ κ * ((r - δ / 2 + 10 ^ κ / 2) / 10 ^ κ) := by rw [Nat.add_mul, hs10]; ring
  generalize hn : s * 10 + (r - δ / 2 + 10 ^ κ / 2) / 10 ^ κ = n at *
  have hnlt : n < 2 ^ F.w := by omega
  generalize hP : 10 ^ κ = P at *
  generalize hh : P / 2 = h at *
  generalize hyt' : s * (10 * P) + r - δ / 2 = yt at *
  have hbound : ∀ {a b : Nat}, a ≤ b → a * Y ≤ b * Y := fun h => Nat.mul_le_mul_right _ h
  have hPY : P * Y = 2 * (h * Y) := by rw [hPh]; ring
  have hyY : Y * y = y * Y := Nat.mul_comm _ _
  by_cases hdiv : (r - δ / 2 + h) % P = 0
  · have hnP' : n * P = yt + h := by omega
    have hn1 : 0 < n := by
      apply Nat.pos_of_ne_zero
      rintro rfl
      omega
    have hn1P : (n - 1) * P + P = n * P := by
      have : (n - 1) * P + P = (n - 1 + 1) * P := by ring
      rw [this]; congr 1; omega
    have hmod : (n + 2 ^ F.w - 1) % 2 ^ F.w = n - 1 := by
      rw [show n + 2 ^ F.w - 1 = n - 1 + 2 ^ F.w by omega, Nat.add_mod_right, Nat.mod_eq_of_lt (by omega)]
    simp only [hdiv, decide_true, Bool.not_true, Bool.false_eq_true, if_false]
    rw [hmod]
    by_cases hpa : p = decide (yt % 2 = 1)
    · have hyy : y = yt := by
        rcases hc with hc | ⟨hc, -⟩
        · exact hc
        · exfalso
          subst hpa
          rw [decide_eq_true_eq] at hp
          omega
      rw [if_neg (by simp [hpa])]
      by_cases hodd : (i && decide (n % 2 ≠ 0)) = true
      · rw [if_pos hodd]
        rw [Bool.and_eq_true, decide_eq_true_eq] at hodd
        have h0 := hi.mp hodd.1
        refine ⟨_, rfl, ?_⟩
        have e1 : (n - 1) * P + h = yt := by omega
        have e2 : (n - 1) * P * Y + h * Y = y * Y := by rw [← Nat.add_mul, e1, hyy]
        refine ⟨by omega, by omega, fun _ => by omega⟩
      · rw [if_neg hodd]
        refine ⟨_, rfl, ?_⟩
        rw [Bool.and_eq_true, decide_eq_true_eq] at hodd
        have e2 : n * P * Y = y * Y + h * Y := by rw [← Nat.add_mul, hyy, hnP']
        refine ⟨by omega, ?_, ?_⟩
        · have := hbound (show 1 ≤ h by omega)
          omega
        · intro ht
          have := hbound (show 1 ≤ h by omega)
          rcases ht with ht | ht
          · have : η = 0 := by omega
            rw [← hi] at this
            apply Decidable.byContradiction
            intro hne
            exact hodd ⟨this, by omega⟩
          · omega
    · have hyy : y + 1 = yt := by
        rcases hc with hc | ⟨hc, -⟩
        · exfalso
          apply hpa
          rw [Bool.eq_iff_iff, hp, decide_eq_true_eq, hc]
        · exact hc
      rw [if_pos (by simp [hpa])]
      refine ⟨_, rfl, ?_⟩
      have e1 : (n - 1) * P + h = y + 1 := by omega
      have e2 : (n - 1) * P * Y + h * Y = y * Y + Y := by
        rw [← Nat.add_mul, e1]; ring
      have := hbound (show 1 ≤ h by omega)
      refine ⟨by omega, by omega, fun ht => by omega⟩
  · simp only [hdiv, decide_false, Bool.not_false, if_true]
    refine ⟨_, rfl, ?_⟩
    generalize hρ : (r - δ / 2 + h) % P = ρ at *
    have hnP' : n * P + ρ = yt + h := by omega
    have u1 : n * P ≤ y + h := by omega
    have u2 : y + 1 ≤ n * P + h := by omega
    have v1 := hbound u1
    have v2 := hbound u2
    rw [Nat.add_mul] at v1 v2
    rw [Nat.add_mul] at v2
    refine ⟨by omega, by omega, fun ht => ?_⟩
    exfalso
    rcases ht with ht | ht
    · rcases hc with hc | ⟨hc, hη⟩
      · have := hbound (show n * P + 1 ≤ y + h by omega)
        rw [Nat.add_mul, Nat.add_mul] at this
        omega
      · omega
    · omega

/-- Steps 1 to 3: the decimal of the regular case. -/
theorem regularCase_spec {F : Flt} {κ : Nat} (hF : OkFlt F κ) {e l lb : Int} {cache : F.Cache} {X Y U0 exc f : Nat}
    (row : Row F e l lb cache X Y U0 exc) (hf : 0 < f) (hU : U0 ≤ 2 * f - 1) (hN : 2 * f + 1 ≤ 2 ^ (F.sigBits + 2))
    (hexc : 2 * f ≠ exc) (hexc1 : exc % 2 = 0) :
    ∃ n t, regularCase F f e = .ok ⟨n, l - F.kappa + (t : Nat)⟩ ∧ Found κ f X Y n t := by
  have hY := row.pos
  have hlow := row.lower
  have hup := row.upper
  rw [hF.small] at hlow
  rw [hF.big] at hup
  have hP10 : 10 ^ (κ + 1) = 10 * 10 ^ κ := by rw [Nat.pow_succ]; ring
  have hPle : 10 ^ κ ≤ 10 ^ 2 := Nat.pow_le_pow_right (by omega) hF.kle
  have hPeven : 10 ^ κ % 2 = 0 := by
    obtain ⟨k, hk⟩ := Nat.exists_eq_add_of_le hF.kpos
    rw [hk, Nat.pow_add]; omega
  have hP0 : 0 < 10 ^ κ := by positivity
  have hPY := Nat.mul_pos hP0 hY
  have hX0 : 0 < X := by omega
  have hW : 2 ^ F.w = 2 * 2 ^ (F.w - 1) := by
    rw [← Nat.pow_succ']; congr 1; have := hF.w; omega
  have hW31 : 2 ^ 31 ≤ 2 ^ (F.w - 1) := Nat.pow_le_pow_right (by omega) (by have := hF.w; omega)
  have hzlt : (2 * f + 1) * X / Y < 2 ^ (F.w - 1) := by
    rw [Nat.div_lt_iff_lt_mul hY]
    have h1 : (2 * f + 1) * X < (2 * f + 1) * (5 * 10 ^ κ * Y) := by
      apply Nat.mul_lt_mul_of_pos_left _ (by omega)
      rw [hP10] at hup
      have : 10 * 10 ^ κ * Y = 2 * (5 * 10 ^ κ * Y) := by ring
      omega
    calc (2 * f + 1) * X < (2 * f + 1) * (5 * 10 ^ κ * Y) := h1
      _ ≤ 2 ^ (F.sigBits + 2) * (5 * 10 ^ κ * Y) := Nat.mul_le_mul_right _ hN
      _ = 2 ^ (F.sigBits + 2) * (5 * 10 ^ κ) * Y := by ring
      _ ≤ _ := Nat.mul_le_mul_right _ hF.size
  have hfw : 2 * f + 1 < 2 ^ F.w := by
    have h1 := hF.size
    have h2 : 2 ^ (F.sigBits + 2) ≤ 2 ^ (F.sigBits + 2) * (5 * 10 ^ κ) := Nat.le_mul_of_pos_right _ (by omega)
    omega
  have htwo : shl F.w f 1 = .ok (2 * f) := by
    have := hF.w
    rw [shl_ok (by omega) (by omega), show (1 : Int).toNat = 1 from rfl, Nat.pow_one,
      Nat.mod_eq_of_lt (by omega), Nat.mul_comm]
  have hor : 2 * f ||| 1 = 2 * f + 1 := by
    have := Nat.two_pow_add_eq_or_of_lt (i := 1) (b := 1) (by omega) f
    rw [show 2 ^ 1 * f = 2 * f by omega] at this
    exact this.symm
  obtain ⟨v, hv, hmul, hint⟩ := row.mul (2 * f + 1) (by omega) (by omega) hN
  replace hint := hint (by omega)
  obtain ⟨p, i, hpar, hp, hi⟩ := row.parity (2 * f - 1) (by omega) hU (by omega)
  replace hi := hi (by omega)
  rw [Nat.dvd_iff_mod_eq_zero] at hi hint
  have hpred : (2 * f + 2 ^ F.w - 1) % 2 ^ F.w = 2 * f - 1 := by
    rw [show 2 * f + 2 ^ F.w - 1 = 2 * f - 1 + 2 ^ F.w by omega, Nat.add_mod_right, Nat.mod_eq_of_lt (by omega)]
  have hdP : 10 ^ κ ≤ 2 * X / Y := by rw [Nat.le_div_iff_mul_le hY]; exact hlow
  have hdlt : 2 * X / Y < 10 ^ (κ + 1) := by rw [Nat.div_lt_iff_lt_mul hY]; exact hup
  have dz := Nat.div_add_mod ((2 * f + 1) * X) Y
  have lz := Nat.mod_lt ((2 * f + 1) * X) hY
  have dx := Nat.div_add_mod ((2 * f - 1) * X) Y
  have lx := Nat.mod_lt ((2 * f - 1) * X) hY
  have dd := Nat.div_add_mod (2 * X) Y
  have ld := Nat.mod_lt (2 * X) hY
  have e1 : (2 * f + 1) * X = (2 * f - 1) * X + 2 * X := by rw [← Nat.add_mul]; congr 1; omega
  have hL0 : 0 < (2 * f - 1) * X := Nat.mul_pos (by omega) hX0
  have dP := Nat.div_add_mod ((2 * f + 1) * X / Y) (10 ^ (κ + 1))
  have lP := Nat.mod_lt ((2 * f + 1) * X / Y) (show 0 < 10 ^ (κ + 1) by positivity)
  have hz : (2 * f + 1) * X / Y = (2 * f + 1) * X / Y / 10 ^ (κ + 1) * 10 ^ (κ + 1) + (2 * f + 1) * X / Y % 10 ^ (κ + 1) := by
    rw [Nat.mul_comm (_ / _) (10 ^ (κ + 1))]; exact dP.symm
  have hdiv := hF.divide _ hzlt
  have huniq : ∀ m, In f X Y (m * 10 ^ (κ + 1)) → m = (2 * f + 1) * X / Y / 10 ^ (κ + 1) :=
    fun m h => in_unique hf hup hz lP hY h
  have hbig : In f X Y ((2 * f + 1) * X / Y / 10 ^ (κ + 1) * 10 ^ (κ + 1)) →
      ∃ n t, bigDivisorCase F (l - F.kappa) ((2 * f + 1) * X / Y / 10 ^ (κ + 1)) = .ok ⟨n, l - F.kappa + (t : Nat)⟩ ∧
        Found κ f X Y n t := by
    intro hin
    have hs0 : (2 * f + 1) * X / Y / 10 ^ (κ + 1) ≠ 0 := by
      intro h0
      rw [h0] at hin
      have := hin.le.1
      simp only [Nat.zero_mul] at this
      omega
    obtain ⟨m, t, h1, h2, h3⟩ := hF.zeros _ hs0 (by omega)
    refine ⟨m, κ + 1 + t, ?_, ?_⟩
    · unfold bigDivisorCase
      rw [h1]
      simp only [ok_bind]
      congr 2
      rw [hF.kappa]
      push_cast
      omega
    · have e : m * 10 ^ (κ + 1 + t) = (2 * f + 1) * X / Y / 10 ^ (κ + 1) * 10 ^ (κ + 1) := by rw [h3, Nat.pow_add]; ring
      refine ⟨by rw [e]; exact hin, h2, Or.inl ⟨by omega, fun k hk => ?_⟩⟩
      rw [e, huniq k hk]
  have hsmall : ∀ {s r}, (2 * f + 1) * X / Y = s * 10 ^ (κ + 1) + r → 2 * X / Y ≤ r → r ≤ 10 ^ (κ + 1) →
      ¬ In f X Y ((2 * f + 1) * X / Y / 10 ^ (κ + 1) * 10 ^ (κ + 1)) →
      ∃ n t, smallDivisorCase F cache (l - F.kappa) (e + lb) (2 * f) s r (2 * X / Y) = .ok ⟨n, l - F.kappa + (t : Nat)⟩ ∧
        Found κ f X Y n t := by
    intro s r h1 h2 h3 h4
    obtain ⟨n, g1, g2⟩ := smallDivisorCase_spec hF row hf (by omega) (by omega) hexc h1 hzlt h2 h3
      (fun m hm => h4 (by rw [← huniq m hm]; exact hm))
    refine ⟨n, κ, ?_, g2⟩
    rw [g1, hF.kappa]
  have hr32 : ((2 * f + 1) * X / Y + 2 ^ F.w - 10 ^ (κ + 1) * ((2 * f + 1) * X / Y / 10 ^ (κ + 1)) % 2 ^ F.w) %
      2 ^ F.w % 2 ^ 32 = (2 * f + 1) * X / Y % 10 ^ (κ + 1) := by
    rw [Nat.mod_eq_of_lt (a := 10 ^ (κ + 1) * _) (by omega)]
    rw [show ∀ a b c : Nat, c ≤ a → a + b - c = a - c + b by omega, Nat.add_mod_right, Nat.mod_eq_of_lt (b := 2 ^ F.w)]
    · rw [Nat.mod_eq_of_lt] <;> omega
    · omega
    · omega
  have hgoal : regularCase F f e =
      (let zi := (F.computeMul v cache).1
      let s := F.divideBig zi
      let r := (zi + 2 ^ F.w - F.bigDivisor * s % 2 ^ F.w) % 2 ^ F.w % 2 ^ 32
      if r < 2 * X / Y then
        if r = 0 ∧ ((F.computeMul v cache).2 && !decide (f % 2 = 0)) = true then
          smallDivisorCase F cache (l - F.kappa) (e + lb) (2 * f) ((s + 2 ^ F.w - 1) % 2 ^ F.w) F.bigDivisor (2 * X / Y)
        else bigDivisorCase F (l - F.kappa) s
      else if r > 2 * X / Y then smallDivisorCase F cache (l - F.kappa) (e + lb) (2 * f) s r (2 * X / Y)
      else if (!(p || (i && decide (f % 2 = 0)))) = true then
        smallDivisorCase F cache (l - F.kappa) (e + lb) (2 * f) s r (2 * X / Y)
      else bigDivisorCase F (l - F.kappa) s) := by
    unfold regularCase
    rw [row.log]
    simp only [ok_bind]
    rw [row.power, row.log2]
    simp only [ok_bind]
    rw [row.delta, htwo]
    simp only [ok_bind]
    rw [hor, hv]
    simp only [ok_bind]
    rw [hpred, hpar]
    rfl
  rw [hgoal, hmul]
  simp only
  generalize (F.computeMul v cache).2 = zint at *
  rw [hdiv, hF.big, hr32]
  clear hgoal hdiv hr32 hpar hpred hmul hv hor htwo hfw row
  have hzδ : 2 * X / Y ≤ (2 * f + 1) * X / Y := Nat.div_le_div_right (by omega)
  have hdmu := @Nat.div_mod_unique Y ((2 * f - 1) * X)
  generalize hL : (2 * f - 1) * X = L at *
  generalize hZ : (2 * f + 1) * X = Z at *
  generalize Z / Y = z at *
  generalize Z % Y = ζ at *
  generalize 2 * X / Y = δ at *
  generalize 2 * X % Y = d at *
  generalize hQ : 10 ^ (κ + 1) = Q at *
  generalize hr : z % Q = r at *
  generalize hs : z / Q = s at *
  have hSeven : s * Q % 2 = 0 := by
    rw [hP10, show s * (10 * 10 ^ κ) = 2 * (s * (5 * 10 ^ κ)) by ring]; omega
  have hzS : Y * z = s * Q * Y + Y * r := by rw [hz]; ring
  have hIn : In f X Y (s * Q) ↔ if f % 2 = 0 then L ≤ s * Q * Y ∧ s * Q * Y ≤ Z else L < s * Q * Y ∧ s * Q * Y < Z := by
    unfold In
    rw [hL, hZ]
  have hmono : ∀ {a b : Nat}, a < b → Y * a + Y ≤ Y * b := by
    intro a b h
    have : Y * (a + 1) ≤ Y * b := Nat.mul_le_mul_left _ h
    rw [Nat.mul_add] at this
    omega
  by_cases c1 : r < δ
  · rw [if_pos c1]
    have m1 := hmono c1
    by_cases c2 : r = 0 ∧ (zint && !decide (f % 2 = 0)) = true
    · rw [if_pos c2]
      obtain ⟨c2, c3⟩ := c2
      rw [Bool.and_eq_true, Bool.not_eq_true', decide_eq_false_iff_not] at c3
      have hζ := hint.mp c3.1
      have hs1 : 1 ≤ s := by
        apply Nat.pos_of_ne_zero
        rintro rfl
        rw [Nat.zero_mul] at hz
        omega
      have hsw : s ≤ s * Q := Nat.le_mul_of_pos_right _ (by omega)
      have hpred : (s + 2 ^ F.w - 1) % 2 ^ F.w = s - 1 := by
        rw [show s + 2 ^ F.w - 1 = s - 1 + 2 ^ F.w by omega, Nat.add_mod_right, Nat.mod_eq_of_lt (by omega)]
      rw [hpred]
      refine hsmall ?_ (by omega) (Nat.le_refl _) ?_
      · have : (s - 1) * Q + Q = (s - 1 + 1) * Q := by ring
        rw [this, show s - 1 + 1 = s by omega]
        omega
      · rw [hIn, if_neg c3.2]
        rw [c2, Nat.mul_zero] at hzS
        omega
    · rw [if_neg c2]
      apply hbig
      rw [hIn]
      split
      · omega
      · rename_i hodd
        refine ⟨by omega, ?_⟩
        apply Nat.lt_of_le_of_ne (by omega)
        intro heq
        apply c2
        have hYr : Y * r = 0 := by omega
        refine ⟨?_, ?_⟩
        · rcases Nat.mul_eq_zero.mp hYr with h | h
          · omega
          · exact h
        · rw [Bool.and_eq_true, Bool.not_eq_true', decide_eq_false_iff_not]
          exact ⟨hint.mpr (by omega), hodd⟩
  · rw [if_neg c1]
    by_cases c2 : r > δ
    · rw [if_pos c2]
      have m1 := hmono c2
      refine hsmall hz (by omega) (by omega) ?_
      rw [hIn]
      split <;> omega
    · rw [if_neg c2]
      have hrδ : r = δ := by omega
      subst hrδ
      have hYr : Y ≤ Y * r := Nat.le_mul_of_pos_right _ (by omega)
      by_cases c3 : ζ < d
      · have hp1 : p = true := by
          rw [hp]
          have hS1 : 1 ≤ s * Q := by
            apply Nat.pos_of_ne_zero
            intro h0
            rw [h0, Nat.zero_mul] at hzS
            omega
          have e2 : Y * (s * Q - 1) + Y = s * Q * Y := by
            have : Y * (s * Q - 1) + Y = (s * Q - 1 + 1) * Y := by ring
            rw [this, Nat.sub_add_cancel hS1]
          have := (hdmu (d := s * Q - 1) (c := L - Y * (s * Q - 1)) hY).mpr ⟨by omega, by omega⟩
          omega
        rw [if_neg (by simp [hp1])]
        apply hbig
        rw [hIn]
        split <;> omega
      · have hx := (hdmu (d := s * Q) (c := ζ - d) hY).mpr ⟨by rw [Nat.mul_comm Y]; omega, by omega⟩
        have hp0 : p = false := by
          rw [← Bool.not_eq_true, hp]
          omega
        by_cases c4 : (i && decide (f % 2 = 0)) = true
        · rw [if_neg (by simp [c4])]
          rw [Bool.and_eq_true, decide_eq_true_eq] at c4
          have h0 := hi.mp c4.1
          apply hbig
          rw [hIn, if_pos c4.2]
          omega
        · rw [if_pos (by rw [hp0, Bool.not_eq_true] at *; rw [c4]; rfl)]
          refine hsmall hz (Nat.le_refl _) (by omega) ?_
          rw [Bool.and_eq_true, decide_eq_true_eq] at c4
          rw [hIn]
          split
          · rename_i hev
            intro hcon
            apply c4
            exact ⟨hi.mpr (by omega), hev⟩
          · omega

end Dragonbox
end Fmt
end Efp
