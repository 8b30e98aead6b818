import Verif.Fmt.FloatPrecRound

/-!
# Digits of floating-point numbers with a given precision: `format_float`
-/

namespace Efp
namespace Fmt

open Dragonbox
open Spec (Format binary32 binary64 IsRoundEven IsExp10)

/-- `float` and `double` -/
def IsFlt (F : Flt) (G : Format) : Prop := F = flt32 ∧ G = binary32 ∨ F = flt64 ∧ G = binary64

theorem convertFloat_spec {F : Flt} {G : Format} (h : IsFlt F G) {m : Nat} (hfin : G.Finite m) :
    binary64.Finite (convertFloat F m) ∧ binary64.mag (convertFloat F m) = G.mag m ∧ (convertFloat F m = 0 ↔ m = 0) := by
  rcases h with ⟨rfl, rfl⟩ | ⟨rfl, rfl⟩
  · rw [show convertFloat flt32 m = widen m from if_pos rfl]
    exact widen_spec hfin
  · rw [show convertFloat flt64 m = m from if_neg (by decide)]
    exact ⟨hfin, rfl, Iff.rfl⟩

theorem full_bounds {G : Format} {m : Nat} (hm : m ≠ 0) : 0 < G.full m ∧ G.full m < 2 ^ (G.sig + 1) := by
  obtain ⟨h1, h2⟩ := G.split m
  unfold Format.full
  have := Nat.two_pow_pos G.sig
  rw [pow_succ]
  split
  · rename_i h
    rw [h] at h1
    omega
  · omega

/-- what `format_dragon` is given -/
theorem dragonArgs_spec {F : Flt} {G : Format} (h : IsFlt F G) {m : Nat} (hm : m ≠ 0) (hfin : G.Finite m) :
    ∃ f e closer, (if decide (F.w = 32) = true then fpAssign flt32 m else fpAssign flt64 (convertFloat F m)) = (f, e, closer) ∧
      0 < f ∧ f < 2 ^ 53 ∧ -1074 ≤ e ∧ e ≤ 971 ∧ G.mag m = f * 2 ^ e := by
  rcases h with ⟨rfl, rfl⟩ | ⟨rfl, rfl⟩
  · rw [if_pos (by decide)]
    obtain ⟨c, hc⟩ := fpAssign_spec (F := flt32) (G := binary32) rfl rfl rfl hfin
    obtain ⟨b1, b2⟩ := full_bounds (G := binary32) hm
    have hb : binary32.biased m < 255 := hfin
    refine ⟨_, _, c, hc, b1, Nat.lt_trans b2 (by decide), ?_, ?_, binary32.mag_eq m⟩ <;>
    · unfold Format.ulp
      rw [show binary32.bias = 127 from rfl, show binary32.sig = 23 from rfl]
      split <;> omega
  · rw [if_neg (by decide), show convertFloat flt64 m = m from if_neg (by decide)]
    obtain ⟨c, hc⟩ := fpAssign_spec (F := flt64) (G := binary64) rfl rfl rfl hfin
    obtain ⟨b1, b2⟩ := full_bounds (G := binary64) hm
    have hb : binary64.biased m < 2047 := hfin
    refine ⟨_, _, c, hc, b1, b2, ?_, ?_, binary64.mag_eq m⟩ <;>
    · unfold Format.ulp
      rw [show binary64.bias = 1023 from rfl, show binary64.sig = 52 from rfl]
      split <;> omega

/-- the digits of a number greater than 0 -/
theorem formatDigits_spec {F : Flt} {G : Format} (h : IsFlt F G) {m : Nat} (hm : m ≠ 0) (hfin : G.Finite m) (p : Int)
    (hp : 0 ≤ p) (fixed : Bool) :
    ∃ k, IsExp10 (G.mag m) k ∧ -1000 < k ∧ k < 1000 ∧
      ((fixed = true ∧ 0 < k + 1 ∧ 2147483647 - (k + 1) < p ∧
          formatDigits F m p fixed (decide (F.w = 32)) = .err "number is too big") ∨
       (¬ (fixed = true ∧ 0 < k + 1 ∧ 2147483647 - (k + 1) < p) ∧
        ∃ P : Int, P = (if fixed then p + (k + 1) else p) ∧
        ((P < 0 ∧ formatDigits F m p fixed (decide (F.w = 32)) = .ok ([], k + 1)) ∨
         (P = 0 ∧ ∃ n, n ≤ 1 ∧ IsRoundEven (G.mag m / 10 ^ (k + 1)) n ∧
            formatDigits F m p fixed (decide (F.w = 32)) = .ok (Nat.toDigits 10 n, k + 1)) ∨
         (0 < P ∧ ∃ n, IsRoundEven (G.mag m / 10 ^ (k + 1 - (min P.toNat 767 : Nat))) n ∧
            formatDigits F m p fixed (decide (F.w = 32)) =
              .ok (digitsOf n (min P.toNat 767) fixed (k + 1 - (min P.toNat 767 : Nat))))))) := by
  obtain ⟨c1, c2, c3⟩ := convertFloat_spec h hfin
  obtain ⟨u, e, g1, g2, g3, g4, g5, g6⟩ := normalize_spec (fun h0 => hm (c3.1 h0)) c1
  obtain ⟨T, d, more, k', s1, s2, s3, s4, s5, s6, s7, s8, s9⟩ := firstSegment_spec g2 g3 g4 g5
  rw [c2] at g6
  rw [← g6] at s5 s6 s7
  have h10 : ∀ j : Int, (0 : ℚ) < 10 ^ j := fun j => by positivity
  have hk : IsExp10 (G.mag m) ((d : Int) - k' - 1) := by
    constructor
    · rw [show (d : Int) - k' - 1 = ((d - 1 : Nat) : Int) - k' by omega, zpow_sub₀ (by norm_num), zpow_natCast,
        div_le_iff₀ (h10 _)]
      have : ((10 ^ (d - 1) : Nat) : ℚ) ≤ T := by exact_mod_cast s3
      push_cast at this
      linarith
    · rw [show (d : Int) - k' - 1 + 1 = (d : Int) - k' by ring, zpow_sub₀ (by norm_num), zpow_natCast, lt_div_iff₀ (h10 _)]
      have : ((T + 1 : Nat) : ℚ) ≤ ((10 ^ d : Nat) : ℚ) := by exact_mod_cast s4
      push_cast at this
      linarith
  refine ⟨(d : Int) - k' - 1, hk, by omega, by omega, ?_⟩
  generalize hkk : (d : Int) - k' - 1 = k at *
  have hexp : -k' + (d : Int) = k + 1 := by omega
  unfold formatDigits
  rw [g1, ok_bind]
  simp only
  rw [s1, ok_bind]
  simp only
  rw [hexp]
  unfold adjustPrecision
  by_cases hbig : fixed = true ∧ 0 < k + 1 ∧ 2147483647 - (k + 1) < p
  · left
    refine ⟨hbig.1, hbig.2.1, hbig.2.2, ?_⟩
    rw [if_pos hbig.1, if_pos ⟨hbig.2.1, hbig.2.2⟩]
    rfl
  · right
    refine ⟨hbig, ?_⟩
    refine ⟨_, rfl, ?_⟩
    have hprec : ∀ g : Int → Res (Str × Int), (if fixed = true then
        (if k + 1 > 0 ∧ p > 2147483647 - (k + 1) then Res.err "number is too big" else Res.ok (p + (k + 1))) >>= g
        else (Res.ok p >>= g)) = g (if fixed = true then p + (k + 1) else p) := by
      intro g
      cases fixed
      · rfl
      · simp only [true_and] at hbig
        rw [if_pos rfl, if_pos rfl, if_neg hbig]
        rfl
    rw [hprec]
    generalize (if fixed = true then p + (k + 1) else p) = P at *
    unfold digitsAfter
    have hq : ∀ j : Nat, G.mag m / 10 ^ (k + 1 - (j : Int)) = G.mag m * 10 ^ k' / 10 ^ ((d : Int) - j) := by
      intro j
      rw [show k + 1 - (j : Int) = (d : Int) - j - k' by omega, zpow_sub₀ (by norm_num)]
      field_simp
    by_cases hd : (d : Int) > P
    · rw [if_pos hd]
      by_cases hP0 : P ≤ 0
      · rw [if_pos hP0]
        by_cases hPneg : P < 0
        · rw [if_pos hPneg, hexp]
          exact .inl ⟨hPneg, rfl⟩
        · rw [if_neg hPneg, hexp]
          refine .inr (.inl ⟨by omega, ?_⟩)
          have hd0 : (0 : ℚ) < 10 ^ d := by positivity
          have hc : 0 < 10 ^ (19 - d) := Nat.pos_of_ne_zero (by positivity)
          have hD : 10 ^ d * 10 ^ (19 - d) = 10 ^ 19 := by rw [← Nat.pow_add, Nat.add_sub_cancel' (by omega)]
          have hy := hq 0
          simp only [Nat.cast_zero, sub_zero, zpow_natCast] at hy
          have hround := isRoundEven_of_floor (y := G.mag m * 10 ^ k' / 10 ^ d) (V := 0)
            (up := decide ((T * 10 ^ (19 - d)) ||| (if more then 1 else 0) > 5000000000000000000))
            (by
              rw [Nat.cast_zero]
              exact div_nonneg (le_trans (Nat.cast_nonneg T) s5) hd0.le)
            (by
              rw [Nat.cast_zero, zero_add, div_lt_one hd0]
              have : ((T + 1 : Nat) : ℚ) ≤ ((10 ^ d : Nat) : ℚ) := by exact_mod_cast s4
              push_cast at this
              linarith)
            (by
              rw [decide_eq_true_eq, Nat.cast_zero, sub_zero, ← mul_div_assoc, lt_div_iff₀ hd0, one_mul]
              simp only [Nat.zero_mod, Nat.zero_ne_one, and_false, or_false]
              have hS : ∀ b : Nat, T * 10 ^ (19 - d) > 5000000000000000000 ↔ 10 ^ d < 2 * T := by
                intro _
                constructor
                · intro h
                  apply Nat.lt_of_mul_lt_mul_right (a := 10 ^ (19 - d))
                  rw [hD, Nat.mul_assoc]; omega
                · intro h
                  have := Nat.mul_lt_mul_of_pos_right h hc
                  rw [hD, Nat.mul_assoc] at this; omega
              have hS' : T * 10 ^ (19 - d) ≥ 5000000000000000000 ↔ 10 ^ d ≤ 2 * T := by
                constructor
                · intro h
                  apply Nat.le_of_mul_le_mul_right (c := 10 ^ (19 - d)) _ hc
                  rw [hD, Nat.mul_assoc]; omega
                · intro h
                  have := Nat.mul_le_mul_right (10 ^ (19 - d)) h
                  rw [hD, Nat.mul_assoc] at this; omega
              have hcast1 : ((10 : ℚ) ^ d < 2 * T) ↔ 10 ^ d < 2 * T := by exact_mod_cast Iff.rfl
              cases more with
              | false =>
                have hx : G.mag m * 10 ^ k' = T := by
                  by_contra hc
                  exact absurd (s7.2 hc) (by decide)
                rw [hx, hcast1]
                simp only [Bool.false_eq_true, if_false, Nat.or_zero]
                exact hS 0
              | true =>
                have hx : (T : ℚ) < G.mag m * 10 ^ k' := lt_of_le_of_ne s5 (Ne.symm (s7.1 rfl))
                simp only [if_true]
                have hor : (T * 10 ^ (19 - d)) ||| 1 > 5000000000000000000 ↔ T * 10 ^ (19 - d) ≥ 5000000000000000000 := by
                  rw [or_one]; split <;> omega
                rw [hor, hS']
                constructor
                · intro h
                  have : ((10 ^ d : Nat) : ℚ) ≤ ((2 * T : Nat) : ℚ) := by exact_mod_cast h
                  push_cast at this
                  linarith
                · intro h
                  by_contra hc
                  have h2 : 2 * T + 2 ≤ 10 ^ d := by
                    have : 2 ∣ 10 ^ d := Dvd.dvd.trans (by decide : 2 ∣ 10) (dvd_pow_self _ (by omega))
                    omega
                  have : ((2 * T + 2 : Nat) : ℚ) ≤ ((10 ^ d : Nat) : ℚ) := by exact_mod_cast h2
                  push_cast at this
                  linarith)
          rw [← hy] at hround
          refine ⟨_, ?_, hround, ?_⟩
          · generalize decide ((T * 10 ^ (19 - d)) ||| (if more then 1 else 0) > 5000000000000000000) = b
            cases b <;> simp
          · by_cases hup : (T * 10 ^ (19 - d)) ||| (if more then 1 else 0) > 5000000000000000000
            · rw [if_pos hup, decide_eq_true hup]; rfl
            · rw [if_neg hup, decide_eq_false hup]; rfl
      · rw [if_neg hP0]
        refine .inr (.inr ⟨by omega, ?_⟩)
        obtain ⟨V, up, t1, t2, t3, t4⟩ := segmentDigits_round (P := P.toNat) s2 s3 s4 s5 s6 s7 (by omega) (by omega)
        have hmin : min P.toNat 767 = P.toNat := by omega
        rw [hmin, t1, ok_bind]
        simp only
        rw [roundUpDigits_eq _ _ _ (by omega) t2 t3]
        refine ⟨if up then V + 1 else V, ?_, ?_⟩
        · rw [hq, show (d : Int) - (P.toNat : Int) = ((d - P.toNat : Nat) : Int) by omega, zpow_natCast]
          exact t4
        · rw [show -k' + ((d : Int) - P) = k + 1 - (P.toNat : Int) by omega]
    · rw [if_neg hd]
      refine .inr (.inr ⟨by omega, ?_⟩)
      obtain ⟨f, e', closer, w1, w2, w3, w4, w5, w6⟩ := dragonArgs_spec h hm hfin
      rw [w1]
      simp only
      have hclamp : (if P > 767 then (767 : Int) else P) = ((min P.toNat 767 : Nat) : Int) := by split <;> omega
      rw [hclamp, show -k' + ((d : Int) - 1) = k by omega, w6]
      rw [w6] at hk
      obtain ⟨n, y1, y2⟩ := formatDragon_spec (P := min P.toNat 767) closer fixed w2 w3 w4 w5 (by omega) (by omega) hk (by omega)
      exact ⟨n, y2, y1⟩

end Fmt
end Efp
