import Verif.Fmt.FloatPrecWrite

/-!
# Hexadecimal notation of floating-point numbers
-/

namespace Efp
namespace Fmt

open Spec Dragonbox

/-- a hexadecimal digit -/
def hexDigit (upper : Bool) (v : Nat) : Char := if upper then (Nat.digitChar v).toUpper else Nat.digitChar v

/-- the last `n` hexadecimal digits of `v` -/
def padHex (upper : Bool) : Nat → Nat → Str
  | 0, _ => []
  | n + 1, v => padHex upper n (v / 16) ++ [hexDigit upper (v % 16)]

theorem padHex_length (upper : Bool) : ∀ n v, (padHex upper n v).length = n
  | 0, _ => rfl
  | n + 1, v => by rw [padHex, List.length_append, padHex_length upper n]; rfl

theorem padHex_add (upper : Bool) : ∀ a b v, padHex upper (a + b) v = padHex upper a (v / 16 ^ b) ++ padHex upper b v
  | a, 0, v => by simp [padHex]
  | a, b + 1, v => by
    rw [← Nat.add_assoc, padHex, padHex_add upper a b, padHex, List.append_assoc, Nat.div_div_eq_div_mul, pow_succ']

theorem padHex_zero (upper : Bool) : ∀ n, padHex upper n 0 = List.replicate n '0'
  | 0 => rfl
  | n + 1 => by
    rw [padHex, Nat.zero_div, padHex_zero upper n, List.replicate_succ']
    cases upper <;> rfl

theorem padHex_mul (upper : Bool) (n v : Nat) : ∀ j, padHex upper (n + j) (v * 16 ^ j) = padHex upper n v ++ List.replicate j '0'
  | 0 => by simp
  | j + 1 => by
    rw [← Nat.add_assoc, padHex, pow_succ, ← mul_assoc, Nat.mul_div_cancel _ (by decide), padHex_mul upper n v j,
      Nat.mul_mod_left, List.replicate_succ', List.append_assoc]
    cases upper <;> rfl

theorem padHex_toDigits (upper : Bool) : ∀ n v, v < 16 ^ (n + 1) →
    padHex upper (n + 1) v = List.replicate (n + 1 - (Nat.toDigits 16 v).length) '0' ++ upDigits 16 upper v := by
  intro n
  induction n with
  | zero =>
    intro v h
    have h' : v < 16 := by simpa using h
    unfold upDigits
    rw [Nat.toDigits_of_lt_base h', padHex, padHex, Nat.mod_eq_of_lt h']
    cases upper <;> simp [hexDigit]
  | succ n ih =>
    intro v h
    by_cases h16 : v < 16
    · unfold upDigits
      rw [Nat.toDigits_of_lt_base h16, padHex, Nat.div_eq_of_lt h16, padHex_zero, Nat.mod_eq_of_lt h16]
      cases upper <;> simp [hexDigit]
    · have h1 := ih (v / 16) (by rw [Nat.div_lt_iff_lt_mul (by decide), ← pow_succ]; exact h)
      rw [padHex, h1]
      unfold upDigits
      rw [Nat.toDigits_of_base_le (b := 16) (n := v) (by decide) (by omega)]
      simp only [List.length_append, List.length_cons, List.length_nil, Nat.zero_add, Nat.add_sub_add_right]
      cases upper <;> simp [hexDigit]

theorem hexDigits_eq (upper : Bool) (n v : Nat) (h : v < 16 ^ (n + 1)) : hexDigits upper (n + 1) v = padHex upper (n + 1) v := by
  rw [padHex_toDigits upper n v h]
  unfold hexDigits Spec.Fmt.hex upDigits
  cases upper with
  | false => simp
  | true =>
    simp only [if_true, List.map_append, List.map_replicate]
    rfl

theorem stripXdigits_spec (c : Char) (t : Str) : ∀ n, n ≤ t.length →
    t.take (stripXdigits (c :: t) n) = dropTrailing (t.take n) ∧ stripXdigits (c :: t) n ≤ n ∧
      t.take n = t.take (stripXdigits (c :: t) n) ++ List.replicate (n - stripXdigits (c :: t) n) '0'
  | 0, _ => by simp [stripXdigits, dropTrailing]
  | n + 1, h => by
    obtain ⟨h1, h2, h3⟩ := stripXdigits_spec c t n (by omega)
    have ht : t.take (n + 1) = t.take n ++ [t[n]] := by rw [List.take_succ_eq_append_getElem (by omega)]
    unfold stripXdigits
    rw [List.getElem?_cons_succ, List.getElem?_eq_getElem (by omega)]
    by_cases hc : t[n] = '0'
    · rw [if_pos (by rw [hc]), ht, hc, h1]
      refine ⟨?_, by omega, ?_⟩
      · have := dropTrailing_zeros (t.take n) 1
        exact this.symm
      · rw [show n + 1 - stripXdigits (c :: t) n = n - stripXdigits (c :: t) n + 1 by omega, List.replicate_succ',
          ← List.append_assoc, ← h1, ← h3]
    · rw [if_neg (by simpa using hc)]
      refine ⟨?_, le_refl _, by simp⟩
      rw [ht]
      unfold dropTrailing
      rw [List.reverse_append]
      simp only [List.reverse_cons, List.reverse_nil, List.nil_append, List.singleton_append]
      rw [List.dropWhile_cons_of_neg (by simpa using hc)]
      simp

/-- rounding keeps `n` digits behind the first one -/
theorem roundHexfloat_spec (f : Nat) (hf : f < 2 ^ 53) (p : Nat) (hp : p < 13) :
    ∃ f', roundHexfloat f p = .ok (f', p) ∧ f' < 2 ^ 54 ∧ IsRoundUp (f / 16 ^ (13 - p)) (f' / 16 ^ (13 - p)) := by
  unfold roundHexfloat
  rw [if_pos ⟨by omega, by omega⟩]
  have hs : ((13 - (p : Int) - 1) * 4).toNat = 4 * (12 - p) := by omega
  have hs4 : ((13 - (p : Int) - 1) * 4 + 4).toNat = 4 * (13 - p) := by omega
  have hpow : 2 ^ (4 * (13 - p)) = 16 ^ (13 - p) := by rw [pow_mul, show (2 : Nat) ^ 4 = 16 from rfl]
  have hpow' : 2 ^ (4 * (12 - p)) = 16 ^ (12 - p) := by rw [pow_mul, show (2 : Nat) ^ 4 = 16 from rfl]
  have hle : 16 ^ (13 - p) ≤ 16 ^ 13 := Nat.pow_le_pow_right (by decide) (by omega)
  have hshl : shl 64 1 ((13 - (p : Int) - 1) * 4 + 4) = .ok (16 ^ (13 - p)) := by
    unfold shl
    rw [if_pos ⟨by omega, by omega⟩, hs4, hpow, one_mul, Nat.mod_eq_of_lt (lt_of_le_of_lt hle (by decide))]
  simp only [hs, hshl, hpow', ok_bind, Int.toNat_natCast]
  have hI : 16 ^ (13 - p) = 16 * 16 ^ (12 - p) := by rw [← pow_succ', show 12 - p + 1 = 13 - p by omega]
  have hD : 0 < 16 ^ (12 - p) := Nat.pow_pos (by decide)
  generalize 16 ^ (12 - p) = D at *
  rw [hI] at hle ⊢
  rw [show f / D % 16 = f % (16 * D) / D by rw [Nat.mul_comm, Nat.mod_mul_right_div_self]]
  have hdm := Nat.div_add_mod f (16 * D)
  have hlt := Nat.mod_lt f (show 16 * D > 0 by omega)
  have hq : (f : ℚ) / 16 ^ (13 - p) = (f / (16 * D) : Nat) + (f % (16 * D) : Nat) / (16 * D : Nat) := by
    have e1 : (16 : ℚ) ^ (13 - p) = ((16 * D : Nat) : ℚ) := by rw [← hI]; push_cast; rfl
    have e2 : (f : ℚ) = (16 * D : Nat) * (f / (16 * D) : Nat) + (f % (16 * D) : Nat) := by exact_mod_cast hdm.symm
    have e3 : ((16 * D : Nat) : ℚ) ≠ 0 := by
      have : (16 * D) ≠ 0 := by omega
      exact_mod_cast this
    rw [e1]
    conv_lhs => rw [e2]
    field_simp
  have hr0 : (0 : ℚ) ≤ (f % (16 * D) : Nat) / (16 * D : Nat) := by positivity
  have hI0 : (0 : ℚ) < (16 * D : Nat) := by exact_mod_cast (show 0 < 16 * D by omega)
  have hr1 : ((f % (16 * D) : Nat) : ℚ) / (16 * D : Nat) < 1 := by
    rw [div_lt_one hI0]; exact_mod_cast hlt
  by_cases hv : f % (16 * D) / D ≥ 8
  · rw [if_pos hv]
    have hv' := (Nat.le_div_iff_mul_le hD).1 hv
    have e1 : (f + 16 * D) % 2 ^ 64 = f + 16 * D := Nat.mod_eq_of_lt (by
      have : (16 : Nat) ^ 13 = 2 ^ 52 := by decide
      rw [this] at hle
      have : (2 : Nat) ^ 53 + 2 ^ 52 < 2 ^ 64 := by decide
      exact lt_of_lt_of_le (Nat.add_lt_add_of_lt_of_le hf hle) this.le)
    have e2 : (f + 16 * D) / (16 * D) = f / (16 * D) + 1 := Nat.add_div_right _ (by omega)
    refine ⟨(f / (16 * D) + 1) * (16 * D), by rw [e1, e2], ?_, ?_⟩
    · have h1 : f / (16 * D) * (16 * D) ≤ f := Nat.div_mul_le_self _ _
      have : (16 : Nat) ^ 13 = 2 ^ 52 := by decide
      rw [this] at hle
      rw [Nat.add_mul, one_mul]
      have : (2 : Nat) ^ 53 + 2 ^ 52 < 2 ^ 54 := by decide
      exact lt_trans (Nat.add_lt_add_of_lt_of_le (lt_of_le_of_lt h1 hf) hle) this
    · rw [Nat.mul_div_cancel _ (by omega), hq]
      have h2 : (1 : ℚ) / 2 ≤ (f % (16 * D) : Nat) / (16 * D : Nat) := by
        rw [le_div_iff₀ hI0]
        have : (8 * D : ℚ) ≤ (f % (16 * D) : Nat) := by exact_mod_cast hv'
        push_cast at this ⊢
        linarith
      unfold IsRoundUp
      push_cast at *
      constructor <;> linarith
  · rw [if_neg hv]
    have hv' := Nat.lt_of_not_le (fun h => hv ((Nat.le_div_iff_mul_le hD).2 h))
    refine ⟨f, rfl, lt_trans hf (by decide), ?_⟩
    rw [hq]
    have h2 : ((f % (16 * D) : Nat) : ℚ) / (16 * D : Nat) < 1 / 2 := by
      rw [div_lt_iff₀ hI0]
      have : ((f % (16 * D) : Nat) : ℚ) < (8 * D : Nat) := by exact_mod_cast hv'
      push_cast at this ⊢
      linarith
    unfold IsRoundUp
    push_cast at *
    constructor <;> linarith

/-- the digits as they are printed -/
theorem formatHexfloat_spec {d : Nat} (hfin : binary64.Finite d) (p : Int) (fs : FloatSpecs) :
    ∃ text, formatHexfloat d p fs = .ok text ∧ IsHex fs.upper (binary64.mag d) p fs.showpoint text := by
  obtain ⟨c, hc⟩ := fpAssign_spec (F := flt64) (G := binary64) rfl rfl rfl hfin
  have hb : binary64.biased d < 2047 := hfin
  obtain ⟨-, hfr⟩ := binary64.split d
  have hfr : binary64.frac d < 2 ^ 52 := hfr
  have hfull : binary64.full d < 2 ^ 53 := by
    unfold Format.full
    rw [show binary64.sig = 52 from rfl]
    split <;> omega
  have hulp := ulp_range64 hfin
  have hmag := binary64.mag_eq d
  have hexp : IsExp2 (binary64.mag d) (binary64.ulp d + 52) := by
    have h2 : (0 : ℚ) < 2 ^ binary64.ulp d := by positivity
    refine ⟨by omega, ?_, ?_⟩
    · rw [hmag, show binary64.ulp d + 52 + 1 = ((53 : Nat) : Int) + binary64.ulp d by push_cast; omega, zpow_add₀ (by norm_num), zpow_natCast]
      apply mul_lt_mul_of_pos_right _ h2
      exact_mod_cast hfull
    · by_cases h0 : binary64.biased d = 0
      · right
        unfold Format.ulp
        rw [if_pos h0]
        rfl
      · left
        rw [hmag, show binary64.ulp d + 52 = ((52 : Nat) : Int) + binary64.ulp d by push_cast; omega, zpow_add₀ (by norm_num), zpow_natCast]
        apply mul_le_mul_of_nonneg_right _ h2.le
        have : 2 ^ 52 ≤ binary64.full d := by
          unfold Format.full
          rw [if_neg h0]
          exact Nat.le_add_right _ _
        exact_mod_cast this
  generalize hF : binary64.full d = f at *
  generalize hE : binary64.ulp d + 52 = e at *
  have hlead : ¬ f / 2 ^ 52 % 16 > 1 := by
    have : f / 2 ^ 52 < 2 := by
      rw [Nat.div_lt_iff_lt_mul (by decide)]
      exact hfull
    omega
  -- the digits for a rounded significand
  have hdig : ∀ f' < 2 ^ 54, formatUintLoop 4 fs.upper 14 f' [] =
      .ok (14 - (Nat.toDigits 16 f').length, upDigits 16 fs.upper f') := by
    intro f' hf'
    have hl : (Nat.toDigits 16 f').length ≤ 14 :=
      (Nat.length_toDigits_le_iff (by decide) (by decide)).2 (lt_trans hf' (by decide))
    rw [formatUintLoop_eq 4 _ (by simp), show (2 : Nat) ^ 4 = 16 from rfl, if_pos hl, List.append_nil]
  have hx : ∀ f' < 2 ^ 54, List.replicate (14 - (Nat.toDigits 16 f').length) '0' ++ upDigits 16 fs.upper f' =
      padHex fs.upper 1 (f' / 16 ^ 13) ++ padHex fs.upper 13 f' := by
    intro f' hf'
    rw [← padHex_toDigits fs.upper 13 f' (lt_trans hf' (by decide)), ← padHex_add]
  have hone : ∀ v, padHex fs.upper 1 v = [hexDigit fs.upper (v % 16)] := fun _ => rfl
  have habs : e.natAbs < 2 ^ 32 := by omega
  unfold formatHexfloat
  rw [hc]
  simp only []
  rw [if_neg hlead, hE]
  rcases Int.lt_or_le p 0 with hp | hp
  · have hround : roundHexfloat f p = .ok (f, 13) := if_neg (fun h => by omega)
    have hf54 : f < 2 ^ 54 := lt_trans hfull (by decide)
    rw [hround, ok_bind]
    simp only []
    rw [hdig f hf54, ok_bind]
    simp only [hx f hf54, hone, List.singleton_append]
    rw [countDigits_eq (Or.inl rfl) habs, ok_bind, formatDecimal_eq (Or.inl rfl) habs, ok_bind]
    refine ⟨_, rfl, e, f, hexp, Or.inl ⟨hp, ?_, lt_trans hfull (by decide), ?_⟩⟩
    · rw [hmag, ← hE, show binary64.ulp d + 52 - 52 = binary64.ulp d by omega]
    · obtain ⟨s1, s2, -⟩ := stripXdigits_spec (hexDigit fs.upper (f / 16 ^ 13 % 16)) (padHex fs.upper 13 f) 13
        (by rw [padHex_length])
      rw [hexDigits_eq fs.upper 13 f (lt_trans hfull (by decide)), show 13 + 1 = 1 + 13 from rfl, padHex_add, hone]
      have hsl := congrArg List.length s1
      rw [List.length_take, padHex_length] at hsl
      rw [List.take_of_length_le (i := 13) (by rw [padHex_length])] at s1 hsl
      generalize stripXdigits (hexDigit fs.upper (f / 16 ^ 13 % 16) :: padHex fs.upper 13 f) 13 = n at *
      simp only [List.singleton_append, List.take_succ_cons, List.take_zero, List.drop_succ_cons, List.drop_zero, s1]
      unfold hexText
      rw [show (p - (n : Int)).toNat = 0 by omega]
      have hiff : (fs.showpoint = true ∨ n > 0 ∨ (n : Int) < p) ↔
          ¬ ((hexDigit fs.upper (f / 16 ^ 13 % 16) :: dropTrailing (padHex fs.upper 13 f)).length = 1 ∧ fs.showpoint = false) := by
        rw [List.length_cons, ← hsl]
        cases fs.showpoint <;> simp <;> omega
      by_cases hpt : fs.showpoint = true ∨ n > 0 ∨ (n : Int) < p
      · rw [if_pos hpt, if_neg (hiff.1 hpt)]
        simp
      · have hno := by_contra (fun h => hpt (hiff.2 h))
        rw [if_neg hpt, if_pos hno]
        have : dropTrailing (padHex fs.upper 13 f) = [] := List.eq_nil_of_length_eq_zero (by omega)
        rw [this]
        simp
  · obtain ⟨P, rfl⟩ := Int.eq_ofNat_of_zero_le hp
    -- what is rounded and how many of its digits are printed
    obtain ⟨f', n0, hround, hf54, hn0, hr⟩ : ∃ f' n0, roundHexfloat f P = .ok (f', n0) ∧ f' < 2 ^ 54 ∧ n0 = min P 13 ∧
        IsRoundUp (f / 16 ^ (13 - n0)) (f' / 16 ^ (13 - n0)) := by
      rcases Nat.lt_or_ge P 13 with h | h
      · obtain ⟨f', h1, h2, h3⟩ := roundHexfloat_spec f hfull P h
        exact ⟨f', P, h1, h2, by omega, h3⟩
      · refine ⟨f, 13, if_neg (fun h => by omega), lt_trans hfull (by decide), by omega, ?_⟩
        unfold IsRoundUp
        simp
        norm_num
    rw [hround, ok_bind]
    simp only []
    rw [hdig f' hf54, ok_bind]
    simp only [hx f' hf54, hone, List.singleton_append]
    rw [countDigits_eq (Or.inl rfl) habs, ok_bind, formatDecimal_eq (Or.inl rfl) habs, ok_bind]
    refine ⟨_, rfl, e, f' / 16 ^ (13 - n0) * 16 ^ (P - n0), hexp, Or.inr ⟨hp, ?_, ?_, ?_⟩⟩
    · rw [hmag, ← hE]
      rcases Nat.lt_or_ge P 13 with h | h
      · have e0 : n0 = P := by omega
        subst e0
        rw [Nat.sub_self, pow_zero, mul_one]
        have e1 : (f : ℚ) * 2 ^ binary64.ulp d / 2 ^ (binary64.ulp d + 52 - 4 * (n0 : Int)) = f / 16 ^ (13 - n0) := by
          rw [show binary64.ulp d + 52 - 4 * (n0 : Int) = binary64.ulp d + ((4 * (13 - n0) : Nat) : Int) by omega,
            zpow_add₀ (by norm_num), zpow_natCast, pow_mul]
          have : (2 : ℚ) ^ binary64.ulp d ≠ 0 := by positivity
          norm_num
          field_simp
        rw [e1]
        exact hr
      · have e0 : n0 = 13 := by omega
        subst e0
        simp only [Nat.sub_self, pow_zero, div_one, Nat.div_one] at hr ⊢
        have e2 : f' = f := by
          have h1 : (f' : ℚ) < f + 1 := by linarith [hr.1]
          have h2 : (f : ℚ) < f' + 1 := by linarith [hr.2]
          have h1' : f' < f + 1 := by exact_mod_cast h1
          have h2' : f < f' + 1 := by exact_mod_cast h2
          omega
        have e1 : (f : ℚ) * 2 ^ binary64.ulp d / 2 ^ (binary64.ulp d + 52 - 4 * (P : Int)) = (f * 16 ^ (P - 13) : Nat) := by
          rw [show binary64.ulp d + 52 - 4 * (P : Int) = binary64.ulp d - ((4 * (P - 13) : Nat) : Int) by omega,
            zpow_sub₀ (by norm_num), zpow_natCast, pow_mul]
          have : (2 : ℚ) ^ binary64.ulp d ≠ 0 := by positivity
          push_cast
          norm_num
          field_simp
        rw [e1, e2]
        unfold IsRoundUp
        constructor <;> linarith
    · have h1 : f' / 16 ^ (13 - n0) < 16 ^ (n0 + 1) := by
        rw [Nat.div_lt_iff_lt_mul (Nat.pow_pos (by decide)), ← pow_add, show n0 + 1 + (13 - n0) = 14 by omega]
        exact lt_trans hf54 (by decide)
      calc f' / 16 ^ (13 - n0) * 16 ^ (P - n0) < 16 ^ (n0 + 1) * 16 ^ (P - n0) :=
            Nat.mul_lt_mul_of_pos_right h1 (Nat.pow_pos (by decide))
        _ = 16 ^ ((P : Int).toNat + 1) := by rw [← pow_add, Int.toNat_natCast]; congr 1; omega
    · have h1 : f' / 16 ^ (13 - n0) < 16 ^ (n0 + 1) := by
        rw [Nat.div_lt_iff_lt_mul (Nat.pow_pos (by decide)), ← pow_add, show n0 + 1 + (13 - n0) = 14 by omega]
        exact lt_trans hf54 (by decide)
      have hN : f' / 16 ^ (13 - n0) * 16 ^ (P - n0) < 16 ^ (P + 1) := by
        calc f' / 16 ^ (13 - n0) * 16 ^ (P - n0) < 16 ^ (n0 + 1) * 16 ^ (P - n0) :=
              Nat.mul_lt_mul_of_pos_right h1 (Nat.pow_pos (by decide))
          _ = 16 ^ (P + 1) := by rw [← pow_add]; congr 1; omega
      obtain ⟨s1, s2, s3⟩ := stripXdigits_spec (hexDigit fs.upper (f' / 16 ^ 13 % 16)) (padHex fs.upper 13 f') n0
        (by rw [padHex_length]; omega)
      generalize stripXdigits (hexDigit fs.upper (f' / 16 ^ 13 % 16) :: padHex fs.upper 13 f') n0 = n at *
      have htk : (padHex fs.upper 13 f').take n0 = padHex fs.upper n0 (f' / 16 ^ (13 - n0)) := by
        have := padHex_add fs.upper n0 (13 - n0) f'
        rw [show n0 + (13 - n0) = 13 by omega] at this
        rw [this, List.take_append_of_le_length (by rw [padHex_length]), List.take_of_length_le (by rw [padHex_length])]
      have hfrac : (padHex fs.upper 13 f').take n ++ List.replicate (P - n) '0' =
          padHex fs.upper P (f' / 16 ^ (13 - n0) * 16 ^ (P - n0)) := by
        have := padHex_mul fs.upper n0 (f' / 16 ^ (13 - n0)) (P - n0)
        rw [show n0 + (P - n0) = P by omega] at this
        rw [this, ← htk, s3, List.append_assoc, List.replicate_append_replicate, show n0 - n + (P - n0) = P - n by omega]
      have hld : f' / 16 ^ (13 - n0) * 16 ^ (P - n0) / 16 ^ P = f' / 16 ^ 13 := by
        rw [show 16 ^ P = 16 ^ n0 * 16 ^ (P - n0) by rw [← pow_add]; congr 1; omega,
          Nat.mul_div_mul_right _ _ (Nat.pow_pos (by decide)), Nat.div_div_eq_div_mul, ← pow_add,
          show 13 - n0 + n0 = 13 by omega]
      rw [Int.toNat_natCast, hexDigits_eq fs.upper P _ hN, Nat.add_comm P 1, padHex_add, hone, hld, ← hfrac]
      have hlen : (hexDigit fs.upper (f' / 16 ^ 13 % 16) ::
          ((padHex fs.upper 13 f').take n ++ List.replicate (P - n) '0')).length = P + 1 := by
        rw [List.length_cons, hfrac, padHex_length]
      unfold hexText
      simp only [List.singleton_append, hlen, List.take_succ_cons, List.take_zero, List.drop_succ_cons, List.drop_zero]
      rw [show ((P : Int) - (n : Int)).toNat = P - n by omega]
      have hiff : (fs.showpoint = true ∨ n > 0 ∨ (n : Int) < (P : Int)) ↔ ¬ (P + 1 = 1 ∧ fs.showpoint = false) := by
        cases fs.showpoint <;> simp <;> omega
      by_cases hpt : fs.showpoint = true ∨ n > 0 ∨ (n : Int) < (P : Int)
      · rw [if_pos hpt, if_neg (hiff.1 hpt)]
        simp
      · have hno := by_contra (fun h => hpt (hiff.2 h))
        rw [if_neg hpt, if_pos hno]
        have e1 : n = 0 := by omega
        have e2 : P = 0 := by omega
        subst e1 e2
        simp

end Fmt
end Efp
