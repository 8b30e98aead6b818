import Verif.Fmt.Write

/-!
# Lemmas on digits: counting and writing them
-/

namespace Efp
namespace Fmt

open Nat (toDigits digitChar)

theorem Res.bind_ok {α β : Type} (a : α) (f : α → Res β) : (Res.ok a >>= f) = f a := rfl
theorem Res.bind_err {α β : Type} (m : String) (f : α → Res β) : (Res.err m >>= f) = .err m := rfl
theorem Res.bind_ub {α β : Type} (f : α → Res β) : ((Res.ub : Res α) >>= f) = .ub := rfl
theorem Res.pure_eq {α : Type} (a : α) : (pure a : Res α) = .ok a := rfl

theorem Res.bind_eq_ok {α β : Type} {x : Res α} {f : α → Res β} {b : β} :
    (x >>= f) = .ok b ↔ ∃ a, x = .ok a ∧ f a = .ok b := by
  cases x with
  | ok a => simp [Res.bind_ok]
  | err m => simp [Res.bind_err]
  | ub => simp [Res.bind_ub]

theorem digits2_eq : ∀ v < 100, digits2 v = [digitChar (v / 10), digitChar (v % 10)] := by decide +kernel

theorem digitChar_ten : ∀ v < 10, digitChar v = Char.ofNat (48 + v) := by decide

theorem length_toDigits {b n k : Nat} (hb : 1 < b) (hk : 0 < k) (h1 : n < b ^ k) (h2 : k = 1 ∨ b ^ (k - 1) ≤ n) :
    (toDigits b n).length = k := by
  have h := (Nat.length_toDigits_le_iff (n := n) hb hk).2 h1
  have hp : 0 < (toDigits b n).length := Nat.length_toDigits_pos
  rcases h2 with h2 | h2
  · omega
  · by_cases hk1 : k = 1
    · omega
    · have h3 := (Nat.length_toDigits_le_iff (n := n) (k := k - 1) hb (by omega))
      have : ¬ n < b ^ (k - 1) := by omega
      rw [← h3] at this
      omega

theorem toDigits_hundred (v : Nat) (h : 100 ≤ v) :
    toDigits 10 v = toDigits 10 (v / 100) ++ [digitChar (v % 100 / 10), digitChar (v % 100 % 10)] := by
  rw [Nat.toDigits_of_base_le (by omega) (by omega : 10 ≤ v),
    Nat.toDigits_of_base_le (by omega) (by omega : 10 ≤ v / 10)]
  have h1 : v / 10 / 10 = v / 100 := by omega
  have h2 : v / 10 % 10 = v % 100 / 10 := by omega
  have h3 : v % 10 = v % 100 % 10 := by omega
  rw [h1, h2, ← h3]
  simp

theorem formatDecimalLoop_eq : ∀ (fuel room v : Nat) (acc : Str), (toDigits 10 v).length ≤ 2 * fuel →
    formatDecimalLoop fuel room v acc
      = if (toDigits 10 v).length ≤ room then .ok (room - (toDigits 10 v).length, toDigits 10 v ++ acc) else .ub := by
  intro fuel
  induction fuel with
  | zero =>
    intro room v acc h
    have hp : 0 < (toDigits 10 v).length := Nat.length_toDigits_pos
    omega
  | succ fuel ih =>
    intro room v acc h
    unfold formatDecimalLoop
    by_cases hv : v ≥ 100
    · rw [if_pos hv]
      have hd := toDigits_hundred v hv
      have hl : (toDigits 10 v).length = (toDigits 10 (v / 100)).length + 2 := by rw [hd]; simp
      have hp : 0 < (toDigits 10 (v / 100)).length := Nat.length_toDigits_pos
      by_cases hr : room < 2
      · rw [if_pos hr, if_neg (by omega)]
      · rw [if_neg hr, ih _ _ _ (by omega), digits2_eq _ (by omega)]
        by_cases h3 : (toDigits 10 (v / 100)).length ≤ room - 2
        · rw [if_pos h3, if_pos (by omega), hd]
          simp
          omega
        · rw [if_neg h3, if_neg (by omega)]
    · rw [if_neg hv]
      by_cases h10 : v < 10
      · rw [if_pos h10, Nat.toDigits_of_lt_base h10, digitChar_ten v h10]
        by_cases hr : room < 1
        · rw [if_pos hr, if_neg (by simp; omega)]
        · rw [if_neg hr, if_pos (by simp; omega)]; rfl
      · rw [if_neg h10, Nat.toDigits_of_base_le (by omega) (by omega : 10 ≤ v), Nat.toDigits_of_lt_base (by omega),
          digits2_eq v (by omega)]
        by_cases hr : room < 2
        · rw [if_pos hr, if_neg (by simp; omega)]
        · rw [if_neg hr, if_pos (by simp; omega)]; rfl

/-! ### counting -/

theorem or_one (n : Nat) : n ||| 1 = if n % 2 = 0 then n + 1 else n := by
  have h : (n ||| 1) = 2 * (n / 2) + 1 := by
    apply Nat.eq_of_testBit_eq
    intro i
    cases i with
    | zero => simp
    | succ i =>
      rw [Nat.testBit_or, Nat.testBit_succ, Nat.testBit_succ, Nat.testBit_succ]
      have h1 : (2 * (n / 2) + 1) / 2 = n / 2 := by omega
      rw [h1]
      simp
  rw [h]
  split <;> omega

/-- `2 ^ b ≤ n < 2 ^ (b + 1)` for the index of the highest bit, except that zero has index 0 -/
theorem log2_or_one (n : Nat) : n < 2 ^ ((n ||| 1).log2 + 1) ∧ (n = 0 ∧ (n ||| 1).log2 = 0 ∨ 2 ^ (n ||| 1).log2 ≤ n) := by
  have hne : n ||| 1 ≠ 0 := by rw [or_one]; split <;> omega
  have h1 : n ||| 1 < 2 ^ ((n ||| 1).log2 + 1) := Nat.lt_log2_self
  have h2 : 2 ^ (n ||| 1).log2 ≤ n ||| 1 := Nat.log2_self_le hne
  have h3 := or_one n
  refine ⟨by split at h3 <;> omega, ?_⟩
  cases hb : (n ||| 1).log2 with
  | zero =>
    rw [hb] at h1
    by_cases h0 : n = 0
    · exact Or.inl ⟨h0, rfl⟩
    · right; simp; omega
  | succ b =>
    right
    rw [hb] at h2
    have h4 : (2 : Nat) ^ (b + 1) = 2 * 2 ^ b := by rw [Nat.pow_succ]; omega
    split at h3 <;> omega

theorem log2_or_one_lt (n w : Nat) (hw : 0 < w) (h : n < 2 ^ w) : (n ||| 1).log2 < w := by
  rcases (log2_or_one n).2 with ⟨_, h2⟩ | h2
  · omega
  · have h3 : (2 : Nat) ^ (n ||| 1).log2 < 2 ^ w := by omega
    exact (Nat.pow_lt_pow_iff_right (by omega)).1 h3

theorem table64 : ∀ b < 64, ∃ t p, bsr2log10[b]? = some t ∧ zeroOrPowersOf10[t]? = some p ∧ 0 < t
    ∧ 2 ^ (b + 1) ≤ 10 ^ t ∧ (t = 1 ∧ p = 0 ∨ 2 ≤ t ∧ p = 10 ^ (t - 1) ∧ (t = 2 ∨ 10 ^ (t - 1 - 1) ≤ 2 ^ b)) := by
  have h : ∀ b < 64, bsr2log10[b]? = some (bsr2log10[b]?.getD 0)
      ∧ zeroOrPowersOf10[bsr2log10[b]?.getD 0]? = some (zeroOrPowersOf10[bsr2log10[b]?.getD 0]?.getD 0)
      ∧ 0 < bsr2log10[b]?.getD 0
      ∧ 2 ^ (b + 1) ≤ 10 ^ (bsr2log10[b]?.getD 0)
      ∧ (bsr2log10[b]?.getD 0 = 1 ∧ zeroOrPowersOf10[bsr2log10[b]?.getD 0]?.getD 0 = 0
        ∨ 2 ≤ bsr2log10[b]?.getD 0 ∧ zeroOrPowersOf10[bsr2log10[b]?.getD 0]?.getD 0 = 10 ^ (bsr2log10[b]?.getD 0 - 1)
          ∧ (bsr2log10[b]?.getD 0 = 2 ∨ 10 ^ (bsr2log10[b]?.getD 0 - 1 - 1) ≤ 2 ^ b)) := by decide +kernel
  intro b hb
  exact ⟨_, _, (h b hb).1, (h b hb).2.1, (h b hb).2.2⟩

theorem countDigits64_eq (n : Nat) (h : n < 2 ^ 64) : countDigits64 n = .ok (toDigits 10 n).length := by
  obtain ⟨t, p, h1, h2, h3, h4, h5⟩ := table64 _ (log2_or_one_lt n 64 (by omega) h)
  obtain ⟨h6, h7⟩ := log2_or_one n
  unfold countDigits64
  rw [h1]
  simp only
  rw [h2]
  simp only [Res.ok.injEq]
  symm
  rcases h5 with ⟨ht, hp⟩ | ⟨ht, hp, ht2⟩
  · rw [if_neg (by omega), Nat.sub_zero]
    exact length_toDigits (by omega) (by omega) (by omega) (by omega)
  · by_cases hn : n < p
    · rw [if_pos hn]
      apply length_toDigits (by omega) (by omega) (by omega)
      rcases ht2 with ht2 | ht2
      · omega
      · rcases h7 with ⟨h7, h8⟩ | h7
        · rw [h8] at ht2
          have : 0 < 10 ^ (t - 1 - 1) := Nat.pow_pos (by omega)
          have h9 : (10 : Nat) ^ (t - 1 - 1) = 10 ^ 0 := by omega
          have := (Nat.pow_right_inj (by omega : 1 < 10)).1 h9
          omega
        · omega
    · rw [if_neg hn, Nat.sub_zero]
      exact length_toDigits (by omega) (by omega) (by omega) (by omega)

theorem table32 : ∀ b < 32, ∃ t len, incArgs[b]? = some (t, len) ∧ t < 2 ^ 31 ∧ 0 < len ∧ len ≤ 10
    ∧ (2 ^ (b + 1) ≤ 10 ^ len ∨ len = 10)
    ∧ (len = 1 ∧ t = 0 ∨ 2 ≤ len ∧ t = 10 ^ (len - 1) ∧ (len = 2 ∨ 10 ^ (len - 1 - 1) ≤ 2 ^ b)) := by
  have h : ∀ b < 32, incArgs[b]? = some ((incArgs[b]?.getD (0, 0)).1, (incArgs[b]?.getD (0, 0)).2)
      ∧ (incArgs[b]?.getD (0, 0)).1 < 2 ^ 31
      ∧ 0 < (incArgs[b]?.getD (0, 0)).2
      ∧ (incArgs[b]?.getD (0, 0)).2 ≤ 10
      ∧ (2 ^ (b + 1) ≤ 10 ^ (incArgs[b]?.getD (0, 0)).2 ∨ (incArgs[b]?.getD (0, 0)).2 = 10)
      ∧ ((incArgs[b]?.getD (0, 0)).2 = 1 ∧ (incArgs[b]?.getD (0, 0)).1 = 0
        ∨ 2 ≤ (incArgs[b]?.getD (0, 0)).2 ∧ (incArgs[b]?.getD (0, 0)).1 = 10 ^ ((incArgs[b]?.getD (0, 0)).2 - 1)
          ∧ ((incArgs[b]?.getD (0, 0)).2 = 2 ∨ 10 ^ ((incArgs[b]?.getD (0, 0)).2 - 1 - 1) ≤ 2 ^ b)) := by
    decide +kernel
  intro b hb
  exact ⟨_, _, (h b hb).1, (h b hb).2⟩

theorem countDigits32_eq (n : Nat) (h : n < 2 ^ 32) : countDigits32 n = .ok (toDigits 10 n).length := by
  obtain ⟨t, len, h1, h2, h3, h3', h4, h5⟩ := table32 _ (log2_or_one_lt n 32 (by omega) h)
  obtain ⟨h6, h7⟩ := log2_or_one n
  unfold countDigits32
  rw [h1]
  simp only [Res.ok.injEq]
  symm
  have hlen : n < 10 ^ len := by
    rcases h4 with h4 | h4
    · omega
    · rw [h4]; omega
  have hs : ((n + (len <<< 32 + 2 ^ 64 - t) % 2 ^ 64) % 2 ^ 64) >>> 32 = if n < t then len - 1 else len := by
    rw [Nat.shiftLeft_eq, Nat.shiftRight_eq_div_pow]
    split <;> omega
  rw [hs]
  rcases h5 with ⟨ht, hp⟩ | ⟨ht, hp, ht2⟩
  · rw [if_neg (by omega)]
    exact length_toDigits (by omega) (by omega) (by omega) (by omega)
  · by_cases hn : n < t
    · rw [if_pos hn]
      apply length_toDigits (by omega) (by omega) (by omega)
      rcases ht2 with ht2 | ht2
      · omega
      · rcases h7 with ⟨h7, h8⟩ | h7
        · rw [h8] at ht2
          have h9 : (10 : Nat) ^ (len - 1 - 1) = 10 ^ 0 := by
            have : 0 < 10 ^ (len - 1 - 1) := Nat.pow_pos (by omega)
            omega
          have := (Nat.pow_right_inj (by omega : 1 < 10)).1 h9
          omega
        · omega
    · rw [if_neg hn]
      exact length_toDigits (by omega) (by omega) (by omega) (by omega)

theorem countDigitsFallback_eq : ∀ (fuel n count : Nat), n < 10 ^ (4 * fuel) → 0 < fuel →
    countDigitsFallback fuel n count = .ok (count + (toDigits 10 n).length - 1) := by
  intro fuel
  induction fuel with
  | zero => intro _ _ _ h; omega
  | succ fuel ih =>
    intro n count h _
    unfold countDigitsFallback
    by_cases h1 : n < 10
    · rw [if_pos h1, length_toDigits (k := 1) (by omega) (by omega) (by omega) (by omega)]; rfl
    · rw [if_neg h1]
      by_cases h2 : n < 100
      · rw [if_pos h2, length_toDigits (k := 2) (by omega) (by omega) (by omega) (by right; omega)]; rfl
      · rw [if_neg h2]
        by_cases h3 : n < 1000
        · rw [if_pos h3, length_toDigits (k := 3) (by omega) (by omega) (by omega) (by right; omega)]; rfl
        · rw [if_neg h3]
          by_cases h4 : n < 10000
          · rw [if_pos h4, length_toDigits (k := 4) (by omega) (by omega) (by omega) (by right; omega)]; rfl
          · rw [if_neg h4]
            have hpow : (10 : Nat) ^ (4 * (fuel + 1)) = 10000 * 10 ^ (4 * fuel) := by
              rw [Nat.mul_add, Nat.pow_add]; omega
            have hf : 0 < fuel := by
              cases fuel with
              | zero => simp at h; omega
              | succ f => omega
            rw [ih _ _ (by rw [hpow] at h; exact Nat.div_lt_of_lt_mul h) hf]
            have hlen : (toDigits 10 n).length = (toDigits 10 (n / 10000)).length + 4 := by
              have e1 := toDigits_hundred n (by omega)
              have e2 := toDigits_hundred (n / 100) (by omega)
              rw [show n / 100 / 100 = n / 10000 by omega] at e2
              rw [e1, e2]; simp
            rw [hlen]
            simp; omega

theorem countDigits_eq {w n : Nat} (hw : w = 32 ∨ w = 64 ∨ w = 128) (h : n < 2 ^ w) :
    countDigits w n = .ok (toDigits 10 n).length := by
  unfold countDigits
  rcases hw with rfl | rfl | rfl
  · rw [if_pos (by omega)]; exact countDigits32_eq n h
  · rw [if_neg (by omega), if_pos (by omega)]; exact countDigits64_eq n h
  · rw [if_neg (by omega), if_neg (by omega), countDigitsFallback_eq _ _ _ (by omega) (by omega)]
    have hp : 0 < (toDigits 10 n).length := Nat.length_toDigits_pos
    congr 1; omega

theorem formatDecimal_eq {w n : Nat} (hw : w = 32 ∨ w = 64 ∨ w = 128) (h : n < 2 ^ w) :
    formatDecimal w n (toDigits 10 n).length = .ok (toDigits 10 n) := by
  have hr : (toDigits 10 n).length ≤ decimalRoom w := by
    rcases hw with rfl | rfl | rfl <;>
      exact (Nat.length_toDigits_le_iff (by omega) (by decide)).2 (by simp [decimalRoom]; omega)
  have hr2 : decimalRoom w ≤ 39 := by unfold decimalRoom; split <;> (try split) <;> omega
  unfold formatDecimal
  rw [if_neg (by omega), formatDecimalLoop_eq _ _ _ _ (by omega), if_pos (Nat.le_refl _)]
  simp [Res.bind_ok]

/-! ### powers of two -/

/-- the digits of `n`, with upper-case letters if asked for -/
def upDigits (base : Nat) (upper : Bool) (n : Nat) : Str :=
  if upper then (toDigits base n).map Char.toUpper else toDigits base n

theorem upDigits_length (base : Nat) (upper : Bool) (n : Nat) :
    (upDigits base upper n).length = (toDigits base n).length := by
  unfold upDigits
  split <;> simp

theorem upDigits_step {base : Nat} (hb : 1 < base) (upper : Bool) (n : Nat) (h : base ≤ n) :
    upDigits base upper n = upDigits base upper (n / base) ++ upDigits base upper (n % base) := by
  unfold upDigits
  rw [Nat.toDigits_of_base_le hb h, Nat.toDigits_of_lt_base (Nat.mod_lt n (by omega))]
  split <;> simp

theorem uintDigit_eq (bits : Nat) (upper : Bool) (hb : bits = 1 ∧ upper = false ∨ bits = 3 ∧ upper = false ∨ bits = 4)
    (d : Nat) (hd : d < 2 ^ bits) : [uintDigit bits upper d] = upDigits (2 ^ bits) upper d := by
  unfold upDigits
  rw [Nat.toDigits_of_lt_base hd]
  have h1 : ∀ d < 2 ^ 1, uintDigit 1 false d = digitChar d := by decide
  have h3 : ∀ d < 2 ^ 3, uintDigit 3 false d = digitChar d := by decide
  have h4 : ∀ d < 2 ^ 4, uintDigit 4 false d = digitChar d := by decide +kernel
  have h5 : ∀ d < 2 ^ 4, uintDigit 4 true d = (digitChar d).toUpper := by decide +kernel
  rcases hb with ⟨rfl, rfl⟩ | ⟨rfl, rfl⟩ | rfl
  · simp [h1 d hd]
  · simp [h3 d hd]
  · cases upper
    · simp [h4 d hd]
    · simp [h5 d hd]

theorem and_low (v bits : Nat) : v &&& (1 <<< bits - 1) = v % 2 ^ bits := by
  rw [Nat.one_shiftLeft, Nat.and_two_pow_sub_one_eq_mod]

theorem shiftRight_ne_zero (v bits : Nat) : v >>> bits ≠ 0 ↔ 2 ^ bits ≤ v := by
  rw [Nat.shiftRight_eq_div_pow]
  have h0 : 0 < 2 ^ bits := Nat.pow_pos (by omega)
  constructor
  · intro h
    apply Nat.le_of_not_lt
    intro h2
    exact h (Nat.div_eq_of_lt h2)
  · intro h
    have := Nat.div_pos h h0
    omega

theorem formatUintLoop_eq (bits : Nat) (upper : Bool)
    (hb : bits = 1 ∧ upper = false ∨ bits = 3 ∧ upper = false ∨ bits = 4) : ∀ (room v : Nat) (acc : Str),
    formatUintLoop bits upper room v acc
      = if (toDigits (2 ^ bits) v).length ≤ room then
          .ok (room - (toDigits (2 ^ bits) v).length, upDigits (2 ^ bits) upper v ++ acc) else .ub := by
  have hb1 : 1 < 2 ^ bits := by rcases hb with ⟨rfl, _⟩ | ⟨rfl, _⟩ | rfl <;> omega
  intro room
  induction room with
  | zero =>
    intro v acc
    have hp : 0 < (toDigits (2 ^ bits) v).length := Nat.length_toDigits_pos
    unfold formatUintLoop
    rw [if_neg (by omega)]
  | succ room ih =>
    intro v acc
    unfold formatUintLoop
    rw [and_low]
    have hd := uintDigit_eq bits upper hb (v % 2 ^ bits) (Nat.mod_lt _ (by omega))
    by_cases h : v >>> bits ≠ 0
    · rw [if_pos h]
      have h2 := (shiftRight_ne_zero v bits).1 h
      rw [ih, Nat.shiftRight_eq_div_pow]
      have hs := upDigits_step hb1 upper v h2
      have hl : (toDigits (2 ^ bits) v).length = (toDigits (2 ^ bits) (v / 2 ^ bits)).length + 1 := by
        rw [Nat.toDigits_of_base_le hb1 h2]; simp
      rw [hl, hs, ← hd]
      by_cases h3 : (toDigits (2 ^ bits) (v / 2 ^ bits)).length ≤ room
      · rw [if_pos h3, if_pos (by omega)]
        simp
      · rw [if_neg h3, if_neg (by omega)]
    · rw [if_neg h]
      have h2 : v < 2 ^ bits := by
        have := mt (shiftRight_ne_zero v bits).2 h
        omega
      rw [Nat.mod_eq_of_lt h2] at hd ⊢
      rw [← hd, Nat.toDigits_of_lt_base h2, if_pos (by simp)]
      simp

theorem countDigitsLoop_eq (bits : Nat) (hb : 0 < bits) : ∀ (fuel m k : Nat), m < 2 ^ fuel → 0 < fuel →
    countDigitsLoop bits fuel m k = .ok (k + (toDigits (2 ^ bits) m).length) := by
  have hb1 : 1 < 2 ^ bits := Nat.one_lt_two_pow (by omega)
  intro fuel
  induction fuel with
  | zero => intro _ _ _ h; omega
  | succ fuel ih =>
    intro m k hm _
    unfold countDigitsLoop
    by_cases h : m >>> bits ≠ 0
    · rw [if_pos h]
      have h2 := (shiftRight_ne_zero m bits).1 h
      have hf : 0 < fuel := by
        cases fuel with
        | zero => simp at hm; omega
        | succ f => omega
      have hlt : m >>> bits < 2 ^ fuel := by
        rw [Nat.shiftRight_eq_div_pow]
        apply Nat.div_lt_of_lt_mul
        have : (2 : Nat) ^ (fuel + 1) = 2 * 2 ^ fuel := by rw [Nat.pow_succ]; omega
        have h3 : 2 * 2 ^ fuel ≤ 2 ^ bits * 2 ^ fuel := Nat.mul_le_mul_right _ hb1
        omega
      rw [ih _ _ hlt hf, Nat.toDigits_of_base_le hb1 h2, Nat.shiftRight_eq_div_pow]
      simp
      omega
    · rw [if_neg h]
      have h2 : m < 2 ^ bits := by
        have := mt (shiftRight_ne_zero m bits).2 h
        omega
      rw [Nat.toDigits_of_lt_base h2]
      simp

theorem countDigitsBits_eq {bits w n : Nat} (hb : 0 < bits) (hw : 0 < w) (h : n < 2 ^ w) :
    countDigitsBits bits w n = .ok (toDigits (2 ^ bits) n).length := by
  have hb1 : 1 < 2 ^ bits := Nat.one_lt_two_pow (by omega)
  unfold countDigitsBits
  by_cases hw32 : w = 32
  · rw [if_pos hw32]
    obtain ⟨h1, h2⟩ := log2_or_one n
    congr 1
    symm
    have hdm := Nat.div_add_mod (n ||| 1).log2 bits
    have hml := Nat.mod_lt (n ||| 1).log2 hb
    apply length_toDigits hb1 (show 0 < (n ||| 1).log2 / bits + 1 from Nat.succ_pos _)
    · rw [← Nat.pow_mul, Nat.mul_add]
      apply Nat.lt_of_lt_of_le h1
      exact Nat.pow_le_pow_right (by omega) (by omega)
    · rcases h2 with ⟨_, h3⟩ | h3
      · left; rw [h3]; simp
      · right
        rw [← Nat.pow_mul]
        apply Nat.le_trans _ h3
        apply Nat.pow_le_pow_right (by omega)
        simp only [Nat.add_sub_cancel]
        omega
  · rw [if_neg hw32, countDigitsLoop_eq bits hb _ _ _ h hw]
    simp

theorem formatUint_eq {bits w n : Nat} (upper : Bool)
    (hb : bits = 1 ∧ upper = false ∨ bits = 3 ∧ upper = false ∨ bits = 4) (h : n < 2 ^ w) :
    formatUint bits w n (toDigits (2 ^ bits) n).length upper = .ok (upDigits (2 ^ bits) upper n) := by
  have hb0 : 0 < bits := by rcases hb with ⟨rfl, _⟩ | ⟨rfl, _⟩ | rfl <;> omega
  have hb1 : 1 < 2 ^ bits := Nat.one_lt_two_pow (by omega)
  have hr : (toDigits (2 ^ bits) n).length ≤ w / bits + 1 := by
    apply (Nat.length_toDigits_le_iff hb1 (show 0 < w / bits + 1 from Nat.succ_pos _)).2
    rw [← Nat.pow_mul]
    apply Nat.lt_of_lt_of_le h
    apply Nat.pow_le_pow_right (by omega)
    rw [Nat.mul_add]
    have := Nat.div_add_mod w bits
    have := Nat.mod_lt w hb0
    omega
  unfold formatUint
  rw [if_neg (by omega), formatUintLoop_eq bits upper hb, if_pos (Nat.le_refl _)]
  simp [Res.bind_ok]

end Fmt
end Efp
