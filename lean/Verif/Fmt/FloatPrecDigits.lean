import Verif.Fmt.FloatPrec
import Verif.Fmt.FloatText
import Verif.Fmt.DragonboxAux

/-!
# Digits of floating-point numbers with a given precision: printing, carries and the first segment
-/

namespace Efp
namespace Fmt

open Dragonbox

/-- the last `n` decimal digits of `v` -/
def padDigits : Nat → Nat → Str
  | 0, _ => []
  | n + 1, v => padDigits n (v / 10) ++ [Char.ofNat (48 + v % 10)]

theorem padDigits_length (n v : Nat) : (padDigits n v).length = n := by
  induction n generalizing v with
  | zero => rfl
  | succ n ih => simp [padDigits, ih]

theorem padDigits_mod (n v : Nat) : padDigits n (v % 10 ^ n) = padDigits n v := by
  induction n generalizing v with
  | zero => rfl
  | succ n ih =>
    unfold padDigits
    have h1 : v % 10 ^ (n + 1) / 10 = v / 10 % 10 ^ n := by
      rw [pow_succ, Nat.mul_comm, Nat.mod_mul_right_div_self]
    have h2 : v % 10 ^ (n + 1) % 10 = v % 10 := Nat.mod_mod_of_dvd _ (Dvd.intro_left (10 ^ n) (pow_succ _ _).symm)
    rw [h1, h2, ih]

theorem padDigits_add (a b v : Nat) : padDigits (a + b) v = padDigits a (v / 10 ^ b) ++ padDigits b v := by
  induction b generalizing v with
  | zero => simp [padDigits]
  | succ b ih =>
    rw [← Nat.add_assoc, padDigits, padDigits, ih, List.append_assoc, Nat.div_div_eq_div_mul, pow_succ, Nat.mul_comm 10]

theorem padDigits_one (v : Nat) (h : v < 10) : padDigits 1 v = [Char.ofNat (48 + v)] := by
  simp [padDigits, Nat.mod_eq_of_lt h]

theorem padDigits_two (v : Nat) (h : v < 100) : padDigits 2 v = digits2 v := by
  rw [digits2_eq v h, digitChar_ten _ (by omega), digitChar_ten _ (by omega)]
  simp [padDigits, Nat.mod_eq_of_lt (show v / 10 < 10 by omega)]

/-- a number without leading zeros -/
theorem padDigits_toDigits : ∀ (n v : Nat), v < 10 ^ (n + 1) → (n = 0 ∨ 10 ^ n ≤ v) → padDigits (n + 1) v = Nat.toDigits 10 v := by
  intro n
  induction n with
  | zero =>
    intro v h _
    rw [padDigits_one v (by simpa using h), Nat.toDigits_of_lt_base (by simpa using h), digitChar_ten v (by simpa using h)]
  | succ n ih =>
    intro v h1 h2
    have h3 : 10 ^ (n + 1) ≤ v := by omega
    have h4 : 10 ≤ v := by
      have : 10 ^ 1 ≤ 10 ^ (n + 1) := Nat.pow_le_pow_right (by decide) (by omega)
      omega
    rw [padDigits, ih (v / 10), Nat.toDigits_of_base_le (by decide) h4, digitChar_ten _ (Nat.mod_lt _ (by decide))]
    · rw [Nat.div_lt_iff_lt_mul (by decide), ← pow_succ]; exact h1
    · right
      rw [Nat.le_div_iff_mul_le (by decide), ← pow_succ]; exact h3

/-! ## Carries -/

theorem charSucc_digit : ∀ d < 10, charSucc (Char.ofNat (48 + d)) = Char.ofNat (48 + (d + 1)) := by decide

theorem over_digit : ∀ d < 10, ((Char.ofNat (48 + d) == ':') = false) ∧ ¬ Char.ofNat (48 + d) > '9' := by decide

theorem over_ten : Char.ofNat (48 + 10) = ':' ∧ ':' > '9' := by decide

/-- what the two tests for a carry have in common -/
structure OverTest (over : Char → Bool) : Prop where
  digit : ∀ d < 10, over (Char.ofNat (48 + d)) = false
  ten : over ':' = true

theorem overTest_eq : OverTest (fun c => decide (c = ':')) := ⟨by decide, by decide⟩

theorem overTest_gt : OverTest (fun c => decide (c > '9')) := ⟨by decide, by decide⟩

/-- the carry after the last digit was increased: digits of `v + 1`, or a mark in front of zeros -/
theorem carryLoop_spec {over : Char → Bool} (ho : OverTest over) : ∀ (n v : Nat),
    (v + 1 < 10 ^ (n + 1) →
      (carryLoop over (Char.ofNat (48 + (v % 10 + 1))) (padDigits n (v / 10)).reverse).reverse = padDigits (n + 1) (v + 1)) ∧
    (v + 1 = 10 ^ (n + 1) →
      (carryLoop over (Char.ofNat (48 + (v % 10 + 1))) (padDigits n (v / 10)).reverse).reverse =
        ':' :: List.replicate n '0') := by
  intro n
  induction n with
  | zero =>
    intro v
    constructor
    · intro h
      have h' : v + 1 < 10 := by simpa using h
      rw [padDigits_one _ h', Nat.mod_eq_of_lt (by omega)]
      rfl
    · intro h
      have h' : v = 9 := by simpa using h
      subst h'
      rfl
  | succ n ih =>
    intro v
    have hrev : (padDigits (n + 1) (v / 10)).reverse = Char.ofNat (48 + v / 10 % 10) :: (padDigits n (v / 10 / 10)).reverse := by
      simp [padDigits]
    rw [hrev]
    unfold carryLoop
    by_cases h9 : v % 10 = 9
    · rw [h9, show Char.ofNat (48 + (9 + 1)) = ':' from rfl, ho.ten, if_pos rfl, charSucc_digit _ (Nat.mod_lt _ (by decide))]
      obtain ⟨i1, i2⟩ := ih (v / 10)
      have hv : v / 10 + 1 = (v + 1) / 10 := by omega
      constructor
      · intro h
        have hlt : v / 10 + 1 < 10 ^ (n + 1) := by
          rw [hv, Nat.div_lt_iff_lt_mul (by decide), ← pow_succ]; exact h
        have hp : padDigits (n + 1 + 1) (v + 1) = padDigits (n + 1) ((v + 1) / 10) ++ [Char.ofNat (48 + (v + 1) % 10)] := rfl
        rw [List.reverse_cons, i1 hlt, hp, hv, show (v + 1) % 10 = 0 by omega]
      · intro h
        rw [List.reverse_cons, i2 ?_, List.cons_append, ← List.replicate_succ']
        rw [hv, h, pow_succ, Nat.mul_div_cancel _ (by decide)]
    · have hd : v % 10 + 1 < 10 := by omega
      rw [ho.digit _ hd, if_neg (by simp)]
      have hv : v / 10 = (v + 1) / 10 := by omega
      constructor
      · intro _
        rw [padDigits, ← hv]
        rw [show (v + 1) % 10 = v % 10 + 1 by omega]
        simp [padDigits]
      · intro h
        have : 10 ∣ v + 1 := by rw [h, pow_succ]; exact Dvd.intro_left _ rfl
        omega

/-- the digits after rounding `v` up or not -/
theorem roundUpDigits_spec (n v : Nat) (up fixed : Bool) (exp : Int) (hv : v < 10 ^ (n + 1)) :
    roundUpDigits (padDigits (n + 1) v) up fixed exp =
      if up = true ∧ v + 1 = 10 ^ (n + 1) then
        if fixed then ('1' :: List.replicate (n + 1) '0', exp) else ('1' :: List.replicate n '0', exp + 1)
      else (padDigits (n + 1) (if up then v + 1 else v), exp) := by
  unfold roundUpDigits
  cases up with
  | false => simp
  | true =>
    simp only [true_and, if_true]
    have hrev : (padDigits (n + 1) v).reverse = Char.ofNat (48 + v % 10) :: (padDigits n (v / 10)).reverse := by
      simp [padDigits]
    rw [hrev]
    simp only
    rw [charSucc_digit _ (Nat.mod_lt _ (by decide))]
    obtain ⟨i1, i2⟩ := carryLoop_spec overTest_gt n v
    by_cases h : v + 1 = 10 ^ (n + 1)
    · rw [i2 h, if_pos h]
      simp only
      rw [if_pos (by decide)]
      cases fixed
      · rfl
      · simp [List.replicate_succ']
    · rw [i1 (by omega), if_neg h]
      have hne : (padDigits (n + 1) (v + 1)) ≠ [] := by
        intro h0
        have := congrArg List.length h0
        rw [padDigits_length] at this
        simp at this
      obtain ⟨d, hd, r, hr⟩ : ∃ d < 10, ∃ r, padDigits (n + 1) (v + 1) = Char.ofNat (48 + d) :: r := by
        rw [show n + 1 = 1 + n by omega, padDigits_add]
        exact ⟨_, Nat.mod_lt _ (by decide), padDigits n (v + 1), rfl⟩
      rw [hr]
      simp only
      rw [if_neg (over_digit d hd).2]

/-! ## Subsegments -/

theorem printPairs_spec : ∀ (n t rem prod digits : Nat), t = 2 * n + (t - 2 * n) → 2 * n ≤ t → rem < 10 ^ t →
    rem * 2 ^ 32 < prod % 2 ^ 32 * 10 ^ t → prod % 2 ^ 32 * 10 ^ t < (rem + 1) * 2 ^ 32 →
    ∃ prod' digits', printPairs n prod digits = .ok (padDigits (2 * n) (rem / 10 ^ (t - 2 * n)), prod', digits') ∧
      (n = 0 → digits' = digits) ∧ (0 < n → digits' % 2 = rem / 10 ^ (t - 2 * n) % 2) ∧
      rem % 10 ^ (t - 2 * n) * 2 ^ 32 < prod' % 2 ^ 32 * 10 ^ (t - 2 * n) ∧
      prod' % 2 ^ 32 * 10 ^ (t - 2 * n) < (rem % 10 ^ (t - 2 * n) + 1) * 2 ^ 32 := by
  intro n
  induction n with
  | zero =>
    intro t rem prod digits _ _ h1 h2 h3
    refine ⟨prod, digits, rfl, fun _ => rfl, fun h => by omega, ?_⟩
    simp only [Nat.mul_zero, Nat.sub_zero]
    rw [Nat.mod_eq_of_lt h1]
    exact ⟨h2, h3⟩
  | succ n ih =>
    intro t rem prod digits _ hle h1 h2 h3
    obtain ⟨t', rfl⟩ : ∃ t', t = t' + 2 := ⟨t - 2, by omega⟩
    have hT : 10 ^ (t' + 2) = 100 * 10 ^ t' := by rw [pow_add]; ring
    have hP : 0 < 10 ^ t' := Nat.pos_of_ne_zero (by positivity)
    rw [hT] at h1 h2 h3
    generalize hF : prod % 2 ^ 32 = F at *
    -- the next two digits
    have hq : F * 100 / 2 ^ 32 = rem / 10 ^ t' := by
      have hdm := Nat.div_add_mod rem (10 ^ t')
      have hlt := Nat.mod_lt rem hP
      generalize rem / 10 ^ t' = a at *
      generalize rem % 10 ^ t' = b at *
      generalize 10 ^ t' = P at *
      subst hdm
      apply Nat.div_eq_of_lt_le
      · apply Nat.le_of_mul_le_mul_right (c := P) _ hP
        nlinarith
      · apply Nat.lt_of_mul_lt_mul_right (a := P)
        nlinarith
    have hq100 : rem / 10 ^ t' < 100 := (Nat.div_lt_iff_lt_mul hP).2 h1
    have hmod : F * 100 % 2 ^ 32 + 2 ^ 32 * (rem / 10 ^ t') = F * 100 := by
      rw [← hq, Nat.mod_add_div]
    have hrm := Nat.mod_add_div rem (10 ^ t')
    obtain ⟨prod', digits', g1, g2, g3, g4, g5⟩ := ih t' (rem % 10 ^ t') (F * 100) (rem / 10 ^ t') (by omega) (by omega)
      (Nat.mod_lt _ hP) (by
        generalize rem / 10 ^ t' = a at *
        generalize rem % 10 ^ t' = b at *
        generalize 10 ^ t' = P at *
        subst hrm
        generalize F * 100 % 2 ^ 32 = G at *
        have e : F * (100 * P) = (F * 100) * P := by ring
        rw [e, ← hmod] at h2
        nlinarith) (by
        generalize rem / 10 ^ t' = a at *
        generalize rem % 10 ^ t' = b at *
        generalize 10 ^ t' = P at *
        subst hrm
        generalize F * 100 % 2 ^ 32 = G at *
        have e : F * (100 * P) = (F * 100) * P := by ring
        rw [e, ← hmod] at h3
        nlinarith)
    have ht : t' + 2 - 2 * (n + 1) = t' - 2 * n := by omega
    have hdvd : 10 ^ (t' - 2 * n) ∣ 10 ^ t' := Nat.pow_dvd_pow _ (by omega)
    refine ⟨prod', digits', ?_, fun h => by omega, fun _ => ?_, ?_, ?_⟩
    · unfold printPairs
      simp only
      rw [hF, hq, copyDigits2, if_pos hq100, ok_bind, g1, ok_bind]
      simp only
      rw [ht, show 2 * (n + 1) = 2 + 2 * n by omega, padDigits_add, padDigits_two _ ?_]
      · congr 2
        congr 1
        · congr 1
          rw [Nat.div_div_eq_div_mul, ← Nat.pow_add]
          congr 2; omega
        · have : rem % 10 ^ t' / 10 ^ (t' - 2 * n) = rem / 10 ^ (t' - 2 * n) % 10 ^ (2 * n) := by
            conv_lhs => rw [show t' = (t' - 2 * n) + 2 * n by omega, Nat.pow_add]
            rw [show t' - 2 * n + 2 * n - 2 * n = t' - 2 * n by omega, Nat.mod_mul_right_div_self]
          rw [this, padDigits_mod]
      · rw [Nat.div_div_eq_div_mul, ← Nat.pow_add, show t' - 2 * n + 2 * n = t' by omega]
        exact hq100
    · rw [ht]
      rcases Nat.eq_zero_or_pos n with h0 | h0
      · subst h0
        rw [g2 rfl]; simp
      · rw [g3 h0]
        have : rem / 10 ^ (t' - 2 * n) = rem % 10 ^ t' / 10 ^ (t' - 2 * n) + 10 ^ (2 * n) * (rem / 10 ^ t') := by
          have e1 : rem / 10 ^ t' = rem / 10 ^ (t' - 2 * n) / 10 ^ (2 * n) := by
            rw [Nat.div_div_eq_div_mul, ← Nat.pow_add, show t' - 2 * n + 2 * n = t' by omega]
          have e2 : rem % 10 ^ t' / 10 ^ (t' - 2 * n) = rem / 10 ^ (t' - 2 * n) % 10 ^ (2 * n) := by
            conv_lhs => rw [show t' = (t' - 2 * n) + 2 * n by omega, Nat.pow_add]
            rw [show t' - 2 * n + 2 * n - 2 * n = t' - 2 * n by omega, Nat.mod_mul_right_div_self]
          rw [e1, e2, Nat.mod_add_div]
        rw [this]
        have h2 : 2 ∣ 10 ^ (2 * n) := Dvd.dvd.trans (by decide : 2 ∣ 10) (dvd_pow_self _ (by omega))
        obtain ⟨c, hc⟩ := h2
        rw [hc, Nat.mul_assoc]; omega
    · rw [ht]
      rw [Nat.mod_mod_of_dvd _ hdvd] at g4
      exact g4
    · rw [ht]
      rw [Nat.mod_mod_of_dvd _ hdvd] at g5
      exact g5

/-- `print_subsegment` prints the first `n` of nine digits; what is left of `prod` is the rest of them as a fraction -/
theorem printSubsegment_spec {n s : Nat} (hn : 1 ≤ n) (hn9 : n ≤ 9) (hs : s < 10 ^ 9) :
    ∃ prod digits, printSubsegment n s = .ok (padDigits n (s / 10 ^ (9 - n)), prod, digits) ∧
      digits % 2 = s / 10 ^ (9 - n) % 2 ∧
      s % 10 ^ (9 - n) * 2 ^ 32 < prod % 2 ^ 32 * 10 ^ (9 - n) ∧
      prod % 2 ^ 32 * 10 ^ (9 - n) < (s % 10 ^ (9 - n) + 1) * 2 ^ 32 := by
  unfold printSubsegment
  by_cases hodd : n % 2 ≠ 0
  · rw [if_pos hodd]
    simp only
    obtain ⟨p, hp⟩ : ∃ p, p = s * 720575941 / 2 ^ 24 + 1 := ⟨_, rfl⟩
    rw [← hp]
    have hq : p / 2 ^ 32 = s / 10 ^ 8 := by omega
    have hlo : s % 10 ^ 8 * 2 ^ 32 < p % 2 ^ 32 * 10 ^ 8 := by omega
    have hhi : p % 2 ^ 32 * 10 ^ 8 < (s % 10 ^ 8 + 1) * 2 ^ 32 := by
      have a1 := Nat.div_mul_le_self (s * 720575941) (2 ^ 24)
      have a2 := Nat.div_add_mod p (2 ^ 32)
      have a3 := Nat.div_add_mod s (10 ^ 8)
      rw [hq] at a2
      clear hlo hq
      generalize p % 2 ^ 32 = F at *
      generalize s % 10 ^ 8 = R at *
      generalize s / 10 ^ 8 = q at *
      generalize s * 720575941 / 2 ^ 24 = u at *
      norm_num at a1 a2 a3 hs ⊢
      linarith
    obtain ⟨prod, digits, g1, g2, g3, g4, g5⟩ := printPairs_spec (n / 2) 8 (s % 10 ^ 8) p (p / 2 ^ 32) (by omega) (by omega)
      (Nat.mod_lt _ (by decide)) hlo hhi
    have ht : 8 - 2 * (n / 2) = 9 - n := by omega
    have hdvd : 10 ^ (9 - n) ∣ 10 ^ 8 := Nat.pow_dvd_pow _ (by omega)
    have hdiv : s % 10 ^ 8 / 10 ^ (9 - n) = s / 10 ^ (9 - n) % 10 ^ (n - 1) := by
      have e : 10 ^ 8 = 10 ^ (9 - n) * 10 ^ (n - 1) := by rw [← Nat.pow_add, show 9 - n + (n - 1) = 8 by omega]
      rw [e, Nat.mod_mul_right_div_self]
    have hdiv2 : s / 10 ^ 8 = s / 10 ^ (9 - n) / 10 ^ (n - 1) := by
      rw [Nat.div_div_eq_div_mul, ← Nat.pow_add, show 9 - n + (n - 1) = 8 by omega]
    rw [ht, Nat.mod_mod_of_dvd _ hdvd] at g4 g5
    rw [ht] at g1 g3
    refine ⟨prod, digits, ?_, ?_, g4, g5⟩
    · rw [g1, ok_bind]
      simp only
      rw [hdiv, show 2 * (n / 2) = n - 1 by omega, padDigits_mod]
      conv_rhs => rw [show n = 1 + (n - 1) by omega, padDigits_add, show 9 - (1 + (n - 1)) = 9 - n by omega, ← hdiv2,
        padDigits_one _ (by omega)]
      rw [hq]; rfl
    · rcases Nat.eq_zero_or_pos (n / 2) with h0 | h0
      · rw [g2 h0, hq, show n = 1 by omega]
      · rw [g3 h0]
        have : s / 10 ^ (9 - n) = s % 10 ^ 8 / 10 ^ (9 - n) + 10 ^ (n - 1) * (s / 10 ^ 8) := by
          rw [hdiv, hdiv2, Nat.mod_add_div]
        rw [this]
        obtain ⟨c, hc⟩ : 2 ∣ 10 ^ (n - 1) := Dvd.dvd.trans (by decide : 2 ∣ 10) (dvd_pow_self _ (by omega))
        rw [hc, Nat.mul_assoc]; omega
  · rw [if_neg hodd]
    simp only
    obtain ⟨p, hp⟩ : ∃ p, p = s * 450359963 / 2 ^ 20 + 1 := ⟨_, rfl⟩
    rw [← hp]
    have hq : p / 2 ^ 32 = s / 10 ^ 7 := by omega
    have hlo : s % 10 ^ 7 * 2 ^ 32 < p % 2 ^ 32 * 10 ^ 7 := by omega
    have hhi : p % 2 ^ 32 * 10 ^ 7 < (s % 10 ^ 7 + 1) * 2 ^ 32 := by
      have a1 := Nat.div_mul_le_self (s * 450359963) (2 ^ 20)
      have a2 := Nat.div_add_mod p (2 ^ 32)
      have a3 := Nat.div_add_mod s (10 ^ 7)
      rw [hq] at a2
      clear hlo hq
      generalize p % 2 ^ 32 = F at *
      generalize s % 10 ^ 7 = R at *
      generalize s / 10 ^ 7 = q at *
      generalize s * 450359963 / 2 ^ 20 = u at *
      norm_num at a1 a2 a3 hs ⊢
      linarith
    obtain ⟨prod, digits, g1, g2, g3, g4, g5⟩ := printPairs_spec (n / 2 - 1) 7 (s % 10 ^ 7) p (p / 2 ^ 32) (by omega) (by omega)
      (Nat.mod_lt _ (by decide)) hlo hhi
    have ht : 7 - 2 * (n / 2 - 1) = 9 - n := by omega
    have hdvd : 10 ^ (9 - n) ∣ 10 ^ 7 := Nat.pow_dvd_pow _ (by omega)
    have hdiv : s % 10 ^ 7 / 10 ^ (9 - n) = s / 10 ^ (9 - n) % 10 ^ (n - 2) := by
      have e : 10 ^ 7 = 10 ^ (9 - n) * 10 ^ (n - 2) := by rw [← Nat.pow_add, show 9 - n + (n - 2) = 7 by omega]
      rw [e, Nat.mod_mul_right_div_self]
    have hdiv2 : s / 10 ^ 7 = s / 10 ^ (9 - n) / 10 ^ (n - 2) := by
      rw [Nat.div_div_eq_div_mul, ← Nat.pow_add, show 9 - n + (n - 2) = 7 by omega]
    rw [ht, Nat.mod_mod_of_dvd _ hdvd] at g4 g5
    rw [ht] at g1 g3
    refine ⟨prod, digits, ?_, ?_, g4, g5⟩
    · rw [hq, copyDigits2, if_pos (by omega), ok_bind]
      rw [hq] at g1
      rw [g1, ok_bind]
      simp only
      rw [hdiv, show 2 * (n / 2 - 1) = n - 2 by omega, padDigits_mod]
      conv_rhs => rw [show n = 2 + (n - 2) by omega, padDigits_add, show 9 - (2 + (n - 2)) = 9 - n by omega, ← hdiv2,
        padDigits_two _ (by omega)]
    · rcases Nat.eq_zero_or_pos (n / 2 - 1) with h0 | h0
      · rw [g2 h0, hq, show n = 2 by omega]
      · rw [g3 h0]
        have : s / 10 ^ (9 - n) = s % 10 ^ 7 / 10 ^ (9 - n) + 10 ^ (n - 2) * (s / 10 ^ 7) := by
          rw [hdiv, hdiv2, Nat.mod_add_div]
        rw [this]
        obtain ⟨c, hc⟩ : 2 ∣ 10 ^ (n - 2) := Dvd.dvd.trans (by decide : 2 ∣ 10) (dvd_pow_self _ (by omega))
        rw [hc, Nat.mul_assoc]; omega

/-- rounding inside a subsegment compares the rest of its digits with one half -/
theorem roundInside_spec {n prod digits rem : Nat} (hn : 1 ≤ n) (hn8 : n ≤ 8) (further more : Bool)
    (h1 : rem * 2 ^ 32 < prod % 2 ^ 32 * 10 ^ (9 - n)) (h2 : prod % 2 ^ 32 * 10 ^ (9 - n) < (rem + 1) * 2 ^ 32) :
    roundInside n prod digits further more =
      .ok (decide (10 ^ (9 - n) < 2 * rem ∨ 2 * rem = 10 ^ (9 - n) ∧ (digits % 2 = 1 ∨ further ∨ more))) := by
  have hF : prod % 2 ^ 32 < 2 ^ 32 := Nat.mod_lt _ (by decide)
  unfold roundInside
  simp only
  generalize prod % 2 ^ 32 = F at *
  have hm : F / 2 ^ 31 % 2 = 1 ↔ 2 ^ 31 ≤ F := by omega
  have key : ∀ thr, lookup thresholds (8 - n) = .ok thr → (F ≥ thr ↔ 10 ^ (9 - n) < 2 * rem) ∧ 
      (F / 2 ^ 31 % 2 = 1 ↔ 10 ^ (9 - n) ≤ 2 * rem) ∧ True := by
    intro thr hthr
    have : n = 1 ∨ n = 2 ∨ n = 3 ∨ n = 4 ∨ n = 5 ∨ n = 6 ∨ n = 7 ∨ n = 8 := by omega
    rcases this with rfl | rfl | rfl | rfl | rfl | rfl | rfl | rfl <;>
    · simp [lookup, thresholds] at hthr
      subst hthr
      rw [hm]
      norm_num at h1 h2 ⊢
      omega
  obtain ⟨thr, hthr⟩ : ∃ thr, lookup thresholds (8 - n) = .ok thr := by
    have : n = 1 ∨ n = 2 ∨ n = 3 ∨ n = 4 ∨ n = 5 ∨ n = 6 ∨ n = 7 ∨ n = 8 := by omega
    rcases this with rfl | rfl | rfl | rfl | rfl | rfl | rfl | rfl <;> exact ⟨_, rfl⟩
  obtain ⟨k1, k2, -⟩ := key thr hthr
  rw [hthr, ok_bind]
  congr 1
  apply decide_eq_decide.mpr
  rw [k1, k2]
  constructor
  · rintro (h | ⟨h, h'⟩)
    · exact .inl h
    · by_cases he : 2 * rem = 10 ^ (9 - n)
      · exact .inr ⟨he, h'⟩
      · left; omega
  · rintro (h | ⟨h, h'⟩)
    · exact .inl h
    · exact .inr ⟨by omega, h'⟩

/-- comparing a number with one half of a power, by its upper part and the rest -/
theorem half_iff {A C rest rem : Nat} (o m : Prop) (hr : rest < A) (hC : C % 2 = 0) :
    (C < 2 * rem ∨ 2 * rem = C ∧ (o ∨ rest ≠ 0 ∨ m)) ↔
      (A * C < 2 * (rest + A * rem) ∨ 2 * (rest + A * rem) = A * C ∧ (o ∨ m)) := by
  rcases Nat.lt_trichotomy (2 * rem) C with h | h | h
  · have : 2 * rem + 2 ≤ C := by omega
    have : A * (2 * rem + 2) ≤ A * C := Nat.mul_le_mul_left _ this
    have e : A * (2 * rem + 2) = 2 * (A * rem) + 2 * A := by ring
    constructor
    · rintro (h' | ⟨h', -⟩) <;> omega
    · rintro (h' | ⟨h', -⟩) <;> omega
  · have e : A * C = 2 * (A * rem) := by rw [← h]; ring
    rw [e]
    constructor
    · rintro (h' | ⟨-, h' | h' | h'⟩)
      · omega
      · by_cases h0 : rest = 0
        · right; exact ⟨by omega, .inl h'⟩
        · left; omega
      · left; omega
      · by_cases h0 : rest = 0
        · right; exact ⟨by omega, .inr h'⟩
        · left; omega
    · rintro (h' | ⟨-, h'⟩)
      · right; exact ⟨h, .inr (.inl (by omega))⟩
      · right; exact ⟨h, h'.imp id .inr⟩
  · have : A * (C + 1) ≤ A * (2 * rem) := Nat.mul_le_mul_left _ (by omega)
    have e : A * (2 * rem) = 2 * (A * rem) := by ring
    have e' : A * (C + 1) = A * C + A := by ring
    constructor
    · intro _; left; omega
    · intro _; left; exact h

/-- the digits of the first segment and how they are rounded -/
theorem segmentDigits_spec {S P : Nat} (more : Bool) (hS : S < 10 ^ 19) (hP : 1 ≤ P) (hP18 : P ≤ 18) :
    segmentDigits S more P = .ok (padDigits P (S / 10 ^ (19 - P)),
      decide (10 ^ (19 - P) < 2 * (S % 10 ^ (19 - P)) ∨
        2 * (S % 10 ^ (19 - P)) = 10 ^ (19 - P) ∧ (S / 10 ^ (19 - P) % 2 = 1 ∨ more))) := by
  unfold segmentDigits
  have hfirst : umul128Upper64 S 7922816251426433760 / 2 ^ 32 % 2 ^ 32 = S / 10 ^ 10 := by
    have h1 : S * 7922816251426433760 / 2 ^ 96 = S / 10 ^ 10 :=
      magic_div (d := 10 ^ 10) (ε := 10 ^ 10 * 7922816251426433760 - 2 ^ 96) (by decide) (by decide) (by omega)
    have h2 : umul128Upper64 S 7922816251426433760 = S * 7922816251426433760 / 2 ^ 64 := by
      unfold umul128Upper64
      apply Nat.mod_eq_of_lt; omega
    rw [h2, Nat.div_div_eq_div_mul, ← Nat.pow_add, h1]
    apply Nat.mod_eq_of_lt; omega
  have hrest : (S + 2 ^ 64 - S / 10 ^ 10 * 10000000000 % 2 ^ 64) % 2 ^ 64 = S % 10 ^ 10 := by omega
  simp only [hfirst, hrest]
  have hf9 : S / 10 ^ 10 < 10 ^ 9 := by omega
  by_cases hP9 : P ≤ 9
  · have hn : (if P > 9 then 9 else P) = P := if_neg (by omega)
    obtain ⟨prod, digits, g1, g2, g3, g4⟩ := printSubsegment_spec (n := P) (s := S / 10 ^ 10) hP hP9 hf9
    have hD : 10 ^ (19 - P) = 10 ^ 10 * 10 ^ (9 - P) := by rw [← Nat.pow_add, show 10 + (9 - P) = 19 - P by omega]
    have hdiv : S / 10 ^ 10 / 10 ^ (9 - P) = S / 10 ^ (19 - P) := by rw [Nat.div_div_eq_div_mul, hD]
    have hmod : S % 10 ^ (19 - P) = S % 10 ^ 10 + 10 ^ 10 * (S / 10 ^ 10 % 10 ^ (9 - P)) := by rw [hD, Nat.mod_mul]
    rw [hdiv] at g1 g2
    rw [hn, g1, ok_bind]
    simp only
    rw [if_pos hP9]
    by_cases hP8 : P < 9
    · rw [if_pos hP8, roundInside_spec hP (by omega) _ _ g3 g4, ok_bind]
      congr 3
      apply propext
      rw [hmod, g2, hD]
      rw [decide_eq_true_eq]
      exact half_iff (A := 10 ^ 10) _ _ (Nat.mod_lt _ (by decide))
        (Nat.mod_eq_zero_of_dvd (Dvd.dvd.trans (by decide : 2 ∣ 10) (dvd_pow_self _ (Nat.sub_ne_zero_of_lt ‹_›))))
    · rw [if_neg hP8]
      obtain rfl : P = 9 := by omega
      congr 3
      apply propext
      cases more <;> simp <;> omega
  · have hn : (if P > 9 then 9 else P) = 9 := if_pos (by omega)
    obtain ⟨prod, digits, g1, -, -, -⟩ := printSubsegment_spec (n := 9) (s := S / 10 ^ 10) (by omega) (by omega) hf9
    rw [hn, g1, ok_bind]
    simp only
    rw [if_neg hP9]
    have hr : S % 10 ^ 10 < 10 ^ 10 := Nat.mod_lt _ (by decide)
    have hsecond : umul128Upper64 (S % 10 ^ 10) 1844674407370955162 % 2 ^ 32 = S % 10 ^ 10 / 10 := by
      generalize S % 10 ^ 10 = r at *
      have h1 : r * 1844674407370955162 / 2 ^ 64 = r / 10 :=
        magic_div (ε := 10 * 1844674407370955162 - 2 ^ 64) (by decide) (by decide) (by omega)
      unfold umul128Upper64
      rw [h1]; omega
    have hthird : (S % 10 ^ 10 % 2 ^ 32 + 2 ^ 32 - S % 10 ^ 10 / 10 * 10 % 2 ^ 32) % 2 ^ 32 = S % 10 := by omega
    simp only [hsecond, hthird]
    obtain ⟨prod, digits, k1, k2, k3, k4⟩ := printSubsegment_spec (n := P - 9) (s := S % 10 ^ 10 / 10) (by omega) (by omega)
      (by omega)
    have ht : 9 - (P - 9) = 18 - P := by omega
    rw [ht] at k1 k2 k3 k4
    rw [k1, ok_bind]
    simp only
    have hD : 10 ^ (19 - P) = 10 * 10 ^ (18 - P) := by rw [← pow_succ', show 18 - P + 1 = 19 - P by omega]
    have hD10 : 10 ^ 10 = 10 ^ (19 - P) * 10 ^ (P - 9) := by rw [← Nat.pow_add, show 19 - P + (P - 9) = 10 by omega]
    have hdiv : S % 10 ^ 10 / 10 / 10 ^ (18 - P) = S / 10 ^ (19 - P) % 10 ^ (P - 9) := by
      rw [Nat.div_div_eq_div_mul, ← hD, hD10, Nat.mod_mul_right_div_self]
    have hdig : padDigits 9 (S / 10 ^ 10 / 10 ^ (9 - 9)) ++ padDigits (P - 9) (S % 10 ^ 10 / 10 / 10 ^ (18 - P)) =
        padDigits P (S / 10 ^ (19 - P)) := by
      rw [hdiv, padDigits_mod]
      conv_rhs => rw [show P = 9 + (P - 9) by omega, padDigits_add, show 19 - (9 + (P - 9)) = 19 - P by omega]
      rw [Nat.sub_self, Nat.pow_zero, Nat.div_one, Nat.div_div_eq_div_mul, ← hD10]
    have hodd : digits % 2 = S / 10 ^ (19 - P) % 2 := by
      rw [k2, hdiv]
      exact Nat.mod_mod_of_dvd _ (Dvd.dvd.trans (by decide : 2 ∣ 10) (dvd_pow_self _ (by omega)))
    have hmod : S % 10 ^ (19 - P) = S % 10 + 10 * (S % 10 ^ 10 / 10 % 10 ^ (18 - P)) := by
      have e : S % 10 ^ 10 / 10 = S / 10 % 10 ^ 9 := by omega
      rw [hD, Nat.mod_mul, e, Nat.mod_mod_of_dvd _ (Nat.pow_dvd_pow _ (by omega))]
    by_cases hP17 : P < 18
    · rw [if_pos hP17, roundInside_spec (by omega) (by omega) _ _ (by rw [ht]; exact k3) (by rw [ht]; exact k4), ok_bind, hdig, ht]
      congr 3
      apply propext
      rw [hmod, hD, hodd, hD]
      rw [decide_eq_true_eq]
      exact half_iff _ _ (Nat.mod_lt _ (by decide))
        (Nat.mod_eq_zero_of_dvd (Dvd.dvd.trans (by decide : 2 ∣ 10) (dvd_pow_self _ (Nat.sub_ne_zero_of_lt ‹_›))))
    · rw [if_neg hP17, hdig]
      obtain rfl : P = 18 := by omega
      congr 3
      apply propext
      cases more <;> simp <;> omega

end Fmt
end Efp
