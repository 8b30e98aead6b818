import Verif.Fmt.Bigint
import Verif.Fmt.DragonboxRow
import Mathlib.Tactic.Ring
import Mathlib.Tactic.Linarith
import Mathlib.Tactic.Positivity

/-!
# The arbitrary-precision integers compute with natural numbers
-/

namespace Efp
namespace Fmt

open Dragonbox

namespace Bigint

/-- the number of a list of bigits -/
def val : List Nat → Nat
  | [] => 0
  | b :: r => b + 2 ^ 32 * val r

/-- the number of a `bigint` -/
def toNat (a : Bigint) : Nat := val a.bigits * 2 ^ (32 * a.exp)

/-- bigits have 32 bits -/
def Bounded (l : List Nat) : Prop := ∀ b ∈ l, b < 2 ^ 32

/-- no leading zeros, but for the number 0 -/
structure Norm (a : Bigint) : Prop where
  bounded : Bounded a.bigits
  ne : a.bigits ≠ []
  top : 2 ^ (32 * (a.bigits.length - 1)) ≤ val a.bigits ∨ a.bigits.length = 1

theorem bounded_cons {b : Nat} {l : List Nat} : Bounded (b :: l) ↔ b < 2 ^ 32 ∧ Bounded l := by
  simp [Bounded]

theorem bounded_append {l m : List Nat} : Bounded (l ++ m) ↔ Bounded l ∧ Bounded m := by
  simp [Bounded, or_imp, forall_and]

theorem pow_succ32 (n : Nat) : 2 ^ (32 * (n + 1)) = 2 ^ 32 * 2 ^ (32 * n) := by
  rw [← Nat.pow_add]; congr 1; ring

theorem val_lt {l : List Nat} (h : Bounded l) : val l < 2 ^ (32 * l.length) := by
  induction l with
  | nil => simp [val]
  | cons b l ih =>
    rw [bounded_cons] at h
    have := ih h.2
    rw [List.length_cons, pow_succ32]
    simp only [val]
    generalize 2 ^ (32 * l.length) = P at *
    omega

theorem val_append (l m : List Nat) : val (l ++ m) = val l + 2 ^ (32 * l.length) * val m := by
  induction l with
  | nil => simp [val]
  | cons b l ih =>
    simp only [List.cons_append, val, ih, List.length_cons, pow_succ32]
    ring

theorem val_zeros (n : Nat) : val (List.replicate n 0) = 0 := by
  induction n with
  | zero => rfl
  | succ n ih => rw [List.replicate_succ]; simp [val, ih]

/-! ## Assignment -/

theorem assignLoop_spec : ∀ (fuel n : Nat), n < 2 ^ (32 * fuel) → 0 < n → ∃ l, assignLoop fuel n = .ok l ∧ Bounded l ∧
    l ≠ [] ∧ val l = n ∧ 2 ^ (32 * (l.length - 1)) ≤ n := by
  intro fuel
  induction fuel with
  | zero => intro n h h0; simp at h; omega
  | succ fuel ih =>
    intro n h h0
    rw [pow_succ32] at h
    unfold assignLoop
    by_cases hz : n / 2 ^ 32 = 0
    · rw [if_pos hz]
      refine ⟨_, rfl, ?_, by simp, ?_, ?_⟩
      · intro b hb; simp at hb; omega
      · simp only [val]; omega
      · simp; omega
    · rw [if_neg hz]
      obtain ⟨l, h1, h2, h3, h4, h5⟩ := ih (n / 2 ^ 32) (by
        rw [Nat.div_lt_iff_lt_mul (by decide), Nat.mul_comm]; exact h) (by omega)
      refine ⟨n % 2 ^ 32 :: l, by rw [h1]; rfl, bounded_cons.2 ⟨by omega, h2⟩, by simp, ?_, ?_⟩
      · simp only [val, h4]; omega
      · obtain ⟨k, hk⟩ : ∃ k, l.length = k + 1 := ⟨l.length - 1, by have := List.length_pos_iff.2 h3; omega⟩
        rw [hk, Nat.add_sub_cancel] at h5
        rw [List.length_cons, hk, Nat.add_sub_cancel, pow_succ32]
        generalize 2 ^ (32 * k) = P at *
        omega

theorem ofNat_spec {n : Nat} (h0 : 0 < n) (h : n < 2 ^ 128) : ∃ a, ofNat n = .ok a ∧ Norm a ∧ toNat a = n ∧ a.exp = 0 := by
  obtain ⟨l, h1, h2, h3, h4, h5⟩ := assignLoop_spec 4 n h h0
  refine ⟨⟨l, 0⟩, ?_, ⟨h2, h3, .inl (by rw [h4]; exact h5)⟩, by simp [toNat, h4], rfl⟩
  unfold ofNat
  rw [assert_ok h0, ok_bind, h1]
  rfl

/-! ## Multiplication -/

theorem multiplyLoop_spec {value : Nat} (hv : value < 2 ^ 32) : ∀ (l : List Nat) (carry : Nat), Bounded l → carry < 2 ^ 32 →
    Bounded (multiplyLoop value l carry) ∧ val (multiplyLoop value l carry) = val l * value + carry ∧
    ((multiplyLoop value l carry).length = l.length ∨
      (multiplyLoop value l carry).length = l.length + 1 ∧ 2 ^ (32 * l.length) ≤ val (multiplyLoop value l carry)) := by
  intro l
  induction l with
  | nil =>
    intro carry _ hc
    unfold multiplyLoop
    by_cases h : carry = 0
    · simp [h, Bounded, val]
    · simp only [h, ne_eq, not_false_eq_true, if_true]
      refine ⟨by intro b hb; simp at hb; omega, by simp [val], .inr ⟨rfl, ?_⟩⟩
      simp [val]; omega
  | cons b l ih =>
    intro carry hl hc
    rw [bounded_cons] at hl
    have hp : b * value ≤ (2 ^ 32 - 1) * (2 ^ 32 - 1) := Nat.mul_le_mul (by omega) (by omega)
    unfold multiplyLoop
    simp only
    rw [Nat.mod_eq_of_lt (a := b * value + carry) (by omega)]
    have hq : (b * value + carry) / 2 ^ 32 < 2 ^ 32 := by omega
    rw [Nat.mod_eq_of_lt hq]
    obtain ⟨h1, h2, h3⟩ := ih _ hl.2 hq
    have hval : val ((b * value + carry) % 2 ^ 32 :: multiplyLoop value l ((b * value + carry) / 2 ^ 32)) =
        val (b :: l) * value + carry := by
      simp only [val, h2]
      have := Nat.mod_add_div (b * value + carry) (2 ^ 32)
      linarith
    refine ⟨bounded_cons.2 ⟨Nat.mod_lt _ (by decide), h1⟩, hval, ?_⟩
    simp only [List.length_cons]
    rcases h3 with h3 | ⟨h3, h4⟩
    · exact .inl (by omega)
    · refine .inr ⟨by omega, ?_⟩
      rw [pow_succ32]
      simp only [val]
      generalize 2 ^ (32 * l.length) = P at *
      omega

/-- what the loops do to the leading bigit -/
theorem norm_of_loop {a b : Bigint} (ha : Norm a) (hb : Bounded b.bigits) (hv : val a.bigits ≤ val b.bigits ∨ a.bigits.length = 1)
    (hlen : b.bigits.length = a.bigits.length ∨
      a.bigits.length < b.bigits.length ∧ 2 ^ (32 * (b.bigits.length - 1)) ≤ val b.bigits) : Norm b := by
  have h0 := List.length_pos_iff.2 ha.ne
  refine ⟨hb, ?_, ?_⟩
  · intro h
    rw [h] at hlen
    simp at hlen
    omega
  · rcases hlen with hlen | hlen
    · rcases ha.top with h | h
      · rcases hv with hv | hv
        · rw [hlen]; exact .inl (h.trans hv)
        · exact .inr (by omega)
      · exact .inr (by omega)
    · exact .inl hlen.2

theorem mul_spec {a : Bigint} (ha : Norm a) {value : Nat} (h0 : 0 < value) (hv : value < 2 ^ 32) :
    ∃ b, a.mul value = .ok b ∧ Norm b ∧ toNat b = toNat a * value ∧ b.exp = a.exp := by
  obtain ⟨h1, h2, h3⟩ := multiplyLoop_spec hv a.bigits 0 ha.bounded (by decide)
  refine ⟨{ a with bigits := multiplyLoop value a.bigits 0 }, ?_, ?_, ?_, rfl⟩
  · unfold mul; rw [assert_ok h0]; rfl
  · refine norm_of_loop ha h1 (.inl ?_) ?_
    · simp only [h2]; exact (Nat.le_mul_of_pos_right _ h0).trans (Nat.le_add_right _ _)
    · simp only
      rcases h3 with h3 | ⟨h3, h4⟩
      · exact .inl h3
      · exact .inr ⟨by omega, by rw [h3, Nat.add_sub_cancel]; exact h4⟩
  · simp only [toNat, h2]; ring

theorem pushCarry_spec : ∀ (fuel carry : Nat), carry < 2 ^ (32 * fuel) → ∃ l, pushCarry fuel carry = .ok l ∧ Bounded l ∧
    val l = carry ∧ (l.length = 0 ∨ 2 ^ (32 * (l.length - 1)) ≤ val l) := by
  intro fuel
  induction fuel with
  | zero =>
    intro carry h
    have : carry = 0 := by simpa using h
    subst this
    exact ⟨[], rfl, by simp [Bounded], rfl, .inl rfl⟩
  | succ fuel ih =>
    intro carry h
    rw [pow_succ32] at h
    unfold pushCarry
    by_cases hz : carry = 0
    · rw [if_neg (by simpa using hz)]
      exact ⟨[], rfl, by simp [Bounded], by simp [val, hz], .inl rfl⟩
    · rw [if_pos hz]
      obtain ⟨l, h1, h2, h3, h4⟩ := ih (carry / 2 ^ 32) (by
        rw [Nat.div_lt_iff_lt_mul (by decide), Nat.mul_comm]; exact h)
      refine ⟨carry % 2 ^ 32 :: l, by rw [h1]; rfl, bounded_cons.2 ⟨by omega, h2⟩, by simp only [val, h3]; omega, .inr ?_⟩
      simp only [List.length_cons, Nat.add_sub_cancel, val]
      rcases h4 with h4 | h4
      · have : l = [] := List.length_eq_zero_iff.1 h4
        subst this
        simp [val] at h3 ⊢
        omega
      · obtain ⟨k, hk⟩ | hk : (∃ k, l.length = k + 1) ∨ l.length = 0 := by
          cases l with
          | nil => exact .inr rfl
          | cons _ l => exact .inl ⟨_, rfl⟩
        · rw [hk, Nat.add_sub_cancel] at h4
          rw [hk, pow_succ32]
          generalize 2 ^ (32 * k) = P at *
          omega
        · have : l = [] := List.length_eq_zero_iff.1 hk
          subst this
          simp [val] at h3 ⊢
          omega

theorem multiplyWideLoop_spec {lower upper : Nat} (hl : lower < 2 ^ 64) (hu : upper < 2 ^ 32) :
    ∀ (l : List Nat) (carry : Nat), Bounded l → carry < 2 ^ 100 →
    ∃ r, multiplyWideLoop lower upper l carry = .ok r ∧ Bounded r ∧ val r = val l * (upper * 2 ^ 64 + lower) + carry ∧
    (r.length = l.length ∨ l.length < r.length ∧ 2 ^ (32 * (r.length - 1)) ≤ val r) := by
  intro l
  induction l with
  | nil =>
    intro carry _ hc
    obtain ⟨r, h1, h2, h3, h4⟩ := pushCarry_spec 4 carry (by omega)
    refine ⟨r, h1, h2, by simp [val, h3], ?_⟩
    rcases h4 with h4 | h4
    · exact .inl h4
    · rcases Nat.eq_zero_or_pos r.length with h | h
      · exact .inl h
      · exact .inr ⟨h, h4⟩
  | cons b l ih =>
    intro carry hb hc
    rw [bounded_cons] at hb
    have hp : lower * b ≤ (2 ^ 64 - 1) * (2 ^ 32 - 1) := Nat.mul_le_mul (by omega) (by omega)
    have hq : upper * b ≤ (2 ^ 32 - 1) * (2 ^ 32 - 1) := Nat.mul_le_mul (by omega) (by omega)
    unfold multiplyWideLoop
    simp only
    rw [Nat.mod_eq_of_lt (a := lower * b + carry % 2 ^ 32) (by omega), Nat.mod_eq_of_lt (a := upper * b) (by omega)]
    obtain ⟨P, hP⟩ : ∃ P, P = lower * b := ⟨_, rfl⟩
    obtain ⟨Q, hQ⟩ : ∃ Q, Q = upper * b := ⟨_, rfl⟩
    rw [← hP] at hp
    rw [← hQ] at hq
    rw [← hP, ← hQ, Nat.mod_eq_of_lt (a := Q * 2 ^ 32 + (P + carry % 2 ^ 32) / 2 ^ 32 + carry / 2 ^ 32) (by omega)]
    obtain ⟨r, h1, h2, h3, h4⟩ := ih (Q * 2 ^ 32 + (P + carry % 2 ^ 32) / 2 ^ 32 + carry / 2 ^ 32) hb.2 (by omega)
    rw [h1]
    have hval : val ((P + carry % 2 ^ 32) % 2 ^ 32 :: r) = val (b :: l) * (upper * 2 ^ 64 + lower) + carry := by
      simp only [val, h3]
      have e1 : (b + 2 ^ 32 * val l) * (upper * 2 ^ 64 + lower) = Q * 2 ^ 64 + P + 2 ^ 32 * (val l * (upper * 2 ^ 64 + lower)) := by
        rw [hP, hQ]; ring
      rw [e1]
      generalize val l * (upper * 2 ^ 64 + lower) = V
      omega
    refine ⟨_, rfl, bounded_cons.2 ⟨Nat.mod_lt _ (by decide), h2⟩, hval, ?_⟩
    simp only [List.length_cons]
    rcases h4 with h4 | ⟨h4, h5⟩
    · exact .inl (by omega)
    · refine .inr ⟨by omega, ?_⟩
      obtain ⟨k, hk⟩ : ∃ k, r.length = k + 1 := ⟨r.length - 1, by omega⟩
      rw [hk, Nat.add_sub_cancel] at h5
      rw [hk, Nat.add_sub_cancel, pow_succ32]
      simp only [val]
      generalize 2 ^ (32 * k) = R at *
      omega

theorem mulWide_spec {a : Bigint} (ha : Norm a) {value : Nat} (h0 : 0 < value) (hv : value < 2 ^ 96) :
    ∃ b, a.mulWide value = .ok b ∧ Norm b ∧ toNat b = toNat a * value ∧ b.exp = a.exp := by
  obtain ⟨r, h1, h2, h3, h4⟩ := multiplyWideLoop_spec (lower := value % 2 ^ 64) (upper := value / 2 ^ 64) (by omega) (by omega)
    a.bigits 0 ha.bounded (by decide)
  have hv' : value / 2 ^ 64 * 2 ^ 64 + value % 2 ^ 64 = value := by omega
  rw [hv', Nat.add_zero] at h3
  refine ⟨{ a with bigits := r }, ?_, ?_, ?_, rfl⟩
  · unfold mulWide; rw [assert_ok h0, ok_bind, h1]; rfl
  · exact norm_of_loop ha h2 (.inl (by simp only [h3]; exact Nat.le_mul_of_pos_right _ h0)) h4
  · simp only [toNat, h3]; ring

/-! ## Shifts -/

theorem shiftLoop_spec {s : Nat} (hs : s < 32) : ∀ (l : List Nat) (carry : Nat), Bounded l → carry < 2 ^ s →
    Bounded (shiftLoop s l carry) ∧ val (shiftLoop s l carry) = val l * 2 ^ s + carry ∧
    ((shiftLoop s l carry).length = l.length ∨
      (shiftLoop s l carry).length = l.length + 1 ∧ 2 ^ (32 * l.length) ≤ val (shiftLoop s l carry)) := by
  have hs32 : 2 ^ s * 2 ^ (32 - s) = 2 ^ 32 := by rw [← Nat.pow_add]; congr 1; omega
  have hs0 := Nat.two_pow_pos s
  have hs1 := Nat.two_pow_pos (32 - s)
  have hsle : 2 ^ s ≤ 2 ^ 32 := Nat.pow_le_pow_right (by decide) (by omega)
  intro l
  induction l with
  | nil =>
    intro carry _ hc
    unfold shiftLoop
    by_cases h : carry = 0
    · simp [h, Bounded, val]
    · simp only [h, ne_eq, not_false_eq_true, if_true]
      refine ⟨by intro b hb; simp at hb; omega, by simp [val], .inr ⟨rfl, ?_⟩⟩
      simp [val]; omega
  | cons b l ih =>
    intro carry hl hc
    rw [bounded_cons] at hl
    unfold shiftLoop
    have e1 : b * 2 ^ s % 2 ^ 32 = b % 2 ^ (32 - s) * 2 ^ s := by
      rw [← hs32, Nat.mul_comm (2 ^ s) (2 ^ (32 - s)), Nat.mul_mod_mul_right]
    have hm := Nat.mod_lt b hs1
    have e2 : b % 2 ^ (32 - s) * 2 ^ s + carry < 2 ^ 32 := by
      have : (b % 2 ^ (32 - s) + 1) * 2 ^ s ≤ 2 ^ (32 - s) * 2 ^ s := Nat.mul_le_mul_right _ hm
      rw [Nat.mul_comm (2 ^ (32 - s)), hs32] at this
      linarith
    have e3 : b / 2 ^ (32 - s) < 2 ^ s := by rw [Nat.div_lt_iff_lt_mul hs1, hs32]; exact hl.1
    rw [e1, Nat.mod_eq_of_lt e2]
    obtain ⟨h1, h2, h3⟩ := ih _ hl.2 e3
    have hval : val ((b % 2 ^ (32 - s) * 2 ^ s + carry) :: shiftLoop s l (b / 2 ^ (32 - s))) = val (b :: l) * 2 ^ s + carry := by
      simp only [val, h2]
      have e4 : b * 2 ^ s = b % 2 ^ (32 - s) * 2 ^ s + 2 ^ 32 * (b / 2 ^ (32 - s)) := by
        conv_lhs => rw [← Nat.mod_add_div b (2 ^ (32 - s))]
        rw [← hs32]; ring
      linarith
    refine ⟨bounded_cons.2 ⟨e2, h1⟩, hval, ?_⟩
    simp only [List.length_cons]
    rcases h3 with h3 | ⟨h3, h4⟩
    · exact .inl (by omega)
    · refine .inr ⟨by omega, ?_⟩
      rw [pow_succ32]
      simp only [val]
      generalize 2 ^ (32 * l.length) = P at *
      omega

theorem shiftLeft_spec {a : Bigint} (ha : Norm a) (s : Nat) :
    ∃ b, a.shiftLeft s = .ok b ∧ Norm b ∧ toNat b = toNat a * 2 ^ s ∧ b.exp = a.exp + s / 32 := by
  unfold shiftLeft
  rw [assert_ok (by omega), ok_bind]
  simp only [Int.toNat_natCast]
  have hsplit : 2 ^ s = 2 ^ (s % 32) * 2 ^ (32 * (s / 32)) := by rw [← Nat.pow_add, Nat.mod_add_div]
  by_cases h : s % 32 = 0
  · rw [if_pos h]
    refine ⟨_, rfl, ⟨ha.bounded, ha.ne, ha.top⟩, ?_, rfl⟩
    rw [hsplit, h]
    simp only [toNat]
    rw [Nat.mul_add, Nat.pow_add]
    ring
  · rw [if_neg h]
    obtain ⟨h1, h2, h3⟩ := shiftLoop_spec (Nat.mod_lt s (by decide : 0 < 32)) a.bigits 0 ha.bounded (Nat.two_pow_pos _)
    refine ⟨_, rfl, norm_of_loop ha h1 (.inl ?_) ?_, ?_, rfl⟩
    · simp only [h2]; exact (Nat.le_mul_of_pos_right _ (Nat.two_pow_pos _)).trans (Nat.le_add_right _ _)
    · rcases h3 with h3 | ⟨h3, h4⟩
      · exact .inl h3
      · exact .inr ⟨by simp only; omega, by simp only [h3, Nat.add_sub_cancel]; exact h4⟩
    · rw [hsplit]
      simp only [toNat, h2, Nat.add_zero]
      rw [Nat.mul_add, Nat.pow_add]
      ring

end Bigint
end Fmt
end Efp
