import Verif.Fmt.BigintDiv
import Mathlib.Algebra.Polynomial.Eval.Degree
import Mathlib.Data.Nat.Bitwise

/-!
# Squares and powers of ten of the arbitrary-precision integers
-/

namespace Efp
namespace Fmt

open Dragonbox

namespace Bigint

/-- the sum of the cross products for bigit `k` of the square -/
def conv (l : List Nat) (k : Nat) : Nat := ∑ t ∈ Finset.range (k + 1), l.getD t 0 * l.getD (k - t) 0

theorem val_eq_sum (l : List Nat) : val l = ∑ i ∈ Finset.range l.length, l.getD i 0 * (2 ^ 32) ^ i := by
  induction l with
  | nil => rfl
  | cons b l ih =>
    rw [List.length_cons, Finset.sum_range_succ', val, ih, Finset.mul_sum]
    simp only [List.getD_cons_zero, List.getD_cons_succ, pow_zero, mul_one, pow_succ]
    rw [add_comm]
    congr 1
    exact Finset.sum_congr rfl fun i _ => by ring

open Polynomial in
theorem val_mul_self (l : List Nat) :
    val l * val l = ∑ k ∈ Finset.range (2 * l.length), conv l k * (2 ^ 32) ^ k := by
  let P : ℕ[X] := ∑ i ∈ Finset.range l.length, monomial i (l.getD i 0)
  have hcoeff : ∀ k, P.coeff k = l.getD k 0 := by
    intro k
    simp only [P, finsetSum_coeff, coeff_monomial]
    rw [Finset.sum_ite_eq']
    split
    · rfl
    · next h =>
      rw [Finset.mem_range, not_lt] at h
      rw [List.getD_eq_getElem?_getD, List.getElem?_eq_none h]; rfl
  have heval : P.eval (2 ^ 32) = val l := by
    simp only [P, eval_finsetSum, eval_monomial]
    exact (val_eq_sum l).symm
  have hdeg : ∀ k, 2 * l.length ≤ k → (P * P).coeff k = 0 := by
    intro k hk
    rw [coeff_mul]
    refine Finset.sum_eq_zero fun x hx => ?_
    rw [Finset.mem_antidiagonal] at hx
    rw [hcoeff, hcoeff]
    by_cases h : l.length ≤ x.1
    · rw [List.getD_eq_getElem?_getD, List.getElem?_eq_none h]; simp
    · rw [List.getD_eq_getElem?_getD (i := x.2), List.getElem?_eq_none (by omega : l.length ≤ x.2)]; simp
  rw [← heval, ← eval_mul]
  by_cases hl : l.length = 0
  · have : P = 0 := by simp [P, hl]
    rw [this, hl]; simp
  rw [eval_eq_sum_range' (n := 2 * l.length)]
  · refine Finset.sum_congr rfl fun k _ => ?_
    rw [coeff_mul, Finset.Nat.sum_antidiagonal_eq_sum_range_succ (fun i j => P.coeff i * P.coeff j)]
    simp only [hcoeff, conv]
  · by_contra h
    have h1 : (P * P).leadingCoeff = 0 := hdeg _ (by omega)
    rw [leadingCoeff_eq_zero] at h1
    rw [h1, natDegree_zero] at h
    omega

theorem crossSum_eq (l : List Nat) (hl : Bounded l) : ∀ (n i j sum : Nat), n ≤ j + 1 → sum + n * 2 ^ 64 < 2 ^ 128 →
    crossSum l n i j sum = sum + ∑ t ∈ Finset.range n, l.getD (i + t) 0 * l.getD (j - t) 0 := by
  intro n
  induction n with
  | zero => intro i j sum _ _; simp [crossSum]
  | succ n ih =>
    intro i j sum hj hs
    have hb : ∀ k, l.getD k 0 < 2 ^ 32 := by
      intro k
      rw [List.getD_eq_getElem?_getD]
      cases hx : l[k]? with
      | none => simp
      | some b => exact hl b (List.mem_of_getElem? hx)
    have hp : l.getD i 0 * l.getD j 0 < 2 ^ 64 := by
      have := Nat.mul_lt_mul'' (hb i) (hb j)
      rwa [← Nat.pow_add] at this
    unfold crossSum
    rw [Nat.mod_eq_of_lt hp, Nat.mod_eq_of_lt (by omega)]
    rw [Finset.sum_range_succ']
    by_cases hn : n = 0
    · subst hn; simp [crossSum]
    · rw [ih _ _ _ (by omega) (by omega)]
      simp only [Nat.add_zero, Nat.sub_zero]
      have : ∀ t, l.getD (i + 1 + t) 0 * l.getD (j - 1 - t) 0 = l.getD (i + (t + 1)) 0 * l.getD (j - (t + 1)) 0 := by
        intro t
        rw [show i + 1 + t = i + (t + 1) by omega, show j - 1 - t = j - (t + 1) by omega]
      simp only [this]
      omega

theorem conv_upper (l : List Nat) (k : Nat) (hk : l.length ≤ k) (hl : 0 < l.length) :
    conv l k = ∑ t ∈ Finset.range (l.length - (k - (l.length - 1))),
      l.getD (k - (l.length - 1) + t) 0 * l.getD (l.length - 1 - t) 0 := by
  have hz : ∀ i, l.length ≤ i → l.getD i 0 = 0 := by
    intro i hi
    rw [List.getD_eq_getElem?_getD, List.getElem?_eq_none hi]; rfl
  unfold conv
  by_cases hbig : l.length ≤ k - (l.length - 1)
  · rw [show l.length - (k - (l.length - 1)) = 0 by omega, Finset.range_zero, Finset.sum_empty]
    refine Finset.sum_eq_zero fun t ht => ?_
    rw [Finset.mem_range] at ht
    by_cases h : l.length ≤ t
    · rw [hz t h, Nat.zero_mul]
    · rw [hz (k - t) (by omega), Nat.mul_zero]
  · obtain ⟨s, hs⟩ : ∃ s, s = k - (l.length - 1) := ⟨_, rfl⟩
    rw [← hs]
    rw [show k + 1 = s + ((l.length - s) + s) by omega, Finset.sum_range_add, Finset.sum_range_add]
    rw [Finset.sum_eq_zero (s := Finset.range s) (fun t ht => by
      rw [Finset.mem_range] at ht
      rw [hz (k - t) (by omega), Nat.mul_zero])]
    rw [Finset.sum_eq_zero (s := Finset.range s) (fun t ht => by
      rw [hz (s + (l.length - s + t)) (by omega), Nat.zero_mul])]
    rw [Nat.zero_add, Nat.add_zero]
    refine Finset.sum_congr rfl fun t ht => ?_
    rw [Finset.mem_range] at ht
    rw [show k - (s + t) = l.length - 1 - t by omega]

theorem conv_le (l : List Nat) (hl : Bounded l) (k : Nat) (h0 : 0 < l.length) : conv l k ≤ l.length * (2 ^ 32 - 1) ^ 2 := by
  have hb : ∀ k, l.getD k 0 ≤ 2 ^ 32 - 1 := by
    intro k
    rw [List.getD_eq_getElem?_getD]
    cases hx : l[k]? with
    | none => simp
    | some b => have := hl b (List.mem_of_getElem? hx); simp; omega
  have hp : ∀ i j, l.getD i 0 * l.getD j 0 ≤ (2 ^ 32 - 1) ^ 2 := by
    intro i j
    rw [pow_two]
    exact Nat.mul_le_mul (hb i) (hb j)
  by_cases hk : k < l.length
  · unfold conv
    refine (Finset.sum_le_card_nsmul _ _ _ fun t _ => hp t (k - t)).trans ?_
    rw [Finset.card_range, smul_eq_mul]
    exact Nat.mul_le_mul_right _ (by omega)
  · rw [conv_upper l k (by omega) h0]
    refine (Finset.sum_le_card_nsmul _ _ _ fun t _ => hp _ _).trans ?_
    rw [Finset.card_range, smul_eq_mul]
    exact Nat.mul_le_mul_right _ (by omega)

theorem squareLoop_spec (l : List Nat) (hl : Bounded l) (h0 : 0 < l.length) (h32 : l.length < 2 ^ 32) :
    ∀ (n index sum : Nat), index + n ≤ 2 * l.length → sum ≤ l.length * 2 ^ 32 →
    Bounded (squareLoop l n index sum) ∧ (squareLoop l n index sum).length = n ∧
    ∃ c, val (squareLoop l n index sum) + c * 2 ^ (32 * n) =
      sum + ∑ k ∈ Finset.range n, conv l (index + k) * (2 ^ 32) ^ k := by
  intro n
  induction n with
  | zero => intro index sum _ _; exact ⟨by simp [squareLoop, Bounded], rfl, sum, by simp [squareLoop, val]⟩
  | succ n ih =>
    intro index sum hi hs
    have hcross : (if index < l.length then crossSum l (index + 1) 0 index sum
      else crossSum l (l.length - (index - (l.length - 1))) (index - (l.length - 1)) (l.length - 1) sum) =
        sum + conv l index := by
      split
      · next h =>
        rw [crossSum_eq l hl _ _ _ _ (le_refl _) (by omega)]
        simp [conv]
      · next h =>
        rw [crossSum_eq l hl _ _ _ _ (by omega) (by omega), conv_upper l index (by omega) h0]
    have hcl := conv_le l hl index h0
    unfold squareLoop
    simp only [hcross]
    obtain ⟨i1, i2, c, i3⟩ := ih (index + 1) ((sum + conv l index) / 2 ^ 32) (by omega) (by omega)
    refine ⟨bounded_cons.2 ⟨by omega, i1⟩, by rw [List.length_cons, i2], c, ?_⟩
    rw [val, pow_succ32, Finset.sum_range_succ']
    have e : ∑ k ∈ Finset.range n, conv l (index + (k + 1)) * (2 ^ 32) ^ (k + 1) =
        2 ^ 32 * ∑ k ∈ Finset.range n, conv l (index + 1 + k) * (2 ^ 32) ^ k := by
      rw [Finset.mul_sum]
      refine Finset.sum_congr rfl fun k _ => ?_
      rw [show index + (k + 1) = index + 1 + k by omega]; ring
    rw [e]
    simp only [Nat.add_zero, pow_zero, Nat.mul_one]
    have e2 := congrArg (fun z => 2 ^ 32 * z) i3
    have e3 : 2 ^ 32 * (val (squareLoop l n (index + 1) ((sum + conv l index) / 2 ^ 32)) + c * 2 ^ (32 * n)) =
      2 ^ 32 * val (squareLoop l n (index + 1) ((sum + conv l index) / 2 ^ 32)) + c * (2 ^ 32 * 2 ^ (32 * n)) := by ring
    have e2' := e3.symm.trans e2
    have hm := Nat.div_add_mod (sum + conv l index) (2 ^ 32)
    linarith

theorem square_spec {a : Bigint} (ha : Norm a) (h32 : a.bigits.length < 2 ^ 32) :
    Norm a.square ∧ toNat a.square = toNat a * toNat a ∧ a.square.exp = a.exp * 2 := by
  have h0 := ha.len
  obtain ⟨h1, h2, c, h3⟩ := squareLoop_spec a.bigits ha.bounded h0 h32 (2 * a.bigits.length) 0 0 (by omega) (by omega)
  simp only [Nat.zero_add] at h3
  rw [← val_mul_self] at h3
  have hc : c = 0 := by
    by_contra hc
    have hv := val_lt ha.bounded
    have := Nat.mul_lt_mul'' hv hv
    rw [← Nat.pow_add, show 32 * a.bigits.length + 32 * a.bigits.length = 32 * (2 * a.bigits.length) by omega] at this
    have := Nat.le_mul_of_pos_left (2 ^ (32 * (2 * a.bigits.length))) (Nat.pos_of_ne_zero hc)
    omega
  rw [hc, Nat.zero_mul, Nat.add_zero] at h3
  have hne : squareLoop a.bigits (2 * a.bigits.length) 0 0 ≠ [] := by
    intro h; rw [h, List.length_nil] at h2; omega
  obtain ⟨n1, n2⟩ := norm_dropZeros hne h1 (a.exp * 2)
  refine ⟨n1, ?_, rfl⟩
  unfold toNat square
  simp only
  rw [n2, h3, show 32 * (a.exp * 2) = 32 * a.exp + 32 * a.exp by omega, Nat.pow_add]
  ring

/-! ## Powers of ten -/

theorem topBit_spec (exp : Nat) : ∀ (fuel j : Nat), 2 ^ j ≤ exp → exp < 2 ^ (j + fuel - 1) → 
    ∃ k, topBit exp fuel (2 ^ j) = .ok (2 ^ (k + 1)) ∧ 2 ^ k ≤ exp ∧ exp < 2 ^ (k + 1) := by
  intro fuel
  induction fuel with
  | zero =>
    intro j h1 h2
    have := Nat.pow_le_pow_right (n := 2) (by decide) (show j + 0 - 1 ≤ j by omega)
    omega
  | succ fuel ih =>
    intro j h1 h2
    unfold topBit
    rw [if_pos h1, ← pow_succ]
    by_cases h : exp < 2 ^ (j + 1)
    · cases fuel with
      | zero =>
        rw [show j + (0 + 1) - 1 = j by omega] at h2; omega
      | succ fuel =>
        unfold topBit
        rw [if_neg (by omega)]
        exact ⟨j, rfl, h1, h⟩
    · exact ih (j + 1) (by omega) (by rwa [show j + 1 + fuel - 1 = j + (fuel + 1) - 1 by omega])

theorem len_of_toNat {a : Bigint} (ha : Norm a) {m : Nat} (h : toNat a < 2 ^ (32 * m)) (hm : 0 < m) : a.bigits.length ≤ m := by
  rcases ha.top with ht | ht
  · by_contra hc
    have h1 : 2 ^ (32 * m) ≤ 2 ^ (32 * (a.bigits.length - 1)) := Nat.pow_le_pow_right (by decide) (by omega)
    have h2 : val a.bigits ≤ toNat a := Nat.le_mul_of_pos_right _ (Nat.two_pow_pos _)
    omega
  · omega

theorem and_two_pow_ne (exp i : Nat) : exp &&& 2 ^ i ≠ 0 ↔ exp / 2 ^ i % 2 = 1 := by
  rw [Nat.and_two_pow]
  cases h : exp.testBit i
  · rw [Nat.testBit_eq_decide_div_mod_eq] at h
    simp at h ⊢
    omega
  · rw [Nat.testBit_eq_decide_div_mod_eq] at h
    simp at h ⊢
    exact h

theorem powLoop_spec (exp : Nat) (hexp : exp < 2 ^ 20) : ∀ (i fuel : Nat) (a : Bigint), i + 1 < fuel → Norm a →
    toNat a = 5 ^ (exp / 2 ^ (i + 1)) → a.exp = 0 →
    ∃ b, powLoop exp fuel (2 ^ i) a = .ok b ∧ Norm b ∧ toNat b = 5 ^ exp ∧ b.exp = 0 := by
  -- one turn
  have step : ∀ (i : Nat) (a : Bigint), Norm a → toNat a = 5 ^ (exp / 2 ^ (i + 1)) → a.exp = 0 →
      ∃ b, (if exp &&& 2 ^ i ≠ 0 then a.square.mul 5 else .ok a.square) = .ok b ∧ Norm b ∧ toNat b = 5 ^ (exp / 2 ^ i) ∧
        b.exp = 0 := by
    intro i a ha hv he
    have hlen : a.bigits.length < 2 ^ 32 := by
      have : a.bigits.length ≤ 2 ^ 20 := by
        refine len_of_toNat ha ?_ (by decide)
        rw [hv]
        have h1 : exp / 2 ^ (i + 1) ≤ 2 ^ 20 := (Nat.div_le_self _ _).trans hexp.le
        calc 5 ^ (exp / 2 ^ (i + 1)) ≤ 8 ^ (exp / 2 ^ (i + 1)) := Nat.pow_le_pow_left (by decide) _
          _ = 2 ^ (3 * (exp / 2 ^ (i + 1))) := by rw [show 8 = 2 ^ 3 by decide, ← Nat.pow_mul]
          _ < 2 ^ (32 * 2 ^ 20) := Nat.pow_lt_pow_right (by decide) (by omega)
      omega
    obtain ⟨s1, s2, s3⟩ := square_spec ha hlen
    have hdiv : exp / 2 ^ (i + 1) = exp / 2 ^ i / 2 := by rw [pow_succ, ← Nat.div_div_eq_div_mul]
    rw [hv, ← Nat.pow_add, hdiv] at s2
    by_cases hb : exp / 2 ^ i % 2 = 1
    · rw [if_pos ((and_two_pow_ne exp i).2 hb)]
      obtain ⟨b, m1, m2, m3, m4⟩ := mul_spec s1 (value := 5) (by decide) (by decide)
      refine ⟨b, m1, m2, ?_, by rw [m4, s3, he]⟩
      rw [m3, s2, ← Nat.pow_succ]
      congr 1; omega
    · rw [if_neg (fun h => hb ((and_two_pow_ne exp i).1 h))]
      refine ⟨a.square, rfl, s1, ?_, by rw [s3, he]⟩
      rw [s2]
      congr 1; omega
  intro i
  induction i with
  | zero =>
    intro fuel a hf ha hv he
    obtain ⟨fuel, rfl⟩ : ∃ f, fuel = f + 1 + 1 := ⟨fuel - 2, by omega⟩
    obtain ⟨b, b1, b2, b3, b4⟩ := step 0 a ha hv he
    refine ⟨b, ?_, b2, by simpa using b3, b4⟩
    unfold powLoop
    rw [if_pos (by decide)]
    simp only
    have hz : ∀ x, powLoop exp (fuel + 1) (2 ^ 0 / 2) x = .ok x := fun x => by unfold powLoop; rfl
    split at b1
    · next h => rw [if_pos h, b1, ok_bind, hz]
    · next h =>
      rw [if_neg h]
      cases b1
      rw [ok_bind, hz]
  | succ i ih =>
    intro fuel a hf ha hv he
    obtain ⟨fuel, rfl⟩ : ∃ f, fuel = f + 1 := ⟨fuel - 1, by omega⟩
    obtain ⟨b, b1, b2, b3, b4⟩ := step (i + 1) a ha hv he
    obtain ⟨c, c1, c2, c3, c4⟩ := ih fuel b (by omega) b2 b3 b4
    refine ⟨c, ?_, c2, c3, c4⟩
    unfold powLoop
    rw [if_pos (Nat.two_pow_pos _).ne']
    simp only
    rw [show 2 ^ (i + 1) / 2 = 2 ^ i by rw [pow_succ, Nat.mul_div_cancel _ (by decide)]]
    split at b1
    · next h => rw [if_pos h, b1, ok_bind, c1]
    · next h =>
      rw [if_neg h]
      cases b1
      rw [ok_bind, c1]

theorem pow10_spec (exp : Nat) (hexp : exp < 2 ^ 20) :
    ∃ b, pow10 exp = .ok b ∧ Norm b ∧ toNat b = 10 ^ exp ∧ b.exp = exp / 32 := by
  unfold pow10
  rw [assert_ok (by omega), ok_bind]
  by_cases h0 : exp = 0
  · subst h0
    rw [if_pos (by simp)]
    obtain ⟨a, h1, h2, h3, h4⟩ := ofNat_spec (n := 1) (by decide) (by decide)
    exact ⟨a, h1, h2, h3, h4⟩
  · rw [if_neg (by omega), Int.toNat_natCast]
    obtain ⟨k, k1, k2, k3⟩ := topBit_spec exp 31 0 (by omega) (by omega)
    rw [Nat.pow_zero] at k1
    obtain ⟨a, h1, h2, h3, h4⟩ := ofNat_spec (n := 5) (by decide) (by decide)
    have hk : k < 20 := by
      by_contra hc
      have := Nat.pow_le_pow_right (n := 2) (by decide) (show 20 ≤ k by omega)
      omega
    have hloop : ∃ b, powLoop exp 32 (2 ^ (k + 1) / 2 / 2) a = .ok b ∧ Norm b ∧ toNat b = 5 ^ exp ∧ b.exp = 0 := by
      rw [pow_succ, Nat.mul_div_cancel _ (by decide)]
      cases k with
      | zero =>
        refine ⟨a, by unfold powLoop; rfl, h2, ?_, h4⟩
        rw [h3, show exp = 1 by omega]; rfl
      | succ k =>
        rw [pow_succ, Nat.mul_div_cancel _ (by decide)]
        refine powLoop_spec exp hexp k 32 a (by omega) h2 ?_ h4
        have : exp / 2 ^ (k + 1) = 1 := by
          refine Nat.div_eq_of_lt_le (by omega) ?_
          rw [pow_succ] at k3; omega
        rw [h3, this]; rfl
    obtain ⟨b, b1, b2, b3, b4⟩ := hloop
    obtain ⟨c, c1, c2, c3, c4⟩ := shiftLeft_spec b2 exp
    refine ⟨c, ?_, c2, ?_, by rw [c4, b4, Nat.zero_add]⟩
    · rw [k1, ok_bind, h1, ok_bind, b1, ok_bind, c1]
    · rw [c3, b3, ← Nat.mul_pow]

end Bigint
end Fmt
end Efp
