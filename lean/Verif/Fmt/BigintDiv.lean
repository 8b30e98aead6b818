import Verif.Fmt.BigintLemmas

/-!
# Comparison, subtraction and division of the arbitrary-precision integers
-/

namespace Efp
namespace Fmt

open Dragonbox

namespace Bigint

theorem Norm.len {a : Bigint} (h : Norm a) : 0 < a.bigits.length := List.length_pos_iff.2 h.ne

theorem toNat_lt {a : Bigint} (h : Bounded a.bigits) : toNat a < 2 ^ (32 * a.numBigits) := by
  unfold toNat numBigits
  rw [Nat.mul_add, Nat.pow_add]
  exact Nat.mul_lt_mul_of_pos_right (val_lt h) (Nat.two_pow_pos _)

theorem Norm.le {a : Bigint} (h : Norm a) (h0 : 0 < toNat a) : 2 ^ (32 * (a.numBigits - 1)) ≤ toNat a := by
  have hl := h.len
  unfold toNat numBigits
  rw [show 32 * (a.bigits.length + a.exp - 1) = 32 * (a.bigits.length - 1) + 32 * a.exp by omega, Nat.pow_add]
  refine Nat.mul_le_mul_right _ ?_
  rcases h.top with h | h
  · exact h
  · rw [h]
    unfold toNat at h0
    exact Nat.pos_of_mul_pos_right h0

theorem Norm.last {a : Bigint} (h : Norm a) (h0 : 0 < toNat a) :
    a.bigits.getLast? ≠ none ∧ a.bigits.getLast? ≠ some 0 := by
  refine ⟨by simpa using h.ne, fun hl => ?_⟩
  obtain ⟨l, hl⟩ := List.getLast?_eq_some_iff.1 hl
  have hv : val a.bigits = val l := by rw [hl, val_append]; simp [val]
  have hb := h.bounded
  rw [hl, bounded_append] at hb
  have hlt := val_lt hb.1
  have hlen : a.bigits.length = l.length + 1 := by rw [hl]; simp
  have hpos : 0 < val a.bigits := by unfold toNat at h0; exact Nat.pos_of_mul_pos_right h0
  rcases h.top with h | h
  · rw [hlen, Nat.add_sub_cancel] at h; omega
  · have : l = [] := List.length_eq_zero_iff.1 (by omega)
    rw [hv, this] at hpos
    simp [val] at hpos

/-! ## Comparison -/

theorem val_reverse_cons (b : Nat) (l : List Nat) : val (b :: l).reverse = val l.reverse + 2 ^ (32 * l.length) * b := by
  rw [List.reverse_cons, val_append, List.length_reverse]; simp [val]

theorem bounded_reverse {l : List Nat} : Bounded l.reverse ↔ Bounded l := by simp [Bounded]

theorem compareLoop_spec : ∀ (x y : List Nat), Bounded x → Bounded y → (y.length ≤ x.length ∨ y.getLast? ≠ some 0 ∨
      val y.reverse * 2 ^ (32 * x.length) ≠ val x.reverse * 2 ^ (32 * y.length)) →
    (0 ≤ compareLoop x y ↔ val y.reverse * 2 ^ (32 * x.length) ≤ val x.reverse * 2 ^ (32 * y.length)) := by
  intro x
  induction x with
  | nil =>
    intro y _ _ hy
    cases y with
    | nil => simp [compareLoop, val]
    | cons b s =>
      have h0 : 0 < val (b :: s).reverse := by
        rcases hy with hy | hy | hy
        rotate_left 2
        · simp [val] at hy; simp; omega
        · simp at hy
        · cases hr : (b :: s).reverse with
          | nil => simp at hr
          | cons c t =>
            have : (b :: s).getLast? = some c := by rw [List.getLast?_eq_head?_reverse, hr]; rfl
            rw [this] at hy
            have : c ≠ 0 := by simpa using hy
            simp only [val]; omega
      simp only [compareLoop, List.length_nil, Nat.mul_zero, Nat.pow_zero, Nat.mul_one]
      constructor
      · intro h; omega
      · intro h; simp [val] at h h0; omega
  | cons a r ih =>
    intro y hx hy hc
    cases y with
    | nil => simp [compareLoop, val]
    | cons b s =>
      rw [bounded_cons] at hx hy
      have hr := val_lt (bounded_reverse.2 hx.2)
      have hs := val_lt (bounded_reverse.2 hy.2)
      rw [List.length_reverse] at hr hs
      have hP : 0 < 2 ^ (32 * r.length) := Nat.two_pow_pos _
      have hQ : 0 < 2 ^ (32 * s.length) := Nat.two_pow_pos _
      unfold compareLoop
      rw [val_reverse_cons, val_reverse_cons, List.length_cons, List.length_cons, pow_succ32, pow_succ32]
      by_cases hab : a = b
      · subst hab
        rw [if_neg (by simp)]
        rw [ih s hx.2 hy.2 ?_]
        · clear hc
          generalize 2 ^ (32 * r.length) = P at *
          generalize 2 ^ (32 * s.length) = Q at *
          constructor
          · intro h; nlinarith
          · intro h; nlinarith
        · rcases hc with hc | hc | hc
          rotate_left 2
          · refine .inr (.inr fun h => hc ?_)
            rw [val_reverse_cons, val_reverse_cons, List.length_cons, List.length_cons, pow_succ32, pow_succ32]
            have := congrArg (fun z => 2 ^ 32 * z) h
            linarith
          · left; simpa using hc
          · cases s with
            | nil => left; simp
            | cons c s => right; left; rwa [List.getLast?_cons_cons] at hc
      · rw [if_pos hab]
        clear hc
        generalize 2 ^ (32 * r.length) = P at *
        generalize 2 ^ (32 * s.length) = Q at *
        by_cases hgt : a > b
        · rw [if_pos hgt]
          refine ⟨fun _ => ?_, fun _ => by decide⟩
          obtain ⟨k, rfl⟩ : ∃ k, a = b + 1 + k := ⟨a - b - 1, by omega⟩
          have h1 : (val s.reverse + Q * b) ≤ Q * (b + 1) := by linarith
          have h2 : (val s.reverse + Q * b) * (2 ^ 32 * P) ≤ Q * (b + 1) * (2 ^ 32 * P) := Nat.mul_le_mul_right _ h1
          have h3 : P * (b + 1) ≤ val r.reverse + P * (b + 1 + k) := by
            have := Nat.zero_le (P * k)
            linarith
          have h4 : P * (b + 1) * (2 ^ 32 * Q) ≤ (val r.reverse + P * (b + 1 + k)) * (2 ^ 32 * Q) := Nat.mul_le_mul_right _ h3
          linarith
        · rw [if_neg hgt]
          refine ⟨fun h => absurd h (by decide), fun h => ?_⟩
          exfalso
          obtain ⟨k, rfl⟩ : ∃ k, b = a + 1 + k := ⟨b - a - 1, by omega⟩
          have h1 : (val r.reverse + P * a) < P * (a + 1) := by linarith
          have h2 : (val r.reverse + P * a) * (2 ^ 32 * Q) < P * (a + 1) * (2 ^ 32 * Q) :=
            Nat.mul_lt_mul_of_pos_right h1 (by positivity)
          have h3 : Q * (a + 1) ≤ val s.reverse + Q * (a + 1 + k) := by
            have := Nat.zero_le (Q * k)
            linarith
          have h4 : Q * (a + 1) * (2 ^ 32 * P) ≤ (val s.reverse + Q * (a + 1 + k)) * (2 ^ 32 * P) := Nat.mul_le_mul_right _ h3
          linarith

/-- `compare` decides `≥`, if the right side has no trailing zeros where the left side has no bigits. -/
theorem compare_spec {a d : Bigint} (ha : Norm a) (hd : Norm d) (h0 : 0 < toNat d) (hz : 0 < toNat a ∨ a.exp ≤ d.exp)
    (he : a.exp ≤ d.exp ∨ d.bigits.head? ≠ some 0 ∨ toNat d ≠ toNat a) : 0 ≤ compare a d ↔ toNat d ≤ toNat a := by
  have hla := ha.len
  have hld := hd.len
  unfold compare
  by_cases hn : a.numBigits = d.numBigits
  · unfold numBigits at hn
    have e1 : toNat a * 2 ^ (32 * (a.bigits.length + d.bigits.length)) =
        val a.bigits * 2 ^ (32 * d.bigits.length) * 2 ^ (32 * (a.bigits.length + a.exp)) := by
      unfold toNat
      rw [Nat.mul_assoc, Nat.mul_assoc, ← Nat.pow_add, ← Nat.pow_add]
      congr 2; ring
    have e2 : toNat d * 2 ^ (32 * (a.bigits.length + d.bigits.length)) =
        val d.bigits * 2 ^ (32 * a.bigits.length) * 2 ^ (32 * (a.bigits.length + a.exp)) := by
      unfold toNat
      rw [Nat.mul_assoc, Nat.mul_assoc, ← Nat.pow_add, ← Nat.pow_add, hn]
      congr 2; ring
    rw [if_neg (by simpa [numBigits] using hn),
      compareLoop_spec _ _ (bounded_reverse.2 ha.bounded) (bounded_reverse.2 hd.bounded) ?_]
    · simp only [List.reverse_reverse, List.length_reverse]
      rw [← Nat.mul_le_mul_right_iff (Nat.two_pow_pos (32 * (a.bigits.length + a.exp))), ← e1, ← e2,
        Nat.mul_le_mul_right_iff (Nat.two_pow_pos _)]
    · simp only [List.length_reverse]
      rcases he with he | he | he
      · left; omega
      · right; left; rwa [List.getLast?_reverse]
      · refine .inr (.inr fun h => he ?_)
        simp only [List.reverse_reverse] at h
        rw [h] at e2
        exact Nat.eq_of_mul_eq_mul_right (Nat.two_pow_pos _) (e2.trans e1.symm)
  · rw [if_pos hn]
    by_cases hgt : a.numBigits > d.numBigits
    · rw [if_pos hgt]
      refine ⟨fun _ => ?_, fun _ => by decide⟩
      have ha0 : 0 < toNat a := by
        rcases hz with hz | hz
        · exact hz
        · rcases ha.top with h | h
          · unfold toNat
            exact Nat.mul_pos (lt_of_lt_of_le (Nat.two_pow_pos _) h) (Nat.two_pow_pos _)
          · unfold numBigits at hgt; omega
      refine (toNat_lt hd.bounded).le.trans (le_trans ?_ (ha.le ha0))
      exact Nat.pow_le_pow_right (by decide) (by omega)
    · rw [if_neg hgt]
      refine ⟨fun h => absurd h (by decide), fun h => ?_⟩
      exfalso
      have h1 := toNat_lt ha.bounded
      have h2 := hd.le h0
      have h3 : 2 ^ (32 * a.numBigits) ≤ 2 ^ (32 * (d.numBigits - 1)) := Nat.pow_le_pow_right (by decide) (by omega)
      omega

/-! ## Comparison of a sum -/

theorem val_drop (l : List Nat) (n : Nat) : val (l.drop n) = l.getD n 0 + 2 ^ 32 * val (l.drop (n + 1)) := by
  induction l generalizing n with
  | nil => simp [val]
  | cons b l ih =>
    cases n with
    | zero => simp [val]
    | succ n => simpa using ih n

theorem val_take_drop (l : List Nat) (n : Nat) (h : n ≤ l.length) : val l = val (l.take n) + 2 ^ (32 * n) * val (l.drop n) := by
  conv_lhs => rw [← List.take_append_drop n l, val_append, List.length_take, Nat.min_eq_left h]

/-- the bigits from index `i` on -/
theorem div_pow {a : Bigint} (h : Bounded a.bigits) (i : Nat) :
    toNat a / 2 ^ (32 * i) = getBigit a i + 2 ^ 32 * (toNat a / 2 ^ (32 * (i + 1))) := by
  rw [pow_succ32, Nat.mul_comm (2 ^ 32) (2 ^ (32 * i)), ← Nat.div_div_eq_div_mul]
  have hg : toNat a / 2 ^ (32 * i) % 2 ^ 32 = getBigit a i := by
    unfold getBigit
    by_cases h1 : i < a.exp
    · rw [if_neg (by omega)]
      unfold toNat
      rw [show 32 * a.exp = 32 * (a.exp - i - 1) + 32 + 32 * i by omega, Nat.pow_add, ← Nat.mul_assoc,
        Nat.mul_div_cancel _ (Nat.two_pow_pos _), Nat.pow_add, ← Nat.mul_assoc, Nat.mul_mod_left]
    · have e : toNat a / 2 ^ (32 * i) = val (a.bigits.drop (i - a.exp)) := by
        unfold toNat
        rw [show 32 * i = 32 * (i - a.exp) + 32 * a.exp by omega, Nat.pow_add,
          Nat.mul_div_mul_right _ _ (Nat.two_pow_pos _)]
        by_cases h2 : i - a.exp ≤ a.bigits.length
        · conv_lhs => rw [val_take_drop _ _ h2]
          have : val (a.bigits.take (i - a.exp)) < 2 ^ (32 * (i - a.exp)) := by
            have := val_lt (l := a.bigits.take (i - a.exp)) (fun b hb => h b (List.mem_of_mem_take hb))
            rwa [List.length_take, Nat.min_eq_left h2] at this
          rw [Nat.add_mul_div_left _ _ (Nat.two_pow_pos _), Nat.div_eq_of_lt this, Nat.zero_add]
        · rw [List.drop_eq_nil_of_le (by omega)]
          refine Nat.div_eq_of_lt (lt_of_lt_of_le (val_lt h) ?_)
          exact Nat.pow_le_pow_right (by decide) (by omega)
      rw [e, val_drop, Nat.add_mul_mod_self_left]
      have hlt : a.bigits.getD (i - a.exp) 0 < 2 ^ 32 := by
        rw [List.getD_eq_getElem?_getD]
        cases hx : a.bigits[i - a.exp]? with
        | none => simp
        | some b => exact h b (List.mem_of_getElem? hx)
      rw [Nat.mod_eq_of_lt hlt]
      by_cases h2 : i < a.numBigits
      · rw [if_pos ⟨by omega, h2⟩]
      · rw [if_neg (by omega), List.getD_eq_getElem?_getD, List.getElem?_eq_none (by unfold numBigits at h2; omega)]
        rfl
  omega

theorem toNat_dvd (a : Bigint) {m : Nat} (h : m ≤ a.exp) : toNat a = toNat a / 2 ^ (32 * m) * 2 ^ (32 * m) := by
  refine (Nat.div_mul_cancel ?_).symm
  unfold toNat
  exact Nat.dvd_mul_left_of_dvd (Nat.pow_dvd_pow _ (by omega)) _

theorem getBigit_lt {a : Bigint} (h : Bounded a.bigits) (i : Nat) : getBigit a i < 2 ^ 32 := by
  unfold getBigit
  split
  · rw [List.getD_eq_getElem?_getD]
    cases hx : a.bigits[i - a.exp]? with
    | none => simp
    | some b => exact h b (List.mem_of_getElem? hx)
  · decide

theorem addCompareLoop_spec {a b r : Bigint} (ha : Bounded a.bigits) (hb : Bounded b.bigits) (hr : Bounded r.bigits) (m : Nat) :
    ∀ (n borrow : Nat), (borrow = 0 ∨ borrow = 2 ^ 32) →
    toNat a / 2 ^ (32 * (m + n)) + toNat b / 2 ^ (32 * (m + n)) + borrow / 2 ^ 32 = toNat r / 2 ^ (32 * (m + n)) →
    (0 < addCompareLoop a b r m n borrow ↔ toNat r / 2 ^ (32 * m) < toNat a / 2 ^ (32 * m) + toNat b / 2 ^ (32 * m)) ∧
    (addCompareLoop a b r m n borrow = 0 ↔ toNat r / 2 ^ (32 * m) = toNat a / 2 ^ (32 * m) + toNat b / 2 ^ (32 * m)) := by
  intro n
  -- the loop keeps `borrow` at the difference of what has been compared; once it is negative or more than 1 it stays so
  have mono : ∀ (n : Nat) (z : Int),
      (toNat a / 2 ^ (32 * (m + n)) : Nat) + (toNat b / 2 ^ (32 * (m + n)) : Nat) - ((toNat r / 2 ^ (32 * (m + n)) : Nat) : Int) = z →
      (1 ≤ z → toNat r / 2 ^ (32 * m) < toNat a / 2 ^ (32 * m) + toNat b / 2 ^ (32 * m)) ∧
      (z ≤ -2 → toNat a / 2 ^ (32 * m) + toNat b / 2 ^ (32 * m) < toNat r / 2 ^ (32 * m)) := by
    intro n
    induction n with
    | zero => intro z hz; simp only [Nat.add_zero] at hz; omega
    | succ n ih =>
      intro z hz
      have e1 := div_pow ha (m + n)
      have e2 := div_pow hb (m + n)
      have e3 := div_pow hr (m + n)
      have l1 := getBigit_lt ha (m + n)
      have l2 := getBigit_lt hb (m + n)
      have l3 := getBigit_lt hr (m + n)
      rw [show m + (n + 1) = m + n + 1 by omega] at hz
      obtain ⟨i1, i2⟩ := ih _ rfl
      constructor
      · intro h; apply i1; omega
      · intro h; apply i2; omega
  induction n with
  | zero =>
    intro borrow hbor heq
    simp only [Nat.add_zero] at heq
    unfold addCompareLoop
    rcases hbor with rfl | rfl
    · rw [if_neg (by decide)]
      rw [Nat.zero_div, Nat.add_zero] at heq
      constructor
      · exact ⟨fun h => absurd h (by decide), fun h => by omega⟩
      · exact ⟨fun _ => by omega, fun _ => rfl⟩
    · rw [if_pos (by decide)]
      rw [show 2 ^ 32 / 2 ^ 32 = 1 by decide] at heq
      constructor
      · exact ⟨fun h => absurd h (by decide), fun h => by omega⟩
      · exact ⟨fun h => absurd h (by decide), fun h => by omega⟩
  | succ n ih =>
    intro borrow hbor heq
    have e1 := div_pow ha (m + n)
    have e2 := div_pow hb (m + n)
    have e3 := div_pow hr (m + n)
    have l1 := getBigit_lt ha (m + n)
    have l2 := getBigit_lt hb (m + n)
    have l3 := getBigit_lt hr (m + n)
    rw [show m + (n + 1) = m + n + 1 by omega] at heq
    have hb' : borrow = 2 ^ 32 * (borrow / 2 ^ 32) ∧ borrow / 2 ^ 32 ≤ 1 := by rcases hbor with rfl | rfl <;> decide
    obtain ⟨mo1, mo2⟩ := mono n _ rfl
    unfold addCompareLoop
    simp only
    by_cases h1 : getBigit a (m + n) + getBigit b (m + n) > getBigit r (m + n) + borrow
    · rw [if_pos h1]
      have := mo1 (by omega)
      constructor
      · exact ⟨fun _ => this, fun _ => by decide⟩
      · exact ⟨fun h => absurd h (by decide), fun h => by omega⟩
    · rw [if_neg h1]
      by_cases h2 : getBigit r (m + n) + borrow - (getBigit a (m + n) + getBigit b (m + n)) > 1
      · rw [if_pos h2]
        have := mo2 (by omega)
        constructor
        · exact ⟨fun h => absurd h (by decide), fun h => by omega⟩
        · exact ⟨fun h => absurd h (by decide), fun h => by omega⟩
      · rw [if_neg h2]
        have h3 : getBigit r (m + n) + borrow - (getBigit a (m + n) + getBigit b (m + n)) = 0 ∨
            getBigit r (m + n) + borrow - (getBigit a (m + n) + getBigit b (m + n)) = 1 := by omega
        apply ih
        · rcases h3 with h3 | h3 <;> rw [h3] <;> simp
        · rcases h3 with h3 | h3 <;> rw [h3]
          · simp only [Nat.zero_mul, Nat.zero_mod, Nat.zero_div]; omega
          · simp only [Nat.one_mul, show 2 ^ 32 % 2 ^ 64 / 2 ^ 32 = 1 by decide]; omega

/-- `add_compare` of twice a number. -/
theorem addCompare_spec {a d : Bigint} (ha : Norm a) (hd : Norm d) (h0 : 0 < toNat d) (he : a.exp ≤ d.exp) :
    (0 < addCompare a a d ↔ toNat d < 2 * toNat a) ∧ (addCompare a a d = 0 ↔ toNat d = 2 * toNat a) := by
  have hla := ha.len
  have hld := hd.len
  have hlt := toNat_lt ha.bounded
  have hltd := toNat_lt hd.bounded
  have hle := hd.le h0
  unfold addCompare
  simp only [max_self, min_self]
  by_cases h1 : a.numBigits + 1 < d.numBigits
  · rw [if_pos h1]
    have : 2 ^ (32 * (a.numBigits + 1)) ≤ 2 ^ (32 * (d.numBigits - 1)) := Nat.pow_le_pow_right (by decide) (by omega)
    rw [pow_succ32] at this
    generalize 2 ^ (32 * a.numBigits) = P at *
    generalize 2 ^ (32 * (d.numBigits - 1)) = Q at *
    constructor
    · exact ⟨fun h => absurd h (by decide), fun h => by omega⟩
    · exact ⟨fun h => absurd h (by decide), fun h => by omega⟩
  · rw [if_neg h1]
    by_cases h2 : a.numBigits > d.numBigits
    · rw [if_pos h2]
      have ha0 : 0 < toNat a := by
        rcases ha.top with h | h
        · unfold toNat
          exact Nat.mul_pos (lt_of_lt_of_le (Nat.two_pow_pos _) h) (Nat.two_pow_pos _)
        · unfold numBigits at h2; omega
      have h3 := ha.le ha0
      have : 2 ^ (32 * d.numBigits) ≤ 2 ^ (32 * (a.numBigits - 1)) := Nat.pow_le_pow_right (by decide) (by omega)
      constructor
      · exact ⟨fun _ => by omega, fun _ => by decide⟩
      · exact ⟨fun h => absurd h (by decide), fun h => by omega⟩
    · rw [if_neg h2, Nat.min_eq_left he]
      have hn : a.exp ≤ d.numBigits := by unfold numBigits; omega
      have hz : toNat a / 2 ^ (32 * (a.exp + (d.numBigits - a.exp))) = 0 := by
        refine Nat.div_eq_of_lt (lt_of_lt_of_le hlt (Nat.pow_le_pow_right (by decide) ?_))
        omega
      have hz' : toNat d / 2 ^ (32 * (a.exp + (d.numBigits - a.exp))) = 0 := by
        refine Nat.div_eq_of_lt (lt_of_lt_of_le hltd (Nat.pow_le_pow_right (by decide) ?_))
        omega
      obtain ⟨s1, s2⟩ := addCompareLoop_spec ha.bounded ha.bounded hd.bounded a.exp (d.numBigits - a.exp) 0 (.inl rfl)
        (by rw [hz, hz']; rfl)
      have e1 := toNat_dvd a (le_refl a.exp)
      have e2 := toNat_dvd d he
      have hP := Nat.two_pow_pos (32 * a.exp)
      rw [s1, s2]
      generalize toNat a / 2 ^ (32 * a.exp) = A at *
      generalize toNat d / 2 ^ (32 * a.exp) = D at *
      rw [e1, e2]
      generalize 2 ^ (32 * a.exp) = P at *
      constructor
      · rw [show 2 * (A * P) = (A + A) * P by ring, Nat.mul_lt_mul_right hP]
      · rw [show 2 * (A * P) = (A + A) * P by ring, Nat.mul_left_inj hP.ne']

/-! ## Subtraction -/

theorem dropZeros_spec : ∀ (l : List Nat), l ≠ [] → Bounded l →
    Bounded (dropZeros l) ∧ dropZeros l ≠ [] ∧ val (dropZeros l).reverse = val l.reverse ∧
    (2 ^ (32 * ((dropZeros l).length - 1)) ≤ val (dropZeros l).reverse ∨ (dropZeros l).length = 1) := by
  intro l
  induction l with
  | nil => intro h; exact absurd rfl h
  | cons b l ih =>
    intro _ hb
    cases l with
    | nil => exact ⟨hb, by simp [dropZeros], rfl, .inr rfl⟩
    | cons c r =>
      unfold dropZeros
      by_cases h : b = 0
      · rw [if_pos h]
        obtain ⟨h1, h2, h3, h4⟩ := ih (by simp) (bounded_cons.1 hb).2
        refine ⟨h1, h2, ?_, h4⟩
        rw [h3, val_reverse_cons b, h]; simp
      · rw [if_neg h]
        refine ⟨hb, by simp, rfl, .inl ?_⟩
        rw [val_reverse_cons]
        simp only [List.length_cons, Nat.add_sub_cancel]
        have : 2 ^ (32 * (r.length + 1)) * 1 ≤ 2 ^ (32 * (r.length + 1)) * b := Nat.mul_le_mul_left _ (by omega)
        omega

theorem norm_dropZeros {l : List Nat} (hne : l ≠ []) (hb : Bounded l) (e : Nat) :
    Norm ⟨(dropZeros l.reverse).reverse, e⟩ ∧ val (dropZeros l.reverse).reverse = val l := by
  obtain ⟨h1, h2, h3, h4⟩ := dropZeros_spec l.reverse (by simpa using hne) (bounded_reverse.2 hb)
  rw [List.reverse_reverse] at h3
  refine ⟨⟨bounded_reverse.2 h1, by simpa using h2, ?_⟩, h3⟩
  simpa using h4

theorem subtractBigits_spec {p s : List Nat} {b o w : Nat} (hb : b < 2 ^ 32) (ho : o < 2 ^ 32) (hw : w ≤ 1) :
    ∃ c w', subtractBigits (p ++ b :: s) p.length o w = .ok (p ++ c :: s, w') ∧ c < 2 ^ 32 ∧ w' ≤ 1 ∧
      c + o + w = b + 2 ^ 32 * w' := by
  unfold subtractBigits
  rw [List.getElem?_append_right (le_refl _), Nat.sub_self]
  simp only [List.getElem?_cons_zero]
  by_cases h : o + w ≤ b
  · have e : (b + 2 ^ 64 - o + 2 ^ 64 - w) % 2 ^ 64 = b - o - w := by omega
    refine ⟨(b - o - w) % 2 ^ 32, 0, ?_, by omega, by omega, by omega⟩
    rw [e, show (b - o - w) / 2 ^ 63 = 0 by omega]
    simp
  · have e : (b + 2 ^ 64 - o + 2 ^ 64 - w) % 2 ^ 64 = b + 2 ^ 64 - o - w := by omega
    refine ⟨(b + 2 ^ 64 - o - w) % 2 ^ 32, 1, ?_, by omega, by omega, by omega⟩
    rw [e, show (b + 2 ^ 64 - o - w) / 2 ^ 63 = 1 by omega]
    simp

theorem subtractLoop_spec : ∀ (o p m s : List Nat) (w : Nat), Bounded o → Bounded m → m.length = o.length → w ≤ 1 →
    ∃ m' w', subtractLoop o (p ++ m ++ s) p.length w = .ok (p ++ m' ++ s, p.length + o.length, w') ∧ m'.length = o.length ∧
      Bounded m' ∧ w' ≤ 1 ∧ val m' + val o + w = val m + 2 ^ (32 * o.length) * w' := by
  intro o
  induction o with
  | nil =>
    intro p m s w _ _ hm hw
    have : m = [] := List.length_eq_zero_iff.1 hm
    subst this
    exact ⟨[], w, rfl, rfl, by simp [Bounded], hw, by simp [val]⟩
  | cons c o ih =>
    intro p m s w ho hm hlen hw
    cases m with
    | nil => simp at hlen
    | cons b m =>
      rw [bounded_cons] at ho hm
      obtain ⟨x, w1, h1, h2, h3, h4⟩ := subtractBigits_spec (p := p) (s := m ++ s) hm.1 ho.1 hw
      obtain ⟨m', w', h5, h6, h7, h8, h9⟩ := ih (p ++ [x]) m s w1 ho.2 hm.2 (by simpa using hlen) h3
      refine ⟨x :: m', w', ?_, by simp [h6], bounded_cons.2 ⟨h2, h7⟩, h8, ?_⟩
      · unfold subtractLoop
        rw [show p ++ b :: m ++ s = p ++ b :: (m ++ s) by simp, h1, ok_bind]
        simp only
        rw [show p ++ x :: (m ++ s) = p ++ [x] ++ m ++ s by simp, show p.length + 1 = (p ++ [x]).length by simp, h5]
        simp; omega
      · simp only [val, List.length_cons, pow_succ32]
        generalize 2 ^ (32 * o.length) = P at *
        have := congrArg (fun z => 2 ^ 32 * z) h9
        have e : 2 ^ 32 * (val m + P * w') = 2 ^ 32 * val m + 2 ^ 32 * P * w' := by ring
        rw [e] at this
        omega

/-- `subtract_aligned`, if the difference of the lengths is at most one bigit. -/
theorem subtractAligned_spec {a d : Bigint} (ha : Norm a) (hd : Norm d) (h0 : 0 < toNat d) (he : a.exp ≤ d.exp)
    (hle : toNat d ≤ toNat a) (hlt : toNat a < 2 ^ 32 * toNat d) :
    ∃ b, a.subtractAligned d = .ok b ∧ Norm b ∧ toNat b = toNat a - toNat d ∧ b.exp = a.exp := by
  have hla := ha.len
  have hld := hd.len
  have hcmp := (compare_spec ha hd h0 (.inr he) (.inl he)).2 hle
  -- the number of bigits
  have hn1 : d.numBigits ≤ a.numBigits := by
    by_contra hc
    have h1 := toNat_lt ha.bounded
    have h2 := hd.le h0
    have h3 : 2 ^ (32 * a.numBigits) ≤ 2 ^ (32 * (d.numBigits - 1)) := Nat.pow_le_pow_right (by decide) (by omega)
    omega
  have hn2 : a.numBigits ≤ d.numBigits + 1 := by
    by_contra hc
    have h1 := toNat_lt hd.bounded
    have h2 := ha.le (by omega)
    have h3 : 2 ^ (32 * (d.numBigits + 1)) ≤ 2 ^ (32 * (a.numBigits - 1)) := Nat.pow_le_pow_right (by decide) (by omega)
    rw [pow_succ32] at h3
    generalize 2 ^ (32 * d.numBigits) = P at *
    omega
  unfold numBigits at hn1 hn2
  obtain ⟨i, hi⟩ : ∃ i, d.exp = a.exp + i := ⟨d.exp - a.exp, by omega⟩
  have hsplit : a.bigits = a.bigits.take i ++ (a.bigits.drop i).take d.bigits.length ++ (a.bigits.drop i).drop d.bigits.length := by
    rw [List.append_assoc, List.take_append_drop, List.take_append_drop]
  generalize hp : a.bigits.take i = p at hsplit
  generalize hm : (a.bigits.drop i).take d.bigits.length = m at hsplit
  generalize hs : (a.bigits.drop i).drop d.bigits.length = s at hsplit
  have hplen : p.length = i := by rw [← hp, List.length_take]; omega
  have hmlen : m.length = d.bigits.length := by rw [← hm, List.length_take, List.length_drop]; omega
  have hslen : s.length ≤ 1 := by rw [← hs, List.length_drop, List.length_drop]; omega
  have hbnd := ha.bounded
  rw [hsplit, bounded_append, bounded_append] at hbnd
  obtain ⟨⟨hbp, hbm⟩, hbs⟩ := hbnd
  obtain ⟨m', w', h5, h6, h7, h8, h9⟩ := subtractLoop_spec d.bigits p m s 0 hd.bounded hbm hmlen (by omega)
  -- values
  have hva : toNat a = (val p + 2 ^ (32 * i) * (val m + 2 ^ (32 * d.bigits.length) * val s)) * 2 ^ (32 * a.exp) := by
    unfold toNat
    rw [hsplit, List.append_assoc, val_append, val_append, hplen, hmlen]
  have hvd : toNat d = 2 ^ (32 * i) * val d.bigits * 2 ^ (32 * a.exp) := by
    unfold toNat
    rw [hi, Nat.mul_add, Nat.pow_add]; ring
  have hvp : val p < 2 ^ (32 * i) := by have := val_lt hbp; rwa [hplen] at this
  have hE := Nat.two_pow_pos (32 * a.exp)
  have hI := Nat.two_pow_pos (32 * i)
  have hDL := Nat.two_pow_pos (32 * d.bigits.length)
  have hle' : val d.bigits ≤ val m + 2 ^ (32 * d.bigits.length) * val s := by
    rw [hva, hvd] at hle
    have := Nat.le_of_mul_le_mul_right hle hE
    by_contra hc
    have h2 : 2 ^ (32 * i) * (val m + 2 ^ (32 * d.bigits.length) * val s + 1) ≤ 2 ^ (32 * i) * val d.bigits :=
      Nat.mul_le_mul_left _ (by omega)
    rw [Nat.mul_add, Nat.mul_one] at h2
    omega
  have hdv := val_lt hd.bounded
  have hm'v := val_lt h7
  rw [h6] at hm'v
  -- the second loop
  have hfin : ∃ s', borrowLoop (p.length + d.bigits.length) (2 ^ 33) (p ++ m' ++ s) w' = .ok (p ++ m' ++ s') ∧
      Bounded s' ∧ val s' + w' = val s := by
    have hfuel : (2 : Nat) ^ 33 = (2 ^ 33 - 2) + 1 + 1 := by decide
    rw [hfuel]
    generalize 2 ^ 33 - 2 = fuel
    rcases Nat.eq_zero_or_pos w' with h | h
    · subst h
      exact ⟨s, by unfold borrowLoop; rfl, hbs, by omega⟩
    · have hw1 : w' = 1 := by omega
      subst hw1
      rcases Nat.eq_zero_or_pos (val s) with hz | hz
      · exfalso
        rw [hz] at hle'
        omega
      · cases s with
        | nil => simp [val] at hz
        | cons t s =>
          have : s = [] := by cases s with
            | nil => rfl
            | cons _ _ => simp at hslen
          subst this
          rw [bounded_cons] at hbs
          have ht : 0 < t := by simpa [val] using hz
          obtain ⟨x, w2, g1, g2, g3, g4⟩ := subtractBigits_spec (p := p ++ m') (s := []) (o := 0) hbs.1 (by decide)
            (le_refl 1)
          have hw2 : w2 = 0 := by omega
          subst hw2
          refine ⟨[x], ?_, by intro b hb; simp at hb; omega, by simp [val]; omega⟩
          unfold borrowLoop
          rw [if_pos (by decide), show p.length + d.bigits.length = (p ++ m').length by simp [h6], g1, ok_bind]
          simp only
          unfold borrowLoop
          rfl
  obtain ⟨s', g1, g2, g3⟩ := hfin
  have hne : p ++ m' ++ s' ≠ [] := by
    intro h
    have : m'.length = 0 := by
      have := congrArg List.length h
      simp at this
      simp [this]
    omega
  obtain ⟨n1, n2⟩ := norm_dropZeros hne (bounded_append.2 ⟨bounded_append.2 ⟨hbp, h7⟩, g2⟩) a.exp
  refine ⟨⟨(dropZeros (p ++ m' ++ s').reverse).reverse, a.exp⟩, ?_, n1, ?_, rfl⟩
  · unfold subtractAligned
    rw [assert_ok (by omega), ok_bind, assert_ok hcmp, ok_bind, hi, Nat.add_sub_cancel_left]
    conv_lhs => rw [hsplit]
    rw [← hplen, h5, ok_bind]
    simp only
    rw [g1]
    rfl
  · unfold toNat
    simp only
    rw [n2, List.append_assoc, val_append, val_append, hplen, h6]
    have key : (val p + 2 ^ (32 * i) * (val m' + 2 ^ (32 * d.bigits.length) * val s')) + 2 ^ (32 * i) * val d.bigits =
        val p + 2 ^ (32 * i) * (val m + 2 ^ (32 * d.bigits.length) * val s) := by
      rw [← g3]
      generalize 2 ^ (32 * d.bigits.length) = L at *
      have : val m' + L * val s' + val d.bigits = val m + L * (val s' + w') := by rw [Nat.mul_add]; omega
      rw [Nat.add_assoc, ← Nat.mul_add, this]
    have e2 := hva
    have e3 := hvd
    unfold toNat at e2 e3
    rw [e2, e3, ← key, Nat.add_mul _ (2 ^ (32 * i) * val d.bigits), Nat.add_sub_cancel]

/-! ## Division -/

theorem align_spec {a d : Bigint} (ha : Norm a) (h0 : 0 < toNat a) :
    Norm (a.align d) ∧ toNat (a.align d) = toNat a ∧ (a.align d).exp ≤ d.exp ∧ (a.align d).exp ≤ a.exp := by
  unfold align
  by_cases h : a.exp ≤ d.exp
  · rw [if_pos h]; exact ⟨ha, rfl, h, le_refl _⟩
  · rw [if_neg h]
    have hv : val (List.replicate (a.exp - d.exp) 0 ++ a.bigits) = 2 ^ (32 * (a.exp - d.exp)) * val a.bigits := by
      rw [val_append, val_zeros, List.length_replicate, Nat.zero_add]
    refine ⟨⟨?_, by simp [ha.ne], .inl ?_⟩, ?_, le_refl _, by simp only; omega⟩
    · refine bounded_append.2 ⟨?_, ha.bounded⟩
      intro b hb
      rw [List.eq_of_mem_replicate hb]; decide
    · have hl := ha.len
      simp only [List.length_append, List.length_replicate]
      rw [hv, show 32 * (a.exp - d.exp + a.bigits.length - 1) = 32 * (a.exp - d.exp) + 32 * (a.bigits.length - 1) by omega,
        Nat.pow_add]
      refine Nat.mul_le_mul_left _ ?_
      rcases ha.top with h | h
      · exact h
      · rw [h]
        unfold toNat at h0
        exact Nat.pos_of_mul_pos_right h0
    · unfold toNat
      simp only
      rw [hv, show 32 * a.exp = 32 * (a.exp - d.exp) + 32 * d.exp by omega, Nat.pow_add]
      ring

theorem divmodLoop_spec {d : Bigint} (hd : Norm d) (h0 : 0 < toNat d) : ∀ (fuel : Nat) (a : Bigint) (q : Nat), Norm a →
    a.exp ≤ d.exp → toNat d ≤ toNat a → toNat a < 2 ^ 32 * toNat d → toNat a / toNat d ≤ fuel →
    ∃ r, divmodLoop d fuel a q = .ok (q + toNat a / toNat d, r) ∧ Norm r ∧ toNat r = toNat a % toNat d ∧ r.exp ≤ d.exp := by
  intro fuel
  induction fuel with
  | zero =>
    intro a q _ _ h1 _ h3
    have := Nat.div_pos h1 h0
    omega
  | succ fuel ih =>
    intro a q ha he h1 h2 h3
    obtain ⟨b, g1, g2, g3, g4⟩ := subtractAligned_spec ha hd h0 he h1 h2
    have hb : b.exp ≤ d.exp := by omega
    have hdiv : toNat a / toNat d = toNat b / toNat d + 1 := by
      rw [g3, ← Nat.add_div_right _ h0, Nat.sub_add_cancel h1]
    have hmod : toNat a % toNat d = toNat b % toNat d := by
      rw [g3]; conv_lhs => rw [← Nat.sub_add_cancel h1, Nat.add_mod_right]
    unfold divmodLoop
    rw [g1, ok_bind]
    by_cases hc : toNat d ≤ toNat b
    · rw [if_pos ((compare_spec g2 hd h0 (.inr hb) (.inl hb)).2 hc)]
      obtain ⟨r, i1, i2, i3, i4⟩ := ih b (q + 1) g2 hb hc (by omega) (by omega)
      refine ⟨r, ?_, i2, by rw [i3, hmod], i4⟩
      rw [i1, hdiv, show q + 1 + toNat b / toNat d = q + (toNat b / toNat d + 1) by omega]
    · rw [if_neg (fun h => hc ((compare_spec g2 hd h0 (.inr hb) (.inl hb)).1 h))]
      have : toNat b / toNat d = 0 := Nat.div_eq_of_lt (by omega)
      refine ⟨b, by rw [hdiv, this], g2, ?_, hb⟩
      rw [hmod, Nat.mod_eq_of_lt (by omega)]

/-- `divmod_assign`, for small quotients. -/
theorem divmodAssign_spec {a d : Bigint} (ha : Norm a) (hd : Norm d) (h0 : 0 < toNat d) (hlt : toNat a < 10 * toNat d)
    (he : a.exp ≤ d.exp ∨ 0 < toNat a ∧ toNat d ≤ toNat a ∧ (toNat d ≠ toNat a ∨ d.bigits.head? ≠ some 0)) :
    ∃ r, a.divmodAssign d = .ok (toNat a / toNat d, r) ∧ Norm r ∧ toNat r = toNat a % toNat d ∧ r.exp ≤ d.exp := by
  have hcmp : 0 ≤ compare a d ↔ toNat d ≤ toNat a := by
    rcases he with he | ⟨hp, _, he | he⟩
    · exact compare_spec ha hd h0 (.inr he) (.inl he)
    · exact compare_spec ha hd h0 (.inl hp) (.inr (.inr he))
    · exact compare_spec ha hd h0 (.inl hp) (.inr (.inl he))
  unfold divmodAssign
  by_cases hc : toNat d ≤ toNat a
  · have hp : 0 < toNat a := by omega
    obtain ⟨h1, h2, h3, _⟩ := align_spec (d := d) ha hp
    have hq : toNat a / toNat d < 10 := (Nat.div_lt_iff_lt_mul h0).2 hlt
    rw [if_neg (by have := hcmp.2 hc; omega), assert_ok (hd.last h0), ok_bind]
    generalize hf : (2 : Nat) ^ 31 = fuel
    obtain ⟨r, g1, g2, g3, g4⟩ := divmodLoop_spec hd h0 fuel (a.align d) 0 h1 h3 (by omega) (by omega)
      (by rw [h2]; omega)
    rw [h2] at g1 g3
    exact ⟨r, by rw [g1, Nat.zero_add], g2, g3, g4⟩
  · rw [if_pos (by have := mt hcmp.1 hc; omega)]
    have h1 : toNat a < toNat d := by omega
    refine ⟨a, by rw [Nat.div_eq_of_lt h1], ha, (Nat.mod_eq_of_lt h1).symm, ?_⟩
    rcases he with he | he
    · exact he
    · omega

end Bigint
end Fmt
end Efp
