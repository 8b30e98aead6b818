import Verif.SortCostLemmas

/-! Counts of quicksort, of `sort_unstable` and of `sort`. -/

namespace Efp
namespace Sorting

open Spec

variable {α β : Type} {k : Kind} {comp : α → α → Bool} {m : Mem α} {led : Ledger}

/-! ### partition -/

theorem partLoop_cost (pivot : α) : ∀ (n j i : Nat) (m m' : Mem α) (r : Nat), partLoop k comp pivot j n i m = .ok r m' →
    Costs (partLoopC k (always comp) pivot j n i) (partLoop k comp pivot j n i) m n
  | 0, _, _, _, _, _, _ => costs_pure _
  | n + 1, j, i, m, m', r, h => by
    rw [partLoop] at h
    rw [partLoopC, partLoop]
    obtain ⟨x, m1, h1, h⟩ := bind_ok_inv h
    rw [show n + 1 = 0 + (n + 1) by omega]
    refine costs_bind (costs_lift _) h1 (costs_cmp ?_)
    by_cases hc : comp x pivot = true
    · rw [if_pos hc] at h ⊢
      rw [if_pos hc]
      obtain ⟨u, m2, h2, h⟩ := bind_ok_inv h
      simpa using costs_bind (costs_lift _) h2 (partLoop_cost pivot n (j + 1) _ m2 m' r h)
    · rw [if_neg hc] at h ⊢
      rw [if_neg hc]
      exact partLoop_cost pivot n (j + 1) i m1 m' r h

theorem partition_cost {low high : Nat} {m' : Mem α} {r : Nat} (h : partition k comp low high m = .ok r m') :
    Costs (partitionC k (always comp) low high) (partition k comp low high) m (high - low) := by
  unfold partition at h
  unfold partitionC partition
  obtain ⟨p, m1, h1, h⟩ := bind_ok_inv h
  obtain ⟨i, m2, h2, h⟩ := bind_ok_inv h
  obtain ⟨u, m3, h3, h⟩ := bind_ok_inv h
  have e : high - low = 0 + (high - low + (0 + 0)) := by omega
  rw [e]
  refine costs_bind (costs_lift _) h1 ?_
  rw [← e]
  exact costs_bind (partLoop_cost _ _ _ _ _ _ _ h2) h2 (costs_bind (costs_lift _) h3 (costs_pure _))

theorem two_pairs (n : Nat) : 2 * pairs n = n * (n - 1) := by
  induction n with
  | zero => rfl
  | succ n ih =>
    rw [pairs_succ, Nat.mul_add, ih, Nat.add_sub_cancel]
    cases n with
    | zero => rfl
    | succ n => rw [Nat.add_sub_cancel]; ring

theorem pairs_split (a b : Nat) : a + b + (pairs a + pairs b) ≤ pairs (a + b + 1) := by
  rw [pairs_succ]
  have : pairs a + pairs b ≤ pairs (a + b) := by
    induction b with
    | zero => simp [pairs]
    | succ b ih => rw [pairs_succ, ← Nat.add_assoc a b 1, pairs_succ]; omega
  omega

theorem costs_zero_bind {γ : Type} {pc : Counted α β} {p : Cpp (Mem α) β} {fc : β → Counted α γ} {f : β → Cpp (Mem α) γ} {t u : Nat}
    {b : β} {m' : Mem α} (h : AtMost pc p m t) (hp : p m = .ok b m') (hf : AtMost (fc b) (f b) m' u) :
    AtMost (pc >>= fc) (p >>= f) m (t + u) := by
  obtain ⟨t', h1, h2⟩ := h
  obtain ⟨u', h3, h4⟩ := hf
  exact ⟨t' + u', by omega, costs_bind h2 hp h4⟩

/-- quicksort makes at most one comparison per pair -/
theorem quicksortF_cost (fuel : Nat) (xs pre post : List α) (low high : Nat) (hlow : low = pre.length)
    (hhigh : high + 1 = pre.length + xs.length) (hfuel : xs.length ≤ fuel) (hsz : pre.length + xs.length < SZ) (hne : 0 < fuel) :
    AtMost (quicksortFC k (always comp) fuel low high) (quicksortF k comp fuel low high) (St led (pre ++ xs ++ post)) (pairs xs.length) := by
  induction fuel generalizing xs pre post low high with
  | zero => omega
  | succ fuel ih =>
    rw [quicksortFC, quicksortF]
    by_cases hlt : low < high
    · rw [if_pos hlt, if_pos hlt]
      rcases List.eq_nil_or_concat xs with rfl | ⟨xs', p, rfl⟩
      · simp at hhigh; omega
      · simp only [List.concat_eq_append] at *
        simp only [List.length_append, List.length_cons, List.length_nil] at hhigh hfuel hsz
        obtain ⟨ys, zs, hpart, hperm, hys, hzs⟩ := partition_run (k := k) (comp := comp) (led := led) xs' p pre post
          (by omega)
        have hlen : ys.length + zs.length = xs'.length := by simpa using hperm.length_eq
        have hpart' : partition k comp low high (St led (pre ++ (xs' ++ [p]) ++ post)) =
            .ok (pre.length + ys.length) (St led (pre ++ ys ++ p :: (zs ++ post))) := by
          rw [hlow, show high = pre.length + xs'.length by omega]
          simpa using hpart
        have hc1 := partition_cost hpart'
        have hz : ∀ ys1 : List α, ys1.Perm ys → AtMost (quicksortFC k (always comp) fuel (pre.length + ys.length + 1) high)
            (quicksortF k comp fuel (pre.length + ys.length + 1) high) (St led (pre ++ ys1 ++ p :: (zs ++ post))) (pairs zs.length) := by
          intro ys1 hp1
          have := ih zs (pre ++ ys1 ++ [p]) post (pre.length + ys.length + 1) high
            (by simp [hp1.length_eq]; omega) (by simp [hp1.length_eq]; omega) (by omega)
            (by simp [hp1.length_eq]; omega) (by omega)
          simpa using this
        refine Spec.AtMost.mono (t := (high - low) + (pairs ys.length + pairs zs.length)) ?_ ?_
        · refine costs_zero_bind ⟨_, Nat.le_refl _, hc1⟩ hpart' ?_
          by_cases h0 : pre.length + ys.length ≠ 0
          · simp only [if_pos h0]
            obtain ⟨ys1, hr, hp, -⟩ := quicksortF_run (k := k) (comp := comp) (led := led) fuel ys pre (p :: (zs ++ post)) low
              (pre.length + ys.length - 1) hlow (by omega) (by omega) (by omega) (by omega)
            exact costs_zero_bind (ih ys pre (p :: (zs ++ post)) low (pre.length + ys.length - 1) hlow
              (by omega) (by omega) (by omega) (by omega)) hr (hz ys1 hp)
          · simp only [if_neg h0]
            exact (hz ys (.refl _)).mono (by omega)
        · have h1 := pairs_split ys.length zs.length
          simp only [List.length_append, List.length_cons, List.length_nil]
          rw [show xs'.length + (0 + 1) = ys.length + zs.length + 1 by omega]
          omega
    · rw [if_neg hlt, if_neg hlt]
      exact atMost_pure _ _

theorem quicksort_cost (l : List α) (hsz : l.length < SZ) :
    AtMost (quicksortC k (always comp)) (quicksortBy k comp) (St led l) (pairs l.length) := by
  refine atMost_bind_lift fun b m' h => ?_
  cases h
  have hl : (St led l).cells.length = l.length := by simp [St]
  rw [hl]
  by_cases h : l.length ≠ 0
  · rw [if_pos h, if_pos h]
    have := quicksortF_cost (k := k) (comp := comp) (led := led) (l.length - 1 - 0 + 1) l [] [] 0 (l.length - 1) rfl
      (by simp; omega) (by omega) (by simpa using hsz) (by omega)
    simpa [quicksortRange] using this
  · rw [if_neg h, if_neg h]
    exact atMost_pure _ _

theorem sortUnstable_cost (l : List α) (hsz : l.length < SZ) :
    AtMost (sortUnstableC k (always comp)) (sortUnstableBy k comp) (St led l) (2 * pairs l.length) := by
  refine atMost_bind_lift fun b m' h => ?_
  cases h
  have hl : (St led l).cells.length = l.length := by simp [St]
  rw [hl]
  by_cases h : l.length ≤ 1
  · rw [if_pos h, if_pos h]
    exact atMost_pure _ _
  · rw [if_neg h, if_neg h]
    obtain ⟨ys, hr, hp, -⟩ := quicksortF_run (k := k) (comp := comp) (led := led) (l.length - 1 - 0 + 1) l [] [] 0
      (l.length - 1) rfl (by simp; omega) (by omega) (by simpa using hsz) (by omega)
    have hq := quicksortF_cost (k := k) (comp := comp) (led := led) (l.length - 1 - 0 + 1) l [] [] 0 (l.length - 1) rfl
      (by simp; omega) (by omega) (by simpa using hsz) (by omega)
    simp only [List.nil_append, List.append_nil] at hr hq
    have hi := insertionSort_cost (k := k) (comp := comp) (m := St led ys)
    rw [show (St led ys).cells.length = l.length by simp [St, hp.length_eq]] at hi
    exact (costs_zero_bind hq hr hi).mono (by omega)

/-! ### the worst inputs of quicksort -/

/-- with every comparison true nothing moves -/
theorem partLoop_all (pivot : α) (xs pre post : List α) (i j : Nat) (hj : j = pre.length) (hi : (i + 1) % SZ = pre.length)
    (hsz : pre.length + xs.length < SZ) (hall : ∀ x ∈ xs, comp x pivot = true) :
    ∃ i', partLoop k comp pivot j xs.length i (St led (pre ++ xs ++ post)) = .ok i' (St led (pre ++ xs ++ post)) ∧
      (i' + 1) % SZ = pre.length + xs.length := by
  induction xs generalizing pre i j with
  | nil => exact ⟨i, rfl, by simpa using hi⟩
  | cons x xs ih =>
    simp only [List.length_cons] at hsz ⊢
    have hread : Mem.read j (St led (pre ++ x :: xs ++ post)) = .ok x (St led (pre ++ x :: xs ++ post)) := by
      have := read_St (led := led) (pre := pre) (post := xs ++ post) (a := x) (i := j) hj.symm
      simpa using this
    have hsw : swap k ((i + 1) % SZ) j (St led (pre ++ x :: xs ++ post)) = .ok () (St led (pre ++ x :: xs ++ post)) := by
      have := swap_self (k := k) (led := led) (pre := pre) (post := xs ++ post) (a := x) (i := j) hj.symm
      rw [hi, ← hj]
      simpa using this
    obtain ⟨i', h1, h2⟩ := ih (pre ++ [x]) ((i + 1) % SZ) (j + 1) (by simp [hj])
      (by rw [hi, Nat.mod_eq_of_lt (by omega)]; simp) (by simp; omega) (fun y hy => hall y (by simp [hy]))
    refine ⟨i', ?_, by simp at h2; omega⟩
    rw [partLoop, Cpp.bind_ok hread, if_pos (hall x (by simp)), Cpp.bind_ok hsw]
    simpa using h1

theorem partition_all (xs : List α) (p : α) (pre post : List α) (hsz : pre.length + xs.length < SZ)
    (hall : ∀ x ∈ xs, comp x p = true) :
    partition k comp pre.length (pre.length + xs.length) (St led (pre ++ xs ++ p :: post)) =
      .ok (pre.length + xs.length) (St led (pre ++ xs ++ p :: post)) := by
  have hread : Mem.read (pre.length + xs.length) (St led (pre ++ xs ++ p :: post)) =
      .ok p (St led (pre ++ xs ++ p :: post)) := read_St (by simp)
  obtain ⟨i', h1, h2⟩ := partLoop_all (k := k) (led := led) p xs pre (p :: post) ((pre.length + SZ - 1) % SZ) pre.length rfl
    (by
      have hSZ : 0 < SZ := by decide
      rw [Nat.add_mod, Nat.mod_mod, ← Nat.add_mod, show pre.length + SZ - 1 + 1 = pre.length + SZ by omega,
        Nat.add_mod_right, Nat.mod_eq_of_lt (by omega)])
    hsz hall
  have hsw : swap k ((i' + 1) % SZ) (pre.length + xs.length) (St led (pre ++ xs ++ p :: post)) =
      .ok () (St led (pre ++ xs ++ p :: post)) := by
    rw [h2]
    have := swap_self (k := k) (led := led) (pre := pre ++ xs) (post := post) (a := p) (i := pre.length + xs.length) (by simp)
    simpa using this
  unfold partition
  rw [Cpp.bind_ok hread, show pre.length + xs.length - pre.length = xs.length by omega, Cpp.bind_ok h1, Cpp.bind_ok hsw, h2]
  rfl

/-- strictly ascending elements: every pair is compared and nothing moves -/
theorem quicksortF_ascending (fuel : Nat) (xs pre post : List α) (low high : Nat) (hlow : low = pre.length)
    (hhigh : high + 1 = pre.length + xs.length) (hfuel : xs.length ≤ fuel) (hsz : pre.length + xs.length < SZ) (hne : 0 < fuel)
    (hasc : xs.Pairwise (fun a b => comp a b = true)) :
    quicksortF k comp fuel low high (St led (pre ++ xs ++ post)) = .ok () (St led (pre ++ xs ++ post)) ∧
    Costs (quicksortFC k (always comp) fuel low high) (quicksortF k comp fuel low high) (St led (pre ++ xs ++ post)) (pairs xs.length) := by
  induction fuel generalizing xs pre post low high with
  | zero => omega
  | succ fuel ih =>
    rw [quicksortFC, quicksortF]
    by_cases hlt : low < high
    · rw [if_pos hlt, if_pos hlt]
      rcases List.eq_nil_or_concat xs with rfl | ⟨xs', p, rfl⟩
      · simp at hhigh; omega
      · simp only [List.concat_eq_append] at *
        simp only [List.length_append, List.length_cons, List.length_nil] at hhigh hfuel hsz
        obtain ⟨hasc', -, hall⟩ := List.pairwise_append.mp hasc
        have hpart : partition k comp low high (St led (pre ++ (xs' ++ [p]) ++ post)) =
            .ok high (St led (pre ++ (xs' ++ [p]) ++ post)) := by
          have := partition_all (k := k) (comp := comp) (led := led) xs' p pre post (by omega) (fun x hx => hall x hx p (by simp))
          rw [hlow, show high = pre.length + xs'.length by omega]
          simpa using this
        have hc := partition_cost hpart
        obtain ⟨h1, h2⟩ := ih xs' pre (p :: post) low (high - 1) hlow (by omega) (by omega) (by omega) (by omega) hasc'
        have e : pre ++ xs' ++ p :: post = pre ++ (xs' ++ [p]) ++ post := by simp
        rw [e] at h1 h2
        obtain ⟨fuel', rfl⟩ : ∃ f, fuel = f + 1 := ⟨fuel - 1, by omega⟩
        have h3 : quicksortF k comp (fuel' + 1) (high + 1) high = pure () := by
          rw [quicksortF, if_neg (by omega)]
        have h3c : quicksortFC k (always comp) (fuel' + 1) (high + 1) high = pure () := by
          rw [quicksortFC, if_neg (by omega)]
        have hh : high ≠ 0 := by omega
        constructor
        · rw [Cpp.bind_ok hpart, if_pos hh, Cpp.bind_ok h1, h3]
          rfl
        · have hcc := costs_bind (fc := fun pi => do
              if pi ≠ 0 then quicksortFC k (always comp) (fuel' + 1) low (pi - 1) else pure ()
              quicksortFC k (always comp) (fuel' + 1) (pi + 1) high) (f := fun pi => do
              if pi ≠ 0 then quicksortF k comp (fuel' + 1) low (pi - 1) else pure ()
              quicksortF k comp (fuel' + 1) (pi + 1) high) (u := pairs xs'.length) hc hpart (by
            simp only [if_pos hh]
            rw [h3, h3c]
            have := costs_bind h2 h1 (costs_pure (m := St led (pre ++ (xs' ++ [p]) ++ post)) ())
            simpa using this)
          have e2 : high - low + pairs xs'.length = pairs (xs' ++ [p]).length := by
            simp only [List.length_append, List.length_cons, List.length_nil]
            rw [Nat.zero_add, pairs_succ]
            omega
          rw [e2] at hcc
          exact hcc
    · rw [if_neg hlt, if_neg hlt]
      refine ⟨rfl, ?_⟩
      have : pairs xs.length = 0 := by
        have : xs.length = 0 ∨ xs.length = 1 := by omega
        rcases this with h | h <;> rw [h] <;> rfl
      rw [this]
      exact costs_pure _

/-- and as many nested calls as there are elements are needed -/
theorem quicksortF_ascending_depth (fuel : Nat) (xs pre post : List α) (low high : Nat) (hlow : low = pre.length)
    (hhigh : high + 1 = pre.length + xs.length) (hfuel : fuel < xs.length) (hsz : pre.length + xs.length < SZ)
    (hasc : xs.Pairwise (fun a b => comp a b = true)) :
    quicksortF k comp fuel low high (St led (pre ++ xs ++ post)) = .ub .diverge := by
  induction fuel generalizing xs pre post low high with
  | zero => rfl
  | succ fuel ih =>
    have hlt : low < high := by omega
    rw [quicksortF, if_pos hlt]
    rcases List.eq_nil_or_concat xs with rfl | ⟨xs', p, rfl⟩
    · simp at hhigh; omega
    · simp only [List.concat_eq_append] at *
      simp only [List.length_append, List.length_cons, List.length_nil] at hhigh hfuel hsz
      obtain ⟨hasc', -, hall⟩ := List.pairwise_append.mp hasc
      have hpart : partition k comp low high (St led (pre ++ (xs' ++ [p]) ++ post)) =
          .ok high (St led (pre ++ (xs' ++ [p]) ++ post)) := by
        have := partition_all (k := k) (comp := comp) (led := led) xs' p pre post (by omega) (fun x hx => hall x hx p (by simp))
        rw [hlow, show high = pre.length + xs'.length by omega]
        simpa using this
      have h1 := ih xs' pre (p :: post) low (high - 1) hlow (by omega) (by omega) (by omega) hasc'
      have e : pre ++ xs' ++ p :: post = pre ++ (xs' ++ [p]) ++ post := by simp
      rw [e] at h1
      rw [Cpp.bind_ok hpart, if_pos (by omega), Cpp.bind_ub h1]

/-- equivalent elements: every pair is compared -/
theorem quicksortF_equal (fuel : Nat) (xs pre post : List α) (low high : Nat) (hlow : low = pre.length)
    (hhigh : high + 1 = pre.length + xs.length) (hfuel : xs.length ≤ fuel) (hsz : pre.length + xs.length < SZ) (hne : 0 < fuel)
    (heq : ∀ a ∈ xs, ∀ b ∈ xs, comp a b = false) :
    Costs (quicksortFC k (always comp) fuel low high) (quicksortF k comp fuel low high) (St led (pre ++ xs ++ post)) (pairs xs.length) := by
  induction fuel generalizing xs pre post low high with
  | zero => omega
  | succ fuel ih =>
    rw [quicksortFC, quicksortF]
    by_cases hlt : low < high
    · rw [if_pos hlt, if_pos hlt]
      rcases List.eq_nil_or_concat xs with rfl | ⟨xs', p, rfl⟩
      · simp at hhigh; omega
      · simp only [List.concat_eq_append] at *
        simp only [List.length_append, List.length_cons, List.length_nil] at hhigh hfuel hsz
        obtain ⟨ys, zs, hpart, hperm, hys, hzs⟩ := partition_run (k := k) (comp := comp) (led := led) xs' p pre post
          (by omega)
        have hys0 : ys = [] := by
          cases ys with
          | nil => rfl
          | cons y ys =>
            have h1 := hys y (by simp)
            have h2 : y ∈ xs' := hperm.mem_iff.mp (by simp)
            rw [heq y (by simp [h2]) p (by simp)] at h1
            cases h1
        subst hys0
        simp only [List.nil_append, List.length_nil, Nat.add_zero] at hpart hperm
        have hlen := hperm.length_eq
        have hpart' : partition k comp low high (St led (pre ++ (xs' ++ [p]) ++ post)) =
            .ok pre.length (St led (pre ++ [] ++ p :: (zs ++ post))) := by
          rw [hlow, show high = pre.length + xs'.length by omega]
          simpa using hpart
        have hc := partition_cost hpart'
        obtain ⟨fuel', rfl⟩ : ∃ f, fuel = f + 1 := ⟨fuel - 1, by omega⟩
        have h3 : quicksortF k comp (fuel' + 1) low (pre.length - 1) = pure () := by
          rw [quicksortF, if_neg (by omega)]
        have h3c : quicksortFC k (always comp) (fuel' + 1) low (pre.length - 1) = pure () := by
          rw [quicksortFC, if_neg (by omega)]
        have h2 := ih zs (pre ++ [p]) post (pre.length + 1) high (by simp) (by simp; omega) (by omega) (by simp; omega) (by omega)
          (fun a ha b hb => heq a (by simp [hperm.mem_iff.mp ha]) b (by simp [hperm.mem_iff.mp hb]))
        have e : pre ++ [p] ++ zs ++ post = pre ++ [] ++ p :: (zs ++ post) := by simp
        rw [e] at h2
        have hcc := costs_bind (fc := fun pi => do
            if pi ≠ 0 then quicksortFC k (always comp) (fuel' + 1) low (pi - 1) else pure ()
            quicksortFC k (always comp) (fuel' + 1) (pi + 1) high) (f := fun pi => do
            if pi ≠ 0 then quicksortF k comp (fuel' + 1) low (pi - 1) else pure ()
            quicksortF k comp (fuel' + 1) (pi + 1) high) (u := pairs zs.length) hc hpart' (by
          by_cases h0 : pre.length ≠ 0
          · simp only [if_pos h0, h3, h3c]
            exact h2
          · simp only [if_neg h0]
            exact h2)
        have e2 : high - low + pairs zs.length = pairs (xs' ++ [p]).length := by
          simp only [List.length_append, List.length_cons, List.length_nil]
          rw [Nat.zero_add, pairs_succ, hlen]
          omega
        rw [e2] at hcc
        exact hcc
    · rw [if_neg hlt, if_neg hlt]
      have : pairs xs.length = 0 := by
        have : xs.length = 0 ∨ xs.length = 1 := by omega
        rcases this with h | h <;> rw [h] <;> rfl
      rw [this]
      exact costs_pure _

theorem quicksortF_equal_depth (fuel : Nat) (xs pre post : List α) (low high : Nat) (hlow : low = pre.length)
    (hhigh : high + 1 = pre.length + xs.length) (hfuel : fuel < xs.length) (hsz : pre.length + xs.length < SZ)
    (heq : ∀ a ∈ xs, ∀ b ∈ xs, comp a b = false) :
    quicksortF k comp fuel low high (St led (pre ++ xs ++ post)) = .ub .diverge := by
  induction fuel generalizing xs pre post low high with
  | zero => rfl
  | succ fuel ih =>
    have hlt : low < high := by omega
    rw [quicksortF, if_pos hlt]
    rcases List.eq_nil_or_concat xs with rfl | ⟨xs', p, rfl⟩
    · simp at hhigh; omega
    · simp only [List.concat_eq_append] at *
      simp only [List.length_append, List.length_cons, List.length_nil] at hhigh hfuel hsz
      obtain ⟨ys, zs, hpart, hperm, hys, hzs⟩ := partition_run (k := k) (comp := comp) (led := led) xs' p pre post
        (by omega)
      have hys0 : ys = [] := by
        cases ys with
        | nil => rfl
        | cons y ys =>
          have h1 := hys y (by simp)
          have h2 : y ∈ xs' := hperm.mem_iff.mp (by simp)
          rw [heq y (by simp [h2]) p (by simp)] at h1
          cases h1
      subst hys0
      simp only [List.nil_append, List.length_nil, Nat.add_zero] at hpart hperm
      have hlen := hperm.length_eq
      have hpart' : partition k comp low high (St led (pre ++ (xs' ++ [p]) ++ post)) =
          .ok pre.length (St led (pre ++ [] ++ p :: (zs ++ post))) := by
        rw [hlow, show high = pre.length + xs'.length by omega]
        simpa using hpart
      have h2 := ih zs (pre ++ [p]) post (pre.length + 1) high (by simp) (by simp; omega) (by omega) (by simp; omega)
        (fun a ha b hb => heq a (by simp [hperm.mem_iff.mp ha]) b (by simp [hperm.mem_iff.mp hb]))
      have e : pre ++ [p] ++ zs ++ post = pre ++ [] ++ p :: (zs ++ post) := by simp
      rw [e] at h2
      rw [Cpp.bind_ok hpart']
      cases fuel with
      | zero =>
        by_cases h0 : pre.length ≠ 0
        · simp only [if_pos h0]; rfl
        · simp only [if_neg h0]; rfl
      | succ fuel' =>
        by_cases h0 : pre.length ≠ 0
        · have h3 : quicksortF k comp (fuel' + 1) low (pre.length - 1) = pure () := by
            rw [quicksortF, if_neg (by omega)]
          simp only [if_pos h0, h3]
          exact h2
        · simp only [if_neg h0]
          exact h2

/-! ### sort -/

theorem timLoop_cost (end_ : Nat) : ∀ (fuel start mid start2 : Nat) (m : Mem α),
    AtMost (timLoopC k (always comp) end_ fuel start mid start2) (timLoop k comp end_ fuel start mid start2) m
      (mid + 1 - start + (end_ + 1 - start2) - 1)
  | 0, _, _, _, _ => atMost_ub _ _
  | fuel + 1, start, mid, start2, m => by
    rw [timLoopC, timLoop]
    by_cases h : start ≤ mid ∧ start2 ≤ end_
    · rw [if_pos h, if_pos h]
      refine (atMost_bind_lift fun b m1 _ => atMost_bind_lift fun a m2 _ => atMost_cmp ?_ :
        AtMost _ _ m (mid + 1 - start + (end_ + 1 - start2) - 2 + 1)).mono (by omega)
      by_cases hc : comp b a = false
      · rw [if_pos hc, if_pos hc]
        exact (timLoop_cost end_ fuel (start + 1) mid start2 m2).mono (by omega)
      · rw [if_neg hc, if_neg hc]
        simp only [← bind_assoc']
        exact atMost_bind_lift fun _ m3 _ => (timLoop_cost end_ fuel (start + 1) (mid + 1) (start2 + 1) m3).mono (by omega)
    · rw [if_neg h, if_neg h]
      exact atMost_pure _ _

theorem timMerge_cost (start mid end_ : Nat) (h1 : start ≤ mid) (h2 : mid < end_) :
    AtMost (timMergeC k (always comp) start mid end_) (timMerge k comp start mid end_) m (end_ + 1 - start) := by
  unfold timMergeC timMerge
  refine (atMost_bind_lift fun a m1 _ => atMost_bind_lift fun b m2 _ => atMost_cmp ?_ :
    AtMost _ _ m (end_ - start + 1)).mono (by omega)
  by_cases hc : comp a b = false
  · rw [if_pos hc, if_pos hc]
    exact atMost_pure _ _
  · rw [if_neg hc, if_neg hc]
    exact (timLoop_cost end_ _ start mid (mid + 1) m2).mono (by omega)

theorem pairs_small {r : Nat} (h : r ≤ 32) : pairs r ≤ 16 * r := by
  have h1 := two_pairs r
  have h2 : r * (r - 1) ≤ r * 31 := Nat.mul_le_mul_left _ (by omega)
  omega

theorem runsLoop_cost (n : Nat) : ∀ (fuel i : Nat) (m : Mem α),
    AtMost (runsLoopC k (always comp) n fuel i) (runsLoop k comp n fuel i) m (16 * (n - i))
  | 0, _, _ => atMost_ub _ _
  | fuel + 1, i, m => by
    rw [runsLoopC, runsLoop]
    by_cases h : i < n
    · rw [if_pos h, if_pos h]
      generalize hr : (if i + 31 < n - 1 then i + 31 else n - 1) = r
      have hr' : (i + 31 < n ∧ r = i + 31) ∨ (n ≤ i + 32 ∧ r = n - 1) := by
        split at hr
        · exact Or.inl ⟨by omega, hr.symm⟩
        · exact Or.inr ⟨by omega, hr.symm⟩
      refine (atMost_bind (insertionRange_cost i r) fun _ m1 _ => runsLoop_cost n fuel (i + 32) m1).mono ?_
      have := pairs_small (r := r - i + 1) (by omega)
      omega
    · rw [if_neg h, if_neg h]
      exact atMost_pure _ _

theorem mergePass_cost (n size : Nat) (hs : 0 < size) : ∀ (fuel left : Nat) (m : Mem α),
    AtMost (mergePassC k (always comp) n size fuel left) (mergePass k comp n size fuel left) m (n - left)
  | 0, _, _ => atMost_ub _ _
  | fuel + 1, left, m => by
    rw [mergePassC, mergePass]
    by_cases h : left < n
    · rw [if_pos h, if_pos h]
      generalize hr : (if left + 2 * size - 1 < n - 1 then left + 2 * size - 1 else n - 1) = r
      have hr' : (left + 2 * size < n ∧ r = left + 2 * size - 1) ∨ (n ≤ left + 2 * size ∧ r = n - 1) := by
        split at hr
        · exact Or.inl ⟨by omega, hr.symm⟩
        · exact Or.inr ⟨by omega, hr.symm⟩
      by_cases h2 : left + size - 1 < r
      · simp only [if_pos h2]
        refine (atMost_bind (timMerge_cost left (left + size - 1) r (by omega) h2) fun _ m1 _ =>
          mergePass_cost n size hs fuel (left + 2 * size) m1).mono (by omega)
      · simp only [if_neg h2]
        exact (mergePass_cost n size hs fuel (left + 2 * size) m).mono (by omega)
    · rw [if_neg h, if_neg h]
      exact atMost_pure _ _

theorem sizeLoop_cost (n : Nat) : ∀ (fuel e : Nat) (m : Mem α),
    AtMost (sizeLoopC k (always comp) n fuel (2 ^ e)) (sizeLoop k comp n fuel (2 ^ e)) m (n * (Nat.clog 2 n - e))
  | 0, _, _ => atMost_ub _ _
  | fuel + 1, e, m => by
    rw [sizeLoopC, sizeLoop]
    by_cases h : 2 ^ e < n
    · rw [if_pos h, if_pos h]
      rw [show 2 * 2 ^ e = 2 ^ (e + 1) by ring]
      refine (atMost_bind (mergePass_cost n (2 ^ e) (Nat.pow_pos (by decide)) _ 0 m) fun _ m1 _ => sizeLoop_cost n fuel (e + 1) m1).mono ?_
      have h1 : e < Nat.clog 2 n := (Nat.lt_clog_iff_pow_lt (by decide)).2 h
      rw [show Nat.clog 2 n - e = Nat.clog 2 n - (e + 1) + 1 by omega, Nat.mul_succ]
      omega
    · rw [if_neg h, if_neg h]
      exact atMost_pure _ _

theorem sort_cost : AtMost (sortC k (always comp)) (sortBy k comp) m
    (16 * m.cells.length + m.cells.length * (Nat.clog 2 m.cells.length - 5)) := by
  refine atMost_bind_lift fun b m' h => ?_
  cases h
  exact atMost_bind (runsLoop_cost _ _ 0 _) fun _ m1 _ => sizeLoop_cost _ _ 5 m1

end Sorting
end Efp
