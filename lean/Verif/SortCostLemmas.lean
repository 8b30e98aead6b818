import Verif.Spec.SortCost
import Verif.SortQuick
import Verif.SortTim
import Mathlib.Data.Nat.Log
import Mathlib.Tactic.Ring

/-!
# The counting sorts do the same as the sorts, and bounds on their counts
-/

namespace Efp
namespace Sorting

open Spec

variable {α β γ : Type} {k : Kind} {comp : α → α → Bool} {m : Mem α}

theorem _root_.Efp.Spec.AtMost.mono {pc : Counted α β} {p : Cpp (Mem α) β} {t u : Nat} (h : AtMost pc p m t) (htu : t ≤ u) : AtMost pc p m u := by
  obtain ⟨v, h1, h2⟩ := h
  exact ⟨v, by omega, h2⟩

theorem costs_lift (p : Cpp (Mem α) β) : Costs (lift p) p m 0 := by
  intro c
  unfold lift
  cases p m <;> rfl

theorem costs_pure (b : β) : Costs (pure b : Counted α β) (pure b) m 0 := fun _ => rfl

theorem costs_ub (w : UB) : Costs (Cpp.ub w : Counted α β) (Cpp.ub w) m 0 := fun _ => rfl

theorem atMost_lift (p : Cpp (Mem α) β) : AtMost (lift p) p m 0 := ⟨0, by omega, costs_lift p⟩
theorem atMost_pure (b : β) (t : Nat) : AtMost (pure b : Counted α β) (pure b) m t := ⟨0, by omega, costs_pure b⟩
theorem atMost_ub (w : UB) (t : Nat) : AtMost (Cpp.ub w : Counted α β) (Cpp.ub w) m t := ⟨0, by omega, costs_ub w⟩

/-- a comparison: the pure program uses the result directly -/
theorem costs_cmp {a b : α} {fc : Bool → Counted α γ} {q : Cpp (Mem α) γ} {t : Nat} (h : Costs (fc (comp a b)) q m t) :
    Costs (cmp (always comp) a b >>= fc) q m (t + 1) := by
  intro c
  show fc (comp a b) (m, c + 1) = _
  rw [h (c + 1)]
  congr 1
  omega

theorem atMost_cmp {a b : α} {fc : Bool → Counted α γ} {q : Cpp (Mem α) γ} {t : Nat} (h : AtMost (fc (comp a b)) q m t) :
    AtMost (cmp (always comp) a b >>= fc) q m (t + 1) := by
  obtain ⟨u, h1, h2⟩ := h
  exact ⟨u + 1, by omega, costs_cmp h2⟩

theorem costs_bind {pc : Counted α β} {p : Cpp (Mem α) β} {fc : β → Counted α γ} {f : β → Cpp (Mem α) γ} {t u : Nat} {b : β} {m' : Mem α}
    (h : Costs pc p m t) (hp : p m = .ok b m') (hf : Costs (fc b) (f b) m' u) : Costs (pc >>= fc) (p >>= f) m (t + u) := by
  intro c
  rw [Cpp.bind_ok hp]
  have := h c
  rw [hp] at this
  rw [Cpp.bind_ok this, hf, Nat.add_assoc]

theorem atMost_bind {pc : Counted α β} {p : Cpp (Mem α) β} {fc : β → Counted α γ} {f : β → Cpp (Mem α) γ} {t u : Nat}
    (h : AtMost pc p m t) (hf : ∀ b m', p m = .ok b m' → AtMost (fc b) (f b) m' u) : AtMost (pc >>= fc) (p >>= f) m (t + u) := by
  obtain ⟨t', h1, h2⟩ := h
  cases hp : p m with
  | ok b m' =>
    obtain ⟨u', h3, h4⟩ := hf b m' hp
    exact ⟨t' + u', by omega, costs_bind h2 hp h4⟩
  | thrown m' =>
    refine ⟨t', by omega, fun c => ?_⟩
    have := h2 c
    rw [hp] at this
    rw [Cpp.bind_thrown hp, Cpp.bind_thrown this]
    rfl
  | ub w =>
    refine ⟨t', by omega, fun c => ?_⟩
    have := h2 c
    rw [hp] at this
    rw [Cpp.bind_ub hp, Cpp.bind_ub this]
    rfl

theorem atMost_bind_lift {p : Cpp (Mem α) β} {fc : β → Counted α γ} {f : β → Cpp (Mem α) γ} {u : Nat}
    (hf : ∀ b m', p m = .ok b m' → AtMost (fc b) (f b) m' u) : AtMost (lift p >>= fc) (p >>= f) m u := by
  simpa using atMost_bind (atMost_lift p) hf

/-! ### merge sort -/

theorem bind_assoc' (p : Cpp (Mem α) β) {δ : Type} (f : β → Cpp (Mem α) γ) (g : γ → Cpp (Mem α) δ) :
    (p >>= f) >>= g = p >>= fun x => f x >>= g := by
  funext s
  simp only [Cpp.bind_run]
  cases p s <;> rfl

theorem mergeLoop_cost (fuel : Nat) : ∀ (xs ys : List α) (i : Nat) (m : Mem α),
    AtMost (mergeLoopC k (always comp) fuel xs ys i) (mergeLoop k comp fuel xs ys i) m (xs.length + ys.length - 1) := by
  induction fuel with
  | zero =>
    intro xs ys i m
    cases xs with
    | nil => exact (atMost_lift _).mono (by omega)
    | cons x xs =>
      cases ys with
      | nil => exact (atMost_lift _).mono (by omega)
      | cons y ys => exact atMost_ub _ _
  | succ fuel ih =>
    intro xs ys i m
    cases xs with
    | nil => exact (atMost_lift _).mono (by omega)
    | cons x xs =>
      cases ys with
      | nil => exact (atMost_lift _).mono (by omega)
      | cons y ys =>
        rw [mergeLoopC, mergeLoop]
        have e : (x :: xs).length + (y :: ys).length - 1 = xs.length + ys.length + 1 := by simp; omega
        rw [e]
        refine atMost_cmp ?_
        by_cases h : comp x y = true
        · rw [if_pos h, if_pos h]
          exact atMost_bind_lift fun _ m' _ => (ih xs (y :: ys) (i + 1) m').mono (by simp)
        · rw [if_neg h, if_neg h]
          exact atMost_bind_lift fun _ m' _ => (ih (x :: xs) ys (i + 1) m').mono (by simp)

theorem readRange_ok : ∀ (n i : Nat) (m : Mem α) (l : List α) (m' : Mem α), readRange i n m = .ok l m' → l.length = n
  | 0, _, _, _, _, h => by cases h; rfl
  | n + 1, i, m, l, m', h => by
    rw [readRange, Cpp.bind_run] at h
    cases h1 : Mem.read i m with
    | thrown _ => rw [h1] at h; cases h
    | ub _ => rw [h1] at h; cases h
    | ok a m1 =>
      rw [h1] at h
      simp only [Cpp.bind_run] at h
      cases h2 : readRange (i + 1) n m1 with
      | thrown _ => rw [h2] at h; cases h
      | ub _ => rw [h2] at h; cases h
      | ok l2 m2 =>
        rw [h2] at h
        cases h
        rw [List.length_cons, readRange_ok n _ _ _ _ h2]

theorem merge_cost (left middle right : Nat) (h1 : left ≤ middle) (h2 : middle < right) :
    AtMost (mergeC k (always comp) left middle right) (merge k comp left middle right) m (right - left) := by
  refine atMost_bind_lift fun l m1 hl => atMost_bind_lift fun r m2 hr => ?_
  refine (mergeLoop_cost _ _ _ _ _).mono ?_
  rw [readRange_ok _ _ _ _ _ hl, readRange_ok _ _ _ _ _ hr]
  omega

theorem clog_half {n : Nat} (h : 2 ≤ n) : Nat.clog 2 n = Nat.clog 2 ((n + 1) / 2) + 1 := by
  rw [Nat.clog_of_two_le (by decide) h]; rfl

theorem mergeSort_cost : ∀ (fuel left right : Nat) (m : Mem α),
    AtMost (mergeSortFC k (always comp) fuel left right) (mergeSortF k comp fuel left right) m
      ((right - left + 1) * Nat.clog 2 (right - left + 1))
  | 0, _, _, _ => atMost_ub _ _
  | fuel + 1, left, right, m => by
    rw [mergeSortFC, mergeSortF]
    by_cases h : left < right
    · rw [if_pos h, if_pos h]
      generalize hn : right - left + 1 = n
      have e1 : left + (right - left) / 2 - left + 1 = (n + 1) / 2 := by omega
      have e2 : right - (left + (right - left) / 2 + 1) + 1 = n / 2 := by omega
      have hl := mergeSort_cost fuel left (left + (right - left) / 2)
      have hr := mergeSort_cost fuel (left + (right - left) / 2 + 1) right
      rw [e1] at hl
      rw [e2] at hr
      refine (atMost_bind (hl m) fun _ m1 _ => atMost_bind (hr m1) fun _ m2 _ =>
        merge_cost left _ right (by omega) (by omega)).mono ?_
      rw [clog_half (n := n) (by omega)]
      have c1 : Nat.clog 2 (n / 2) ≤ Nat.clog 2 ((n + 1) / 2) := Nat.clog_mono_right 2 (by omega)
      generalize Nat.clog 2 ((n + 1) / 2) = c at c1 ⊢
      have c2 : n / 2 * Nat.clog 2 (n / 2) ≤ n / 2 * c := Nat.mul_le_mul_left _ c1
      have c3 : (n + 1) / 2 * c + n / 2 * c = n * c := by rw [← Nat.add_mul]; congr 1; omega
      rw [Nat.mul_add]
      omega
    · rw [if_neg h, if_neg h]
      exact atMost_pure _ _

/-- more nested calls than the logarithm of the length make no difference -/
theorem mergeSort_depth : ∀ (f1 f2 left right : Nat), Nat.clog 2 (right - left + 1) < f1 → Nat.clog 2 (right - left + 1) < f2 →
    mergeSortF k comp f1 left right = mergeSortF (α := α) k comp f2 left right
  | 0, _, _, _, h, _ => absurd h (Nat.not_lt_zero _)
  | _ + 1, 0, _, _, _, h => absurd h (Nat.not_lt_zero _)
  | f1 + 1, f2 + 1, left, right, h1, h2 => by
    rw [mergeSortF, mergeSortF]
    by_cases h : left < right
    · rw [if_pos h, if_pos h]
      have e1 : left + (right - left) / 2 - left + 1 = (right - left + 1 + 1) / 2 := by omega
      have e2 : right - (left + (right - left) / 2 + 1) + 1 = (right - left + 1) / 2 := by omega
      rw [clog_half (by omega)] at h1 h2
      have c1 : Nat.clog 2 ((right - left + 1) / 2) ≤ Nat.clog 2 ((right - left + 1 + 1) / 2) := Nat.clog_mono_right 2 (by omega)
      simp only []
      rw [mergeSort_depth f1 f2 left _ (by rw [e1]; omega) (by rw [e1]; omega),
        mergeSort_depth f1 f2 _ right (by rw [e2]; omega) (by rw [e2]; omega)]
    · rw [if_neg h, if_neg h]

/-! ### heapsort -/

theorem bind_ok_inv {p : Cpp (Mem α) β} {f : β → Cpp (Mem α) γ} {m m2 : Mem α} {c : γ} (h : (p >>= f) m = .ok c m2) :
    ∃ b m1, p m = .ok b m1 ∧ f b m1 = .ok c m2 := by
  rw [Cpp.bind_run] at h
  cases hp : p m with
  | ok b m1 => rw [hp] at h; exact ⟨b, m1, rfl, h⟩
  | thrown _ => rw [hp] at h; cases h
  | ub _ => rw [hp] at h; cases h

theorem pickLarger_cost (n largest c : Nat) :
    AtMost (pickLargerC (always comp) n largest c) (pickLarger comp n largest c) m (if c < n then 1 else 0) := by
  unfold pickLargerC pickLarger
  by_cases h : c < n
  · rw [if_pos h, if_pos h, if_pos h]
    exact atMost_bind_lift fun a _ _ => atMost_bind_lift fun b _ _ => atMost_cmp (atMost_pure _ _)
  · rw [if_neg h, if_neg h, if_neg h]
    exact atMost_pure _ _

theorem pickLarger_ok {n largest c x : Nat} {m' : Mem α} (h : pickLarger comp n largest c m = .ok x m') :
    x = largest ∨ (x = c ∧ c < n) := by
  unfold pickLarger at h
  by_cases hc : c < n
  · rw [if_pos hc] at h
    obtain ⟨a, m1, -, h⟩ := bind_ok_inv h
    obtain ⟨b, m2, -, h⟩ := bind_ok_inv h
    cases h
    split
    · exact Or.inr ⟨rfl, hc⟩
    · exact Or.inl rfl
  · rw [if_neg hc] at h
    cases h
    exact Or.inl rfl

theorem log_child {n i j : Nat} (hj : j = 2 * i + 1 ∨ j = 2 * i + 2) (hn : j < n) :
    Nat.log 2 (n / (j + 1)) + 1 ≤ Nat.log 2 (n / (i + 1)) := by
  have h1 : n / (j + 1) ≤ n / (i + 1) / 2 := by
    rw [Nat.div_div_eq_div_mul]
    exact Nat.div_le_div_left (by omega) (by omega)
  have h2 : 2 ≤ n / (i + 1) := (Nat.le_div_iff_mul_le (by omega)).2 (by omega)
  rw [Nat.log_of_one_lt_of_le (b := 2) (n := n / (i + 1)) (by decide) h2]
  exact Nat.add_le_add_right (Nat.log_mono_right h1) 1

theorem heapify_cost : ∀ (fuel n i : Nat) (m : Mem α),
    AtMost (heapifyFC k (always comp) fuel n i) (heapifyF k comp fuel n i) m (2 * Nat.log 2 (n / (i + 1)))
  | 0, _, _, _ => atMost_ub _ _
  | fuel + 1, n, i, m => by
    rw [heapifyFC, heapifyF]
    by_cases h1 : 2 * i + 1 < n
    · have h2 : 2 ≤ n / (i + 1) := (Nat.le_div_iff_mul_le (by omega)).2 (by omega)
      have h3 := Nat.log_of_one_lt_of_le (b := 2) (n := n / (i + 1)) (by decide) h2
      have hb : ∀ x, ((if 2 * i + 1 < n then 1 else 0) + ((if 2 * i + 2 < n then 1 else 0) + x)) ≤ 2 + x := by
        intro x; split <;> split <;> omega
      refine (atMost_bind (pickLarger_cost n i (2 * i + 1)) fun l1 m1 hl1 =>
        atMost_bind (pickLarger_cost n l1 (2 * i + 2)) fun l2 m2 hl2 =>
          (?_ : AtMost _ _ m2 (2 * Nat.log 2 (n / (i + 1)) - 2))).mono ?_
      · have hc : l2 = i ∨ ((l2 = 2 * i + 1 ∨ l2 = 2 * i + 2) ∧ l2 < n) := by
          rcases pickLarger_ok hl1 with rfl | ⟨rfl, h⟩ <;> rcases pickLarger_ok hl2 with rfl | ⟨rfl, h'⟩ <;> omega
        by_cases hi : l2 ≠ i
        · rw [if_pos hi, if_pos hi]
          obtain ⟨hj, hjn⟩ := hc.resolve_left hi
          have := log_child hj hjn
          exact atMost_bind_lift fun _ m3 _ => (heapify_cost fuel n l2 m3).mono (by omega)
        · rw [if_neg hi, if_neg hi]
          exact atMost_pure _ _
      · refine (hb _).trans ?_
        omega
    · have h2 : ¬ 2 * i + 2 < n := by omega
      refine (atMost_bind (pickLarger_cost n i (2 * i + 1)) fun l1 m1 hl1 =>
        atMost_bind (pickLarger_cost n l1 (2 * i + 2)) fun l2 m2 hl2 => (?_ : AtMost _ _ m2 0)).mono ?_
      · have hc : l2 = i := by
          rcases pickLarger_ok hl1 with rfl | ⟨rfl, h⟩ <;> rcases pickLarger_ok hl2 with rfl | ⟨rfl, h'⟩ <;> omega
        rw [if_neg (by simp [hc]), if_neg (by simp [hc])]
        exact atMost_pure _ _
      · rw [if_neg h1, if_neg h2]
        omega

theorem heapify_depth : ∀ (f1 f2 n i : Nat), Nat.log 2 (n / (i + 1)) < f1 → Nat.log 2 (n / (i + 1)) < f2 → ∀ m : Mem α,
    heapifyF k comp f1 n i m = heapifyF k comp f2 n i m
  | 0, _, _, _, h, _, _ => absurd h (Nat.not_lt_zero _)
  | _ + 1, 0, _, _, _, h, _ => absurd h (Nat.not_lt_zero _)
  | f1 + 1, f2 + 1, n, i, h1, h2, m => by
    rw [heapifyF, heapifyF, Cpp.bind_run, Cpp.bind_run]
    cases hl1 : pickLarger comp n i (2 * i + 1) m with
    | thrown _ => rfl
    | ub _ => rfl
    | ok l1 m1 =>
      simp only [Cpp.bind_run]
      cases hl2 : pickLarger comp n l1 (2 * i + 2) m1 with
      | thrown _ => rfl
      | ub _ => rfl
      | ok l2 m2 =>
        simp only []
        have hc : l2 = i ∨ ((l2 = 2 * i + 1 ∨ l2 = 2 * i + 2) ∧ l2 < n) := by
          rcases pickLarger_ok hl1 with rfl | ⟨rfl, h⟩ <;> rcases pickLarger_ok hl2 with rfl | ⟨rfl, h'⟩ <;> omega
        by_cases hi : l2 ≠ i
        · rw [if_pos hi, if_pos hi]
          obtain ⟨hj, hjn⟩ := hc.resolve_left hi
          have := log_child hj hjn
          rw [Cpp.bind_run, Cpp.bind_run]
          cases swap k i l2 m2 with
          | thrown _ => rfl
          | ub _ => rfl
          | ok u m3 => exact heapify_depth f1 f2 n l2 (by omega) (by omega) m3
        · rw [if_neg hi, if_neg hi]

theorem build_cost (n : Nat) : ∀ (c : Nat) (m : Mem α),
    AtMost (buildLoopC k (always comp) n c) (buildLoop k comp n c) m (c * (2 * Nat.log 2 n))
  | 0, _ => atMost_pure _ _
  | i + 1, m => by
    rw [buildLoopC, buildLoop]
    refine (atMost_bind (heapify_cost _ n i m) fun _ m1 _ => build_cost n i m1).mono ?_
    have : Nat.log 2 (n / (i + 1)) ≤ Nat.log 2 n := Nat.log_mono_right (Nat.div_le_self _ _)
    rw [Nat.succ_mul i]
    omega

theorem extract_cost : ∀ (c : Nat) (m : Mem α),
    AtMost (extractLoopC k (always comp) c) (extractLoop k comp c) m ((c - 1) * (2 * Nat.log 2 c))
  | 0, _ => atMost_pure _ _
  | 1, _ => atMost_pure _ _
  | i + 2, m => by
    rw [extractLoopC, extractLoop]
    refine (atMost_bind_lift fun _ m1 _ => atMost_bind (heapify_cost _ (i + 1) 0 m1) fun _ m2 _ => extract_cost (i + 1) m2).mono ?_
    have h1 : Nat.log 2 ((i + 1) / (0 + 1)) ≤ Nat.log 2 (i + 2) := Nat.log_mono_right (by rw [Nat.div_one]; omega)
    have h2 : Nat.log 2 (i + 1) ≤ Nat.log 2 (i + 2) := Nat.log_mono_right (by omega)
    have h3 : i * (2 * Nat.log 2 (i + 1)) ≤ i * (2 * Nat.log 2 (i + 2)) := Nat.mul_le_mul_left _ (by omega)
    show _ + i * _ ≤ (i + 1) * _
    rw [Nat.succ_mul i]
    omega

theorem heapsort_cost : AtMost (heapsortC k (always comp)) (heapsortBy k comp) m (3 * m.cells.length * Nat.log 2 m.cells.length) := by
  refine (atMost_bind_lift (u := m.cells.length / 2 * (2 * Nat.log 2 m.cells.length) +
    (m.cells.length - 1) * (2 * Nat.log 2 m.cells.length)) fun b m' h => ?_).mono ?_
  · cases h
    by_cases h : m.cells.length > 1
    · simp only [if_pos h]
      exact atMost_bind (build_cost _ _ _) fun _ m1 _ => extract_cost _ m1
    · simp only [if_neg h]
      exact (extract_cost _ _).mono (by omega)
  · generalize m.cells.length = n
    generalize Nat.log 2 n = l
    have h1 : n / 2 * (2 * l) + (n - 1) * (2 * l) = (n / 2 * 2 + (n - 1) * 2) * l := by ring
    rw [h1]
    exact Nat.mul_le_mul_right _ (by omega)

/-! ### insertion sort -/

theorem insLoop_cost (key : α) (left : Nat) : ∀ (j : Nat) (m : Mem α),
    AtMost (insLoopC k (always comp) key left j) (insLoop k comp key left j) m (j - left)
  | 0, _ => atMost_pure _ _
  | j + 1, m => by
    rw [insLoopC, insLoop]
    by_cases h : j + 1 > left
    · rw [if_pos h, if_pos h]
      rw [show j + 1 - left = j - left + 1 by omega]
      refine atMost_bind_lift fun x m1 _ => atMost_cmp ?_
      by_cases hc : comp key x = true
      · rw [if_pos hc, if_pos hc, ← bind_assoc']
        exact atMost_bind_lift fun _ m2 _ => insLoop_cost key left j m2
      · rw [if_neg hc, if_neg hc]
        exact atMost_pure _ _
    · rw [if_neg h, if_neg h]
      exact atMost_pure _ _

theorem insOne_cost (left i : Nat) : AtMost (insOneC k (always comp) left i) (insOne k comp left i) m (i - left) := by
  refine atMost_bind_lift fun key m1 _ => ?_
  simpa using atMost_bind (insLoop_cost key left i m1) fun j m2 _ => atMost_lift (m := m2) (Mem.assign k j key)

theorem insFor_cost (left : Nat) : ∀ (n d : Nat) (m : Mem α),
    AtMost (forUp (insOneC k (always comp) left) (left + d) n) (forUp (insOne k comp left) (left + d) n) m (n * d + n * (n - 1) / 2)
  | 0, _, _ => atMost_pure _ _
  | n + 1, d, m => by
    rw [forUp, forUp]
    refine (atMost_bind (insOne_cost left (left + d)) fun _ m1 _ => insFor_cost left n (d + 1) m1).mono ?_
    have h : (n + 1) * (n + 1 - 1) / 2 = n * (n - 1) / 2 + n := by
      rw [Nat.add_sub_cancel]
      cases n with
      | zero => rfl
      | succ n =>
        rw [Nat.add_sub_cancel, show (n + 1 + 1) * (n + 1) = (n + 1) * n + (n + 1) * 2 by ring, Nat.add_mul_div_right _ _ (by decide)]
    rw [h, Nat.succ_mul, Nat.mul_succ]
    omega

theorem pairs_succ (n : Nat) : pairs (n + 1) = pairs n + n := by
  unfold pairs
  rw [Nat.add_sub_cancel]
  cases n with
  | zero => rfl
  | succ n =>
    rw [Nat.add_sub_cancel, show (n + 1 + 1) * (n + 1) = (n + 1) * n + (n + 1) * 2 by ring, Nat.add_mul_div_right _ _ (by decide)]

theorem insertionRange_cost (left right : Nat) :
    AtMost (insertionRangeC k (always comp) left right) (insertionRange k comp left right) m (pairs (right - left + 1)) := by
  refine (insFor_cost left (right - left) 1 m).mono ?_
  rw [pairs_succ]
  unfold pairs
  omega

theorem insertionSort_cost : AtMost (insertionSortC k (always comp)) (insertionSortBy k comp) m (pairs m.cells.length) := by
  refine atMost_bind_lift fun b m' h => ?_
  cases h
  by_cases h : m.cells.length ≠ 0
  · rw [if_pos h, if_pos h]
    exact (insertionRange_cost 0 _).mono (by rw [show m.cells.length - 1 - 0 + 1 = m.cells.length by omega])
  · rw [if_neg h, if_neg h]
    exact atMost_pure _ _

end Sorting
end Efp
