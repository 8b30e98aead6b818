import Verif.SortTim
import Verif.Spec.SortTim

/-! When `sort` sorts: exactly when no element is greater than one in a later block of 32. -/

namespace Efp
namespace Sorting

variable {α : Type} {k : Kind} {comp : α → α → Bool} {led : Ledger}

open Spec

theorem St_inj {l l' : List α} (h : St led l = St led l') : l = l' := by
  have hc : l.map Cell.live = l'.map Cell.live := congrArg Mem.cells h
  exact (List.map_inj_right (fun _ _ e => Cell.live.inj e)).mp hc

theorem smergeL_left (xs ys : List α) : xs.Sublist (smergeL comp xs ys) := by
  fun_induction smergeL comp xs ys with
  | case1 x xs y ys h ih => exact ih.cons y
  | case2 x xs y ys h ih => exact ih.cons_cons x
  | case3 ys => exact List.nil_sublist _
  | case4 x xs => exact List.Sublist.refl _

theorem smergeL_right (xs ys : List α) : ys.Sublist (smergeL comp xs ys) := by
  fun_induction smergeL comp xs ys with
  | case1 x xs y ys h ih => exact ih.cons_cons y
  | case2 x xs y ys h ih => exact ih.cons x
  | case3 ys => exact List.Sublist.refl _
  | case4 x xs => exact List.nil_sublist _

/-- a merge whose result is sorted has changed nothing -/
theorem timMerge_sorted_id (l : List α) (start mid end_ : Nat) (hc : StrictWeakOrder comp) (h1 : start ≤ mid) (h2 : mid < end_)
    (h3 : end_ < l.length) :
    ∃ l', timMerge k comp start mid end_ (St led l) = .ok () (St led l') ∧ l'.Perm l ∧ (Sorted comp l' → l' = l) := by
  obtain ⟨P, xs, x, y, ys, R, hl, hs, hm, he, _, _⟩ := split_merge l start mid end_ h1 h2 h3
  have hrun := timMerge_run (k := k) (comp := comp) (led := led) xs ys P R x y start mid end_ hs hm he
  obtain ⟨l', hl', hp⟩ := timMerge_perm (k := k) (comp := comp) (led := led) l start mid end_ h1 h2 h3
  refine ⟨_, by rw [hl]; exact hrun, ?_, ?_⟩
  · rw [hl] at hl'
    have he2 := hrun.symm.trans hl'
    have : St led (P ++ (if comp x y then smergeL comp (xs ++ [x]) (y :: ys) else (xs ++ [x]) ++ (y :: ys)) ++ R) = St led l' :=
      (Out.ok.inj he2).2
    rw [St_inj this]
    exact hp
  · intro hsort
    rw [hl]
    have hmid : Sorted comp (if comp x y then smergeL comp (xs ++ [x]) (y :: ys) else (xs ++ [x]) ++ (y :: ys)) :=
      (List.pairwise_append.mp (List.pairwise_append.mp hsort).1).2.1
    have hA : Sorted comp (xs ++ [x]) := by
      split at hmid
      · exact hmid.sublist (smergeL_left _ _)
      · exact (List.pairwise_append.mp hmid).1
    have hB : Sorted comp (y :: ys) := by
      split at hmid
      · exact hmid.sublist (smergeL_right _ _)
      · exact (List.pairwise_append.mp hmid).2.1
    have := timMerge_sorted (k := k) (led := led) xs ys P R x y start mid end_ hc hs hm he hA hB
    exact St_inj (Out.ok.inj (hrun.symm.trans this)).2

theorem mergePass_sorted_id (fuel size left n : Nat) (l : List α) (hc : StrictWeakOrder comp) (hn : n = l.length)
    (hsz : 0 < size) (hf : n < fuel + left) (hf0 : 0 < fuel) :
    ∃ l', mergePass k comp n size fuel left (St led l) = .ok () (St led l') ∧ l'.Perm l ∧ (Sorted comp l' → l' = l) := by
  induction fuel generalizing left l with
  | zero => omega
  | succ fuel ih =>
    simp only [mergePass]
    by_cases h : left < n
    · rw [if_pos h]
      generalize hr : (if left + 2 * size - 1 < n - 1 then left + 2 * size - 1 else n - 1) = right
      have hrn : right < l.length := by rw [← hr]; split <;> omega
      by_cases hm : left + size - 1 < right
      · obtain ⟨l1, h1, h2, h3⟩ := timMerge_sorted_id (k := k) (comp := comp) (led := led) l left (left + size - 1) right hc
          (by omega) hm hrn
        obtain ⟨l2, g1, g2, g3⟩ := ih (left + 2 * size) l1 (by rw [h2.length_eq]; exact hn) (by omega) (by omega)
        refine ⟨l2, ?_, g2.trans h2, ?_⟩
        · rw [if_pos hm]
          exact (Cpp.bind_ok h1).trans g1
        · intro hs
          have e := g3 hs
          subst e
          exact h3 hs
      · obtain ⟨l2, g1, g2, g3⟩ := ih (left + 2 * size) l hn (by omega) (by omega)
        refine ⟨l2, ?_, g2, g3⟩
        rw [if_neg hm]
        exact g1
    · rw [if_neg h]
      exact ⟨l, rfl, .refl _, fun _ => rfl⟩

theorem sizeLoop_sorted_id (fuel size n : Nat) (l : List α) (hc : StrictWeakOrder comp) (hn : n = l.length) (hsz : 0 < size)
    (hf : n < fuel + size) (hf0 : 0 < fuel) :
    ∃ l', sizeLoop k comp n fuel size (St led l) = .ok () (St led l') ∧ l'.Perm l ∧ (Sorted comp l' → l' = l) := by
  induction fuel generalizing size l with
  | zero => omega
  | succ fuel ih =>
    simp only [sizeLoop]
    by_cases h : size < n
    · rw [if_pos h]
      obtain ⟨l1, h1, h2, h3⟩ := mergePass_sorted_id (k := k) (comp := comp) (led := led) (n + 1) size 0 n l hc hn hsz
        (by omega) (by omega)
      obtain ⟨l2, g1, g2, g3⟩ := ih (2 * size) l1 (by rw [h2.length_eq]; exact hn) (by omega) (by omega) (by omega)
      refine ⟨l2, by rw [Cpp.bind_ok h1, g1], g2.trans h2, ?_⟩
      intro hs
      have e := g3 hs
      subst e
      exact h3 hs
    · rw [if_neg h]
      exact ⟨l, rfl, .refl _, fun _ => rfl⟩

theorem Runs.stable {l l' : List α} (h : Runs comp l l') (hc : StrictWeakOrder comp) : Stable comp l l' := by
  induction h with
  | nil => intro _; rfl
  | cons xs ys rest rest' _ _ _ _ hs _ _ ih =>
    intro c
    rw [List.filter_append, List.filter_append, (hs hc).2 c, ih c]

theorem blocks_append {xs rest : List α} (hx : xs.length ≤ 32) (h32 : rest ≠ [] → xs.length = 32) :
    BlocksInOrder comp (xs ++ rest) ↔ (∀ a ∈ xs, ∀ b ∈ rest, comp b a = false) ∧ BlocksInOrder comp rest := by
  constructor
  · intro h
    constructor
    · intro a ha b hb
      have hl := h32 (List.ne_nil_of_mem hb)
      obtain ⟨i, hi, rfl⟩ := List.mem_iff_getElem.mp ha
      obtain ⟨j, hj, rfl⟩ := List.mem_iff_getElem.mp hb
      refine h i (32 + j) _ _ (by omega) (by simp [List.getElem?_append, hi]) ?_
      rw [List.getElem?_append_right (by omega), hl, Nat.add_sub_cancel_left, List.getElem?_eq_getElem hj]
    · intro i j a b hij ha hb
      have hne : rest ≠ [] := by rintro rfl; simp at ha
      have hl := h32 hne
      refine h (32 + i) (32 + j) a b (by omega) ?_ ?_
      · rw [List.getElem?_append_right (by omega), hl, Nat.add_sub_cancel_left]; exact ha
      · rw [List.getElem?_append_right (by omega), hl, Nat.add_sub_cancel_left]; exact hb
  · rintro ⟨h1, h2⟩ i j a b hij ha hb
    have hj : xs.length ≤ j := by omega
    rw [List.getElem?_append_right hj] at hb
    have hbm : b ∈ rest := List.mem_of_getElem? hb
    have hl := h32 (List.ne_nil_of_mem hbm)
    by_cases hi : i < xs.length
    · rw [List.getElem?_append_left hi] at ha
      exact h1 a (List.mem_of_getElem? ha) b hbm
    · rw [List.getElem?_append_right (by omega)] at ha
      exact h2 (i - xs.length) (j - xs.length) a b (by omega) ha hb

theorem Runs.sorted_iff {l l' : List α} (h : Runs comp l l') (hc : StrictWeakOrder comp) :
    Sorted comp l' ↔ BlocksInOrder comp l := by
  induction h with
  | nil => exact ⟨fun _ i j a b _ ha => by simp at ha, fun _ => List.Pairwise.nil⟩
  | cons xs ys rest rest' hne hle h32 hp hs hid hr ih =>
    rw [blocks_append hle h32, ← ih]
    unfold Sorted
    rw [List.pairwise_append]
    constructor
    · rintro ⟨_, h2, h3⟩
      exact ⟨fun a ha b hb => h3 a (hp.mem_iff.mpr ha) b (hr.perm.mem_iff.mpr hb), h2⟩
    · rintro ⟨h1, h2⟩
      exact ⟨(hs hc).1, h2, fun a ha b hb => h1 a (hp.mem_iff.mp ha) b (hr.perm.mem_iff.mp hb)⟩

theorem sortBy_exact (l : List α) (hc : StrictWeakOrder comp) :
    ∃ l', sortBy k comp (St led l) = .ok () (St led l') ∧ l'.Perm l ∧ (Sorted comp l' ↔ BlocksInOrder comp l) ∧
      (Sorted comp l' → Stable comp l l') := by
  obtain ⟨ys, h1, h2⟩ := runsLoop_run (k := k) (comp := comp) (led := led) (l.length + 1) l.length [] l 0 rfl
    (by simp) (by omega)
  obtain ⟨zs, g1, g2, g3⟩ := sizeLoop_sorted_id (k := k) (comp := comp) (led := led) (l.length + 1) 32 l.length ys hc
    h2.perm.length_eq.symm (by omega) (by omega) (by omega)
  refine ⟨zs, by rw [sortBy_unfold h1, g1], g2.trans h2.perm, ?_, ?_⟩
  · rw [← h2.sorted_iff hc]
    constructor
    · intro hs
      exact g3 hs ▸ hs
    · intro hs
      have := sizeLoop_still (k := k) (led := led) (l.length + 1) 32 l.length ys h2.perm.length_eq.symm (by omega) (by omega)
        (by omega) (still_of_sorted ys hc hs)
      have he : St led zs = St led ys := (Out.ok.inj (g1.symm.trans this)).2
      rw [St_inj he]
      exact hs
  · intro hs
    rw [g3 hs]
    exact h2.stable hc

end Sorting
end Efp
