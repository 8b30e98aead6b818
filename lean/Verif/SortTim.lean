import Verif.SortQuick

/-! Timsort. -/

namespace Efp
namespace Sorting

variable {α : Type} {k : Kind} {comp : α → α → Bool} {led : Ledger}

open Spec

/-! ### the merge step -/

theorem shift_run (xs P R : List α) (y : α) :
    ∃ z, forDown (shiftOne k) (P.length + xs.length) xs.length (St led (P ++ xs ++ y :: R)) =
      .ok () (St led (P ++ z :: (xs ++ R))) := by
  induction h : xs.length generalizing xs y R with
  | zero =>
    have : xs = [] := List.length_eq_zero_iff.mp h
    subst this
    exact ⟨y, by simp⟩
  | succ n ih =>
    rcases List.eq_nil_or_concat xs with rfl | ⟨xs0, u, rfl⟩
    · simp at h
    simp only [List.concat_eq_append] at *
    have hn : xs0.length = n := by simpa using h
    have hstep : shiftOne k (P.length + (n + 1)) (St led (P ++ (xs0 ++ [u]) ++ y :: R)) =
        .ok () (St led (P ++ xs0 ++ u :: (u :: R))) := by
      unfold shiftOne
      have h1 : Mem.read (P.length + (n + 1) - 1) (St led (P ++ (xs0 ++ [u]) ++ y :: R)) =
          .ok u (St led (P ++ (xs0 ++ [u]) ++ y :: R)) := by
        have := read_St (led := led) (pre := P ++ xs0) (post := y :: R) (a := u) (i := P.length + (n + 1) - 1)
          (by simp [hn])
        simpa using this
      have h2 : Mem.assign k (P.length + (n + 1)) u (St led (P ++ (xs0 ++ [u]) ++ y :: R)) =
          .ok () (St led (P ++ xs0 ++ u :: (u :: R))) := by
        have := assign_St (k := k) (led := led) (pre := P ++ xs0 ++ [u]) (post := R) (a := y) (b := u)
          (i := P.length + (n + 1)) (by simp [hn])
        simpa using this
      rw [Cpp.bind_ok h1, h2]
    obtain ⟨z, hz⟩ := ih xs0 (u :: R) u hn
    refine ⟨z, ?_⟩
    rw [forDown_succ, Cpp.bind_ok hstep, show P.length + (n + 1) - 1 = P.length + n by omega, hz]
    simp

/-- the list the merging loop produces: ties go to the left run -/
def smergeL (comp : α → α → Bool) : List α → List α → List α
  | x :: xs, y :: ys => if comp y x then y :: smergeL comp (x :: xs) ys else x :: smergeL comp xs (y :: ys)
  | [], ys => ys
  | x :: xs, [] => x :: xs
termination_by xs ys => xs.length + ys.length

theorem smergeL_perm (xs ys : List α) : (smergeL comp xs ys).Perm (xs ++ ys) := by
  fun_induction smergeL comp xs ys with
  | case1 x xs y ys h ih =>
    exact (ih.cons y).trans (by simpa using (List.perm_middle (l₁ := x :: xs) (l₂ := ys) (a := y)).symm)
  | case2 x xs y ys h ih => simpa using ih
  | case3 ys => simp
  | case4 x xs => simp

/-- runs that are already in order are left alone -/
theorem smergeL_id (xs ys : List α) (h : ∀ x ∈ xs, ∀ y ∈ ys, comp y x = false) :
    smergeL comp xs ys = xs ++ ys := by
  fun_induction smergeL comp xs ys with
  | case1 x xs y ys hc ih =>
    have := h x (by simp) y (by simp)
    rw [hc] at this; cases this
  | case2 x xs y ys hc ih =>
    rw [ih (fun a ha b hb => h a (List.mem_cons_of_mem _ ha) b hb)]
    rfl
  | case3 ys => rfl
  | case4 x xs => simp

theorem timLoop_run (fuel : Nat) (xs ys P R : List α) (start mid start2 end_ : Nat)
    (h1 : start = P.length) (h2 : mid + 1 = P.length + xs.length) (h3 : start2 = P.length + xs.length)
    (h4 : end_ + 1 = P.length + xs.length + ys.length) (hf : xs.length + ys.length < fuel) :
    timLoop k comp end_ fuel start mid start2 (St led (P ++ xs ++ ys ++ R)) =
      .ok () (St led (P ++ smergeL comp xs ys ++ R)) := by
  induction fuel generalizing xs ys P start mid start2 with
  | zero => omega
  | succ fuel ih =>
    simp only [timLoop]
    cases xs with
    | nil =>
      rw [if_neg (by simp at h2; omega)]
      cases ys <;> simp [smergeL] <;> rfl
    | cons x xs =>
      cases ys with
      | nil =>
        rw [if_neg (by simp at h2 h4 h3; omega)]
        simp [smergeL]

      | cons y ys =>
        simp only [List.length_cons] at h2 h3 h4 hf
        rw [if_pos (by omega)]
        have hb : Mem.read start2 (St led (P ++ x :: xs ++ y :: ys ++ R)) =
            .ok y (St led (P ++ x :: xs ++ y :: ys ++ R)) := by
          have := read_St (led := led) (pre := P ++ x :: xs) (post := ys ++ R) (a := y) (i := start2)
            (by simp; omega)
          simpa using this
        have ha : Mem.read start (St led (P ++ x :: xs ++ y :: ys ++ R)) =
            .ok x (St led (P ++ x :: xs ++ y :: ys ++ R)) := by
          have := read_St (led := led) (pre := P) (post := xs ++ y :: ys ++ R) (a := x) (i := start) (by omega)
          simpa using this
        rw [Cpp.bind_ok hb, Cpp.bind_ok ha]
        by_cases hc : comp y x = true
        · rw [if_neg (by simp [hc]), Cpp.bind_ok hb]
          obtain ⟨z, hz⟩ := shift_run (k := k) (led := led) (x :: xs) P (ys ++ R) y
          have hsh : forDown (shiftOne k) start2 (start2 - start) (St led (P ++ x :: xs ++ y :: ys ++ R)) =
              .ok () (St led (P ++ z :: (x :: xs ++ (ys ++ R)))) := by
            rw [show start2 = P.length + (x :: xs).length by simp; omega,
              show P.length + (x :: xs).length - start = (x :: xs).length by omega]
            simpa using hz
          have hasg : Mem.assign k start y (St led (P ++ z :: (x :: xs ++ (ys ++ R)))) =
              .ok () (St led (P ++ y :: (x :: xs ++ (ys ++ R)))) := assign_St (by omega)
          rw [Cpp.bind_ok hsh, Cpp.bind_ok hasg]
          have := ih (x :: xs) ys (P ++ [y]) (start + 1) (mid + 1) (start2 + 1) (by simp; omega)
            (by simp; omega) (by simp; omega) (by simp; omega) (by simp; omega)
          simp only [smergeL, hc, if_true]
          simpa using this
        · have hc' : comp y x = false := eq_false_of_ne_true hc
          rw [if_pos hc']
          have := ih xs (y :: ys) (P ++ [x]) (start + 1) mid start2 (by simp; omega)
            (by simp; omega) (by simp; omega) (by simp; omega) (by simp; omega)
          simp only [smergeL, hc', Bool.false_eq_true, if_false]
          simpa using this

/-- the merge step: either nothing, or the stable merge -/
theorem timMerge_run (xs ys P R : List α) (x y : α) (start mid end_ : Nat)
    (h1 : start = P.length) (h2 : mid = P.length + xs.length)
    (h4 : end_ = P.length + xs.length + 1 + ys.length) :
    timMerge k comp start mid end_ (St led (P ++ (xs ++ [x]) ++ (y :: ys) ++ R)) =
      .ok () (St led (P ++ (if comp x y then smergeL comp (xs ++ [x]) (y :: ys) else (xs ++ [x]) ++ (y :: ys)) ++ R)) := by
  have ha : Mem.read mid (St led (P ++ (xs ++ [x]) ++ (y :: ys) ++ R)) =
      .ok x (St led (P ++ (xs ++ [x]) ++ (y :: ys) ++ R)) := by
    have := read_St (led := led) (pre := P ++ xs) (post := y :: ys ++ R) (a := x) (i := mid) (by simp; omega)
    simpa using this
  have hb : Mem.read (mid + 1) (St led (P ++ (xs ++ [x]) ++ (y :: ys) ++ R)) =
      .ok y (St led (P ++ (xs ++ [x]) ++ (y :: ys) ++ R)) := by
    have := read_St (led := led) (pre := P ++ xs ++ [x]) (post := ys ++ R) (a := y) (i := mid + 1)
      (by simp; omega)
    simpa using this
  unfold timMerge
  rw [Cpp.bind_ok ha, Cpp.bind_ok hb]
  by_cases hc : comp x y = true
  · rw [if_neg (by simp [hc]), if_pos hc]
    exact timLoop_run _ (xs ++ [x]) (y :: ys) P R start mid (mid + 1) end_ h1 (by simp; omega) (by simp; omega)
      (by simp; omega) (by simp; omega)
  · rw [if_pos (eq_false_of_ne_true hc), if_neg hc]
    simp


/-- splitting a list at the three indices of a merge -/
theorem split_merge (l : List α) (start mid end_ : Nat) (h1 : start ≤ mid) (h2 : mid < end_) (h3 : end_ < l.length) :
    ∃ P xs x y ys R, l = P ++ (xs ++ [x]) ++ (y :: ys) ++ R ∧ start = P.length ∧ mid = P.length + xs.length ∧
      end_ = P.length + xs.length + 1 + ys.length ∧ l[mid]? = some x ∧ l[mid + 1]? = some y := by
  refine ⟨l.take start, (l.take mid).drop start, l[mid], l[mid + 1], (l.take (end_ + 1)).drop (mid + 2),
    l.drop (end_ + 1), ?_, by simp; omega, by simp; omega, by simp; omega, by simp, by simp⟩
  have e1 : l.take (end_ + 1) ++ l.drop (end_ + 1) = l := List.take_append_drop _ _
  have e2 : l.take (end_ + 1) = l.take (mid + 2) ++ (l.take (end_ + 1)).drop (mid + 2) := by
    have := (List.take_append_drop (mid + 2) (l.take (end_ + 1))).symm
    rwa [List.take_take, Nat.min_eq_left (by omega)] at this
  have e3 : l.take (mid + 2) = l.take mid ++ [l[mid], l[mid + 1]] := by
    rw [show mid + 2 = (mid + 1) + 1 from rfl, List.take_succ_eq_append_getElem (by omega : mid + 1 < l.length),
      List.take_succ_eq_append_getElem (by omega : mid < l.length), List.append_assoc]
    rfl
  have e4 : l.take mid = l.take start ++ (l.take mid).drop start := by
    have := (List.take_append_drop start (l.take mid)).symm
    rwa [List.take_take, Nat.min_eq_left (by omega)] at this
  have e5 : l = l.take start ++ (l.take mid).drop start ++ [l[mid], l[mid + 1]] ++
      (l.take (end_ + 1)).drop (mid + 2) ++ l.drop (end_ + 1) := by
    rw [← e4, ← e3, ← e2, e1]
  simpa using e5

theorem timMerge_perm (l : List α) (start mid end_ : Nat) (h1 : start ≤ mid) (h2 : mid < end_) (h3 : end_ < l.length) :
    ∃ l', timMerge k comp start mid end_ (St led l) = .ok () (St led l') ∧ l'.Perm l := by
  obtain ⟨P, xs, x, y, ys, R, hl, hs, hm, he, _, _⟩ := split_merge l start mid end_ h1 h2 h3
  refine ⟨_, by rw [hl]; exact timMerge_run xs ys P R x y start mid end_ hs hm he, ?_⟩
  rw [hl]
  apply List.Perm.append_right
  rw [List.append_assoc P]
  apply List.Perm.append_left
  split
  · exact smergeL_perm _ _
  · exact .refl _

/-- no merge of two adjacent ranges changes the list -/
def Still (comp : α → α → Bool) (l : List α) : Prop :=
  ∀ (k : Kind) (led : Ledger) (start mid end_ : Nat), start ≤ mid → mid < end_ → end_ < l.length →
    timMerge k comp start mid end_ (St led l) = .ok () (St led l)

theorem still_of_no_ascent (l : List α)
    (h : ∀ i a b, l[i]? = some a → l[i + 1]? = some b → comp a b = false) : Still comp l := by
  intro k led start mid end_ h1 h2 h3
  obtain ⟨P, xs, x, y, ys, R, hl, hs, hm, he, hx, hy⟩ := split_merge l start mid end_ h1 h2 h3
  have := timMerge_run (k := k) (comp := comp) (led := led) xs ys P R x y start mid end_ hs hm he
  rw [← hl, h mid x y hx hy] at this
  simp only [Bool.false_eq_true, if_false] at this
  rw [this, hl]
  simp

theorem timMerge_sorted (xs ys P R : List α) (x y : α) (start mid end_ : Nat) (hc : StrictWeakOrder comp)
    (h1 : start = P.length) (h2 : mid = P.length + xs.length) (h4 : end_ = P.length + xs.length + 1 + ys.length)
    (hx : Sorted comp (xs ++ [x])) (hy : Sorted comp (y :: ys)) :
    timMerge k comp start mid end_ (St led (P ++ (xs ++ [x]) ++ (y :: ys) ++ R)) =
      .ok () (St led (P ++ (xs ++ [x]) ++ (y :: ys) ++ R)) := by
  rw [timMerge_run xs ys P R x y start mid end_ h1 h2 h4]
  by_cases hxy : comp x y = true
  · rw [if_pos hxy, smergeL_id]
    · simp
    · intro a ha b hb
      have hax : comp x a = false := by
        rcases List.mem_append.mp ha with ha | ha
        · exact (List.pairwise_append.mp hx).2.2 a ha x (by simp)
        · rw [List.mem_singleton.mp ha]; exact hc.irrefl x
      have hby : comp b y = false := by
        rcases List.mem_cons.mp hb with rfl | hb
        · exact hc.irrefl b
        · exact (List.pairwise_cons.mp hy).1 b hb
      exact swo_negtrans hc hby (swo_negtrans hc (swo_asymm hc hxy) hax)
  · rw [if_neg hxy]
    simp

theorem still_of_sorted (l : List α) (hc : StrictWeakOrder comp) (h : Sorted comp l) : Still comp l := by
  intro k led start mid end_ h1 h2 h3
  obtain ⟨P, xs, x, y, ys, R, hl, hs, hm, he, hx, hy⟩ := split_merge l start mid end_ h1 h2 h3
  rw [hl] at h ⊢
  refine timMerge_sorted xs ys P R x y start mid end_ hc hs hm he ?_ ?_
  · exact (List.pairwise_append.mp (List.pairwise_append.mp (List.pairwise_append.mp h).1).1).2.1
  · exact (List.pairwise_append.mp (List.pairwise_append.mp h).1).2.1

/-! ### the passes -/

theorem mergePass_perm (fuel size left n : Nat) (l : List α) (hn : n = l.length) (hsz : 0 < size)
    (hf : n < fuel + left) (hf0 : 0 < fuel) :
    ∃ l', mergePass k comp n size fuel left (St led l) = .ok () (St led l') ∧ l'.Perm l := by
  induction fuel generalizing left l with
  | zero =>
    omega
  | succ fuel ih =>
    simp only [mergePass]
    by_cases h : left < n
    · rw [if_pos h]
      generalize hr : (if left + 2 * size - 1 < n - 1 then left + 2 * size - 1 else n - 1) = right
      have hrn : right < l.length := by rw [← hr]; split <;> omega
      by_cases hm : left + size - 1 < right
      · obtain ⟨l1, h1, h2⟩ := timMerge_perm (k := k) (comp := comp) (led := led) l left (left + size - 1) right
          (by omega) hm hrn
        obtain ⟨l2, g1, g2⟩ := ih (left + 2 * size) l1 (by rw [h2.length_eq]; exact hn) (by omega) (by omega)
        refine ⟨l2, ?_, g2.trans h2⟩
        rw [if_pos hm]
        exact (Cpp.bind_ok h1).trans g1
      · obtain ⟨l2, g1, g2⟩ := ih (left + 2 * size) l hn (by omega) (by omega)
        refine ⟨l2, ?_, g2⟩
        rw [if_neg hm]
        exact g1
    · rw [if_neg h]
      exact ⟨l, rfl, .refl _⟩

theorem sizeLoop_perm (fuel size n : Nat) (l : List α) (hn : n = l.length) (hsz : 0 < size) (hf : n < fuel + size) (hf0 : 0 < fuel) :
    ∃ l', sizeLoop k comp n fuel size (St led l) = .ok () (St led l') ∧ l'.Perm l := by
  induction fuel generalizing size l with
  | zero =>
    omega
  | succ fuel ih =>
    simp only [sizeLoop]
    by_cases h : size < n
    · rw [if_pos h]
      obtain ⟨l1, h1, h2⟩ := mergePass_perm (k := k) (comp := comp) (led := led) (n + 1) size 0 n l hn hsz (by omega) (by omega)
      obtain ⟨l2, g1, g2⟩ := ih (2 * size) l1 (by rw [h2.length_eq]; exact hn) (by omega) (by omega) (by omega)
      exact ⟨l2, by rw [Cpp.bind_ok h1, g1], g2.trans h2⟩
    · rw [if_neg h]
      exact ⟨l, rfl, .refl _⟩

theorem mergePass_still (fuel size left n : Nat) (l : List α) (hn : n = l.length) (hsz : 0 < size)
    (hf : n < fuel + left) (hf0 : 0 < fuel) (hst : Still comp l) :
    mergePass k comp n size fuel left (St led l) = .ok () (St led l) := by
  induction fuel generalizing left with
  | zero => omega
  | succ fuel ih =>
    simp only [mergePass]
    by_cases h : left < n
    · rw [if_pos h]
      generalize hr : (if left + 2 * size - 1 < n - 1 then left + 2 * size - 1 else n - 1) = right
      have hrn : right < l.length := by rw [← hr]; split <;> omega
      by_cases hm : left + size - 1 < right
      · rw [if_pos hm]
        exact (Cpp.bind_ok (hst k led left (left + size - 1) right (by omega) hm hrn)).trans
          (ih (left + 2 * size) (by omega) (by omega))
      · rw [if_neg hm]
        exact ih (left + 2 * size) (by omega) (by omega)
    · rw [if_neg h]
      rfl

theorem sizeLoop_still (fuel size n : Nat) (l : List α) (hn : n = l.length) (hsz : 0 < size) (hf : n < fuel + size) (hf0 : 0 < fuel)
    (hst : Still comp l) : sizeLoop k comp n fuel size (St led l) = .ok () (St led l) := by
  induction fuel generalizing size with
  | zero => omega
  | succ fuel ih =>
    simp only [sizeLoop]
    by_cases h : size < n
    · rw [if_pos h, Cpp.bind_ok (mergePass_still (n + 1) size 0 n l hn hsz (by omega) (by omega) hst)]
      exact ih (2 * size) (by omega) (by omega) (by omega)
    · rw [if_neg h]
      rfl

/-! ### the runs -/

/-- `ys` is `xs` with every chunk of 32 elements replaced by what insertion sort makes of it -/
inductive Runs (comp : α → α → Bool) : List α → List α → Prop
  | nil : Runs comp [] []
  | cons (xs ys rest rest' : List α) : xs ≠ [] → xs.length ≤ 32 → (rest ≠ [] → xs.length = 32) → ys.Perm xs →
      (StrictWeakOrder comp → Sorted comp ys ∧ Stable comp xs ys) → (Sorted comp xs → ys = xs) →
      Runs comp rest rest' → Runs comp (xs ++ rest) (ys ++ rest')

theorem Runs.perm {l l' : List α} (h : Runs comp l l') : l'.Perm l := by
  induction h with
  | nil => exact .refl _
  | cons xs ys rest rest' _ _ _ hp _ _ _ ih => exact hp.append ih

theorem Runs.of_sorted {l l' : List α} (h : Runs comp l l') (hs : Sorted comp l) : l' = l := by
  induction h with
  | nil => rfl
  | cons xs ys rest rest' _ _ _ _ _ hid _ ih =>
    obtain ⟨h1, h2, _⟩ := List.pairwise_append.mp hs
    rw [hid h1, ih h2]

theorem Runs.small {l l' : List α} (h : Runs comp l l') (hl : l.length ≤ 32) (hc : StrictWeakOrder comp) :
    Sorted comp l' ∧ Stable comp l l' := by
  cases h with
  | nil => exact ⟨.nil, fun _ => rfl⟩
  | cons xs ys rest rest' hne hle h32 hp hs hid hr =>
    have : rest = [] := by
      cases rest with
      | nil => rfl
      | cons a rest =>
        have := h32 (by simp)
        simp at hl; omega
    subst this
    have : rest' = [] := by have := hr.perm; simpa using this
    subst this
    simpa using hs hc

theorem Runs.split {l l' : List α} (h : Runs comp l l') (hl : 32 < l.length) :
    ∃ xs ys rest rest', l = xs ++ rest ∧ l' = ys ++ rest' ∧ xs.length = 32 ∧ ys.Perm xs ∧
      (StrictWeakOrder comp → Sorted comp ys ∧ Stable comp xs ys) ∧ (Sorted comp xs → ys = xs) ∧
      Runs comp rest rest' := by
  cases h with
  | nil => simp at hl
  | cons xs ys rest rest' hne hle h32 hp hs hid hr =>
    refine ⟨xs, ys, rest, rest', rfl, rfl, h32 ?_, hp, hs, hid, hr⟩
    intro h
    subst h
    simp at hl; omega

theorem runsLoop_run (fuel n : Nat) (P xs : List α) (i : Nat) (hi : i = P.length) (hn : n = P.length + xs.length)
    (hf : xs.length < fuel) :
    ∃ ys, runsLoop k comp n fuel i (St led (P ++ xs)) = .ok () (St led (P ++ ys)) ∧ Runs comp xs ys := by
  induction fuel generalizing P xs i with
  | zero => omega
  | succ fuel ih =>
    simp only [runsLoop]
    by_cases h : i < n
    · rw [if_pos h]
      generalize hr : (if i + 31 < n - 1 then i + 31 else n - 1) = right
      have hne : xs ≠ [] := by intro h'; subst h'; simp at hn; omega
      have hlen : 0 < xs.length := List.length_pos_iff.mpr hne
      have hr1 : right + 1 = P.length + (xs.take 32).length := by
        rw [← hr, List.length_take]; split <;> omega
      obtain ⟨ys, h1, h2, h3, h4⟩ := insertionRange_run (k := k) (comp := comp) (led := led) (xs.take 32) P
        (xs.drop 32) (by intro h'; have := congrArg List.length h'; rw [List.length_take, List.length_nil] at this; omega) i right hi hr1
      have hap : P ++ xs.take 32 ++ xs.drop 32 = P ++ xs := by rw [List.append_assoc, List.take_append_drop]
      rw [hap] at h1
      rw [Cpp.bind_ok h1]
      by_cases h32 : 32 ≤ xs.length
      · obtain ⟨zs, g1, g2⟩ := ih (P ++ ys) (xs.drop 32) (i + 32)
          (by rw [List.length_append, h2.length_eq]; simp; omega)
          (by rw [List.length_append, h2.length_eq]; simp; omega) (by simp; omega)
        refine ⟨ys ++ zs, ?_, ?_⟩
        · rw [g1, List.append_assoc]
        · have := Runs.cons (xs.take 32) ys (xs.drop 32) zs (by
            intro h'; have := congrArg List.length h'; rw [List.length_take, List.length_nil] at this; omega) (by simp; omega)
            (fun _ => by simp; omega) h2 h3 h4 g2
          rwa [List.take_append_drop] at this
      · have hd : xs.drop 32 = [] := List.drop_of_length_le (by omega)
        have ht : xs.take 32 = xs := List.take_of_length_le (by omega)
        rw [ht] at h2 h3 h4
        rw [hd]
        obtain ⟨fuel', rfl⟩ : ∃ f, fuel = f + 1 := ⟨fuel - 1, by omega⟩
        refine ⟨ys, ?_, ?_⟩
        · simp only [runsLoop]
          rw [if_neg (by omega)]
          simp

        · have := Runs.cons xs ys [] [] hne (by omega) (fun h => absurd rfl h) h2 h3 h4 .nil
          simpa using this
    · rw [if_neg h]
      have : xs = [] := List.length_eq_zero_iff.mp (by omega)
      subst this
      exact ⟨[], rfl, .nil⟩

/-! ### sort_by -/

theorem sortBy_unfold {l ys : List α} (h : runsLoop k comp l.length (l.length + 1) 0 (St led ([] ++ l)) = .ok () (St led ([] ++ ys))) :
    sortBy k comp (St led l) = sizeLoop k comp l.length (l.length + 1) 32 (St led ys) := by
  have hl : (St led l).cells.length = l.length := by simp [St]
  unfold sortBy
  rw [List.nil_append, List.nil_append] at h
  rw [Cpp.bind_ok (Cpp.get_run _), hl, Cpp.bind_ok h]

theorem sortBy_run (l : List α) :
    ∃ l', sortBy k comp (St led l) = .ok () (St led l') ∧ l'.Perm l := by
  obtain ⟨ys, h1, h2⟩ := runsLoop_run (k := k) (comp := comp) (led := led) (l.length + 1) l.length [] l 0 rfl
    (by simp) (by omega)
  obtain ⟨zs, g1, g2⟩ := sizeLoop_perm (k := k) (comp := comp) (led := led) (l.length + 1) 32 l.length ys
    h2.perm.length_eq.symm (by omega) (by omega) (by omega)
  exact ⟨zs, by rw [sortBy_unfold h1, g1], g2.trans h2.perm⟩

theorem sortBy_small (l : List α) (hl : l.length ≤ 32) (hc : StrictWeakOrder comp) :
    ∃ l', sortBy k comp (St led l) = .ok () (St led l') ∧ l'.Perm l ∧ Sorted comp l' ∧ Stable comp l l' := by
  obtain ⟨ys, h1, h2⟩ := runsLoop_run (k := k) (comp := comp) (led := led) (l.length + 1) l.length [] l 0 rfl
    (by simp) (by omega)
  refine ⟨ys, ?_, h2.perm, h2.small hl hc⟩
  rw [sortBy_unfold h1]
  simp only [sizeLoop]
  rw [if_neg (by omega)]
  rfl

theorem sortBy_sorted (l : List α) (hc : StrictWeakOrder comp) (hs : Sorted comp l) :
    sortBy k comp (St led l) = .ok () (St led l) := by
  obtain ⟨ys, h1, h2⟩ := runsLoop_run (k := k) (comp := comp) (led := led) (l.length + 1) l.length [] l 0 rfl
    (by simp) (by omega)
  have := h2.of_sorted hs
  subst this
  rw [sortBy_unfold h1]
  exact sizeLoop_still _ _ _ _ rfl (by omega) (by omega) (by omega) (still_of_sorted _ hc hs)

/-- between 33 and 64 elements: the two chunks are sorted separately and never merged -/
theorem sortBy_two_runs (xs rest : List α) (hx : xs.length = 32) (hr : 0 < rest.length) (hr2 : rest.length ≤ 32)
    (hc : StrictWeakOrder comp) :
    ∃ ys zs, sortBy k comp (St led (xs ++ rest)) = .ok () (St led (ys ++ zs)) ∧
      ys.Perm xs ∧ Sorted comp ys ∧ Stable comp xs ys ∧ zs.Perm rest ∧ Sorted comp zs ∧ Stable comp rest zs := by
  obtain ⟨ws, h1, h2⟩ := runsLoop_run (k := k) (comp := comp) (led := led) ((xs ++ rest).length + 1)
    (xs ++ rest).length [] (xs ++ rest) 0 rfl (by simp) (by omega)
  obtain ⟨xs', ys, rest', zs, e1, e2, e3, e4, e5, _, e7⟩ := h2.split (by simp; omega)
  obtain ⟨rfl, rfl⟩ := List.append_inj e1 (by omega)
  subst e2
  obtain ⟨s1, s2⟩ := e5 hc
  obtain ⟨t1, t2⟩ := e7.small hr2 hc
  refine ⟨ys, zs, ?_, e4, s1, s2, e7.perm, t1, t2⟩
  rw [sortBy_unfold h1]
  generalize hn : (xs ++ rest).length = n
  have hn2 : n = 32 + rest.length := by rw [← hn]; simp [hx]
  have hyl : ys.length = 32 := by rw [e4.length_eq, hx]
  have hzl : zs.length = rest.length := e7.perm.length_eq
  rcases List.eq_nil_or_concat ys with rfl | ⟨ys0, x, rfl⟩
  · simp at hyl
  cases zs with
  | nil => simp at hzl; omega
  | cons y zs0 =>
    simp only [List.concat_eq_append] at *
    simp at hyl hzl
    have hm := timMerge_sorted (k := k) (led := led) ys0 zs0 [] [] x y 0 31 (n - 1) hc rfl (by simp; omega)
      (by simp; omega) s1 t1
    simp only [List.nil_append, List.append_nil] at hm
    simp only [sizeLoop]
    rw [if_pos (by omega)]
    have hpass : mergePass k comp n 32 (n + 1) 0 (St led (ys0 ++ [x] ++ y :: zs0)) =
        .ok () (St led (ys0 ++ [x] ++ y :: zs0)) := by
      simp only [mergePass]
      rw [if_pos (by omega)]
      have hright : (if 0 + 2 * 32 - 1 < n - 1 then 0 + 2 * 32 - 1 else n - 1) = n - 1 := by split <;> omega
      rw [hright, if_pos (by omega)]
      refine (Cpp.bind_ok hm).trans ?_
      obtain ⟨m, rfl⟩ : ∃ m, n = m + 1 := ⟨n - 1, by omega⟩
      simp only [mergePass]
      rw [if_neg (by omega)]
      rfl
    rw [Cpp.bind_ok hpass]
    obtain ⟨m, hm'⟩ : ∃ m, n = m + 1 := ⟨n - 1, by omega⟩
    rw [hm']
    simp only [sizeLoop]
    rw [if_neg (by omega)]
    rfl

/-- 32 large elements followed by small ones are left as they are -/
theorem sortBy_stuck (a b : α) (m : Nat) (hm : 0 < m) (hc : StrictWeakOrder comp) (hab : comp a b = true) :
    sortBy k comp (St led (List.replicate 32 b ++ List.replicate m a)) =
      .ok () (St led (List.replicate 32 b ++ List.replicate m a)) := by
  have hrep : ∀ (n : Nat) (x : α), Sorted comp (List.replicate n x) := by
    intro n x
    refine List.pairwise_iff_getElem.mpr ?_
    intro p q hp hq _
    simp [hc.irrefl]
  generalize hL : List.replicate 32 b ++ List.replicate m a = L
  obtain ⟨ys, h1, h2⟩ := runsLoop_run (k := k) (comp := comp) (led := led) (L.length + 1) L.length [] L 0 rfl
    (by simp) (by omega)
  have hys : ys = L := by
    obtain ⟨xs', zs, rest', ws, e1, e2, e3, _, _, e6, e7⟩ := h2.split (by rw [← hL]; simp; omega)
    rw [← hL] at e1
    obtain ⟨f1, f2⟩ := List.append_inj e1 (by simp [e3])
    subst f1; subst f2
    rw [e2, ← hL, e6 (hrep _ _), e7.of_sorted (hrep _ _)]
  subst hys
  rw [sortBy_unfold h1]
  refine sizeLoop_still _ _ _ _ rfl (by omega) (by omega) (by omega) (still_of_no_ascent _ ?_)
  intro i x y hx hy
  rw [← hL] at hx hy
  rw [List.getElem?_append] at hx hy
  simp only [List.length_replicate, List.getElem?_replicate] at hx hy
  by_cases h1 : i + 1 < 32
  · rw [if_pos (by omega), if_pos (by omega)] at hx
    rw [if_pos h1, if_pos h1] at hy
    cases hx; cases hy; exact hc.irrefl _
  · rw [if_neg h1] at hy
    split at hy
    · cases hy
      by_cases h2 : i < 32
      · rw [if_pos h2, if_pos h2] at hx
        cases hx
        exact swo_asymm hc hab
      · rw [if_neg h2] at hx
        split at hx
        · cases hx; exact hc.irrefl _
        · cases hx
    · cases hy

end Sorting
end Efp
