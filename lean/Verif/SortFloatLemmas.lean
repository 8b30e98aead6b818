import Verif.SortFloat
import Verif.Spec.SortFloat
import Verif.SortMap
import Verif.SortQuick
import Verif.SortHeap
import Verif.SortMerge
import Verif.SortTim

/-!
# Sorting with an order that is one only among the elements, and sorting numbers
-/

namespace Efp
namespace Sorting

open Spec Ieee

variable {α : Type} {k : Kind} {comp : α → α → Bool} {led : Ledger}

/-! ## Orders among the elements -/

/-- the comparator on the elements of `l` -/
theorem among_swo {l : List α} (h : OrderAmong l comp) : StrictWeakOrder (via (Subtype.val : {x // x ∈ l} → α) comp) where
  irrefl a := h.irrefl _ a.2
  trans a b c := h.trans _ a.2 _ b.2 _ c.2
  incomp a b c := h.incomp _ a.2 _ b.2 _ c.2

theorem attach_sorted {l : List α} {l' : List {x // x ∈ l}} (h : Sorted (via Subtype.val comp) l') :
    Sorted comp (l'.map Subtype.val) := List.pairwise_map.2 h

theorem attach_perm {l : List α} {l' : List {x // x ∈ l}} (h : l'.Perm l.attach) : (l'.map Subtype.val).Perm l := by
  have := h.map Subtype.val
  rwa [List.attach_map_subtype_val] at this

theorem attach_stable {l : List α} {l' : List {x // x ∈ l}} (h : Stable (via Subtype.val comp) l.attach l') :
    StableAmong comp l (l'.map Subtype.val) := by
  intro x hx
  have := congrArg (List.map Subtype.val) (h ⟨x, hx⟩)
  have e : ∀ xs : List {x // x ∈ l}, (xs.filter (equivalent (via Subtype.val comp) ⟨x, hx⟩)).map Subtype.val =
      (xs.map Subtype.val).filter (equivalent comp x) := by
    intro xs
    rw [List.filter_map]
    rfl
  rw [e, e, List.attach_map_subtype_val] at this
  exact this

theorem Renames.attach {l : List α} {p : Cpp (Mem {x // x ∈ l}) Unit} {q : Cpp (Mem α) Unit}
    (h : Renames Subtype.val id p q) {l' : List {x // x ∈ l}} (hp : p (St led l.attach) = .ok () (St led l')) :
    q (St led l) = .ok () (St led (l'.map Subtype.val)) := by
  have := h.ok hp
  rwa [List.attach_map_subtype_val] at this

/-! ## Insertion sort as a function on lists -/

/-- where insertion sort puts `key`: before the longest suffix of elements greater than it -/
def putIn (comp : α → α → Bool) (key : α) : List α → List α
  | [] => [key]
  | u :: us => if (u :: us).all (comp key) then key :: u :: us else u :: putIn comp key us

/-- insertion sort on lists -/
def putAll (comp : α → α → Bool) (us xs : List α) : List α := xs.foldl (fun us x => putIn comp x us) us

theorem putIn_split (key : α) : ∀ (us' ws : List α), (∀ w ∈ ws, comp key w = true) →
    (∀ u us'', us' = us'' ++ [u] → comp key u = false) → putIn comp key (us' ++ ws) = us' ++ key :: ws
  | [], [], _, _ => rfl
  | [], w :: ws, h, _ => by
    have : (w :: ws).all (comp key) = true := List.all_eq_true.2 h
    simp [putIn] at this ⊢
    intro h1; exact absurd this.2 (by simpa using h1 this.1)
  | u :: us, ws, h, h' => by
    have hlast : ∃ v ∈ u :: us, comp key v = false := by
      rcases List.eq_nil_or_concat (u :: us) with h0 | ⟨us'', v, hv⟩
      · cases h0
      · rw [List.concat_eq_append] at hv
        exact ⟨v, by rw [hv]; simp, h' v us'' hv⟩
    obtain ⟨v, hv, hcv⟩ := hlast
    have hall : ¬ (u :: (us ++ ws)).all (comp key) = true := by
      rw [List.all_eq_true]
      intro hh
      have := hh v (by rw [← List.cons_append]; exact List.mem_append_left _ hv)
      rw [hcv] at this; cases this
    rw [List.cons_append]
    unfold putIn
    rw [if_neg hall, putIn_split key us ws h (fun v us'' e => h' v (u :: us'') (by rw [e]; rfl))]
    rfl

theorem putIn_length (key : α) : ∀ us, (putIn comp key us).length = us.length + 1
  | [] => rfl
  | u :: us => by
    unfold putIn
    split
    · rfl
    · rw [List.length_cons, putIn_length key us, List.length_cons]

theorem insOne_eq (us : List α) (key : α) (pre rest : List α) :
    insOne k comp pre.length (pre.length + us.length) (St led (pre ++ us ++ key :: rest)) =
      .ok () (St led (pre ++ putIn comp key us ++ rest)) := by
  obtain ⟨us', ws, h1, h2, h3, h4⟩ := insOne_run (k := k) (comp := comp) (led := led) us key pre rest
  rw [h4, h1, putIn_split key us' ws h2 h3]

theorem insRange_eq : ∀ (xs us pre post : List α), forUp (insOne k comp pre.length) (pre.length + us.length) xs.length
    (St led (pre ++ us ++ xs ++ post)) = .ok () (St led (pre ++ putAll comp us xs ++ post))
  | [], us, pre, post => by simp [putAll]
  | x :: xs, us, pre, post => by
    have h := insOne_eq (k := k) (comp := comp) (led := led) us x pre (xs ++ post)
    have e : pre ++ us ++ x :: (xs ++ post) = pre ++ us ++ x :: xs ++ post := by simp
    rw [e] at h
    rw [List.length_cons, forUp_succ, Cpp.bind_ok h, Nat.add_assoc, ← putIn_length (comp := comp) x us]
    have := insRange_eq xs (putIn comp x us) pre post
    simpa [putAll] using this

theorem insertionSort_eq (l : List α) : insertionSortBy k comp (St led l) = .ok () (St led (putAll comp [] l)) := by
  unfold insertionSortBy
  have hl : (St led l).cells.length = l.length := by simp [St]
  rw [Cpp.bind_ok (Cpp.get_run _), hl]
  cases l with
  | nil => rfl
  | cons x xs =>
    rw [if_pos (by simp)]
    have := insRange_eq (k := k) (comp := comp) (led := led) xs [x] [] []
    simpa [insertionRange, putAll, putIn] using this

/-- up to 32 elements `sort` is insertion sort -/
theorem sort_small_eq (l : List α) (hl : l.length ≤ 32) : sortBy k comp (St led l) = insertionSortBy k comp (St led l) := by
  rw [insertionSort_eq]
  have hs : (St led l).cells.length = l.length := by simp [St]
  unfold sortBy
  rw [Cpp.bind_ok (Cpp.get_run _), hs]
  have hsz : ∀ m : Mem α, sizeLoop k comp l.length (l.length + 1) 32 m = .ok () m := by
    intro m
    unfold sizeLoop
    rw [if_neg (by omega)]
    rfl
  cases l with
  | nil => rfl
  | cons x xs =>
    have h1 : insertionRange k comp 0 (if 0 + 31 < (x :: xs).length - 1 then 0 + 31 else (x :: xs).length - 1) (St led (x :: xs)) =
        .ok () (St led (putAll comp [] (x :: xs))) := by
      rw [if_neg (by simp at hl ⊢; omega)]
      have := insRange_eq (k := k) (comp := comp) (led := led) xs [x] [] []
      simpa [insertionRange, putAll, putIn] using this
    have h2 : runsLoop k comp (x :: xs).length ((x :: xs).length + 1) 0 (St led (x :: xs)) =
        .ok () (St led (putAll comp [] (x :: xs))) := by
      rw [runsLoop, if_pos (by simp), Cpp.bind_ok h1, List.length_cons, runsLoop, if_neg (by simp at hl; omega)]
      rfl
    rw [Cpp.bind_ok h2]
    exact hsz _

/-! ## An element that is neither less nor greater than any other -/

theorem putIn_wall {b : α} (hb : ∀ x, comp x b = false) (key : α) (us : List α) : ∀ as,
    putIn comp key (as ++ b :: us) = as ++ b :: putIn comp key us
  | [] => by
    show putIn comp key (b :: us) = b :: putIn comp key us
    have : ¬ (b :: us).all (comp key) = true := by simp [hb key]
    conv => lhs; unfold putIn
    rw [if_neg this]
  | a :: as => by
    rw [List.cons_append]
    have : ¬ (a :: (as ++ b :: us)).all (comp key) = true := by simp [hb key]
    conv => lhs; unfold putIn
    rw [if_neg this, putIn_wall hb key us as]
    rfl

theorem putAll_wall {b : α} (hb : ∀ x, comp x b = false) (as : List α) : ∀ ys us : List α,
    putAll comp (as ++ b :: us) ys = as ++ b :: putAll comp us ys
  | [], _ => rfl
  | y :: ys, us => by
    unfold putAll
    rw [List.foldl_cons, List.foldl_cons, putIn_wall hb]
    exact putAll_wall hb as ys _

theorem putIn_last {b : α} (hb : ∀ x, comp b x = false) : ∀ us : List α, putIn comp b us = us ++ [b]
  | [] => rfl
  | u :: us => by
    have : ¬ (u :: us).all (comp b) = true := by simp [hb u]
    unfold putIn
    rw [if_neg this, putIn_last hb us]
    rfl

theorem putAll_cut {b : α} (h1 : ∀ x, comp x b = false) (h2 : ∀ x, comp b x = false) (xs ys : List α) :
    putAll comp [] (xs ++ b :: ys) = putAll comp [] xs ++ b :: putAll comp [] ys := by
  have : putAll comp [] (xs ++ b :: ys) = putAll comp (putIn comp b (putAll comp [] xs)) ys := by
    simp [putAll, List.foldl_append]
  rw [this, putIn_last h2, putAll_wall h1]

/-! ## Numbers -/

theorem opLt_spo : StrictPartialOrder opLt where
  irrefl a := by
    cases a with
    | nan => rfl
    | inf s => cases s <;> rfl
    | fin s m => simp [opLt, lt]
  trans a b c h1 h2 := by
    cases a with
    | nan => cases h1
    | inf s =>
      cases b with
      | nan => cases s <;> cases h1
      | inf t => cases s <;> cases t <;> cases c <;> simp_all [opLt, lt]
      | fin t n => cases c <;> cases s <;> simp_all [opLt, lt]
    | fin s m =>
      cases b with
      | nan => cases h1
      | inf t => cases t <;> cases c <;> simp_all [opLt, lt]
      | fin t n =>
        cases c with
        | nan => cases h2
        | inf u => cases u <;> simp_all [opLt, lt]
        | fin u r =>
          simp only [opLt, lt, decide_eq_true_eq] at *
          exact h1.trans h2

/-- for numbers `¬ y < x` is `x ≤ y` -/
theorem atMost_iff {x y : Fp} (hx : x ≠ .nan) (hy : y ≠ .nan) : opLt y x = false ↔ NotAbove x y := by
  cases x with
  | nan => exact absurd rfl hx
  | inf s =>
    cases y with
    | nan => exact absurd rfl hy
    | inf t => cases s <;> cases t <;> simp [opLt, lt, NotAbove]
    | fin t n => cases s <;> simp [opLt, lt, NotAbove]
  | fin s m =>
    cases y with
    | nan => exact absurd rfl hy
    | inf t => cases t <;> simp [opLt, lt, NotAbove]
    | fin t n => exact decide_eq_false_iff_not.trans not_lt

theorem atMost_trans {x y z : Fp} (h1 : NotAbove x y) (h2 : NotAbove y z) : NotAbove x z := by
  cases x with
  | nan => exact h1.elim
  | inf s =>
    cases s with
    | true =>
      cases z with
      | nan => cases y with
        | inf t => cases t <;> exact h2.elim
        | nan => exact h2.elim
        | fin t n => exact h2.elim
      | inf t => cases t <;> trivial
      | fin t n => trivial
    | false =>
      cases y with
      | nan => exact h1.elim
      | inf t => cases t with
        | true => exact h1.elim
        | false => exact h2
      | fin t n => exact h1.elim
  | fin s m =>
    cases y with
    | nan => exact h1.elim
    | inf t =>
      cases t with
      | true => exact h1.elim
      | false =>
        cases z with
        | nan => exact h2.elim
        | inf u => cases u with
          | true => exact h2.elim
          | false => trivial
        | fin u r => exact h2.elim
    | fin t n =>
      cases z with
      | nan => exact h2.elim
      | inf u => cases u with
        | true => exact h2.elim
        | false => trivial
      | fin u r => exact le_trans (α := ℚ) h1 h2

theorem numbers_order {l : List Fp} (hl : ∀ x ∈ l, x ≠ .nan) : OrderAmong l opLt where
  irrefl a _ := opLt_spo.irrefl a
  trans a _ b _ c _ := opLt_spo.trans a b c
  incomp a ha b hb c hc h1 h2 h3 h4 :=
    ⟨(atMost_iff (hl c hc) (hl a ha)).2 (atMost_trans ((atMost_iff (hl c hc) (hl b hb)).1 h3) ((atMost_iff (hl b hb) (hl a ha)).1 h1)),
      (atMost_iff (hl a ha) (hl c hc)).2 (atMost_trans ((atMost_iff (hl a ha) (hl b hb)).1 h2) ((atMost_iff (hl b hb) (hl c hc)).1 h4))⟩

theorem ascending_of_sorted {l : List Fp} (hl : ∀ x ∈ l, x ≠ .nan) (h : Sorted opLt l) : Ascending l :=
  List.Pairwise.imp_of_mem (fun ha hb hab => (atMost_iff (hl _ ha) (hl _ hb)).1 hab) h

end Sorting
end Efp
