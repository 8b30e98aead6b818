import Verif.Sort
import Verif.Spec.Sort

/-! Helper lemmas for the sorting functions. -/

namespace Efp
namespace Sorting

variable {α : Type} {k : Kind} {comp : α → α → Bool} {led : Ledger}

/-- storage whose elements are `l` -/
def St (led : Ledger) (l : List α) : Mem α := ⟨l.map .live, led⟩

theorem St_app (pre : List α) (a : α) (post : List α) (led : Ledger) :
    St led (pre ++ a :: post) = ⟨pre.map .live ++ .live a :: post.map .live, led⟩ := by
  simp [St]

theorem read_St {pre post : List α} {a : α} {i : Nat} (h : pre.length = i) :
    Mem.read i (St led (pre ++ a :: post)) = .ok a (St led (pre ++ a :: post)) := by
  rw [St_app]; exact Mem.read_mid (by simpa using h)

theorem assign_St {pre post : List α} {a b : α} {i : Nat} (h : pre.length = i) :
    Mem.assign k i b (St led (pre ++ a :: post)) = .ok () (St led (pre ++ b :: post)) := by
  rw [St_app, St_app]; exact Mem.assign_mid (by simpa using h) (fun _ => rfl)

theorem read_get {l : List α} {i : Nat} (h : i < l.length) :
    Mem.read i (St led l) = .ok l[i] (St led l) := by
  simp [Mem.read, St, h]

theorem assign_get {l : List α} {i : Nat} (h : i < l.length) (a : α) :
    Mem.assign k i a (St led l) = .ok () (St led (l.set i a)) := by
  simp [Mem.assign, St, h, Cell.alive, List.map_set]

/-! ### swap -/

/-- the list with positions `i` and `j` exchanged -/
def swapL (l : List α) (i j : Nat) (hi : i < l.length) (hj : j < l.length) : List α :=
  (l.set i l[j]).set j l[i]

theorem swap_run {l : List α} {i j : Nat} (hi : i < l.length) (hj : j < l.length) :
    swap k i j (St led l) = .ok () (St led (swapL l i j hi hj)) := by
  unfold swap swapL
  cases k with
  | trivial =>
    have h1 : take .trivial i (St led l) = .ok (.live l[i]) (St led l) := by simp [take, St, hi]
    have h2 : take .trivial j (St led l) = .ok (.live l[j]) (St led l) := by simp [take, St, hj]
    have h3 : put .trivial i (.live l[j]) (St led l) = .ok () (St led (l.set i l[j])) := by
      simp [put, St, hi, List.map_set]
    have h4 : put .trivial j (.live l[i]) (St led (l.set i l[j])) =
        .ok () (St led ((l.set i l[j]).set j l[i])) := by
      simp [put, St, hj, List.map_set]
    rw [Cpp.bind_ok h1, Cpp.bind_ok h2, Cpp.bind_ok h3, h4]
  | managed =>
    have h1 : take .managed i (St led l) = .ok (.live l[i]) ⟨(l.map .live).set i .moved, led⟩ := by
      simp [take, St, hi]
    by_cases hij : i = j
    · subst hij
      have h2 : take .managed i (⟨(l.map .live).set i .moved, led⟩ : Mem α) =
          .ok .moved ⟨(l.map .live).set i .moved, led⟩ := by simp [take, hi]
      have h3 : put .managed i .moved (⟨(l.map .live).set i .moved, led⟩ : Mem α) =
          .ok () ⟨(l.map .live).set i .moved, led⟩ := by simp [put, hi]
      have h4 : put .managed i (.live l[i]) (⟨(l.map .live).set i .moved, led⟩ : Mem α) =
          .ok () (St led ((l.set i l[i]).set i l[i])) := by
        simp [put, St, hi, List.set_getElem_self]
        rw [← List.map_set, List.set_getElem_self]
      rw [Cpp.bind_ok h1, Cpp.bind_ok h2, Cpp.bind_ok h3, h4]
    · have hji : j ≠ i := fun h => hij h.symm
      have h2 : take .managed j (⟨(l.map .live).set i .moved, led⟩ : Mem α) =
          .ok (.live l[j]) ⟨((l.map .live).set i .moved).set j .moved, led⟩ := by
        simp only [take, List.getElem?_set_ne hij]
        simp [hj]
      have h3 : put .managed i (.live l[j]) (⟨((l.map .live).set i .moved).set j .moved, led⟩ : Mem α) =
          .ok () ⟨(((l.map .live).set i .moved).set j .moved).set i (.live l[j]), led⟩ := by
        simp only [put, List.getElem?_set_ne hji]
        simp [hi]
      have h4 : put .managed j (.live l[i])
          (⟨(((l.map .live).set i .moved).set j .moved).set i (.live l[j]), led⟩ : Mem α) =
          .ok () (St led ((l.set i l[j]).set j l[i])) := by
        simp only [put, St, List.getElem?_set_ne hij, List.map_set]
        simp [hj]
        rw [List.set_comm _ _ hji]
        simp
      rw [Cpp.bind_ok h1, Cpp.bind_ok h2, Cpp.bind_ok h3, h4]

theorem swap_self {pre post : List α} {a : α} {i : Nat} (h : pre.length = i) :
    swap k i i (St led (pre ++ a :: post)) = .ok () (St led (pre ++ a :: post)) := by
  subst h
  rw [swap_run (by simp) (by simp)]
  simp [swapL]

theorem swap_mid {pre mid post : List α} {a b : α} {i j : Nat} (h : pre.length = i)
    (hj : pre.length + 1 + mid.length = j) :
    swap k i j (St led (pre ++ a :: (mid ++ b :: post))) =
      .ok () (St led (pre ++ b :: (mid ++ a :: post))) := by
  subst h; subst hj
  rw [swap_run (by simp) (by simp; omega)]
  congr 2
  have e1 : (pre ++ a :: (mid ++ b :: post))[pre.length + 1 + mid.length]'(by simp; omega) = b := by
    rw [List.getElem_append_right (by omega)]
    simp [show pre.length + 1 + mid.length - pre.length = mid.length + 1 by omega]
  have e2 : (pre ++ a :: (mid ++ b :: post))[pre.length]'(by simp) = a := by simp
  unfold swapL
  rw [e1, e2]
  rw [List.set_append_right _ _ (Nat.le_refl _)]
  simp only [Nat.sub_self, List.set_cons_zero]
  rw [List.set_append_right _ _ (by omega)]
  simp [show pre.length + 1 + mid.length - pre.length = mid.length + 1 by omega]

theorem swapL_perm {l : List α} {i j : Nat} (hi : i < l.length) (hj : j < l.length) :
    (swapL l i j hi hj).Perm l := by
  have key : ∀ (pre mid post : List α) (a b : α),
      (pre ++ b :: (mid ++ a :: post)).Perm (pre ++ a :: (mid ++ b :: post)) := by
    intro pre mid post a b
    apply List.Perm.append_left
    have h1 : (b :: (mid ++ a :: post)).Perm (b :: a :: (mid ++ post)) :=
      (List.perm_middle).cons b
    have h2 : (a :: (mid ++ b :: post)).Perm (a :: b :: (mid ++ post)) :=
      (List.perm_middle).cons a
    exact h1.trans ((List.Perm.swap a b _).trans h2.symm)
  have key2 : ∀ (i j : Nat) (hi : i < l.length) (hj : j < l.length), i < j →
      (swapL l i j hi hj).Perm l := by
    intro i j hi hj hij
    have hl : l = l.take i ++ l[i] :: ((l.drop (i + 1)).take (j - (i + 1)) ++ l[j] :: l.drop (j + 1)) := by
      have h1 : l.drop (i + 1) = (l.drop (i + 1)).take (j - (i + 1)) ++ (l.drop (i + 1)).drop (j - (i + 1)) :=
        (List.take_append_drop _ _).symm
      rw [List.drop_drop, show i + 1 + (j - (i + 1)) = j by omega, List.drop_eq_getElem_cons hj] at h1
      rw [← h1, ← List.drop_eq_getElem_cons hi, List.take_append_drop]
    have h2 := swap_mid (k := .trivial) (led := {}) (pre := l.take i) (mid := (l.drop (i + 1)).take (j - (i + 1)))
      (post := l.drop (j + 1)) (a := l[i]) (b := l[j]) (i := i) (j := j) (by simp; omega) (by simp; omega)
    rw [← hl, swap_run hi hj] at h2
    have h3 : swapL l i j hi hj =
        l.take i ++ l[j] :: ((l.drop (i + 1)).take (j - (i + 1)) ++ l[i] :: l.drop (j + 1)) := by
      have h4 := (Out.ok.inj h2).2
      unfold St at h4
      have h5 := congrArg Mem.cells h4
      exact (List.map_inj_right (fun _ _ h => Cell.live.inj h)).mp h5
    rw [h3]
    exact (key _ _ _ _ _).trans (.of_eq hl.symm)
  rcases Nat.lt_trichotomy i j with h | h | h
  · exact key2 i j hi hj h
  · subst h
    simp [swapL]
  · have : swapL l i j hi hj = swapL l j i hj hi := by
      unfold swapL
      exact List.set_comm _ _ (by omega)
    rw [this]
    exact key2 j i hj hi h

@[simp] theorem swapL_length {l : List α} {i j : Nat} (hi : i < l.length) (hj : j < l.length) :
    (swapL l i j hi hj).length = l.length := by simp [swapL]

theorem swapL_get? {l : List α} {i j : Nat} (hi : i < l.length) (hj : j < l.length) (p : Nat) :
    (swapL l i j hi hj)[p]? = if p = j then l[i]? else if p = i then l[j]? else l[p]? := by
  unfold swapL
  rw [List.getElem?_set, List.getElem?_set]
  by_cases h1 : p = j
  · subst h1; simp [hj, hi]
  · by_cases h2 : p = i
    · subst h2
      rw [if_neg (Ne.symm h1)]
      simp [h1, hi, hj]
    · rw [if_neg (Ne.symm h1), if_neg (Ne.symm h2), if_neg h1, if_neg h2]

end Sorting
end Efp
