import Verif.SortQuick

/-! Heapsort. -/

namespace Efp
namespace Sorting

variable {α : Type} {k : Kind} {comp : α → α → Bool} {led : Ledger}

open Spec

theorem read_getD {l : List α} {i : Nat} (h : i < l.length) (d : α) :
    Mem.read i (St led l) = .ok (l.getD i d) (St led l) := by
  rw [read_get h]; simp [List.getD_eq_getElem?_getD, h]

theorem swapL_getD {l : List α} {i j : Nat} (hi : i < l.length) (hj : j < l.length) (p : Nat) (d : α) :
    (swapL l i j hi hj).getD p d = if p = j then l.getD i d else if p = i then l.getD j d else l.getD p d := by
  simp only [List.getD_eq_getElem?_getD, swapL_get? hi hj p]
  split
  · rfl
  · split <;> rfl

theorem pickLarger_run {l : List α} {n largest c : Nat} (d : α) (hn : n ≤ l.length) (hl : largest < n) :
    ∃ r, pickLarger comp n largest c (St led l) = .ok r (St led l) ∧ r < n ∧ (r = largest ∨ r = c) ∧
      (StrictWeakOrder comp → comp (l.getD r d) (l.getD largest d) = false ∧
        (c < n → comp (l.getD r d) (l.getD c d) = false)) := by
  unfold pickLarger
  by_cases hc : c < n
  · rw [if_pos hc, Cpp.bind_ok (read_getD (by omega) d), Cpp.bind_ok (read_getD (by omega) d)]
    refine ⟨_, rfl, ?_⟩
    by_cases h : comp (l.getD largest d) (l.getD c d) = true
    · rw [if_pos h]
      exact ⟨hc, .inr rfl, fun hs => ⟨swo_asymm hs h, fun _ => hs.irrefl _⟩⟩
    · rw [if_neg h]
      exact ⟨hl, .inl rfl, fun hs => ⟨hs.irrefl _, fun _ => eq_false_of_ne_true h⟩⟩
  · rw [if_neg hc]
    exact ⟨largest, rfl, hl, .inl rfl, fun hs => ⟨hs.irrefl _, fun h => absurd h hc⟩⟩

/-- the parent `p` is not less than its children below `n` -/
def HeapAt (comp : α → α → Bool) (n : Nat) (f : Nat → α) (p : Nat) : Prop :=
  ∀ c, c = 2 * p + 1 ∨ c = 2 * p + 2 → c < n → comp (f p) (f c) = false

theorem heapifyF_run (d : α) (fuel n i : Nat) (l : List α) (hn : n ≤ l.length) (hi : i < n) (hf : n - i ≤ fuel) :
    ∃ l', heapifyF k comp fuel n i (St led l) = .ok () (St led l') ∧ l'.Perm l ∧
      (∀ p, n ≤ p → l'.getD p d = l.getD p d) ∧
      (∀ p, p < n → ∃ p', p' < n ∧ l'.getD p d = l.getD p' d) ∧
      (StrictWeakOrder comp → ∀ lo, lo ≤ i →
        (∀ p, lo ≤ p → p ≠ i → HeapAt comp n (fun q => l.getD q d) p) →
        (∀ q, lo ≤ q → i = 2 * q + 1 ∨ i = 2 * q + 2 → ∀ c, c = 2 * i + 1 ∨ c = 2 * i + 2 → c < n →
          comp (l.getD q d) (l.getD c d) = false) →
        ∀ p, lo ≤ p → HeapAt comp n (fun q => l'.getD q d) p) := by
  induction fuel generalizing i l with
  | zero => omega
  | succ fuel ih =>
    obtain ⟨l1, h1, h1n, h1c, h1s⟩ := pickLarger_run (comp := comp) (led := led) (c := 2 * i + 1) d hn hi
    obtain ⟨r, h2, h2n, h2c, h2s⟩ := pickLarger_run (comp := comp) (led := led) (c := 2 * i + 2) d hn h1n
    have hbest : StrictWeakOrder comp → comp (l.getD r d) (l.getD i d) = false ∧
        ∀ c, c = 2 * i + 1 ∨ c = 2 * i + 2 → c < n → comp (l.getD r d) (l.getD c d) = false := by
      intro hs
      obtain ⟨a1, a2⟩ := h1s hs
      obtain ⟨b1, b2⟩ := h2s hs
      refine ⟨swo_negtrans hs b1 a1, ?_⟩
      rintro c (rfl | rfl) hc
      · exact swo_negtrans hs b1 (a2 hc)
      · exact b2 hc
    simp only [heapifyF]
    rw [Cpp.bind_ok h1, Cpp.bind_ok h2]
    by_cases hr : r = i
    · rw [if_neg (by simpa using hr)]
      subst hr
      refine ⟨l, rfl, .refl _, fun _ _ => rfl, fun p hp => ⟨p, hp, rfl⟩, fun hs lo _ hh _ p hp => ?_⟩
      by_cases hpr : p = r
      · subst hpr
        exact (hbest hs).2
      · exact hh p hp hpr
    · rw [if_pos hr]
      have hri : r = 2 * i + 1 ∨ r = 2 * i + 2 := by omega
      have hil : i < l.length := by omega
      have hrl : r < l.length := by omega
      obtain ⟨l', g1, g2, g3, g4, g5⟩ := ih r (swapL l i r hil hrl) (by simpa using hn) h2n (by omega)
      refine ⟨l', ?_, g2.trans (swapL_perm hil hrl), ?_, ?_, ?_⟩
      · rw [Cpp.bind_ok (swap_run hil hrl), g1]
      · intro p hp
        rw [g3 p hp, swapL_getD, if_neg (by omega), if_neg (by omega)]
      · intro p hp
        obtain ⟨p', hp', he⟩ := g4 p hp
        rw [he, swapL_getD]
        by_cases h3 : p' = r
        · exact ⟨i, hi, by rw [if_pos h3]⟩
        · by_cases h4 : p' = i
          · exact ⟨r, h2n, by rw [if_neg h3, if_pos h4]⟩
          · exact ⟨p', hp', by rw [if_neg h3, if_neg h4]⟩
      · intro hs lo hlo hh hg
        refine g5 hs lo (by omega) ?_ ?_
        · intro p hp hpr c hc hcn
          dsimp only
          rw [swapL_getD, swapL_getD, if_neg hpr]
          by_cases hpi : p = i
          · subst hpi
            rw [if_pos rfl]
            by_cases hcr : c = r
            · rw [if_pos hcr]; exact (hbest hs).1
            · rw [if_neg hcr, if_neg (by omega)]
              exact (hbest hs).2 c hc hcn
          · rw [if_neg hpi, if_neg (by omega)]
            by_cases hci : c = i
            · rw [if_pos hci]
              subst hci
              exact hg p hp hc r hri h2n
            · rw [if_neg hci]
              exact hh p hp hpi c hc hcn
        · intro q hq hqr c hc hcn
          have hqi : q = i := by omega
          subst hqi
          rw [swapL_getD, swapL_getD, if_neg (by omega), if_pos rfl, if_neg (by omega), if_neg (by omega)]
          exact hh r (by omega) hr c hc hcn

theorem buildLoop_run (d : α) (n c : Nat) (l : List α) (hn : n ≤ l.length) (hc : c ≤ n) :
    ∃ l', buildLoop k comp n c (St led l) = .ok () (St led l') ∧ l'.Perm l ∧
      (StrictWeakOrder comp → (∀ p, c ≤ p → HeapAt comp n (fun q => l.getD q d) p) →
        ∀ p, HeapAt comp n (fun q => l'.getD q d) p) := by
  induction c generalizing l with
  | zero => exact ⟨l, rfl, .refl _, fun _ h p => h p (Nat.zero_le p)⟩
  | succ i ih =>
    obtain ⟨l1, h1, h2, _, _, h5⟩ := heapifyF_run (k := k) (comp := comp) (led := led) d (n + 1) n i l hn
      (by omega) (by omega)
    obtain ⟨l2, g1, g2, g3⟩ := ih l1 (by rw [h2.length_eq]; exact hn) (by omega)
    refine ⟨l2, ?_, g2.trans h2, fun hs hh => g3 hs ?_⟩
    · have h1' : heapify k comp n i (St led l) = .ok () (St led l1) := h1
      simp only [buildLoop]
      rw [Cpp.bind_ok h1', g1]
    · refine h5 hs i (Nat.le_refl i) (fun p hp hpi => hh p (by omega)) ?_
      intro q hq h
      omega

theorem heap_root {n : Nat} {f : Nat → α} (hs : StrictWeakOrder comp) (hh : ∀ p, HeapAt comp n f p) (p : Nat)
    (hp : p < n) : comp (f 0) (f p) = false := by
  induction p using Nat.strongRecOn with
  | ind p ih =>
    by_cases h0 : p = 0
    · subst h0; exact hs.irrefl _
    · have h1 := ih ((p - 1) / 2) (by omega) (by omega)
      have h2 := hh ((p - 1) / 2) p (by omega) hp
      exact swo_negtrans hs h1 h2

theorem extractLoop_run (d : α) (c : Nat) (l : List α) (hc : c ≤ l.length) :
    ∃ l', extractLoop k comp c (St led l) = .ok () (St led l') ∧ l'.Perm l ∧
      (StrictWeakOrder comp → (∀ p, HeapAt comp c (fun q => l.getD q d) p) →
        (∀ p q, p < q → c ≤ q → q < l.length → comp (l.getD q d) (l.getD p d) = false) →
        ∀ p q, p < q → q < l.length → comp (l'.getD q d) (l'.getD p d) = false) := by
  fun_induction extractLoop k comp c generalizing l with
  | case1 => exact ⟨l, rfl, .refl _, fun _ _ h p q hpq hq => h p q hpq (by omega) hq⟩
  | case2 => exact ⟨l, rfl, .refl _, fun _ _ h p q hpq hq => h p q hpq (by omega) hq⟩
  | case3 i ih =>
    have h0 : 0 < l.length := by omega
    have hi : i + 1 < l.length := by omega
    obtain ⟨l1, h1, h2, h3, h4, h5⟩ := heapifyF_run (k := k) (comp := comp) (led := led) d (i + 1 + 1) (i + 1) 0
      (swapL l 0 (i + 1) h0 hi) (by simp; omega) (by omega) (by omega)
    have hlen : l1.length = l.length := by rw [h2.length_eq, swapL_length]
    obtain ⟨l2, g1, g2, g3⟩ := ih l1 (by omega)
    refine ⟨l2, ?_, g2.trans (h2.trans (swapL_perm h0 hi)), fun hs hh ht => ?_⟩
    · have h1' : heapify k comp (i + 1) 0 (St led (swapL l 0 (i + 1) h0 hi)) = .ok () (St led l1) := h1
      rw [Cpp.bind_ok (swap_run h0 hi), Cpp.bind_ok h1', g1]
    · have key := g3 hs ?_ ?_
      · intro p q hpq hq
        exact key p q hpq (by omega)
      · intro p
        refine h5 hs 0 (Nat.le_refl 0) ?_ ?_ p (Nat.zero_le p)
        · intro p _ hp0 c hc hcn
          dsimp only
          rw [swapL_getD, swapL_getD, if_neg (by omega), if_neg hp0, if_neg (by omega), if_neg (by omega)]
          exact hh p c hc (by omega)
        · intro q _ h
          omega
      · -- values of `l1` below `i + 1` are values of `l` below `i + 2`
        have hval : ∀ p, p < i + 1 → ∃ p', p' < i + 2 ∧ l1.getD p d = l.getD p' d := by
          intro p hp
          obtain ⟨p', hp', he⟩ := h4 p hp
          rw [he, swapL_getD]
          by_cases h6 : p' = i + 1
          · omega
          · by_cases h7 : p' = 0
            · exact ⟨i + 1, by omega, by rw [if_neg h6, if_pos h7]⟩
            · exact ⟨p', by omega, by rw [if_neg h6, if_neg h7]⟩
        have htop : l1.getD (i + 1) d = l.getD 0 d := by
          rw [h3 _ (Nat.le_refl _), swapL_getD, if_pos rfl]
        have hhi : ∀ q, i + 2 ≤ q → l1.getD q d = l.getD q d := by
          intro q hq
          rw [h3 q (by omega), swapL_getD, if_neg (by omega), if_neg (by omega)]
        intro p q hpq hq hql
        rw [hlen] at hql
        by_cases hqi : q = i + 1
        · subst hqi
          obtain ⟨p', hp', he⟩ := hval p hpq
          rw [htop, he]
          exact heap_root hs hh p' hp'
        · rw [hhi q (by omega)]
          by_cases hpi : p < i + 1
          · obtain ⟨p', hp', he⟩ := hval p hpi
            rw [he]
            exact ht p' q (by omega) (by omega) hql
          · by_cases hpe : p = i + 1
            · subst hpe
              rw [htop]
              exact ht 0 q (by omega) (by omega) hql
            · rw [hhi p (by omega)]
              exact ht p q hpq (by omega) hql

theorem heapsortBy_run (l : List α) :
    ∃ l', heapsortBy k comp (St led l) = .ok () (St led l') ∧ l'.Perm l ∧
      (StrictWeakOrder comp → Sorted comp l') := by
  have hl : (St led l).cells.length = l.length := by simp [St]
  cases hl0 : l with
  | nil => exact ⟨[], rfl, .refl _, fun _ => .nil⟩
  | cons d ds =>
    rw [← hl0]
    have hbuild : ∃ l1, (if l.length > 1 then buildLoop k comp l.length (l.length / 2) else pure ()) (St led l) =
        .ok () (St led l1) ∧ l1.Perm l ∧
        (StrictWeakOrder comp → ∀ p, HeapAt comp l.length (fun q => l1.getD q d) p) := by
      by_cases h : l.length > 1
      · rw [if_pos h]
        obtain ⟨l1, h1, h2, h3⟩ := buildLoop_run (k := k) (comp := comp) (led := led) d l.length (l.length / 2) l
          (Nat.le_refl _) (by omega)
        exact ⟨l1, h1, h2, fun hs => h3 hs (fun p hp c hc hcn => by omega)⟩
      · rw [if_neg h]
        exact ⟨l, rfl, .refl _, fun _ p c hc hcn => by omega⟩
    obtain ⟨l1, h1, h2, h3⟩ := hbuild
    obtain ⟨l2, g1, g2, g3⟩ := extractLoop_run (k := k) (comp := comp) (led := led) d l1.length l1 (Nat.le_refl _)
    refine ⟨l2, ?_, g2.trans h2, fun hs => ?_⟩
    · unfold heapsortBy
      rw [Cpp.bind_ok (Cpp.get_run _), hl]
      rw [h2.length_eq] at g1
      by_cases h : l.length > 1
      · rw [if_pos h] at h1 ⊢
        exact (Cpp.bind_ok h1).trans g1
      · rw [if_neg h] at h1 ⊢
        have hst := (Out.ok.inj h1).2
        rw [hst]
        exact g1
    · have key := g3 hs (by rw [h2.length_eq]; exact h3 hs) (by intro p q _ h4 h5; omega)
      refine List.pairwise_iff_getElem.mpr ?_
      intro p q hp hq hpq
      have := key p q hpq (by rw [← g2.length_eq]; exact hq)
      simpa [List.getD_eq_getElem?_getD, hp, hq] using this

end Sorting
end Efp
