import Verif.Stays

/-!
# References into a Vector: C125

A reference or iterator stays valid as long as the vector keeps its block, that is, as long as it neither allocates nor frees one.
-/

namespace Efp
namespace Props

open Spec VecS

variable {α : Type}

/-- C125 is false: after `reserve(n)` on an empty vector the `n`-th `push_back` moves all elements to another block, for every
`n`, although there is room. -/
theorem C125_reserve_moves (k : Kind) (xs : List α) (a : α) :
    ∃ s t, session k none (.reserve (xs.length + 1) :: xs.map .push) = .ok (s, List.replicate (xs.length + 1) false) ∧ s.led.alloc = 1 ∧
      s.led.freed = 0 ∧ s.cap = xs.length + 1 ∧ pushBack k a s = .ok () t ∧ t.contents = .ok (xs ++ [a]) ∧ t.led.alloc = 2 ∧ t.led.freed = 1 ∧
      t.led.reloc = xs.length := by
  suffices h : ∀ (ys : List α) (s : VecS α) (l : List α), Rep k s l → l.length + ys.length < s.cap → ∃ t,
      runOps k (ys.map Op.push) s = .ok (t, List.replicate ys.length false) ∧ Rep k t (l ++ ys) ∧ t.cap = s.cap ∧
      t.led.alloc = s.led.alloc ∧ t.led.freed = s.led.freed ∧ t.led.reloc = s.led.reloc by
    have h0 := reserve_run (rep_mk0 k ({} : Ledger) : Rep k (mk0 {}) ([] : List α)) (xs.length + 1)
    rw [if_pos (by simp [mk0])] at h0
    have hr0 := rep_afterRealloc (k := k) (mk0 {} : VecS α) [] (xs.length + 1) (Nat.zero_le _)
    obtain ⟨s, hs, hr, hc, h1, h2, h3⟩ := h xs _ [] hr0 (by simp [afterRealloc])
    obtain ⟨t, ht, htr, -, -, -, hled⟩ := pushBack_run hr a
    simp only [List.nil_append] at hr htr hled
    have hcap : s.cap = xs.length + 1 := hc
    rw [if_pos (by have := hr.1; omega)] at hled
    refine ⟨s, t, ?_, ?_, ?_, hcap, ht, htr.contents, ?_, ?_, ?_⟩
    · simp only [session, runOps, Op.run]
      rw [h0]
      simp only [hs]
      rfl
    · rw [h1]; rfl
    · rw [h2]; simp [afterRealloc, mk0, hadBlock]
    · rw [hled, h1]; rfl
    · rw [hled, h2, hr.hadBlock_of_pos (by omega)]; simp [afterRealloc, mk0, hadBlock]
    · rw [hled, h3]; simp [afterRealloc, mk0]
  intro ys
  induction ys with
  | nil => intro s l h _; exact ⟨s, rfl, by simpa using h, rfl, rfl, rfl, rfl⟩
  | cons y ys ih =>
    intro s l h hl
    simp only [List.length_cons] at hl
    obtain ⟨t, ht, hr, -, -, hcap, hled⟩ := pushBack_run h y
    have hn : ¬ s.size + 1 ≥ s.cap := by have := h.1; omega
    rw [if_neg hn] at hcap hled
    obtain ⟨u, hu, hur, hc, h1, h2, h3⟩ := ih t (l ++ [y]) hr (by simp; omega)
    refine ⟨u, ?_, by simpa using hur, by omega, by rw [h1, hled], by rw [h2, hled], by rw [h3, hled]⟩
    simp only [List.map_cons, runOps, Op.run, ht, hu]
    rfl

/-- C125 as far as it holds: after `reserve(n)` on any vector, calls that keep the number of elements below `n` allocate and free
nothing, so every reference to an element of the list stays a reference to it.  (The positional calls on resource-owning elements
are excluded as in C03.) -/
theorem C125_reserve_partial {k : Kind} {s : VecS α} {l : List α} (hs : VecReachable k s l) {n : Nat} (ops : List (Op α))
    (hops : k = .managed → endHistory ops l) (hn : 0 < n) (hr : roomy n (n - 1) ops l) :
    ∃ t u, VecS.reserve k n s = .ok () t ∧ t.contents = .ok l ∧ n ≤ t.cap ∧ runOps k ops t = .ok (u, (vecRun ops l).2) ∧
      u.contents = .ok (vecRun ops l).1 ∧ u.led.alloc = t.led.alloc ∧ u.led.freed = t.led.freed ∧ u.ptr = t.ptr ∧ u.cap = t.cap := by
  obtain ⟨h, hsp⟩ := rep_of_reachable hs
  have hrun := step_run h hsp (.reserve n) (fun _ => trivial)
  simp only [vecStep] at hrun
  obtain ⟨t, ht, htr, hts, -⟩ := hrun
  have hcap : n ≤ t.cap := by
    have h2 := reserve_run h n
    simp only [Op.run] at ht
    rw [ht] at h2
    cases h2
    split
    · exact Nat.le_refl _
    · omega
  obtain ⟨u, hu, hur, hst⟩ := history_stays ops htr hts hops hcap (m := n - 1) (by omega) hr
  exact ⟨t, u, ht, htr.contents, hcap, hu, hur.contents, hst.1, hst.2, hst.3, hst.4⟩

/-- C125: `pop_back`, `clear`, `erase` and writing an element never move the elements, whatever the capacity. -/
theorem C125_removal_stays {k : Kind} {s : VecS α} {l : List α} (hs : VecReachable k s l) (op : Op α)
    (hop : match op with | .pop | .clear | .erase _ | .setElem _ _ => True | _ => False) (hend : k = .managed → endOp op l) :
    (∃ t, op.run k s = .ok () t ∧ t.contents = .ok ((vecStep op l).getD l) ∧ t.led.alloc = s.led.alloc ∧ t.led.freed = s.led.freed ∧
      t.ptr = s.ptr ∧ t.cap = s.cap) ∨ op.run k s = .thrown s := by
  obtain ⟨h, hsp⟩ := rep_of_reachable hs
  have hrun := step_run h hsp op hend
  have hst : StaysOut s (op.run k s) := by
    cases op with
    | pop => exact popBack_stays k s
    | clear => exact clear_stays k s
    | erase i => exact erase_stays k i s
    | setElem i a => exact setElem_stays k i a s
    | _ => exact hop.elim
  cases hv : vecStep op l with
  | none => rw [hv] at hrun; exact .inr hrun
  | some l' =>
    rw [hv] at hrun
    obtain ⟨t, ht, htr, -⟩ := hrun
    rw [ht] at hst
    exact .inl ⟨t, ht, htr.contents, hst.1, hst.2, hst.3, hst.4⟩

/-- a history within the reserved room -/
example : roomy 4 3 [.push 5, .push 6, .setElem 0 9, .pop, .insert 0 7, .erase 1, .clear, .push 1] ([2] : List Nat) := by
  simp [roomy, keepsBlock, vecStep]

example : ∃ s : VecS Nat, VecReachable .managed s [2] :=
  ⟨_, some [2], [], {}, _, fun _ => trivial, rfl, rfl⟩

/-- three elements in a vector for which room for three was reserved: the third `push_back` allocates -/
example : ((session .managed none [.reserve 3, .push 1, .push 2]).map (fun r => (r.1.led.alloc, r.1.cap)) =
      .ok (1, 3)) ∧ (session .managed none [.reserve 3, .push 1, .push 2, .push 3]).map (fun r => (r.1.led.alloc, r.1.cap)) = .ok (2, 5) := by
  decide +kernel

end Props
end Efp
