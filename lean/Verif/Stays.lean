import Verif.VectorHistory
import Verif.Spec.Stays

/-! Calls that leave the elements of a Vector where they are (helper lemmas of C125). -/

namespace Efp
namespace VecS

variable {α β γ : Type}

/-- no block was allocated or freed, and the vector still has the block it had -/
structure Stays (s t : VecS α) : Prop where
  alloc : t.led.alloc = s.led.alloc
  freed : t.led.freed = s.led.freed
  ptr : t.ptr = s.ptr
  cap : t.cap = s.cap

theorem Stays.refl (s : VecS α) : Stays s s := ⟨rfl, rfl, rfl, rfl⟩

theorem Stays.trans {s t u : VecS α} (h : Stays s t) (h' : Stays t u) : Stays s u :=
  ⟨h'.1.trans h.1, h'.2.trans h.2, h'.3.trans h.3, h'.4.trans h.4⟩

/-- the outcome of a call that leaves the block where it is -/
def StaysOut (s : VecS α) : Out (VecS α) β → Prop
  | .ok _ t => Stays s t
  | .thrown t => Stays s t
  | .ub _ => True

theorem staysOut_trans {s t : VecS α} (h : Stays s t) {o : Out (VecS α) β} (ho : StaysOut t o) : StaysOut s o := by
  cases o with
  | ok b u => exact h.trans ho
  | thrown u => exact h.trans ho
  | ub w => trivial

theorem staysOut_bind {m : Cpp (VecS α) β} {f : β → Cpp (VecS α) γ} {s : VecS α} (hm : StaysOut s (m s))
    (hf : ∀ b t, m s = .ok b t → StaysOut t (f b t)) : StaysOut s ((m >>= f) s) := by
  rw [Cpp.bind_run]
  cases h : m s with
  | ok b t => rw [h] at hm; exact staysOut_trans hm (hf b t h)
  | thrown t => rw [h] at hm; exact hm
  | ub w => trivial

/-- the same for a statement on the elements -/
def MemStays (m : Cpp (Mem α) β) : Prop := ∀ s, match m s with
  | .ok _ t => t.led.alloc = s.led.alloc ∧ t.led.freed = s.led.freed
  | .thrown t => t.led.alloc = s.led.alloc ∧ t.led.freed = s.led.freed
  | .ub _ => True

theorem onMem_stays {m : Cpp (Mem α) β} (h : MemStays m) (s : VecS α) : StaysOut s (onMem m s) := by
  have := h s.toMem
  unfold onMem
  cases hp : s.ptr with
  | null => trivial
  | wild => trivial
  | block =>
    simp only
    cases hm : m s.toMem with
    | ok b t => rw [hm] at this; exact ⟨this.1, this.2, hp.symm, rfl⟩
    | thrown t => rw [hm] at this; exact ⟨this.1, this.2, hp.symm, rfl⟩
    | ub w => trivial

theorem construct_stays (i : Nat) (a : α) : MemStays (Mem.construct i a) := by
  intro s; unfold Mem.construct; split <;> simp_all
  rename_i h; split at h <;> simp_all
  obtain ⟨-, rfl⟩ := h; simp
  rename_i h; split at h <;> simp_all

theorem destroy_stays (k : Kind) (i : Nat) : MemStays (α := α) (Mem.destroy k i) := by
  intro s
  unfold Mem.destroy
  cases s.cells[i]? with
  | none => trivial
  | some c => cases k with
    | trivial => exact ⟨rfl, rfl⟩
    | managed =>
      simp only
      by_cases h : c.alive = true
      · rw [if_pos h]; exact ⟨rfl, rfl⟩
      · rw [if_neg h]; trivial

theorem moveOut_stays (k : Kind) (i : Nat) : MemStays (α := α) (Mem.moveOut k i) := by
  intro s
  unfold Mem.moveOut
  cases s.cells[i]? with
  | none => trivial
  | some c => cases c with
    | raw => trivial
    | moved => trivial
    | live a => cases k <;> exact ⟨rfl, rfl⟩

theorem assign_stays (k : Kind) (i : Nat) (a : α) : MemStays (Mem.assign k i a) := by
  intro s
  unfold Mem.assign
  cases s.cells[i]? with
  | none => trivial
  | some c =>
    simp only
    by_cases h : k = .managed ∧ c.alive = false
    · rw [if_pos h]; trivial
    · rw [if_neg h]; exact ⟨rfl, rfl⟩

theorem forUp_stays {body : Nat → Cpp (VecS α) Unit} (h : ∀ i s, StaysOut s (body i s)) : ∀ (n lo : Nat) (s : VecS α),
    StaysOut s (forUp body lo n s)
  | 0, _, s => Stays.refl s
  | n + 1, lo, s => staysOut_bind (h lo s) fun _ _ _ => forUp_stays h n _ _

theorem forDown_stays {body : Nat → Cpp (VecS α) Unit} (h : ∀ i s, StaysOut s (body i s)) : ∀ (n hi : Nat) (s : VecS α),
    StaysOut s (forDown body hi n s)
  | 0, _, s => Stays.refl s
  | n + 1, hi, s => staysOut_bind (h hi s) fun _ _ _ => forDown_stays h n _ _

theorem destroyAll_stays (k : Kind) (s : VecS α) : StaysOut s (destroyAll k s) :=
  forUp_stays (fun i s => onMem_stays (destroy_stays k i) s) _ _ _

theorem modifySize_stays (f : Nat → Nat) (s : VecS α) :
    StaysOut s ((Cpp.modify (fun s => { s with size := f s.size }) : Cpp (VecS α) Unit) s) := ⟨rfl, rfl, rfl, rfl⟩

theorem popBack_stays (k : Kind) (s : VecS α) : StaysOut s ((Op.pop : Op α).run k s) := by
  simp only [Op.run, popBack]
  rw [Cpp.bind_ok (Cpp.get_run _)]
  split
  · exact Stays.refl s
  · exact staysOut_bind (onMem_stays (destroy_stays _ _) _) fun _ t _ => modifySize_stays (· - 1) t

theorem erase_stays (k : Kind) (i : Nat) (s : VecS α) : StaysOut s ((Op.erase i : Op α).run k s) := by
  simp only [Op.run, VecS.erase]
  rw [Cpp.bind_ok (Cpp.get_run _)]
  split
  · exact Stays.refl s
  · refine staysOut_bind (onMem_stays (destroy_stays k _) _) fun _ t _ => ?_
    refine staysOut_bind (forUp_stays (fun j u => ?_) _ _ _) fun _ u _ => modifySize_stays (· - 1) u
    exact staysOut_bind (onMem_stays (moveOut_stays k _) _) fun _ _ _ => onMem_stays (assign_stays k _ _) _

theorem clear_stays (k : Kind) (s : VecS α) : StaysOut s ((Op.clear : Op α).run k s) := by
  simp only [Op.run, VecS.clear]
  exact staysOut_bind (destroyAll_stays k s) fun _ t _ => modifySize_stays (fun _ => 0) t

theorem setElem_stays (k : Kind) (i : Nat) (a : α) (s : VecS α) : StaysOut s ((Op.setElem i a : Op α).run k s) := by
  simp only [Op.run]
  split
  · exact onMem_stays (assign_stays k _ _) _
  · exact Stays.refl s

theorem step_stays {k : Kind} {s : VecS α} {l : List α} (h : Rep k s l) {n : Nat} (hc : n ≤ s.cap) (op : Op α)
    (hop : Spec.keepsBlock n op) (hl : ((Spec.vecStep op l).getD l).length < n) : StaysOut s (op.run k s) := by
  have hsz := h.1
  cases op with
  | push a =>
    simp only [Spec.vecStep, Option.getD_some, List.length_append, List.length_singleton] at hl
    have hg : growPush k s = .ok () s := by
      unfold growPush
      rw [if_neg (by omega)]
    simp only [Op.run, pushBack]
    rw [Cpp.bind_ok hg, Cpp.bind_ok (Cpp.get_run _)]
    exact staysOut_bind (onMem_stays (construct_stays _ _) _) fun _ t _ => modifySize_stays (· + 1) t
  | pop =>
    exact popBack_stays k s
  | insert i a =>
    simp only [Op.run, VecS.insert]
    rw [Cpp.bind_ok (Cpp.get_run _)]
    by_cases hi : i > s.size
    · rw [if_pos hi]; exact Stays.refl s
    · rw [if_neg hi]
      simp only [Spec.vecStep, if_pos (show i ≤ l.length by omega), Option.getD_some, List.length_append, List.length_cons, List.length_take,
        List.length_drop] at hl
      rw [if_neg (by omega)]
      refine staysOut_bind (forDown_stays (fun j u => ?_) _ _ _) fun _ u _ => ?_
      · exact staysOut_bind (onMem_stays (moveOut_stays k _) _) fun _ _ _ => onMem_stays (assign_stays k _ _) _
      · exact staysOut_bind (onMem_stays (construct_stays _ _) _) fun _ t _ => modifySize_stays (· + 1) t
  | erase i =>
    exact erase_stays k i s
  | clear =>
    exact clear_stays k s
  | reserve m =>
    have : m ≤ n := hop
    simp only [Op.run, reserve]
    rw [if_neg (by omega)]
    exact Stays.refl s
  | shrinkToFit => exact hop.elim
  | shrinkTo m =>
    simp only [Spec.vecStep, Option.getD_some, List.length_take] at hl
    simp only [Op.run]
    split
    · rename_i hm
      unfold resize
      rw [Cpp.bind_ok (Cpp.get_run _), if_neg (by omega)]
      exact modifySize_stays (fun _ => m) s
    · exact Stays.refl s
  | setElem i a =>
    exact setElem_stays k i a s

theorem history_stays {k : Kind} {n : Nat} (ops : List (Op α)) {s : VecS α} {l : List α} (h : Rep k s l) (hsp : Spare s)
    (hops : k = .managed → Spec.endHistory ops l) (hc : n ≤ s.cap) {m : Nat} (hm : m < n) (hr : Spec.roomy n m ops l) :
    ∃ t, runOps k ops s = .ok (t, (Spec.vecRun ops l).2) ∧ Rep k t (Spec.vecRun ops l).1 ∧ Stays s t := by
  induction ops generalizing s l with
  | nil => exact ⟨s, rfl, h, Stays.refl s⟩
  | cons op ops ih =>
    have hstep := step_run h hsp op (fun hk => (hops hk).1)
    have hst := step_stays h hc op hr.2.1 (by
      cases ops with
      | nil => exact Nat.lt_of_le_of_lt hr.2.2 hm
      | cons _ _ => exact Nat.lt_of_le_of_lt hr.2.2.1 hm)
    have hr2 := hr.2.2
    simp only [runOps, Spec.vecRun]
    cases hv : Spec.vecStep op l with
    | none =>
      rw [hv] at hstep hr2
      obtain ⟨t, ht, hr, hts⟩ := ih h hsp (fun hk => by have := (hops hk).2; rwa [hv] at this) hc hr2
      refine ⟨t, ?_, hr, hts⟩
      simp only at hstep
      rw [hstep]
      simp only [ht]; rfl
    | some l' =>
      rw [hv] at hstep hr2
      obtain ⟨u, hu, hur, hus, hub⟩ := hstep
      rw [hu] at hst
      obtain ⟨t, ht, hr, hts⟩ := ih hur hus (fun hk => by have := (hops hk).2; rwa [hv] at this) (by rw [Stays.cap hst]; exact hc) hr2
      refine ⟨t, ?_, hr, Stays.trans hst hts⟩
      rw [hu]; simp only [ht]; rfl

end VecS
end Efp
