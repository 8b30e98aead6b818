import Verif.VectorLemmas2
import Verif.Spec.Lists

/-! Simulation of `Vector` histories by list histories (helper lemmas). -/

namespace Efp
namespace VecS

variable {α β : Type}

/-- either nothing was allocated so far or there is a spare slot -/
def Spare (s : VecS α) : Prop := (s.cap = 0 ∧ s.ptr = .null) ∨ s.size < s.cap

theorem Rep.hadBlock_of_pos {k : Kind} {s : VecS α} {l : List α} (h : Rep k s l) (hc : s.cap ≠ 0) :
    hadBlock s = 1 := by
  obtain ⟨_, h | ⟨hp, _⟩⟩ := h
  · exact absurd h.2.2.1 hc
  · simp [hadBlock, hp]

/-- what one step preserves: object and block balance -/
structure Balance (k : Kind) (s t : VecS α) (l l' : List α) : Prop where
  objs : k = .managed → t.led.objs = s.led.objs + l'.length - l.length
  blocks : t.led.blocks - hadBlock t = s.led.blocks - hadBlock s
  fresh : t.cap = 0 → s.cap = 0 ∧ t.led.alloc = s.led.alloc

theorem Balance.refl (k : Kind) (s : VecS α) (l : List α) : Balance k s s l l :=
  ⟨fun _ => by omega, rfl, fun h => ⟨h, rfl⟩⟩

theorem step_run {k : Kind} {s : VecS α} {l : List α} (h : Rep k s l) (hsp : Spare s) (op : Op α)
    (hop : k = .managed → Spec.endOp op l) :
    match Spec.vecStep op l with
    | some l' => ∃ t, op.run k s = .ok () t ∧ Rep k t l' ∧ Spare t ∧ Balance k s t l l'
    | none => op.run k s = .thrown s := by
  have hsz := h.1
  have hle := h.size_le_cap
  have hsp' : s.cap = 0 ∨ s.size < s.cap := by
    rcases hsp with h | h
    · exact .inl h.1
    · exact .inr h
  cases op with
  | push a =>
    obtain ⟨t, ht, hr, hp, hc, _, hled⟩ := pushBack_run h a
    refine ⟨t, ht, hr, .inr hc, ⟨fun _ => ?_, ?_, fun h0 => by omega⟩⟩
    · rw [hled]; split <;> simp [Ledger.objs] <;> omega
    · rw [hled]
      split
      · simp [Ledger.blocks, hadBlock, hp]; omega
      · have := h.hadBlock_of_pos (by omega)
        rw [this]; simp [Ledger.blocks, hadBlock, hp]
  | pop =>
    rcases List.eq_nil_or_concat l with rfl | ⟨l, a, rfl⟩
    · simpa [Spec.vecStep, Op.run] using popBack_throw h
    · simp only [List.concat_eq_append] at h ⊢
      obtain ⟨t, ht, hr, hc, hp, hled⟩ := popBack_run h
      simp only [Spec.vecStep, List.append_eq_nil_iff, List.cons_ne_self, and_false, if_false,
        List.dropLast_concat]
      refine ⟨t, ht, hr, ?_, ⟨fun _ => ?_, ?_, fun h0 => by simp at hsz; omega⟩⟩
      · right; rw [hr.1, hc]; simp at hsz; omega
      · rw [hled]; simp [Ledger.objs]; omega
      · rw [hled]; simp [Ledger.blocks, hadBlock, hp]
  | insert i a =>
    simp only [Spec.vecStep]
    by_cases hi : i ≤ l.length
    · rw [if_pos hi]
      cases k with
      | trivial =>
        obtain ⟨t, ht, hr, hp, hc, hb⟩ := insert_run_trivial h a hi
        refine ⟨t, ht, hr, .inr (hc hsp'), ⟨by simp, ?_, fun h0 => by have := hc hsp'; omega⟩⟩
        rw [hb]; simp [hadBlock, hp]; omega
      | managed =>
        have hil : i = l.length := Nat.le_antisymm hi (hop rfl)
        subst hil
        obtain ⟨t, ht, hr, hp, hc, hled⟩ := insert_end_run h a
        refine ⟨t, ht, by simpa using hr, .inr (hc hsp'), ⟨fun _ => ?_, ?_,
          fun h0 => by have := hc hsp'; omega⟩⟩
        · rw [hled]; split <;> simp [Ledger.objs] <;> omega
        · rw [hled]
          split
          · simp [Ledger.blocks, hadBlock, hp]; omega
          · have := h.hadBlock_of_pos (by omega)
            rw [this]; simp [Ledger.blocks, hadBlock, hp]
    · rw [if_neg hi]
      exact insert_throw h a (by omega)
  | erase i =>
    simp only [Spec.vecStep]
    by_cases hi : i < l.length
    · rw [if_pos hi, ← List.eraseIdx_eq_take_drop_succ]
      cases k with
      | trivial =>
        obtain ⟨t, ht, hr, hp, hc, hb⟩ := erase_run_trivial h hi
        refine ⟨t, ht, hr, ?_, ⟨by simp, ?_, fun h0 => by omega⟩⟩
        · right; rw [hr.1, hc, List.length_eraseIdx_of_lt hi]; omega
        · rw [hb]; simp [hadBlock, hp]
      | managed =>
        rcases List.eq_nil_or_concat l with rfl | ⟨l, a, rfl⟩
        · simp at hi
        simp only [List.concat_eq_append] at h hi hop hsz ⊢
        have hil : i = l.length := by
          have := hop trivial
          simp [Spec.endOp] at this
          simp at hi
          omega
        subst hil
        obtain ⟨t, ht, hr, hp, hc, hled⟩ := erase_last_run h
        have he : (l ++ [a]).eraseIdx l.length = l := by
          rw [List.eraseIdx_eq_dropLast (by simp)]; simp
        rw [he]
        refine ⟨t, ht, hr, ?_, ⟨fun _ => ?_, ?_, fun h0 => by simp at hsz; omega⟩⟩
        · right; rw [hr.1, hc]; simp at hsz; omega
        · rw [hled]; simp [Ledger.objs]; omega
        · rw [hled]; simp [Ledger.blocks, hadBlock, hp]
    · rw [if_neg hi]
      exact erase_throw h (by omega)
  | clear =>
    obtain ⟨t, ht, hr, hc, hp, hled⟩ := clear_run h
    refine ⟨t, ht, hr, ?_, ⟨fun _ => ?_, ?_, fun h0 => ⟨by omega, by rw [hled]⟩⟩⟩
    · rcases hsp with h' | h'
      · left; rw [hc, hp]; exact h'
      · right; rw [hr.1, hc]; simp; omega
    · rw [hled]; simp [Ledger.objs]; omega
    · rw [hled]; simp [Ledger.blocks, hadBlock, hp]
  | reserve n =>
    have hrun := reserve_run h n
    by_cases hn : n > s.cap
    · rw [if_pos hn] at hrun
      refine ⟨_, hrun, rep_afterRealloc _ _ _ (by omega), .inr ?_, ⟨fun _ => ?_, ?_,
        fun h0 => by simp [afterRealloc] at h0; omega⟩⟩
      · show l.length < n; omega
      · simp [afterRealloc, Ledger.objs]; omega
      · simp [afterRealloc, Ledger.blocks, hadBlock]; omega
    · rw [if_neg hn] at hrun
      exact ⟨s, hrun, h, hsp, Balance.refl _ _ _⟩
  | shrinkToFit =>
    refine ⟨_, shrinkToFit_run h, rep_afterRealloc _ _ _ (by omega), .inr ?_, ⟨fun _ => ?_, ?_,
      fun h0 => by simp [afterRealloc] at h0⟩⟩
    · show l.length < l.length + 1; omega
    · simp [afterRealloc, Ledger.objs]; omega
    · simp [afterRealloc, Ledger.blocks, hadBlock]; omega
  | shrinkTo n =>
    simp only [Spec.vecStep, Op.run]
    by_cases hn : n ≤ s.size
    · rw [if_pos hn]
      cases k with
      | trivial =>
        obtain ⟨t, ht, hr, hp, hc, hb⟩ := resize_down_trivial h (n := n) (by omega)
        refine ⟨t, ht, hr, .inr ?_, ⟨by simp, ?_, fun h0 => by omega⟩⟩
        · rw [hr.1]; simp; omega
        · rw [hb]; simp [hadBlock, hp]; omega
      | managed =>
        have hnl : n = l.length := by have := hop rfl; simp [Spec.endOp] at this; omega
        subst hnl
        rw [List.take_length]
        by_cases hg : l.length + 1 > s.cap
        · refine ⟨afterRealloc s l (l.length + 1), ?_, rep_afterRealloc _ _ _ (by omega), .inr ?_,
            ⟨fun _ => ?_, ?_, fun h0 => by simp [afterRealloc] at h0⟩⟩
          · simp only [resize, Cpp.bind_run, Cpp.get_run, if_pos hg, reserve_run h, Cpp.modify_run]
            rfl
          · show l.length < l.length + 1; omega
          · simp [afterRealloc, Ledger.objs]; omega
          · simp [afterRealloc, Ledger.blocks, hadBlock]; omega
        · refine ⟨s, ?_, h, hsp, Balance.refl _ _ _⟩
          simp only [resize, Cpp.bind_run, Cpp.get_run, if_neg hg, Cpp.pure_run, Cpp.modify_run]
          simp only [← hsz]
    · rw [if_neg hn, List.take_of_length_le (by omega)]
      exact ⟨s, rfl, h, hsp, Balance.refl _ _ _⟩
  | setElem i a =>
    simp only [Spec.vecStep, Op.run]
    by_cases hi : i < s.size
    · rw [if_pos hi]
      obtain ⟨t, ht, hr, hc, hp, hled⟩ := setAt_run h a (i := i) (by omega)
      refine ⟨t, ht, hr, ?_, ⟨fun _ => ?_, ?_, fun h0 => ⟨by omega, by rw [hled]⟩⟩⟩
      · rcases hsp with h' | h'
        · left; rw [hc, hp]; exact h'
        · right; rw [hr.1, hc]; simp; omega
      · rw [hled]; simp
      · rw [hled]; simp [hadBlock, hp]
    · rw [if_neg hi, List.set_eq_of_length_le (by omega)]
      exact ⟨s, rfl, h, hsp, Balance.refl _ _ _⟩

theorem history_run {k : Kind} (ops : List (Op α)) {s : VecS α} {l : List α} (h : Rep k s l)
    (hsp : Spare s) (hops : k = .managed → Spec.endHistory ops l) :
    ∃ t, runOps k ops s = .ok (t, (Spec.vecRun ops l).2) ∧ Rep k t (Spec.vecRun ops l).1 ∧
      Spare t ∧ Balance k s t l (Spec.vecRun ops l).1 := by
  induction ops generalizing s l with
  | nil => exact ⟨s, rfl, h, hsp, Balance.refl _ _ _⟩
  | cons op ops ih =>
    have hstep := step_run h hsp op (fun hk => (hops hk).1)
    simp only [runOps, Spec.vecRun]
    cases hv : Spec.vecStep op l with
    | none =>
      rw [hv] at hstep
      obtain ⟨t, ht, hr⟩ := ih h hsp (fun hk => by have := (hops hk).2; rwa [hv] at this)
      refine ⟨t, ?_, hr⟩
      simp only at hstep
      rw [hstep]
      simp only [ht]; rfl
    | some l' =>
      rw [hv] at hstep
      obtain ⟨u, hu, hur, hus, hub⟩ := hstep
      obtain ⟨t, ht, hr, hs, hb⟩ := ih hur hus (fun hk => by have := (hops hk).2; rwa [hv] at this)
      refine ⟨t, ?_, hr, hs, ⟨fun hk => ?_, ?_, fun h0 => ?_⟩⟩
      · rw [hu]; simp only [ht]; rfl
      · have := hub.objs hk; have := hb.objs hk; simp only; omega
      · have := hub.blocks; have := hb.blocks; omega
      · have h1 := hb.fresh h0
        have h2 := hub.fresh h1.1
        exact ⟨h2.1, h1.2.trans h2.2⟩

theorem spare_mk0 (led : Ledger) : Spare (mk0 led : VecS α) := .inl ⟨rfl, rfl⟩

theorem session_run {k : Kind} (init : Option (List α)) (ops : List (Op α)) (led : Ledger)
    (hops : k = .managed → Spec.endHistory ops (init.getD [])) :
    ∃ t, session k init ops led = .ok (t, (Spec.vecRun ops (init.getD [])).2) ∧
      Rep k t (Spec.vecRun ops (init.getD [])).1 ∧ Spare t ∧
      (k = .managed → t.led.objs = led.objs + t.size) ∧
      t.led.blocks = led.blocks + hadBlock t ∧ (t.cap = 0 → init = none ∧ t.led.alloc = led.alloc) := by
  cases init with
  | none =>
    obtain ⟨t, ht, hr, hs, hb⟩ := history_run (k := k) ops (rep_mk0 _ led) (spare_mk0 led) hops
    refine ⟨t, ht, hr, hs, fun hk => ?_, ?_, fun h0 => ⟨rfl, (hb.fresh h0).2⟩⟩
    · have h1 := hb.objs hk
      have h2 := hr.1
      simp only [mk0, List.length_nil, Option.getD_none] at h1 h2
      omega
    · have := hb.blocks; simp [mk0, hadBlock] at this ⊢; omega
  | some l =>
    obtain ⟨u, hu, hur, hup, huc, hul⟩ := ofList_run k l led
    obtain ⟨t, ht, hr, hs, hb⟩ := history_run (k := k) ops hur (.inr (by rw [hur.1, huc]; omega)) hops
    refine ⟨t, ?_, hr, hs, fun hk => ?_, ?_, fun h0 => ?_⟩
    · simp only [session, hu]; exact ht
    · have h1 := hb.objs hk
      have h2 := hr.1
      rw [hul] at h1
      simp only [Ledger.objs, Option.getD_some] at *; omega
    · have := hb.blocks
      rw [hul] at this
      simp only [hadBlock, hup, if_true, Ledger.blocks] at *; omega
    · have := (hb.fresh h0).1; omega

theorem Rep.unique {k : Kind} {s : VecS α} {l l' : List α} (h : Rep k s l) (h' : s.contents = .ok l') :
    l' = l := by
  rw [h.contents] at h'; cases h'; rfl

theorem rep_of_reachable {k : Kind} {s : VecS α} {l : List α} (h : Spec.VecReachable k s l) :
    Rep k s l ∧ Spare s := by
  obtain ⟨init, ops, led, evs, hops, hrun, hc⟩ := h
  obtain ⟨t, ht, hr, hs, _⟩ := session_run init ops led hops
  rw [ht] at hrun
  cases hrun
  have := hr.unique hc
  subst this
  exact ⟨hr, hs⟩

/-- used by the examples -/
theorem reachable_example {k : Kind} (init : Option (List α)) (ops : List (Op α)) (l : List α)
    (P : VecS α → Bool) (hops : k = .managed → Spec.endHistory ops (init.getD []))
    (h : (session k init ops).map (fun r => (r.1.contents, P r.1)) = .ok (.ok l, true)) :
    ∃ s, Spec.VecReachable k s l ∧ P s = true := by
  obtain ⟨⟨s, evs⟩, h1, h2⟩ := exists_of_map _ _ h
  exact ⟨s, ⟨init, ops, {}, evs, hops, h1, congrArg Prod.fst h2⟩, congrArg Prod.snd h2⟩

end VecS
end Efp
