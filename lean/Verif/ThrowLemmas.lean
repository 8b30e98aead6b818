import Verif.Throw
import Verif.VectorHistory

/-! Helper lemmas for operations with crash points. -/

namespace Efp
namespace Thr

variable {σ α β γ : Type}

theorem lift_ok {m : Cpp σ β} {s t : σ} {b : β} (h : m s = .ok b t) (n : Nat) :
    lift m (s, n) = .ok b (t, n) := by simp [lift, h, Out.mapState]

theorem lift_thrown {m : Cpp σ β} {s t : σ} (h : m s = .thrown t) (n : Nat) :
    lift m (s, n) = .thrown (t, n) := by simp [lift, h, Out.mapState]

theorem lift_ub {m : Cpp σ β} {s : σ} {w : UB} (h : m s = .ub w) (n : Nat) :
    lift m (s, n) = .ub w := by simp [lift, h, Out.mapState]

theorem lift_bind (m : Cpp σ β) (f : β → Cpp σ γ) : lift (m >>= f) = (lift m >>= fun b => lift (f b)) := by
  funext s
  simp only [lift, Cpp.bind_run]
  cases m s.1 <;> rfl

theorem lift_pure (b : β) : lift (pure b : Cpp σ β) = pure b := rfl

theorem bind_congr' {m : Cpp σ β} {f g : β → Cpp σ γ} (h : ∀ b, f b = g b) : (m >>= f) = (m >>= g) := by
  have : f = g := funext h
  rw [this]

theorem bind_assoc' {δ : Type} (m : Cpp σ β) (f : β → Cpp σ γ) (g : γ → Cpp σ δ) :
    ((m >>= f) >>= g) = (m >>= fun b => f b >>= g) := by
  funext s
  simp only [Cpp.bind_run]
  cases m s <;> rfl

@[simp] theorem tick_zero (s : σ) : tick (s, 0) = .thrown (s, 0) := rfl
@[simp] theorem tick_succ (s : σ) (n : Nat) : tick (s, n + 1) = .ok () (s, n) := rfl

theorem forUp_lift (f : Nat → Cpp σ Unit) (lo n : Nat) : forUp (fun i => lift (f i)) lo n = lift (forUp f lo n) := by
  induction n generalizing lo with
  | zero => rfl
  | succ n ih => rw [forUp_succ, forUp_succ, lift_bind, ih]

theorem forDown_lift (f : Nat → Cpp σ Unit) (hi n : Nat) :
    forDown (fun i => lift (f i)) hi n = lift (forDown f hi n) := by
  induction n generalizing hi with
  | zero => rfl
  | succ n ih => rw [forDown_succ, forDown_succ, lift_bind, ih]

namespace Vec

open VecS

theorem relocate_false (k : Kind) (n i : Nat) (new : List (Cell α)) :
    relocate false k n i new = lift (VecS.relocate k n i new) := by
  induction n generalizing i new with
  | zero => rfl
  | succ n ih =>
    simp only [relocate, VecS.relocate, lift_bind, Bool.false_eq_true, if_false]
    simp only [ih]

theorem allocate_zero (s : VecS α) : allocate (s, 0) = .thrown (s, 0) := rfl
theorem allocate_succ (s : VecS α) (b : Nat) : allocate (s, b + 1) =
    .ok () ({ s with led := { s.led with alloc := s.led.alloc + 1 } }, b) := rfl

theorem reallocate_zero (mt : Bool) (k : Kind) (n : Nat) (s : VecS α) :
    reallocate mt k n (s, 0) = .thrown (s, 0) := by
  unfold reallocate
  exact Cpp.bind_thrown (allocate_zero s)

theorem reallocate_succ (k : Kind) (n : Nat) (s : VecS α) (b : Nat) :
    reallocate false k n (s, b + 1) = lift (VecS.reallocate k n) (s, b) := by
  unfold reallocate VecS.reallocate
  simp only [lift_bind, relocate_false]
  rw [Cpp.bind_ok (allocate_succ s b)]
  rfl

theorem reserve_zero (mt : Bool) (k : Kind) (n : Nat) (s : VecS α) (h : n > s.cap) :
    reserve mt k n (s, 0) = .thrown (s, 0) := by
  unfold reserve; rw [if_pos h, reallocate_zero]

theorem reserve_succ (k : Kind) (n : Nat) (s : VecS α) (h : n > s.cap) (b : Nat) :
    reserve false k n (s, b + 1) = lift (VecS.reserve k n) (s, b) := by
  simp only [reserve, VecS.reserve, lift]
  rw [if_pos h, if_pos h, reallocate_succ]; rfl

theorem reserve_none (mt : Bool) (k : Kind) (n : Nat) (s : VecS α) (h : ¬ n > s.cap) (b : Nat) :
    reserve mt k n (s, b) = lift (VecS.reserve k n) (s, b) := by
  simp only [reserve, VecS.reserve, lift]
  rw [if_neg h, if_neg h]; rfl

/-- what a call with a crash point does: the call without one, or an exception that changes nothing a client
can see -/
def Outcome (k : Kind) (x : Out (VecS α × Nat) Unit) (m : Cpp (VecS α) Unit) (s : VecS α) (l : List α) : Prop :=
  (∃ b', x = lift m (s, b')) ∨
    ∃ t b', x = .thrown (t, b') ∧ Rep k t l ∧ Spare t ∧ Balance k s t l l

/-- grow if needed, prepare, then construct one element -/
theorem grow_outcome {γ : Type} {k : Kind} {s : VecS α} {l : List α} (h : Rep k s l) (hsp : Spare s) (c : Prop)
    [Decidable c] (N : Nat) (hN : c → N > s.cap) (pre : Cpp (VecS α) γ) (R : γ → Cpp (VecS α) Unit)
    (hpre : k = .managed → ∀ t : VecS α, t.size = s.size → ∃ x, pre t = .ok x t) (b : Nat) :
    Outcome k (((if c then reserve false k N else pure ()) >>= fun _ => lift pre >>= fun x =>
      tickE k >>= fun _ => lift (R x)) (s, b))
      ((if c then VecS.reserve k N else pure ()) >>= fun _ => pre >>= fun x => R x) s l ∧
    (2 ≤ b → ∃ b', ((if c then reserve false k N else pure ()) >>= fun _ => lift pre >>= fun x =>
      tickE k >>= fun _ => lift (R x)) (s, b) = lift ((if c then VecS.reserve k N else pure ()) >>=
        fun _ => pre >>= fun x => R x) (s, b')) := by
  have hsz := h.1
  have hle := h.size_le_cap
  -- the part after growing
  have tail : ∀ (t : VecS α) (b : Nat), t.size = s.size →
      (∃ b', (lift pre >>= fun x => tickE k >>= fun _ => lift (R x)) (t, b) = lift (pre >>= fun x => R x) (t, b')) ∨
      (b = 0 ∧ (lift pre >>= fun x => tickE k >>= fun _ => lift (R x)) (t, b) = .thrown (t, 0)) := by
    intro t b hts
    cases k with
    | trivial => left; exact ⟨b, by rw [lift_bind]; rfl⟩
    | managed =>
      obtain ⟨x, hx⟩ := hpre rfl t hts
      rw [Cpp.bind_ok (lift_ok hx b)]
      cases b with
      | zero => right; exact ⟨rfl, rfl⟩
      | succ b =>
        left
        exact ⟨b, by rw [lift_bind, Cpp.bind_ok (lift_ok hx b)]; rfl⟩
  by_cases hc : c
  · simp only [if_pos hc]
    have hgt := hN hc
    cases b with
    | zero =>
      refine ⟨.inr ⟨s, 0, Cpp.bind_thrown (reserve_zero _ _ _ _ hgt), h, hsp, Balance.refl _ _ _⟩, by omega⟩
    | succ b =>
      have hr : VecS.reserve k N s = .ok () (afterRealloc s l N) := by rw [reserve_run h, if_pos hgt]
      have hx : reserve false k N (s, b + 1) = .ok () (afterRealloc s l N, b) := by
        rw [reserve_succ _ _ _ hgt, lift_ok hr]
      have key := tail (afterRealloc s l N) b (by simp [afterRealloc, hsz])
      rw [Cpp.bind_ok hx]
      have hl : ∀ b', lift (VecS.reserve k N >>= fun _ => pre >>= fun x => R x) (s, b') =
          lift (pre >>= fun x => R x) (afterRealloc s l N, b') := by
        intro b'
        rw [lift_bind, Cpp.bind_ok (lift_ok hr b')]
      refine ⟨?_, fun hb => ?_⟩
      · rcases key with ⟨b', e⟩ | ⟨rfl, e⟩
        · exact .inl ⟨b', by rw [e, hl]⟩
        · right
          refine ⟨afterRealloc s l N, 0, e, rep_afterRealloc _ _ _ (by omega), .inr ?_, ⟨fun _ => ?_, ?_, ?_⟩⟩
          · show l.length < N; omega
          · simp [afterRealloc, Ledger.objs]; omega
          · simp [afterRealloc, Ledger.blocks, hadBlock]; omega
          · intro h0; simp [afterRealloc] at h0; omega
      · rcases key with ⟨b', e⟩ | ⟨rfl, e⟩
        · exact ⟨b', by rw [e, hl]⟩
        · omega
  · simp only [if_neg hc, Cpp.pure_bind]
    have key := tail s b rfl
    refine ⟨?_, fun hb => ?_⟩
    · rcases key with ⟨b', e⟩ | ⟨rfl, e⟩
      · exact .inl ⟨b', e⟩
      · exact .inr ⟨s, 0, e, h, hsp, Balance.refl _ _ _⟩
    · rcases key with ⟨b', e⟩ | ⟨rfl, e⟩
      · exact ⟨b', e⟩
      · omega

/-- every call with a crash point, moves not throwing -/
theorem run_outcome {k : Kind} {s : VecS α} {l : List α} (h : Rep k s l) (hsp : Spare s) (op : Op α)
    (hop : k = .managed → Spec.endOp op l) (b : Nat) :
    Outcome k (run false k op (s, b)) (op.run k) s l ∧
      (2 ≤ b → ∃ b', run false k op (s, b) = lift (op.run k) (s, b')) := by
  have hsz := h.1
  have hle := h.size_le_cap
  have both : ∀ {x : Out (VecS α × Nat) Unit} {m : Cpp (VecS α) Unit}, (∃ b', x = lift m (s, b')) →
      Outcome k x m s l ∧ (2 ≤ b → ∃ b', x = lift m (s, b')) := fun hx => ⟨.inl hx, fun _ => hx⟩
  have alloc : ∀ (n : Nat) (hn : l.length ≤ n), n > s.cap → 
      Outcome k (reserve false k n (s, b)) (VecS.reserve k n) s l ∧
      (2 ≤ b → ∃ b', reserve false k n (s, b) = lift (VecS.reserve k n) (s, b')) := by
    intro n hn hg
    cases b with
    | zero => exact ⟨.inr ⟨s, 0, reserve_zero _ _ _ _ hg, h, hsp, Balance.refl _ _ _⟩, by omega⟩
    | succ b => exact ⟨.inl ⟨b, reserve_succ _ _ _ hg _⟩, fun _ => ⟨b, reserve_succ _ _ _ hg _⟩⟩
  cases op with
  | push a =>
    have key := grow_outcome h hsp (s.size + 1 ≥ s.cap) (if s.size = 0 then 2 else 2 * s.size + 1)
      (by intro hc; split <;> omega) (Cpp.get) (fun u => do
        onMem (Mem.construct u.size a)
        Cpp.modify (fun s => { s with size := s.size + 1 })) (fun _ t _ => ⟨t, rfl⟩) b
    have e1 : run false k (.push a) (s, b) = ((if s.size + 1 ≥ s.cap then
        reserve false k (if s.size = 0 then 2 else 2 * s.size + 1) else pure ()) >>= fun _ =>
        lift Cpp.get >>= fun x => tickE k >>= fun _ => lift (do
        onMem (Mem.construct x.size a)
        Cpp.modify (fun s => { s with size := s.size + 1 }))) (s, b) := by
      simp only [run, pushBack, lift_bind]
      rw [Cpp.bind_ok (lift_ok (Cpp.get_run s) b)]
      by_cases hg : s.size + 1 ≥ s.cap
      · simp only [if_pos hg]
      · simp only [if_neg hg]; rfl
    have e2 : ∀ b', lift ((Op.push a).run k) (s, b') = lift ((if s.size + 1 ≥ s.cap then
        VecS.reserve k (if s.size = 0 then 2 else 2 * s.size + 1) else pure ()) >>= fun _ =>
        Cpp.get >>= fun x => (do
        onMem (Mem.construct x.size a)
        Cpp.modify (fun s => { s with size := s.size + 1 }))) (s, b') := by
      intro b'
      have : (Op.push a).run k s = ((if s.size + 1 ≥ s.cap then
        VecS.reserve k (if s.size = 0 then 2 else 2 * s.size + 1) else pure ()) >>= fun _ =>
        Cpp.get >>= fun x => (do
        onMem (Mem.construct x.size a)
        Cpp.modify (fun s => { s with size := s.size + 1 }))) s := by
        simp only [Op.run, VecS.pushBack, Cpp.bind_run, growPush]
        by_cases hg : s.size + 1 ≥ s.cap
        · simp only [if_pos hg]
        · simp only [if_neg hg]; rfl
      simp only [lift, this]
    rw [e1]
    unfold Outcome at key ⊢
    simp only [e2]
    exact key
  | pop => exact both ⟨b, rfl⟩
  | insert i a =>
    by_cases hi : i > s.size
    · refine both ⟨b, ?_⟩
      have e : VecS.insert k i a s = .thrown s := by
        unfold VecS.insert; rw [Cpp.bind_ok (Cpp.get_run _), if_pos hi]
      have e' : insert false k i a (s, b) = .thrown (s, b) := by
        unfold insert; rw [Cpp.bind_ok (lift_ok (Cpp.get_run _) _), if_pos hi]
      simp only [run, Op.run]
      rw [e', lift_thrown e]
    · let body : Nat → Cpp (VecS α) Unit := fun i => do
        let x ← onMem (Mem.moveOut k (i - 1))
        onMem (Mem.assign k i x)
      have key := grow_outcome h hsp (s.size + 1 ≥ s.cap) (if s.cap = 0 then 2 else 2 * s.cap)
        (by intro hc; split <;> omega) (forDown body s.size (s.size - i)) (fun _ => do
          onMem (Mem.construct i a)
          Cpp.modify (fun s => { s with size := s.size + 1 })) (fun hk t _ => by
            have := hop hk
            have h0 : s.size - i = 0 := by simp only [Spec.endOp] at this; omega
            rw [h0]; exact ⟨(), rfl⟩) b
      have e1 : run false k (.insert i a) (s, b) = ((if s.size + 1 ≥ s.cap then
          reserve false k (if s.cap = 0 then 2 else 2 * s.cap) else pure ()) >>= fun _ =>
          lift (forDown body s.size (s.size - i)) >>= fun _ => tickE k >>= fun _ => lift (do
          onMem (Mem.construct i a)
          Cpp.modify (fun s => { s with size := s.size + 1 }))) (s, b) := by
        simp only [run, insert]
        rw [Cpp.bind_ok (lift_ok (Cpp.get_run _) _), if_neg hi]
        simp only [Bool.false_eq_true, if_false, ← forDown_lift, lift_bind, body]
        by_cases hg : s.size + 1 ≥ s.cap
        · simp only [if_pos hg]
        · simp only [if_neg hg]; rfl
      have e2 : ∀ b', lift ((Op.insert i a).run k) (s, b') = lift ((if s.size + 1 ≥ s.cap then
          VecS.reserve k (if s.cap = 0 then 2 else 2 * s.cap) else pure ()) >>= fun _ =>
          forDown body s.size (s.size - i) >>= fun _ => (do
          onMem (Mem.construct i a)
          Cpp.modify (fun s => { s with size := s.size + 1 }))) (s, b') := by
        intro b'
        simp only [lift, Op.run, VecS.insert]
        rw [Cpp.bind_ok (Cpp.get_run _), if_neg hi]
        by_cases hg : s.size + 1 ≥ s.cap
        · simp only [if_pos hg, body]
        · simp only [if_neg hg, body]; rfl
      rw [e1]
      unfold Outcome at key ⊢
      simp only [e2]
      exact key
  | erase i =>
    refine both ⟨b, ?_⟩
    simp only [run, Op.run, erase, VecS.erase, lift_bind]
    by_cases hi : i ≥ s.size
    · rw [Cpp.bind_ok (lift_ok (Cpp.get_run s) b), Cpp.bind_ok (lift_ok (Cpp.get_run s) b), if_pos hi, if_pos hi]; rfl
    · rw [Cpp.bind_ok (lift_ok (Cpp.get_run s) b), Cpp.bind_ok (lift_ok (Cpp.get_run s) b), if_neg hi, if_neg hi]
      simp only [lift_bind, ← forUp_lift, Bool.false_eq_true, if_false]
  | clear => exact both ⟨b, rfl⟩
  | reserve n =>
    by_cases hn : n > s.cap
    · exact alloc n (by omega) hn
    · exact both ⟨b, reserve_none _ _ _ _ hn _⟩
  | shrinkToFit =>
    simp only [run, Op.run, shrinkToFit]
    rw [if_pos (by show s.size < _; omega)]
    have e : ∀ b', lift (VecS.shrinkToFit k) (s, b') = lift (VecS.reallocate k (s.size + 1)) (s, b') := by
      intro b'; simp only [lift, VecS.shrinkToFit]; rw [if_pos (by omega)]
    unfold Outcome
    simp only [e]
    cases b with
    | zero => exact ⟨.inr ⟨s, 0, reallocate_zero _ _ _ _, h, hsp, Balance.refl _ _ _⟩, by omega⟩
    | succ b => exact ⟨.inl ⟨b, reallocate_succ _ _ _ _⟩, fun _ => ⟨b, reallocate_succ _ _ _ _⟩⟩
  | shrinkTo n =>
    simp only [run, Op.run]
    by_cases hn : n ≤ s.size
    · rw [if_pos (show n ≤ s.size from hn)]
      have e : ∀ b', lift (fun s : VecS α => if n ≤ s.size then VecS.resize k n s else .ok () s) (s, b') =
          lift (VecS.resize k n) (s, b') := by
        intro b'; simp only [lift]; rw [if_pos hn]
      unfold Outcome
      simp only [e]
      by_cases hg : n + 1 > s.cap
      · cases b with
        | zero =>
          refine ⟨.inr ⟨s, 0, ?_, h, hsp, Balance.refl _ _ _⟩, by omega⟩
          unfold resize
          rw [Cpp.bind_ok (lift_ok (Cpp.get_run _) _), if_pos hg, Cpp.bind_thrown (reserve_zero _ _ _ _ hg)]
        | succ b =>
          have : resize false k n (s, b + 1) = lift (VecS.resize k n) (s, b) := by
            unfold resize VecS.resize
            simp only [lift_bind]
            rw [Cpp.bind_ok (lift_ok (Cpp.get_run _) _), if_pos hg,
              Cpp.bind_ok (lift_ok (Cpp.get_run s) b), if_pos hg]
            simp only [lift_bind, Cpp.bind_run, reserve_succ _ _ _ hg]
          exact ⟨.inl ⟨b, this⟩, fun _ => ⟨b, this⟩⟩
      · refine both ⟨b, ?_⟩
        unfold resize VecS.resize
        simp only [lift_bind]
        rw [Cpp.bind_ok (lift_ok (Cpp.get_run _) _), if_neg hg, Cpp.bind_ok (lift_ok (Cpp.get_run s) b), if_neg hg]
    · refine both ⟨b, ?_⟩
      rw [if_neg (show ¬ n ≤ s.size from hn)]
      simp only [lift]; rw [if_neg hn]; rfl
  | setElem i a =>
    simp only [run, Op.run]
    by_cases hi : i < s.size
    · rw [if_pos (show i < s.size from hi)]
      have e : ∀ b', lift (fun s : VecS α => if i < s.size then setAt k i a s else .ok () s) (s, b') =
          lift (setAt k i a) (s, b') := by
        intro b'; simp only [lift]; rw [if_pos hi]
      unfold Outcome
      simp only [e]
      cases k with
      | trivial => exact ⟨.inl ⟨b, rfl⟩, fun _ => ⟨b, rfl⟩⟩
      | managed =>
        cases b with
        | zero => exact ⟨.inr ⟨s, 0, rfl, h, hsp, Balance.refl _ _ _⟩, by omega⟩
        | succ b => exact ⟨.inl ⟨b, rfl⟩, fun _ => ⟨b, rfl⟩⟩
    · refine both ⟨b, ?_⟩
      rw [if_neg (show ¬ i < s.size from hi)]
      simp only [lift]; rw [if_neg hi]; rfl

end Vec
end Thr
end Efp
