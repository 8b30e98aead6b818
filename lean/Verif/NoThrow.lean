import Verif.Vector

/-! Helper lemmas: operations that have no throwing outcome at all. -/

namespace Efp

variable {α β γ σ : Type}

/-- the operation never throws -/
def NoThrow (m : Cpp σ β) : Prop := ∀ s t, m s ≠ .thrown t

namespace NoThrow

theorem pure (b : β) : NoThrow (Pure.pure b : Cpp σ β) := by intro s t h; cases h
theorem get : NoThrow (Cpp.get : Cpp σ σ) := by intro s t h; cases h
theorem modify (f : σ → σ) : NoThrow (Cpp.modify f) := by intro s t h; cases h
theorem ub (w : UB) : NoThrow (Cpp.ub w : Cpp σ β) := by intro s t h; cases h

theorem bind {m : Cpp σ β} {f : β → Cpp σ γ} (hm : NoThrow m) (hf : ∀ b, NoThrow (f b)) :
    NoThrow (m >>= f) := by
  intro s t h
  rw [Cpp.bind_run] at h
  cases hms : m s with
  | ok b s' => rw [hms] at h; exact hf b s' t h
  | thrown s' => exact hm s s' hms
  | ub w => rw [hms] at h; cases h

theorem ite {c : Prop} [Decidable c] {m n : Cpp σ β} (hm : NoThrow m) (hn : NoThrow n) :
    NoThrow (if c then m else n) := by split <;> assumption

theorem forUp {body : Nat → Cpp σ Unit} (h : ∀ i, NoThrow (body i)) (lo n : Nat) :
    NoThrow (forUp body lo n) := by
  induction n generalizing lo with
  | zero => exact pure ()
  | succ n ih => exact bind (h lo) (fun _ => ih _)

theorem forDown {body : Nat → Cpp σ Unit} (h : ∀ i, NoThrow (body i)) (hi n : Nat) :
    NoThrow (forDown body hi n) := by
  induction n generalizing hi with
  | zero => exact pure ()
  | succ n ih => exact bind (h hi) (fun _ => ih _)

theorem construct (i : Nat) (a : α) : NoThrow (Mem.construct i a) := by
  intro s t h; unfold Mem.construct at h; split at h <;> cases h
theorem destroy (k : Kind) (i : Nat) : NoThrow (Mem.destroy k i : Cpp (Mem α) Unit) := by
  intro s t h; unfold Mem.destroy at h
  split at h
  · cases h
  · split at h
    · cases h
    · split at h <;> cases h
theorem read (i : Nat) : NoThrow (Mem.read i : Cpp (Mem α) α) := by
  intro s t h; unfold Mem.read at h; split at h <;> cases h
theorem moveOut (k : Kind) (i : Nat) : NoThrow (Mem.moveOut k i : Cpp (Mem α) α) := by
  intro s t h; unfold Mem.moveOut at h
  split at h
  · cases h
  · cases h
  · cases h
  · split at h <;> cases h
theorem assign (k : Kind) (i : Nat) (a : α) : NoThrow (Mem.assign k i a) := by
  intro s t h; unfold Mem.assign at h
  split at h
  · cases h
  · split at h <;> cases h

end NoThrow

namespace VecS

theorem noThrow_onMem {m : Cpp (Mem α) β} (h : NoThrow m) : NoThrow (onMem m : Cpp (VecS α) β) := by
  intro s t hs
  unfold onMem at hs
  split at hs
  · cases hs
  · cases hs
  · split at hs
    · cases hs
    · next hm => exact h _ _ hm
    · cases hs

theorem noThrow_relocate (k : Kind) (n i : Nat) (new : List (Cell α)) : NoThrow (relocate k n i new) := by
  induction n generalizing i new with
  | zero => exact NoThrow.pure _
  | succ n ih =>
    refine NoThrow.bind (noThrow_onMem (NoThrow.moveOut k i)) fun a => ?_
    refine NoThrow.bind ?_ fun new' => NoThrow.bind (NoThrow.modify _) fun _ => ih _ _
    intro s t h; unfold constructIn at h; split at h <;> cases h

theorem noThrow_destroyAll (k : Kind) : NoThrow (destroyAll k : Cpp (VecS α) Unit) := by
  intro s t h
  exact NoThrow.forUp (fun i => noThrow_onMem (NoThrow.destroy k i)) _ _ _ _ h

theorem noThrow_dealloc : NoThrow (dealloc : Cpp (VecS α) Unit) := by
  intro s t h; unfold dealloc at h; split at h <;> cases h

theorem noThrow_reallocate (k : Kind) (n : Nat) : NoThrow (reallocate k n : Cpp (VecS α) Unit) :=
  NoThrow.bind (NoThrow.modify _) fun _ => NoThrow.bind NoThrow.get fun _ =>
    NoThrow.bind (noThrow_relocate _ _ _ _) fun _ => NoThrow.bind (noThrow_destroyAll k) fun _ =>
      NoThrow.bind noThrow_dealloc fun _ => NoThrow.modify _

theorem noThrow_reserve (k : Kind) (n : Nat) : NoThrow (reserve k n : Cpp (VecS α) Unit) := by
  intro s t h
  unfold reserve at h
  split at h
  · exact noThrow_reallocate k n _ _ h
  · cases h

end VecS
end Efp
