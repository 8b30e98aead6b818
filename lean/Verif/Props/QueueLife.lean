import Verif.QueueLife
import Verif.DoubleBufferLemmas

/-!
# C151: the queues give back what they hold

`made` and `gone` count the element objects constructed and destroyed in a buffer.
-/

namespace Efp
namespace Props

open Spec

variable {α : Type}

/-- C151 is false of the code: if there is memory for the first buffer of a `DoubleBuffer` only, the constructor throws and the
first buffer is never given back. -/
theorem C151_refuted (n m : Nat) : ∃ h, DBuf.create (α := α) n m true false = (none, h) ∧ h.freed < h.got :=
  ⟨_, rfl, by decide⟩

/-- C151 as far as it holds: a constructor that returns has two blocks, and one that cannot get the first has none. -/
theorem C151_create_partial (n m : Nat) (mem1 mem2 : Bool) {s : Option (DBuf.State α)} {h : DBuf.Blocks}
    (hc : DBuf.create n m mem1 mem2 = (s, h)) :
    (s = some (DBuf.start n m) ∧ h = { got := 2 }) ∨ (s = none ∧ (mem1 = false → h.got = h.freed)) := by
  cases mem1 <;> cases mem2 <;> cases hc <;> simp

/-- C151 for `DoubleBuffer`: whatever the threads did under whatever schedule, the destructor is defined, destroys every element
that is left exactly once and gives back both blocks. -/
theorem C151_double_buffer_partial (k : Kind) {n m : Nat} (hn : 0 < n) {drain : Bool} {c : Nat} {s : DBuf.State α}
    (h : DBuf.Reach k n m drain c s) :
    ∃ s', DBuf.destroy k s { got := 2 } = .ok (s', { got := 2, freed := 2 }) ∧
      ∀ b, (s'.buf b).mem.led.made = (s'.buf b).mem.led.gone ∧ (s'.buf b).mem.led.made = (s.buf b).mem.led.made ∧
        (k = .managed → ∀ x ∈ (s'.buf b).mem.cells, x = .raw) := by
  obtain ⟨r, w, hI⟩ := DBuf.reach_inv hn h
  obtain ⟨r', hr, _, _, hr1, hr2, hr3⟩ := Cyclic.Vcq.dtor_run hI.repR
  obtain ⟨w', hw, _, _, hw1, hw2, hw3⟩ := Cyclic.Vcq.dtor_run hI.repW
  have hp := hI.ptr
  obtain ⟨pcs, flag, b0, b1, rp, wp, bad, log⟩ := s
  cases rp <;> cases wp <;> first | exact absurd rfl hp | skip
  · simp only [DBuf.State.buf, Bool.false_eq_true, if_false, if_true] at hr hw hr1 hr2 hr3 hw1 hw2 hw3
    refine ⟨⟨pcs, flag, r', w', false, true, bad, log⟩, ?_, ?_⟩
    · simp [DBuf.destroy, DBuf.deleteBuf, DBuf.State.buf, DBuf.State.setBuf, hr, hw]
    · intro b
      cases b
      · exact ⟨hr1, hr2, hr3⟩
      · exact ⟨hw1, hw2, hw3⟩
  · simp only [DBuf.State.buf, Bool.false_eq_true, if_false, if_true] at hr hw hr1 hr2 hr3 hw1 hw2 hw3
    refine ⟨⟨pcs, flag, w', r', true, false, bad, log⟩, ?_, ?_⟩
    · simp [DBuf.destroy, DBuf.deleteBuf, DBuf.State.buf, DBuf.State.setBuf, hr, hw]
    · intro b
      cases b
      · exact ⟨hw1, hw2, hw3⟩
      · exact ⟨hr1, hr2, hr3⟩

/-- C151 for the bounded `BlockingQ` (its destructor, concurrency.hpp 70-107, is that of its member `_q`) -/
theorem C151_blocking_partial (k : Kind) {n m : Nat} (hn : 0 < n) {s : Conc.Blocking.State (Conc.vcqQ k n α)}
    (h : Conc.Blocking.Reachable (Conc.vcqQ k n α) m s) :
    ∃ q', Cyclic.Vcq.dtor k s.q = .ok () q' ∧ q'.mem.led.made = q'.mem.led.gone ∧
      (k = .managed → ∀ x ∈ q'.mem.cells, x = .raw) := by
  obtain ⟨l, hI⟩ := Conc.Blocking.reach_inv (Conc.vcqLawful k n hn α) h
  obtain ⟨q', h1, _, _, h2, _, h3⟩ := Cyclic.Vcq.dtor_run hI.rep.1
  exact ⟨q', h1, h2, h3⟩

/-- C151 for the bounded `NonBlockingQ` (concurrency.hpp 152-193) -/
theorem C151_nonblocking_partial (k : Kind) {n m : Nat} (hn : 0 < n) {s : Conc.NonBlocking.State (Conc.vcqQ k n α)}
    (h : Conc.NonBlocking.Reachable (Conc.vcqQ k n α) m s) :
    ∃ q', Cyclic.Vcq.dtor k s.q = .ok () q' ∧ q'.mem.led.made = q'.mem.led.gone ∧
      (k = .managed → ∀ x ∈ q'.mem.cells, x = .raw) := by
  obtain ⟨l, hI⟩ := Conc.NonBlocking.reach_inv (Conc.vcqLawful k n hn α) h
  obtain ⟨q', h1, _, _, h2, _, h3⟩ := Cyclic.Vcq.dtor_run hI.rep.1
  exact ⟨q', h1, h2, h3⟩

/-! ### concrete cases -/

/-- enqueues, a swap, one element taken, another enqueue: one element is left in each buffer -/
example : ∃ s : DBuf.State Nat, DBuf.Reach .managed 4 2 false 0 s ∧ (s.buf s.rp).size = 1 ∧ (s.buf s.wp).size = 1 ∧
    (s.buf s.rp).mem.led.made = 4 ∧ (s.buf s.rp).mem.led.gone = 2 := by
  have h0 : DBuf.Reach .managed 4 2 false 0 (DBuf.start 4 2 : DBuf.State Nat) := .start
  have h1 := ((((((h0.step (.callEnq 1 7) trivial rfl).step (.run 1) trivial rfl).step (.run 1) trivial rfl).step (.run 1) trivial rfl).step
    (.callEnq 1 8) trivial rfl).step (.run 1) trivial rfl).step (.run 1) trivial rfl
  have h2 := (((h1.step (.run 1) trivial rfl).step (.callSwap 0) ⟨rfl, fun h => by cases h⟩ rfl).step (.run 0) trivial rfl).step
    (.run 0) trivial rfl
  have h3 := (((h2.step (.run 0) trivial rfl).step (.callDeq 0) ⟨rfl, rfl⟩ rfl).step (.run 0) trivial rfl).step (.callEnq 1 9) trivial rfl
  have h4 := (h3.step (.run 1) trivial rfl).step (.run 1) trivial rfl
  exact ⟨_, h4, rfl, rfl, rfl, rfl⟩

/-- a bounded queue with an element in it -/
example : ∃ s : Conc.Blocking.State (Conc.vcqQ .managed 4 Nat), Conc.Blocking.Reachable (Conc.vcqQ .managed 4 Nat) 1 s ∧ s.q.size = 1 :=
  ⟨_, ⟨[.callEnq 0 7, .run 0, .run 0], rfl⟩, rfl⟩

/-- the same for `NonBlockingQ` -/
example : ∃ s : Conc.NonBlocking.State (Conc.vcqQ .managed 4 Nat), Conc.NonBlocking.Reachable (Conc.vcqQ .managed 4 Nat) 1 s ∧ s.q.size = 1 :=
  ⟨_, ⟨[.callEnq 0 7, .run 0, .run 0], rfl⟩, rfl⟩

end Props
end Efp
