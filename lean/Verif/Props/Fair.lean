import Verif.FairStarve

/-!
# C144-C146: do calls on the concurrent queues return?

Executions never end here: a scheduler picks an action at every moment (`Spec/Fair.lean`).  Under a weakly fair scheduler
every thread gets processor time again and again; under a strongly fair one the lock is fair as well.
-/

namespace Efp
namespace Props

open Spec Conc

variable {α : Type}

/-! ## C144: BlockingQ -/

/-- C144 is false of the code: with a lock that is not fair an `enqueue` may never return (two threads, both get processor
time again and again); and even with a fair lock a `dequeue` may never return although elements are enqueued again and
again, because `notify_one` may always wake somebody else. -/
theorem C144_refuted :
    (∃ (sch : Nat → Blocking.Act Nat), WeakFair Blocking.step Blocking.Act.of (Blocking.start (stdQ Nat) 2) sch ∧
      ¬ AllReturn (fun i => (run Blocking.step (Blocking.start (stdQ Nat) 2) sch i).log) .enqueue 0) ∧
    (∃ (sch : Nat → Blocking.Act Nat), StrongFair Blocking.step Blocking.Act.of (Blocking.start (stdQ Nat) 3) sch ∧
      (∀ n, ∃ j, n ≤ (pushes (events (run Blocking.step (Blocking.start (stdQ Nat) 3) sch j).log)).length) ∧
      ¬ AllReturn (fun i => (run Blocking.step (Blocking.start (stdQ Nat) 3) sch i).log) .dequeue 0) :=
  ⟨⟨_, Fair.StarveEnq.starves⟩, ⟨_, Fair.StarveDeq.starves⟩⟩

/-- C144 as far as it holds: with a fair lock every call of `enqueue` returns, whatever the other threads do. -/
theorem C144_enqueue_partial {m : Nat} {sch : Nat → Blocking.Act α}
    (hf : StrongFair Blocking.step Blocking.Act.of (Blocking.start (stdQ α) m) sch) (t : Nat) :
    AllReturn (fun i => (run Blocking.step (Blocking.start (stdQ α) m) sch i).log) .enqueue t :=
  Blocking.enqueue_returns (stdLawful α) hf t

/-- C144 as far as it holds, bounded queue -/
theorem C144_enqueue_bounded_partial (k : Kind) {n m : Nat} (hn : 0 < n) {sch : Nat → Blocking.Act α}
    (hf : StrongFair Blocking.step Blocking.Act.of (Blocking.start (vcqQ k n α) m) sch) (t : Nat) :
    AllReturn (fun i => (run Blocking.step (Blocking.start (vcqQ k n α) m) sch i).log) .enqueue t :=
  Blocking.enqueue_returns (vcqLawful k n hn α) hf t

/-- C144 as far as it holds: with a fair lock, a call of `dequeue` that never returns is one during which the queue is
empty again and again.  Nobody is left waiting in front of a queue that has something in it. -/
theorem C144_dequeue_partial {m : Nat} {sch : Nat → Blocking.Act α}
    (hf : StrongFair Blocking.step Blocking.Act.of (Blocking.start (stdQ α) m) sch) (t i : Nat)
    (hno : ∀ j, returned .dequeue t (run Blocking.step (Blocking.start (stdQ α) m) sch j).log <
      called .dequeue t (run Blocking.step (Blocking.start (stdQ α) m) sch i).log) :
    InfOften fun j => Legal none (events (run Blocking.step (Blocking.start (stdQ α) m) sch j).log) [] [] :=
  Blocking.dequeue_returns (stdLawful α) hf t i hno

/-- C144 as far as it holds, bounded queue -/
theorem C144_dequeue_bounded_partial (k : Kind) {n m : Nat} (hn : 0 < n) {sch : Nat → Blocking.Act α}
    (hf : StrongFair Blocking.step Blocking.Act.of (Blocking.start (vcqQ k n α) m) sch) (t i : Nat)
    (hno : ∀ j, returned .dequeue t (run Blocking.step (Blocking.start (vcqQ k n α) m) sch j).log <
      called .dequeue t (run Blocking.step (Blocking.start (vcqQ k n α) m) sch i).log) :
    InfOften fun j => Legal (some n) (events (run Blocking.step (Blocking.start (vcqQ k n α) m) sch j).log) [] [] :=
  Blocking.dequeue_returns (vcqLawful k n hn α) hf t i hno

/-- C144 as far as it holds: if only one thread dequeues, the lock is fair, and at least as many elements are enqueued as
that thread asks for, then each of its calls returns. -/
theorem C144_one_consumer_partial {m : Nat} {sch : Nat → Blocking.Act α}
    (hf : StrongFair Blocking.step Blocking.Act.of (Blocking.start (stdQ α) m) sch) (t : Nat)
    (hone : ∀ j u, u ≠ t → called .dequeue u (run Blocking.step (Blocking.start (stdQ α) m) sch j).log = 0)
    (hmany : ∀ i, ∃ j, called .dequeue t (run Blocking.step (Blocking.start (stdQ α) m) sch i).log ≤
      (pushes (events (run Blocking.step (Blocking.start (stdQ α) m) sch j).log)).length) :
    AllReturn (fun i => (run Blocking.step (Blocking.start (stdQ α) m) sch i).log) .dequeue t :=
  Fair.single_consumer hf t hone hmany

/-- the hypotheses of `C144_enqueue_partial` and `C144_dequeue_partial` hold together in an execution in which elements
are enqueued again and again and thread 0 waits for ever -/
example : ∃ (sch : Nat → Blocking.Act Nat) (i : Nat),
    StrongFair Blocking.step Blocking.Act.of (Blocking.start (stdQ Nat) 3) sch ∧
    (∀ n, ∃ j, n ≤ (pushes (events (run Blocking.step (Blocking.start (stdQ Nat) 3) sch j).log)).length) ∧
    ∀ j, returned .dequeue 0 (run Blocking.step (Blocking.start (stdQ Nat) 3) sch j).log <
      called .dequeue 0 (run Blocking.step (Blocking.start (stdQ Nat) 3) sch i).log := by
  refine ⟨Fair.StarveDeq.sch, 1, Fair.StarveDeq.starves.1, Fair.StarveDeq.starves.2.1, fun j => ?_⟩
  have h := Fair.never_returned (o := .dequeue) (t := 0) (log := Blocking.State.log) (fun s a s' => Blocking.step_log)
    Fair.StarveDeq.F Fair.StarveDeq.Good (by decide) Fair.StarveDeq.rounds (fun x k hg => hg.2.1) j
  have h1 : called .dequeue 0 (run Blocking.step (Blocking.start (stdQ Nat) 3) Fair.StarveDeq.sch 1).log = 1 := by decide
  rw [h1]
  exact Nat.lt_of_le_of_lt (Nat.le_of_eq h) Nat.one_pos

/-- the hypotheses of `C144_one_consumer_partial` hold for one producer and one consumer, whose number of calls grows
without bound -/
example : ∃ sch : Nat → Blocking.Act Nat, StrongFair Blocking.step Blocking.Act.of (Blocking.start (stdQ Nat) 2) sch ∧
    (∀ j u, u ≠ 1 → called .dequeue u (run Blocking.step (Blocking.start (stdQ Nat) 2) sch j).log = 0) ∧
    (∀ i, ∃ j, called .dequeue 1 (run Blocking.step (Blocking.start (stdQ Nat) 2) sch i).log ≤
      (pushes (events (run Blocking.step (Blocking.start (stdQ Nat) 2) sch j).log)).length) ∧
    ∀ n, ∃ i, n ≤ called .dequeue 1 (run Blocking.step (Blocking.start (stdQ Nat) 2) sch i).log :=
  ⟨_, Fair.Pair.fair⟩

/-! ## C145: NonBlockingQ -/

/-- C145 is false of the code: `NonBlockingQ` takes a lock, and while others keep taking it a call of `enqueue` may never
return, although every thread gets processor time again and again. -/
theorem C145_refuted : ∃ (sch : Nat → NonBlocking.Act Nat),
    WeakFair NonBlocking.step NonBlocking.Act.of (NonBlocking.start (stdQ Nat) 2) sch ∧
    ¬ AllReturn (fun i => (run NonBlocking.step (NonBlocking.start (stdQ Nat) 2) sch i).log) .enqueue 0 :=
  ⟨_, Fair.StarveNon.starves⟩

/-- C145 as far as it holds: a call that never returns is overtaken: calls of other threads return again and again. -/
theorem C145_others_partial {m : Nat} {sch : Nat → NonBlocking.Act α}
    (hf : WeakFair NonBlocking.step NonBlocking.Act.of (NonBlocking.start (stdQ α) m) sch) (o : CallName) (t i : Nat)
    (hno : ∀ j, returned o t (run NonBlocking.step (NonBlocking.start (stdQ α) m) sch j).log <
      called o t (run NonBlocking.step (NonBlocking.start (stdQ α) m) sch i).log) :
    InfOften fun k => ∃ u o', u ≠ t ∧ returned o' u (run NonBlocking.step (NonBlocking.start (stdQ α) m) sch k).log <
      returned o' u (run NonBlocking.step (NonBlocking.start (stdQ α) m) sch (k + 1)).log :=
  NonBlocking.others_return (stdLawful α) hf o t i hno

/-- C145 as far as it holds, bounded queue -/
theorem C145_others_bounded_partial (k : Kind) {n m : Nat} (hn : 0 < n) {sch : Nat → NonBlocking.Act α}
    (hf : WeakFair NonBlocking.step NonBlocking.Act.of (NonBlocking.start (vcqQ k n α) m) sch) (o : CallName) (t i : Nat)
    (hno : ∀ j, returned o t (run NonBlocking.step (NonBlocking.start (vcqQ k n α) m) sch j).log <
      called o t (run NonBlocking.step (NonBlocking.start (vcqQ k n α) m) sch i).log) :
    InfOften fun j => ∃ u o', u ≠ t ∧ returned o' u (run NonBlocking.step (NonBlocking.start (vcqQ k n α) m) sch j).log <
      returned o' u (run NonBlocking.step (NonBlocking.start (vcqQ k n α) m) sch (j + 1)).log :=
  NonBlocking.others_return (vcqLawful k n hn α) hf o t i hno

/-- C145 as far as it holds: with a fair lock every call of every operation returns, whatever the other threads do. -/
theorem C145_returns_partial {m : Nat} {sch : Nat → NonBlocking.Act α}
    (hf : StrongFair NonBlocking.step NonBlocking.Act.of (NonBlocking.start (stdQ α) m) sch) (o : CallName) (t : Nat) :
    AllReturn (fun i => (run NonBlocking.step (NonBlocking.start (stdQ α) m) sch i).log) o t :=
  NonBlocking.all_return (stdLawful α) hf o t

/-- C145 as far as it holds, bounded queue -/
theorem C145_returns_bounded_partial (k : Kind) {n m : Nat} (hn : 0 < n) {sch : Nat → NonBlocking.Act α}
    (hf : StrongFair NonBlocking.step NonBlocking.Act.of (NonBlocking.start (vcqQ k n α) m) sch) (o : CallName) (t : Nat) :
    AllReturn (fun i => (run NonBlocking.step (NonBlocking.start (vcqQ k n α) m) sch i).log) o t :=
  NonBlocking.all_return (vcqLawful k n hn α) hf o t

/-- the hypotheses of `C145_others_partial` hold in an execution with endless calls -/
example : ∃ (sch : Nat → NonBlocking.Act Nat) (i : Nat),
    WeakFair NonBlocking.step NonBlocking.Act.of (NonBlocking.start (stdQ Nat) 2) sch ∧
    ∀ j, returned .enqueue 0 (run NonBlocking.step (NonBlocking.start (stdQ Nat) 2) sch j).log <
      called .enqueue 0 (run NonBlocking.step (NonBlocking.start (stdQ Nat) 2) sch i).log := by
  refine ⟨Fair.StarveNon.sch, 1, Fair.StarveNon.starves.1, fun j => ?_⟩
  have h := Fair.never_returned (o := .enqueue) (t := 0) (log := NonBlocking.State.log) (fun s a s' => NonBlocking.step_log)
    Fair.StarveNon.F Fair.StarveNon.Good (by decide) Fair.StarveNon.rounds (fun x k hg => hg.2) j
  have h1 : called .enqueue 0 (run NonBlocking.step (NonBlocking.start (stdQ Nat) 2) Fair.StarveNon.sch 1).log = 1 := by decide
  rw [h1]
  exact Nat.lt_of_le_of_lt (Nat.le_of_eq h) Nat.one_pos

/-- the hypothesis of `C145_returns_partial` holds in an execution in which two threads enqueue and dequeue in turn, for ever -/
example : ∃ sch : Nat → NonBlocking.Act Nat,
    StrongFair NonBlocking.step NonBlocking.Act.of (NonBlocking.start (stdQ Nat) 2) sch ∧
    ∀ n, ∃ i, n ≤ called .enqueue 0 (run NonBlocking.step (NonBlocking.start (stdQ Nat) 2) sch i).log :=
  ⟨_, Fair.PairNon.fair⟩

/-! ## C146: DoubleBuffer -/

/-- C146 is false of the code: the spinlock is not fair.  While the consumer swaps the buffers again and again, an
`enqueue` of another thread may spin for ever, although that thread is run again and again. -/
theorem C146_refuted : ∃ (sch : Nat → DBuf.Act Nat),
    (∀ i, DBuf.Allowed true 1 (run (DBuf.step .managed) (DBuf.start 2 2) sch i) (sch i)) ∧
    WeakFair (DBuf.step .managed) DBuf.Act.of (DBuf.start 2 2) sch ∧
    (∀ t, t < 2 → InfOften fun i => sch i = .run t) ∧
    ¬ AllReturn (fun i => (run (DBuf.step .managed) (DBuf.start 2 2) sch i).log) .enqueue 0 :=
  ⟨_, Fair.StarveBuf.allowed, Fair.StarveBuf.starves⟩

/-- C146 as far as it holds: the consumer's `dequeue` and `empty` return whenever the consumer gets processor time. -/
theorem C146_consumer_partial (k : Kind) {n m : Nat} (hn : 0 < n) {drain : Bool} {c : Nat} {sch : Nat → DBuf.Act α}
    (hA : ∀ i, DBuf.Allowed drain c (run (DBuf.step k) (DBuf.start n m) sch i) (sch i))
    (hf : WeakFair (DBuf.step k) DBuf.Act.of (DBuf.start n m) sch) {o : CallName} (ho : o = .dequeue ∨ o = .isEmpty) (t : Nat) :
    AllReturn (fun i => (run (DBuf.step k) (DBuf.start n m) sch i).log) o t :=
  DBuf.unlocked_return hn hA hf ho t

/-- C146 as far as it holds: an `enqueue` or `swap_buffer` that never returns is overtaken: calls of other threads return
again and again. -/
theorem C146_others_partial (k : Kind) {n m : Nat} (hn : 0 < n) {drain : Bool} {c : Nat} {sch : Nat → DBuf.Act α}
    (hA : ∀ i, DBuf.Allowed drain c (run (DBuf.step k) (DBuf.start n m) sch i) (sch i))
    (hf : WeakFair (DBuf.step k) DBuf.Act.of (DBuf.start n m) sch) (o : CallName) (t i : Nat)
    (hno : ∀ j, returned o t (run (DBuf.step k) (DBuf.start n m) sch j).log <
      called o t (run (DBuf.step k) (DBuf.start n m) sch i).log) :
    InfOften fun j => ∃ u o', u ≠ t ∧ returned o' u (run (DBuf.step k) (DBuf.start n m) sch j).log <
      returned o' u (run (DBuf.step k) (DBuf.start n m) sch (j + 1)).log :=
  DBuf.others_return hn hA hf o t i hno

/-- C146 as far as it holds: if the spinlock were fair, every call would return. -/
theorem C146_returns_partial (k : Kind) {n m : Nat} (hn : 0 < n) {drain : Bool} {c : Nat} {sch : Nat → DBuf.Act α}
    (hA : ∀ i, DBuf.Allowed drain c (run (DBuf.step k) (DBuf.start n m) sch i) (sch i))
    (hf : StrongFair (DBuf.step k) DBuf.Act.of (DBuf.start n m) sch) (o : CallName) (t : Nat) :
    AllReturn (fun i => (run (DBuf.step k) (DBuf.start n m) sch i).log) o t :=
  DBuf.all_return hn hA hf o t

/-- the hypotheses of `C146_others_partial` and `C146_consumer_partial` hold in an execution with endless calls -/
example : ∃ (sch : Nat → DBuf.Act Nat) (i : Nat),
    (∀ i, DBuf.Allowed true 1 (run (DBuf.step .managed) (DBuf.start 2 2) sch i) (sch i)) ∧
    WeakFair (DBuf.step .managed) DBuf.Act.of (DBuf.start 2 2) sch ∧
    ∀ j, returned .enqueue 0 (run (DBuf.step .managed) (DBuf.start 2 2) sch j).log <
      called .enqueue 0 (run (DBuf.step .managed) (DBuf.start 2 2) sch i).log := by
  refine ⟨Fair.StarveBuf.sch, 1, Fair.StarveBuf.allowed, Fair.StarveBuf.starves.1, fun j => ?_⟩
  have h := Fair.never_returned (o := .enqueue) (t := 0) (log := DBuf.State.log) (fun s a s' => DBuf.step_log)
    Fair.StarveBuf.F Fair.StarveBuf.Good (by decide) Fair.StarveBuf.rounds (fun x k hg => hg.2) j
  have h1 : called .enqueue 0 (run (DBuf.step .managed) (DBuf.start 2 2) Fair.StarveBuf.sch 1).log = 1 := by decide +kernel
  rw [h1]
  exact Nat.lt_of_le_of_lt (Nat.le_of_eq h) Nat.one_pos

/-- the hypotheses of `C146_returns_partial` hold in an execution in which the consumer looks and swaps for ever -/
example : ∃ sch : Nat → DBuf.Act Nat,
    (∀ i, DBuf.Allowed true 1 (run (DBuf.step .managed) (DBuf.start 2 2) sch i) (sch i)) ∧
    StrongFair (DBuf.step .managed) DBuf.Act.of (DBuf.start 2 2) sch ∧
    ∀ n, ∃ i, n ≤ called .swap 1 (run (DBuf.step .managed) (DBuf.start 2 2) sch i).log :=
  ⟨_, Fair.PairBuf.fair⟩

end Props
end Efp
