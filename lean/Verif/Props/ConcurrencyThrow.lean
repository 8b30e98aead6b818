import Verif.ConcurrencyThrowLemmas

/-!
# Exceptions thrown by element copies inside the concurrent queues: C111, C112

`Blocking.execT as s` and `DBuf.execT k as s` run a schedule in which, besides the ordinary steps, the copy of an element
inside `enqueue` (`throwPush t`) or inside `dequeue` (`throwPop t`) may throw in thread `t`.
-/

namespace Efp
namespace Props

open Spec Conc

variable {α : Type}

/-! ## C111: BlockingQ -/

/-- C111, no element is lost or duplicated: whatever copies throw, what was dequeued, followed by what is still queued,
is what was enqueued by calls that did not throw, in order; two threads never access the queue at the same time, and no
access is undefined. -/
theorem C111_fifo_partial {m : Nat} {as : List (Blocking.ActT α)} {s : Blocking.State (stdQ α)}
    (h : Blocking.execT as (Blocking.start (stdQ α) m) = some s) :
    pops (events s.log) ++ s.q = pushes (events s.log) ∧ s.bad = false ∧
      ∀ (t u : Nat) (p p' : Blocking.PC α), s.pcs[t]? = some p → s.pcs[u]? = some p' →
        p.accesses = true → p'.accesses = true → t = u := by
  obtain ⟨l, hI⟩ := Blocking.execT_inv as (Blocking.startT_inv (stdLawful α) m) h
  have hr : s.q = l := hI.rep
  have := legal_none hI.legal
  refine ⟨by rw [hr, ← this, List.nil_append], hI.good, fun t u p p' h1 h2 hp hp' => hI.toCore.unique h1 h2 ?_ ?_⟩
  · cases p <;> simp_all [Blocking.PC.accesses, Blocking.PC.holds]
  · cases p' <;> simp_all [Blocking.PC.accesses, Blocking.PC.holds]

/-- C111, the lock is released: calls under way come to an end, with or without an exception, within `8 * m` steps, and
when no ordinary step is possible every thread is outside or asleep waiting for an element. -/
theorem C111_released_partial {m : Nat} {as0 : List (Blocking.ActT α)} {s : Blocking.State (stdQ α)}
    (h : Blocking.execT as0 (Blocking.start (stdQ α) m) = some s) {as : List (Blocking.ActT α)}
    (ha : ∀ a ∈ as, a.inner = true) {s' : Blocking.State (stdQ α)} (he : Blocking.execT as s = some s') :
    as.length ≤ 8 * m ∧
    ((∀ a : Blocking.Act α, a.inner = true → Blocking.step s' a = none) →
      ∀ (t : Nat) (p : Blocking.PC α), s'.pcs[t]? = some p → p = .idle ∨ p = .asleep) := by
  obtain ⟨l, hI⟩ := Blocking.execT_inv as0 (Blocking.startT_inv (stdLawful α) m) h
  obtain ⟨l', hI'⟩ := Blocking.execT_inv as hI he
  have hlen : s.pcs.length = m := by
    have := Blocking.execT_length h
    simpa [Blocking.start] using this
  constructor
  · have h1 := Blocking.execT_fuel hI ha he
    have h2 := weight_le (w := Blocking.PC.fuel) (b := 8) (fun p => by cases p <;> simp [Blocking.PC.fuel]) s.pcs
    rw [hlen] at h2
    omega
  · intro hs t p ht
    by_cases h1 : p = .idle
    · exact .inl h1
    by_cases h2 : p = .asleep
    · exact .inr h2
    obtain ⟨a, s2, h3, h4⟩ := Blocking.progress hI'.toCore ht h1 h2
    rw [hs a ((Blocking.inner_iff a).mpr h3)] at h4
    simp at h4

/-- C111, wake-ups, as far as it holds: if only enqueues throw, a consumer that sleeps un-notified while nobody holds the
lock or waits for it finds the queue empty. -/
theorem C111_wakeup_partial {m : Nat} {as : List (Blocking.ActT α)} (ha : ∀ t, Blocking.ActT.throwPop t ∉ as)
    {s : Blocking.State (stdQ α)} (h : Blocking.execT as (Blocking.start (stdQ α) m) = some s) {t : Nat}
    (ht : s.pcs[t]? = some .asleep) (hl : s.lock = none)
    (hw : ∀ (u : Nat) (p : Blocking.PC α), s.pcs[u]? = some p → p ≠ .woken ∧ p ≠ .deqLock ∧ ∀ a, p ≠ .enqLock a) :
    s.q = [] := by
  obtain ⟨l, hI⟩ := Blocking.execT_inv as (Blocking.startT_inv (stdLawful α) m) h
  have hall : (true && as.all (fun a => !a.popThrows)) = true := by
    rw [Bool.true_and, List.all_eq_true]
    intro a hm
    cases a with
    | throwPop u => exact absurd hm (ha u)
    | _ => rfl
  have h1 := hI.wake hall t ht
  have h2 : ¬ 0 < weight Blocking.PC.pending s.pcs := by
    intro hp
    obtain ⟨u, p, hu, hp⟩ := weight_pos hp
    have := hw u p hu
    have h3 := hI.lock u p hu
    rw [hl] at h3
    cases p <;> simp_all [Blocking.PC.pending, Blocking.PC.holds]
  have hr : s.q = l := hI.rep
  rw [hr]
  exact List.length_eq_zero_iff.mp (by omega)

/-- an enqueue whose copy throws, then one that succeeds and wakes the sleeping consumer -/
def schedule111 : List (Blocking.ActT Nat) :=
  [.act (.callDeq 0), .act (.run 0), .act (.run 0), .act (.callEnq 1 5), .act (.run 1), .throwPush 1, .act (.callEnq 1 6),
    .act (.run 1), .act (.run 1), .act (.notify 1 (some 0)), .act (.run 1), .act (.run 0), .act (.run 0), .act (.run 0),
    .act (.run 0), .act (.callDeq 0), .act (.run 0), .act (.run 0)]

example : (∀ t, Blocking.ActT.throwPop t ∉ schedule111) ∧
    ((Blocking.execT schedule111 (Blocking.start (stdQ Nat) 2)).map fun s =>
      (s.pcs, s.lock, pops (events s.log), (s.q : List Nat))) = some ([.asleep, .idle], none, [6], []) := by
  refine ⟨fun t => by simp [schedule111], by decide +kernel⟩

/-- two sleeping consumers; the one that is notified fails to copy the element -/
def schedule111b : List (Blocking.ActT Nat) :=
  [.act (.callDeq 0), .act (.run 0), .act (.run 0), .act (.callDeq 1), .act (.run 1), .act (.run 1), .act (.callEnq 2 5),
    .act (.run 2), .act (.run 2), .act (.notify 2 (some 1)), .act (.run 2), .act (.run 1), .act (.run 1), .throwPop 1]

/-- **C111 is false for wake-ups.** If the copy in `dequeue` throws, the notification is used up: an element is queued
and a consumer sleeps, but nobody is left to wake it; no step is possible without a new call or a spurious wake-up. -/
theorem C111_lost_wakeup : ∃ s : Blocking.State (stdQ Nat),
    Blocking.execT schedule111b (Blocking.start (stdQ Nat) 3) = some s ∧ s.pcs = [.asleep, .idle, .idle] ∧
      s.lock = none ∧ s.q = [5] ∧ ∀ a : Blocking.Act Nat, a.inner = true → Blocking.step s a = none := by
  refine ⟨(Blocking.execT schedule111b (Blocking.start (stdQ Nat) 3)).get (by decide +kernel), by simp,
    by decide +kernel, by decide +kernel, by decide +kernel, ?_⟩
  have hp : ((Blocking.execT schedule111b (Blocking.start (stdQ Nat) 3)).get (by decide +kernel)).pcs =
      [.asleep, .idle, .idle] := by decide +kernel
  intro a ha
  cases a with
  | run t =>
    simp only [Blocking.step, hp]
    match t with
    | 0 | 1 | 2 => rfl
    | t + 3 => rfl
  | notify t w =>
    simp only [Blocking.step, hp]
    match t with
    | 0 | 1 | 2 => rfl
    | t + 3 => rfl
  | _ => simp [Blocking.Act.inner] at ha

/-! ## C112: DoubleBuffer -/

/-- the effects and returns of enqueues and swaps in a history -/
def lockedCalls (log : List (Nat × Ev α)) : List (Ev α) := (events log).filter fun e => match e with
  | .push _ | .swap | .retEnq | .retSwap => true
  | _ => false

/-- **C112 is false.** If copying the element throws inside `enqueue`, the spinlock stays locked for ever: whatever
happens from then on, no `enqueue` and no `swap_buffer` ever takes effect or returns again, and every thread that calls
one of them spins. -/
theorem C112_enqueue_throw_locks {k : Kind} {n m : Nat} {as : List (DBuf.ActT α)} {s s1 : DBuf.State α}
    (h : DBuf.execT k as (DBuf.start n m) = some s) {t : Nat} {b : Cyclic.VcqS α}
    (h1 : DBuf.stepT k s (.throwPush t b) = some s1) {as' : List (DBuf.ActT α)} {s' : DBuf.State α}
    (h' : DBuf.execT k as' s1 = some s') :
    lockedCalls s'.log = lockedCalls s.log ∧
      ∀ u, ((∃ a, s'.pcs[u]? = some (.enqSpin a)) ∨ s'.pcs[u]? = some .swapSpin) →
        DBuf.stepT k s' (.act (.run u)) = none := by
  obtain ⟨h2, h3⟩ := DBuf.throw_stuck (DBuf.execT_excl (DBuf.start_excl n m) h) h1
  obtain ⟨h4, h5⟩ := DBuf.stuck_exec h2 h'
  refine ⟨?_, fun u hu => ?_⟩
  · show DBuf.locked s'.log = DBuf.locked s.log
    rw [h5, h3]
  · rcases hu with ⟨a, hu⟩ | hu <;> simp [DBuf.stepT, DBuf.step, hu, DBuf.runPC, h4.1]

/-- C112, what remains: an exception in `enqueue` does not touch the read buffer, so its elements can still be
dequeued. -/
theorem C112_read_buffer_partial {k : Kind} {n m : Nat} (hn : 0 < n) {drain : Bool} {c : Nat} {s s1 : DBuf.State α}
    (h : DBuf.Reach k n m drain c s) {t : Nat} {b : Cyclic.VcqS α} (h1 : DBuf.stepT k s (.throwPush t b) = some s1) :
    s1.rp = s.rp ∧ s1.buf s1.rp = s.buf s.rp ∧ s1.bad = false := by
  obtain ⟨r, w, hI⟩ := DBuf.reach_inv hn h
  simp only [DBuf.stepT] at h1
  split at h1 <;> simp only [Option.some.injEq, reduceCtorEq] at h1
  subst h1
  have e1 := DBuf.setBuf_fields s s.wp b
  have e2 := DBuf.setBuf_buf s s.wp b s.rp
  have hp := hI.ptr
  have hg := hI.good
  refine ⟨?_, ?_, ?_⟩
  · show (s.setBuf s.wp b).rp = s.rp
    simp only [DBuf.State.setBuf]; split <;> rfl
  · show (s.setBuf s.wp b).buf (s.setBuf s.wp b).rp = s.buf s.rp
    have : (s.setBuf s.wp b).rp = s.rp := by simp only [DBuf.State.setBuf]; split <;> rfl
    rw [this, e2, if_neg hp]
  · show (s.setBuf s.wp b).bad = false
    have : (s.setBuf s.wp b).bad = s.bad := by simp only [DBuf.State.setBuf]; split <;> rfl
    rw [this, hg]

/-- thread 0 enqueues, its second copy throws; thread 1 then tries to swap and thread 0 to enqueue again -/
def schedule112 : List (DBuf.ActT Nat) :=
  [.act (.callEnq 0 1), .act (.run 0), .act (.run 0), .act (.run 0), .act (.callEnq 0 2), .act (.run 0)]

example : ∃ s s1 s', DBuf.execT .managed schedule112 (DBuf.start 2 2) = some s ∧
    DBuf.stepT .managed s (.throwPush 0 (s.buf s.wp)) = some s1 ∧
    DBuf.execT .managed [.act (.callSwap 1), .act (.callEnq 0 3)] s1 = some s' ∧
    s'.pcs = [.enqSpin 3, .swapSpin] ∧ lockedCalls s'.log = [.push 1, .retEnq] := by
  refine ⟨(DBuf.execT .managed schedule112 (DBuf.start 2 2)).get (by decide +kernel), _, _, by simp, rfl, rfl,
    by decide +kernel, by decide +kernel⟩

end Props
end Efp
