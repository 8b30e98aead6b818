import Verif.HappensBeforeLemmas

/-!
# No data race in the C++ memory model: C124

`Traced … s tr`: some client programs under some schedule can bring the queue into state `s`, and `tr` lists what the threads
did to the queue's memory and to its lock.  `RaceFree tr`: of any two conflicting accesses one happens before the other.
-/

namespace Efp
namespace Props

open Spec Conc

variable {α : Type}

/-- C124 for BlockingQ: any two accesses of the queue by different threads, one of them modifying it, are ordered by
happens-before. -/
theorem C124_blocking {m : Nat} {s : Blocking.State (stdQ α)} {tr : Trace Unit} (h : Blocking.Traced (stdQ α) m s tr) : RaceFree tr :=
  (Blocking.traced_disciplined (stdLawful α) h).2.free

/-- C124, bounded queue -/
theorem C124_blocking_bounded (k : Kind) {n m : Nat} (hn : 0 < n) {s : Blocking.State (vcqQ k n α)} {tr : Trace Unit}
    (h : Blocking.Traced (vcqQ k n α) m s tr) : RaceFree tr :=
  (Blocking.traced_disciplined (vcqLawful k n hn α) h).2.free

/-- C124: what a thread does up to its enqueue happens before what another thread does after dequeuing: operations `i` and `j`
modify the queue, `i'` comes before `i` in its thread and `j'` after `j`. -/
theorem C124_publication {m : Nat} {s : Blocking.State (stdQ α)} {tr : Trace Unit} (h : Blocking.Traced (stdQ α) m s tr)
    {i i' j j' t u : Nat} {a b : Op Unit} (hij : i < j) (hi : tr[i]? = some (t, .access () true)) (hj : tr[j]? = some (u, .access () true))
    (hi' : i' < i) (ht : tr[i']? = some (t, a)) (hj' : j < j') (hu : tr[j']? = some (u, b)) : HB tr i' j' := by
  have h1 : HB tr i' i := .thread hi' ht hi
  have h2 : HB tr j j' := .thread hj' hj hu
  refine .trans h1 (.trans ?_ h2)
  by_cases e : t = u
  · subst e; exact .thread hij hi hj
  · exact C124_blocking h i j t u () true true hij hi hj e (.inl rfl)

/-- C124 for NonBlockingQ, as far as it holds: without calls of `is_empty` -/
theorem C124_nonblocking_partial {m : Nat} {s : NonBlocking.State (stdQ α)} {tr : Trace Unit}
    (h : NonBlocking.Traced (stdQ α) m false s tr) : RaceFree tr :=
  (NonBlocking.traced_disciplined (stdLawful α) h).2.2.free

/-- C124, bounded queue -/
theorem C124_nonblocking_bounded_partial (k : Kind) {n m : Nat} (hn : 0 < n) {s : NonBlocking.State (vcqQ k n α)} {tr : Trace Unit}
    (h : NonBlocking.Traced (vcqQ k n α) m false s tr) : RaceFree tr :=
  (NonBlocking.traced_disciplined (vcqLawful k n hn α) h).2.2.free

/-- C124 for DoubleBuffer, as far as it holds: with one consumer -/
theorem C124_double_buffer_partial (k : Kind) {n m : Nat} (hn : 0 < n) {drain : Bool} {c : Nat} {s : DBuf.State α} {tr : Trace DBuf.Loc}
    (h : DBuf.Traced k n m drain c s tr) : RaceFree tr := by
  obtain ⟨-, _, -, hd⟩ := DBuf.traced_disciplined hn h
  exact hd.free

/-! ### concrete executions -/

/-- run a schedule and write down the operations -/
def traceB {Q : QImpl α} : List (Blocking.Act α) → Blocking.State Q → Trace Unit → Option (Blocking.State Q × Trace Unit)
  | [], s, tr => some (s, tr)
  | a :: as, s, tr => match Blocking.step s a with
    | some s' => traceB as s' (tr ++ Blocking.ops s a)
    | none => none

theorem traceB_traced {Q : QImpl α} {m : Nat} : ∀ {as : List (Blocking.Act α)} {s : Blocking.State Q} {tr : Trace Unit} {r},
    Blocking.Traced Q m s tr → traceB as s tr = some r → Blocking.Traced Q m r.1 r.2
  | [], s, tr, r, h, hr => by cases hr; exact h
  | a :: as, s, tr, r, h, hr => by
    simp only [traceB] at hr
    split at hr
    · rename_i h1; exact traceB_traced (.step a h h1) hr
    · simp at hr

/-- run a schedule and write down the operations -/
def traceN {Q : QImpl α} : List (NonBlocking.Act α) → NonBlocking.State Q → Trace Unit → Option (NonBlocking.State Q × Trace Unit)
  | [], s, tr => some (s, tr)
  | a :: as, s, tr => match NonBlocking.step s a with
    | some s' => traceN as s' (tr ++ NonBlocking.ops s a)
    | none => none

theorem traceN_traced {Q : QImpl α} {m : Nat} {e : Bool} : ∀ {as : List (NonBlocking.Act α)} {s : NonBlocking.State Q} {tr : Trace Unit} {r},
    (e = false → ∀ a ∈ as, ∀ t, a ≠ .callEmpty t) → NonBlocking.Traced Q m e s tr → traceN as s tr = some r → NonBlocking.Traced Q m e r.1 r.2
  | [], s, tr, r, _, h, hr => by cases hr; exact h
  | a :: as, s, tr, r, ha, h, hr => by
    simp only [traceN] at hr
    split at hr
    · rename_i h1
      exact traceN_traced (fun he b hb => ha he b (List.mem_cons_of_mem _ hb)) (.step a h (fun he => ha he a List.mem_cons_self) h1) hr
    · simp at hr

/-- run a schedule and write down the operations -/
def traceD (k : Kind) : List (DBuf.Act α) → DBuf.State α → Trace DBuf.Loc → Option (DBuf.State α × Trace DBuf.Loc)
  | [], s, tr => some (s, tr)
  | a :: as, s, tr => match DBuf.step k s a with
    | some s' => traceD k as s' (tr ++ DBuf.ops s a)
    | none => none

/-- with clients that keep to `Allowed` -/
def allowedD (k : Kind) (drain : Bool) (c : Nat) : List (DBuf.Act α) → DBuf.State α → Bool
  | [], _ => true
  | a :: as, s => decide (DBuf.Allowed drain c s a) && match DBuf.step k s a with
    | some s' => allowedD k drain c as s'
    | none => true

theorem traceD_traced {k : Kind} {n m : Nat} {drain : Bool} {c : Nat} : ∀ {as : List (DBuf.Act α)} {s : DBuf.State α} {tr : Trace DBuf.Loc} {r},
    DBuf.Traced k n m drain c s tr → allowedD k drain c as s = true → traceD k as s tr = some r → DBuf.Traced k n m drain c r.1 r.2
  | [], s, tr, r, h, _, hr => by cases hr; exact h
  | a :: as, s, tr, r, h, ha, hr => by
    simp only [traceD] at hr
    simp only [allowedD, Bool.and_eq_true, decide_eq_true_eq] at ha
    split at hr
    · rename_i h1
      rw [h1] at ha
      exact traceD_traced (.step a h ha.1 h1) ha.2 hr
    · simp at hr

/-- A dequeue that waits, an enqueue by another thread, and the dequeue's return: the enqueuing thread's modification (4) happens
before the dequeuing thread's (8). -/
example : ∃ s, Blocking.Traced (stdQ Nat) 2 s [(0, .acquire), (0, .access () false), (0, .release), (1, .acquire), (1, .access () true),
    (1, .release), (0, .acquire), (0, .access () false), (0, .access () true), (0, .release)] := by
  refine ⟨_, traceB_traced (as := [.callDeq 0, .run 0, .run 0, .callEnq 1 7, .run 1, .run 1, .notify 1 (some 0), .run 1, .run 0, .run 0,
    .run 0, .run 0]) .start (r := (((traceB (Q := stdQ Nat) [.callDeq 0, .run 0, .run 0, .callEnq 1 7, .run 1, .run 1, .notify 1 (some 0), .run 1,
      .run 0, .run 0, .run 0, .run 0] (Blocking.start _ 2) []).get (by decide +kernel)).1, _)) (by rfl)⟩

/-- C124 is false with `is_empty`: its read of the queue and the modification by an enqueue in another thread are unordered. -/
theorem C124_is_empty_races : ∃ s tr, NonBlocking.Traced (stdQ Nat) 2 true s tr ∧ ¬ RaceFree tr := by
  refine ⟨_, [(0, .access () false), (1, .acquire), (1, .access () true)], traceN_traced (as := [.callEmpty 0, .run 0, .callEnq 1 3, .run 1, .run 1])
    (by simp) .start (r := (((traceN (Q := stdQ Nat) [.callEmpty 0, .run 0, .callEnq 1 3, .run 1, .run 1] (NonBlocking.start _ 2) []).get
      (by decide +kernel)).1, _)) (by rfl), fun h => ?_⟩
  obtain ⟨k, h1, h2, h3⟩ := (h 0 2 0 1 () false true (by decide) rfl rfl (by decide) (.inr rfl)).release (t := 0) (u := 1) rfl rfl (by decide)
  obtain rfl | rfl : k = 0 ∨ k = 1 := by omega
  · cases h3
  · cases h3

/-- two threads use the queue without `is_empty` -/
example : ∃ s, NonBlocking.Traced (stdQ Nat) 2 false s [(1, .acquire), (1, .access () true), (1, .release), (0, .acquire), (0, .access () false),
    (0, .access () true), (0, .release)] := by
  refine ⟨_, traceN_traced (as := [.callDeq 0, .callEnq 1 7, .run 1, .run 1, .run 1, .run 0, .run 0, .run 0, .run 0]) (by simp) .start
    (r := (((traceN (Q := stdQ Nat) [.callDeq 0, .callEnq 1 7, .run 1, .run 1, .run 1, .run 0, .run 0, .run 0, .run 0] (NonBlocking.start _ 2)
      []).get (by decide +kernel)).1, _)) (by rfl)⟩

/-- one producer and one consumer of a double buffer -/
example : ∃ s : DBuf.State Nat, DBuf.Traced .managed 2 2 false 1 s [(0, .acquire), (0, .access .writePtr false), (0, .access (.buf true) true),
    (0, .release), (1, .acquire), (1, .access .writePtr true), (1, .access .readPtr true), (1, .release), (1, .access .readPtr false),
    (1, .access (.buf true) true)] := by
  refine ⟨_, traceD_traced (as := [.callEnq 0 1, .run 0, .run 0, .run 0, .callSwap 1, .run 1, .run 1, .run 1, .callDeq 1, .run 1]) .start
    (by decide +kernel) (r := (((traceD .managed [.callEnq 0 1, .run 0, .run 0, .run 0, .callSwap 1, .run 1, .run 1, .run 1, .callDeq 1, .run 1]
      (DBuf.start 2 2) []).get (by decide +kernel)).1, _)) (by rfl)⟩

/-- C124 is false with two consumers: the read of the pointer to the read buffer by the one and its modification by the other are
unordered. -/
theorem C124_two_consumers_race : ∃ (as : List (DBuf.Act Nat)) (s : DBuf.State Nat) (tr : Trace DBuf.Loc),
    traceD .managed as (DBuf.start 2 3) [] = some (s, tr) ∧ ¬ RaceFree tr := by
  refine ⟨[.callEnq 0 1, .run 0, .run 0, .run 0, .callSwap 1, .run 1, .run 1, .run 1, .callDeq 1, .run 1, .callSwap 2, .run 2, .run 2],
    ((traceD .managed [.callEnq 0 1, .run 0, .run 0, .run 0, .callSwap 1, .run 1, .run 1, .run 1, .callDeq 1, .run 1, .callSwap 2, .run 2, .run 2]
      (DBuf.start 2 3) []).get (by decide +kernel)).1,
    [(0, .acquire), (0, .access .writePtr false), (0, .access (.buf true) true),
      (0, .release), (1, .acquire), (1, .access .writePtr true), (1, .access .readPtr true), (1, .release), (1, .access .readPtr false),
      (1, .access (.buf true) true), (2, .acquire), (2, .access .writePtr true), (2, .access .readPtr true)], by rfl, fun h => ?_⟩
  obtain ⟨k, h1, h2, h3⟩ := (h 8 12 1 2 .readPtr false true (by decide) rfl rfl (by decide) (.inr rfl)).release (t := 1) (u := 2) rfl rfl
    (by decide)
  obtain rfl | rfl | rfl | rfl : k = 8 ∨ k = 9 ∨ k = 10 ∨ k = 11 := by omega
  all_goals cases h3

end Props
end Efp
