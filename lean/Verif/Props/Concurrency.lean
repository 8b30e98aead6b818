import Verif.DoubleBufferLemmas
import Verif.Spec.Concurrency

/-!
# Properties of the concurrent queues: C29-C34, C78

`Reachable Q m s`: some client programs running in `m` threads under some schedule can bring the queue into state `s`.
-/

namespace Efp
namespace Props

open Spec Conc

variable {α : Type}

/-! ## C29: unbounded BlockingQ -/

/-- C29: what was dequeued, followed by what is still queued, is what was enqueued, in order. -/
theorem C29_blocking_fifo {m : Nat} {s : Blocking.State (stdQ α)} (h : Blocking.Reachable (stdQ α) m s) :
    pops (events s.log) ++ s.q = pushes (events s.log) := by
  obtain ⟨l, hI⟩ := Blocking.reach_inv (stdLawful α) h
  have hr : s.q = l := hI.rep
  have := legal_none hI.legal
  rw [hr, ← this, List.nil_append]

/-- C29: every history is linearizable: each call takes effect once, between its call and its return, with the values
it was given and returns, and the effects are a run of the sequential FIFO queue. -/
theorem C29_blocking_linearizable {m : Nat} {s : Blocking.State (stdQ α)} (h : Blocking.Reachable (stdQ α) m s) :
    Linearizable none s.log s.q := by
  obtain ⟨l, hI⟩ := Blocking.reach_inv (stdLawful α) h
  have hr : s.q = l := hI.rep
  exact ⟨hr ▸ hI.legal, fun t => ⟨_, hI.phase t⟩⟩

/-- C29: for a thread outside all operations, the values it enqueued are those of its calls and the values its dequeues
returned are those it took out. -/
theorem C29_blocking_calls {m : Nat} {s : Blocking.State (stdQ α)} (h : Blocking.Reachable (stdQ α) m s) {t : Nat}
    (ht : s.pcs[t]? = some .idle) :
    pushes (ofThread t s.log) = enqCalls (ofThread t s.log) ∧ pops (ofThread t s.log) = deqRets (ofThread t s.log) := by
  obtain ⟨l, hI⟩ := Blocking.reach_inv (stdLawful α) h
  have h1 := hI.phase t
  rw [phaseAt_some ht] at h1
  have h2 := phaseRun_calls h1
  simp only [Blocking.PC.phase, List.append_nil] at h2
  exact ⟨h2.1.symm, h2.2⟩

/-- two producers and a consumer that sleeps first, with a spurious wake-up -/
def schedule29 : List (Blocking.Act Nat) :=
  [.callDeq 2, .run 2, .run 2, .callEnq 0 7, .spurious 2, .callEnq 1 8, .run 2, .run 2, .run 0, .run 0, .notify 0 (some 2),
    .run 0, .run 1, .run 1, .notify 1 none, .run 1, .run 2, .run 2, .run 2, .run 2]

example : ((Blocking.exec schedule29 (Blocking.start (stdQ Nat) 3)).map fun s => (s.pcs, pops (events s.log), (s.q : List Nat)))
    = some ([.idle, .idle, .idle], [7], [8]) := by decide +kernel

example : ∃ s, Blocking.Reachable (stdQ Nat) 3 s ∧ s.pcs[2]? = some .idle ∧ deqRets (ofThread 2 s.log) = [7] :=
  ⟨(Blocking.exec schedule29 (Blocking.start (stdQ Nat) 3)).get (by decide +kernel), ⟨schedule29, by simp⟩,
    by decide +kernel, by decide +kernel⟩

/-! ## C30: bounded BlockingQ -/

/-- C30: a bounded queue never holds more than `n` elements, its history is linearizable with respect to the bounded
FIFO queue, elements come out in enqueue order without duplicates, and every element is dequeued, still queued, or was
displaced by a push onto a queue of `n` elements. -/
theorem C30_bounded_blocking (k : Kind) {n m : Nat} (hn : 0 < n) {s : Blocking.State (vcqQ k n α)}
    (h : Blocking.Reachable (vcqQ k n α) m s) :
    ∃ q, Cyclic.Vcq.contents s.q = .ok q s.q ∧ q.length ≤ n ∧ Linearizable (some n) s.log q ∧
      (pops (events s.log) ++ q).Sublist (pushes (events s.log)) ∧
      (pushes (events s.log)).Perm (pops (events s.log) ++ drops n (events s.log) [] ++ q) := by
  obtain ⟨l, hI⟩ := Blocking.reach_inv (vcqLawful k n hn α) h
  obtain ⟨h1, h2, h3⟩ := legal_some hn (by simp) hI.legal
  exact ⟨l, Cyclic.Vcq.contents_run hI.rep.1, h1, ⟨hI.legal, fun t => ⟨_, hI.phase t⟩⟩, by simpa using h2, by simpa using h3⟩

/-- C30: if the enqueues never got more than `n` ahead of the dequeues, nothing is lost. -/
theorem C30_no_loss (k : Kind) {n m : Nat} (hn : 0 < n) {s : Blocking.State (vcqQ k n α)}
    (h : Blocking.Reachable (vcqQ k n α) m s)
    (hb : ∀ es1 es2, events s.log = es1 ++ es2 → (pushes es1).length ≤ (pops es1).length + n) :
    ∃ q, Cyclic.Vcq.contents s.q = .ok q s.q ∧ pops (events s.log) ++ q = pushes (events s.log) := by
  obtain ⟨q, h1, -, h2, h3, h4⟩ := C30_bounded_blocking k hn h
  have hd := drops_nil h2.1 (fun es1 es2 he => by simpa using hb es1 es2 he)
  rw [hd, List.append_nil] at h4
  exact ⟨q, h1, h3.eq_of_length h4.length_eq.symm⟩

/-- C30: an element is lost only if `n` later elements were enqueued: if fewer than `n` enqueues followed the one of `a`, then
`a` was dequeued since or is still in the queue. -/
theorem C30_lost_only_behind_n_more (k : Kind) {n m : Nat} (hn : 0 < n) {s : Blocking.State (vcqQ k n α)}
    (h : Blocking.Reachable (vcqQ k n α) m s) {a : α} {before since : List (Ev α)}
    (he : events s.log = before ++ .push a :: since) (hf : (pushes since).length < n) :
    ∃ q, Cyclic.Vcq.contents s.q = .ok q s.q ∧ (a ∈ pops since ∨ a ∈ q) := by
  obtain ⟨q, h1, -, h2, -⟩ := C30_bounded_blocking k hn h
  exact ⟨q, h1, linearizable_kept h2 he hf⟩

/-- capacity 2, three enqueues: the first element is displaced -/
def schedule30 : List (Blocking.Act Nat) :=
  [.callEnq 0 1, .run 0, .run 0, .notify 0 none, .run 0, .callEnq 0 2, .run 0, .run 0, .notify 0 none, .run 0,
    .callEnq 0 3, .run 0, .run 0, .notify 0 none, .run 0, .callDeq 1, .run 1, .run 1, .run 1, .run 1]

example : ((Blocking.exec schedule30 (Blocking.start (vcqQ .managed 2 Nat) 2)).map fun s =>
    (pops (events s.log), pushes (events s.log), drops 2 (events s.log) [], (Cyclic.Vcq.empty s.q)))
    = some ([2], [1, 2, 3], [1], false) := by decide +kernel

/-- behind 1 two elements were enqueued, behind 2 only one -/
example : ((Blocking.exec schedule30 (Blocking.start (vcqQ .managed 2 Nat) 2)).map fun s =>
    (events s.log).filter fun e => match e with | .push _ => true | _ => false) = some [.push 1, .push 2, .push 3] := by
  decide +kernel

/-! ## C31: mutual exclusion -/

/-- C31: two threads never access the queue at the same time, and no access to it throws or is undefined; in
particular `dequeue` never pops an empty queue. -/
theorem C31_exclusive {m : Nat} {s : Blocking.State (stdQ α)} (h : Blocking.Reachable (stdQ α) m s) :
    s.bad = false ∧ ∀ (t u : Nat) (p p' : Blocking.PC α), s.pcs[t]? = some p → s.pcs[u]? = some p' →
      p.accesses = true → p'.accesses = true → t = u := by
  obtain ⟨l, hI⟩ := Blocking.reach_inv (stdLawful α) h
  exact ⟨hI.good, fun t u p p' h1 h2 hp hp' => hI.unique h1 h2 (by cases p <;> simp_all [Blocking.PC.accesses, Blocking.PC.holds])
    (by cases p' <;> simp_all [Blocking.PC.accesses, Blocking.PC.holds])⟩

/-- C31, bounded queue -/
theorem C31_exclusive_bounded (k : Kind) {n m : Nat} (hn : 0 < n) {s : Blocking.State (vcqQ k n α)}
    (h : Blocking.Reachable (vcqQ k n α) m s) :
    s.bad = false ∧ ∀ (t u : Nat) (p p' : Blocking.PC α), s.pcs[t]? = some p → s.pcs[u]? = some p' →
      p.accesses = true → p'.accesses = true → t = u := by
  obtain ⟨l, hI⟩ := Blocking.reach_inv (vcqLawful k n hn α) h
  exact ⟨hI.good, fun t u p p' h1 h2 hp hp' => hI.unique h1 h2 (by cases p <;> simp_all [Blocking.PC.accesses, Blocking.PC.holds])
    (by cases p' <;> simp_all [Blocking.PC.accesses, Blocking.PC.holds])⟩

/-- a state with one thread at an access while another waits for the lock -/
example : ((Blocking.exec [.callEnq 0 1, .callEnq 1 2, .run 0] (Blocking.start (stdQ Nat) 2)).map fun s =>
    (s.pcs, s.pcs.map Blocking.PC.accesses)) = some ([.enqPush 1, .enqLock 2], [true, false]) := by decide +kernel

/-! ## C32: no lost wake-up -/

/-- waiting to take the mutex -/
def wantsLock : Blocking.PC α → Bool
  | .enqLock _ | .deqLock | .woken => true
  | _ => false

/-- C32: if a consumer sleeps un-notified while nobody holds the lock or waits for it, the queue is empty. -/
theorem C32_no_lost_wakeup {m : Nat} {s : Blocking.State (stdQ α)} (h : Blocking.Reachable (stdQ α) m s) {t : Nat}
    (ht : s.pcs[t]? = some .asleep) (hl : s.lock = none)
    (hw : ∀ (u : Nat) (p : Blocking.PC α), s.pcs[u]? = some p → wantsLock p = false) : s.q = [] := by
  obtain ⟨l, hI⟩ := Blocking.reach_inv (stdLawful α) h
  have h1 := hI.wake t ht
  have h2 : ¬ 0 < weight Blocking.PC.pending s.pcs := by
    intro hp
    obtain ⟨u, p, hu, hp⟩ := weight_pos hp
    have := hw u p hu
    have h3 := hI.lock u p hu
    rw [hl] at h3
    cases p <;> simp_all [wantsLock, Blocking.PC.pending, Blocking.PC.holds]
  have hr : s.q = l := hI.rep
  rw [hr]
  exact List.length_eq_zero_iff.mp (by omega)

/-- C32, bounded queue -/
theorem C32_no_lost_wakeup_bounded (k : Kind) {n m : Nat} (hn : 0 < n) {s : Blocking.State (vcqQ k n α)}
    (h : Blocking.Reachable (vcqQ k n α) m s) {t : Nat} (ht : s.pcs[t]? = some .asleep) (hl : s.lock = none)
    (hw : ∀ (u : Nat) (p : Blocking.PC α), s.pcs[u]? = some p → wantsLock p = false) : Cyclic.Vcq.empty s.q = true := by
  obtain ⟨l, hI⟩ := Blocking.reach_inv (vcqLawful k n hn α) h
  have h1 := hI.wake t ht
  have h2 : ¬ 0 < weight Blocking.PC.pending s.pcs := by
    intro hp
    obtain ⟨u, p, hu, hp⟩ := weight_pos hp
    have := hw u p hu
    have h3 := hI.lock u p hu
    rw [hl] at h3
    cases p <;> simp_all [wantsLock, Blocking.PC.pending, Blocking.PC.holds]
  have hz : l = [] := List.length_eq_zero_iff.mp (by omega)
  have he : (vcqQ k n α).empty s.q = l.isEmpty := (vcqLawful k n hn α).empty hI.rep
  rw [hz] at he
  exact he

/-- C32: operations under way come to an end whatever the scheduler does: with `m` threads at most `8 * m` steps can
follow without a new call or a spurious wake-up, and when no further step is possible every thread is outside or asleep,
and asleep only if the queue is empty. -/
theorem C32_progress {m : Nat} {s : Blocking.State (stdQ α)} (h : Blocking.Reachable (stdQ α) m s)
    {as : List (Blocking.Act α)} (ha : ∀ a ∈ as, a.inner = true) {s' : Blocking.State (stdQ α)}
    (he : Blocking.exec as s = some s') :
    as.length ≤ 8 * m ∧
    ((∀ a, a.inner = true → Blocking.step s' a = none) →
      ∀ (t : Nat) (p : Blocking.PC α), s'.pcs[t]? = some p → p = .idle ∨ (p = .asleep ∧ s'.q = [])) := by
  obtain ⟨as0, h0⟩ := h
  obtain ⟨l, hI⟩ := Blocking.exec_inv as0 (Blocking.start_inv (stdLawful α) m) h0
  obtain ⟨l', hI'⟩ := Blocking.exec_inv as hI he
  have hlen : s.pcs.length = m := by
    have := Blocking.exec_length h0
    simpa [Blocking.start] using this
  constructor
  · have h1 := Blocking.exec_fuel hI ha he
    have h2 := weight_le (w := Blocking.PC.fuel) (b := 8) (fun p => by cases p <;> simp [Blocking.PC.fuel]) s.pcs
    rw [hlen] at h2
    omega
  · intro hs
    have key : ∀ (t : Nat) (p : Blocking.PC α), s'.pcs[t]? = some p → p = .idle ∨ p = .asleep := by
      intro t p ht
      by_cases h1 : p = .idle
      · exact .inl h1
      by_cases h2 : p = .asleep
      · exact .inr h2
      obtain ⟨a, s2, h3, h4⟩ := Blocking.progress hI'.toCore ht h1 h2
      rw [hs a ((Blocking.inner_iff a).mpr h3)] at h4
      simp at h4
    intro t p ht
    rcases key t p ht with h1 | h1
    · exact .inl h1
    · refine .inr ⟨h1, ?_⟩
      subst h1
      have h1 := hI'.wake t ht
      have h2 : ¬ 0 < weight Blocking.PC.pending s'.pcs := by
        intro hp
        obtain ⟨u, p, hu, hp⟩ := weight_pos hp
        rcases key u p hu with rfl | rfl <;> simp [Blocking.PC.pending] at hp
      have hr : s'.q = l' := hI'.rep
      rw [hr]
      exact List.length_eq_zero_iff.mp (by omega)

/-- C32, bounded queue -/
theorem C32_progress_bounded (k : Kind) {n m : Nat} (hn : 0 < n) {s : Blocking.State (vcqQ k n α)}
    (h : Blocking.Reachable (vcqQ k n α) m s) {as : List (Blocking.Act α)} (ha : ∀ a ∈ as, a.inner = true)
    {s' : Blocking.State (vcqQ k n α)} (he : Blocking.exec as s = some s') :
    as.length ≤ 8 * m ∧
    ((∀ a, a.inner = true → Blocking.step s' a = none) →
      ∀ (t : Nat) (p : Blocking.PC α), s'.pcs[t]? = some p → p = .idle ∨ (p = .asleep ∧ Cyclic.Vcq.empty s'.q = true)) := by
  obtain ⟨as0, h0⟩ := h
  obtain ⟨l, hI⟩ := Blocking.exec_inv as0 (Blocking.start_inv (vcqLawful k n hn α) m) h0
  obtain ⟨l', hI'⟩ := Blocking.exec_inv as hI he
  have hlen : s.pcs.length = m := by
    have := Blocking.exec_length h0
    simpa [Blocking.start] using this
  constructor
  · have h1 := Blocking.exec_fuel hI ha he
    have h2 := weight_le (w := Blocking.PC.fuel) (b := 8) (fun p => by cases p <;> simp [Blocking.PC.fuel]) s.pcs
    rw [hlen] at h2
    omega
  · intro hs
    have key : ∀ (t : Nat) (p : Blocking.PC α), s'.pcs[t]? = some p → p = .idle ∨ p = .asleep := by
      intro t p ht
      by_cases h1 : p = .idle
      · exact .inl h1
      by_cases h2 : p = .asleep
      · exact .inr h2
      obtain ⟨a, s2, h3, h4⟩ := Blocking.progress hI'.toCore ht h1 h2
      rw [hs a ((Blocking.inner_iff a).mpr h3)] at h4
      simp at h4
    intro t p ht
    rcases key t p ht with h1 | h1
    · exact .inl h1
    · refine .inr ⟨h1, ?_⟩
      subst h1
      have h1 := hI'.wake t ht
      have h2 : ¬ 0 < weight Blocking.PC.pending s'.pcs := by
        intro hp
        obtain ⟨u, p, hu, hp⟩ := weight_pos hp
        rcases key u p hu with rfl | rfl <;> simp [Blocking.PC.pending] at hp
      have hz : l' = [] := List.length_eq_zero_iff.mp (by omega)
      have he : (vcqQ k n α).empty s'.q = l'.isEmpty := (vcqLawful k n hn α).empty hI'.rep
      rw [hz] at he
      exact he

/-- two sleepers, one notified by an enqueue: the other still sleeps, and the queue is empty again in the end -/
def schedule32 : List (Blocking.Act Nat) :=
  [.callDeq 0, .callDeq 1, .run 0, .run 0, .run 1, .run 1, .callEnq 2 5, .run 2, .run 2, .notify 2 (some 1), .run 2,
    .run 1, .run 1, .run 1, .run 1]

example : ((Blocking.exec schedule32 (Blocking.start (stdQ Nat) 3)).map fun s => (s.pcs, s.lock, (s.q : List Nat)))
    = some ([.asleep, .idle, .idle], none, []) := by decide +kernel

/-- the same up to the notification: the queue holds an element and a consumer sleeps, but a woken one wants the lock -/
example : ((Blocking.exec (schedule32.take 11) (Blocking.start (stdQ Nat) 3)).map fun s => (s.pcs, s.lock, (s.q : List Nat)))
    = some ([.asleep, .woken, .idle], none, [5]) := by decide +kernel

/-! ## C33: NonBlockingQ -/

/-- C33: the history of an unbounded NonBlockingQ is linearizable: a dequeue yields nothing exactly if the queue is
empty at that moment and the oldest element otherwise, `is_empty` reports the emptiness at some moment during the call,
and what was dequeued followed by what is queued is what was enqueued. No access to the queue throws or is undefined. -/
theorem C33_nonblocking {m : Nat} {s : NonBlocking.State (stdQ α)} (h : NonBlocking.Reachable (stdQ α) m s) :
    Linearizable none s.log s.q ∧ pops (events s.log) ++ s.q = pushes (events s.log) ∧ s.bad = false := by
  obtain ⟨l, hI⟩ := NonBlocking.reach_inv (stdLawful α) h
  have hr : s.q = l := hI.rep
  have := legal_none hI.legal
  exact ⟨⟨hr ▸ hI.legal, fun t => ⟨_, hI.phase t⟩⟩, by rw [hr, ← this, List.nil_append], hI.good⟩

/-- C33: the same for the bounded NonBlockingQ, with loss only by displacement -/
theorem C33_nonblocking_bounded (k : Kind) {n m : Nat} (hn : 0 < n) {s : NonBlocking.State (vcqQ k n α)}
    (h : NonBlocking.Reachable (vcqQ k n α) m s) :
    ∃ q, Cyclic.Vcq.contents s.q = .ok q s.q ∧ q.length ≤ n ∧ Linearizable (some n) s.log q ∧
      (pops (events s.log) ++ q).Sublist (pushes (events s.log)) ∧
      (pushes (events s.log)).Perm (pops (events s.log) ++ drops n (events s.log) [] ++ q) ∧ s.bad = false := by
  obtain ⟨l, hI⟩ := NonBlocking.reach_inv (vcqLawful k n hn α) h
  obtain ⟨h1, h2, h3⟩ := legal_some hn (by simp) hI.legal
  exact ⟨l, Cyclic.Vcq.contents_run hI.rep.1, h1, ⟨hI.legal, fun t => ⟨_, hI.phase t⟩⟩, by simpa using h2,
    by simpa using h3, hI.good⟩

/-- C33: and an element is lost only if `n` later elements were enqueued -/
theorem C33_lost_only_behind_n_more (k : Kind) {n m : Nat} (hn : 0 < n) {s : NonBlocking.State (vcqQ k n α)}
    (h : NonBlocking.Reachable (vcqQ k n α) m s) {a : α} {before since : List (Ev α)}
    (he : events s.log = before ++ .push a :: since) (hf : (pushes since).length < n) :
    ∃ q, Cyclic.Vcq.contents s.q = .ok q s.q ∧ (a ∈ pops since ∨ a ∈ q) := by
  obtain ⟨q, h1, -, h2, -⟩ := C33_nonblocking_bounded k hn h
  exact ⟨q, h1, linearizable_kept h2 he hf⟩

/-- C33: what a dequeue call returns is what it took out of the queue, for a thread that has returned -/
theorem C33_nonblocking_calls {m : Nat} {s : NonBlocking.State (stdQ α)} (h : NonBlocking.Reachable (stdQ α) m s) {t : Nat}
    (ht : s.pcs[t]? = some .idle) :
    pushes (ofThread t s.log) = enqCalls (ofThread t s.log) ∧ pops (ofThread t s.log) = deqRets (ofThread t s.log) := by
  obtain ⟨l, hI⟩ := NonBlocking.reach_inv (stdLawful α) h
  have h1 := hI.phase t
  rw [phaseAt_some ht] at h1
  have h2 := phaseRun_calls h1
  simp only [NonBlocking.PC.phase, List.append_nil] at h2
  exact ⟨h2.1.symm, h2.2⟩

/-- C33: nobody blocks: with `m` threads at most `4 * m` steps can follow without a new call, and when no further step
is possible every call has returned. -/
theorem C33_nonblocking_progress {m : Nat} {s : NonBlocking.State (stdQ α)} (h : NonBlocking.Reachable (stdQ α) m s)
    {as : List (NonBlocking.Act α)} (ha : ∀ a ∈ as, ∃ t, a = .run t) {s' : NonBlocking.State (stdQ α)}
    (he : NonBlocking.exec as s = some s') :
    as.length ≤ 4 * m ∧ ((∀ t, NonBlocking.step s' (.run t) = none) → ∀ p ∈ s'.pcs, p = .idle) := by
  obtain ⟨as0, h0⟩ := h
  obtain ⟨l, hI⟩ := NonBlocking.exec_inv as0 (NonBlocking.start_inv (stdLawful α) m) h0
  obtain ⟨l', hI'⟩ := NonBlocking.exec_inv as hI he
  have hlen : s.pcs.length = m := by
    have := NonBlocking.exec_length h0
    simpa [NonBlocking.start] using this
  constructor
  · have h1 := NonBlocking.exec_fuel hI ha he
    have h2 := weight_le (w := NonBlocking.PC.fuel) (b := 4) (fun p => by cases p <;> simp [NonBlocking.PC.fuel]) s.pcs
    rw [hlen] at h2
    omega
  · intro hs p hp
    obtain ⟨t, ht⟩ := List.getElem?_of_mem hp
    by_cases h1 : p = .idle
    · exact h1
    obtain ⟨u, s2, h3⟩ := NonBlocking.progress hI'.toCore ht h1
    rw [hs u] at h3
    simp at h3

/-- C33, bounded queue -/
theorem C33_nonblocking_progress_bounded (k : Kind) {n m : Nat} (hn : 0 < n) {s : NonBlocking.State (vcqQ k n α)}
    (h : NonBlocking.Reachable (vcqQ k n α) m s) {as : List (NonBlocking.Act α)} (ha : ∀ a ∈ as, ∃ t, a = .run t)
    {s' : NonBlocking.State (vcqQ k n α)} (he : NonBlocking.exec as s = some s') :
    as.length ≤ 4 * m ∧ ((∀ t, NonBlocking.step s' (.run t) = none) → ∀ p ∈ s'.pcs, p = .idle) := by
  obtain ⟨as0, h0⟩ := h
  obtain ⟨l, hI⟩ := NonBlocking.exec_inv as0 (NonBlocking.start_inv (vcqLawful k n hn α) m) h0
  obtain ⟨l', hI'⟩ := NonBlocking.exec_inv as hI he
  have hlen : s.pcs.length = m := by
    have := NonBlocking.exec_length h0
    simpa [NonBlocking.start] using this
  constructor
  · have h1 := NonBlocking.exec_fuel hI ha he
    have h2 := weight_le (w := NonBlocking.PC.fuel) (b := 4) (fun p => by cases p <;> simp [NonBlocking.PC.fuel]) s.pcs
    rw [hlen] at h2
    omega
  · intro hs p hp
    obtain ⟨t, ht⟩ := List.getElem?_of_mem hp
    by_cases h1 : p = .idle
    · exact h1
    obtain ⟨u, s2, h3⟩ := NonBlocking.progress hI'.toCore ht h1
    rw [hs u] at h3
    simp at h3

/-- a dequeue that finds nothing, an enqueue, a dequeue that finds the element -/
def schedule33 : List (NonBlocking.Act Nat) :=
  [.callDeq 0, .callEnq 1 4, .run 0, .run 0, .run 0, .run 1, .run 1, .callEmpty 2, .run 2, .run 1, .callDeq 0, .run 0, .run 0,
    .run 0, .run 0]

example : ((NonBlocking.exec schedule33 (NonBlocking.start (stdQ Nat) 3)).map fun s =>
    (s.pcs, ofThread 0 s.log, (s.q : List Nat))) = some ([.idle, .idle, .emptyRet false],
      [.callDeq, .pop none, .retDeq none, .callDeq, .pop (some 4), .retDeq (some 4)], []) := by decide +kernel

example : ((NonBlocking.exec schedule33 (NonBlocking.start (vcqQ .managed 1 Nat) 3)).map fun s =>
    (ofThread 0 s.log)) = some
      [.callDeq, .pop none, .retDeq none, .callDeq, .pop (some 4), .retDeq (some 4)] := by decide +kernel

/-! ## C78: `NonBlockingQ::is_empty` -/

/-- two threads about to access the queue without ordering, one of them modifying it: a data race, hence undefined
behaviour in C++ -/
def QueueRace (pcs : List (NonBlocking.PC α)) : Prop := ∃ (t u : Nat) (p p' : NonBlocking.PC α), t ≠ u ∧ pcs[t]? = some p ∧
  pcs[u]? = some p' ∧ p.reads = true ∧ p'.writes = true

/-- C78 is false: `is_empty` reads the queue without the lock, so it races with `enqueue`. -/
theorem C78_is_empty_races : ∃ s, NonBlocking.Reachable (stdQ Nat) 2 s ∧ QueueRace s.pcs :=
  ⟨(NonBlocking.exec [.callEmpty 0, .callEnq 1 3, .run 1] (NonBlocking.start (stdQ Nat) 2)).get (by decide +kernel),
    ⟨_, by simp; rfl⟩, 0, 1, .emptyRead, .enqPush 3, by decide, by decide +kernel, by decide +kernel, rfl, rfl⟩

/-- C78 as far as it holds: in a state in which nobody is inside `is_empty` there is no race. -/
theorem C78_no_race_partial {m : Nat} {s : NonBlocking.State (stdQ α)} (h : NonBlocking.Reachable (stdQ α) m s)
    (he : ∀ p ∈ s.pcs, p ≠ .emptyRead) : ¬ QueueRace s.pcs := by
  obtain ⟨l, hI⟩ := NonBlocking.reach_inv (stdLawful α) h
  rintro ⟨t, u, p, p', htu, ht, hu, hp, hp'⟩
  have hne := he p (List.mem_of_getElem? ht)
  exact htu (hI.unique ht hu (by cases p <;> simp_all [NonBlocking.PC.reads, NonBlocking.PC.holds])
    (by cases p' <;> simp_all [NonBlocking.PC.writes, NonBlocking.PC.holds]))

/-- C78, bounded queue -/
theorem C78_no_race_bounded_partial (k : Kind) {n m : Nat} (hn : 0 < n) {s : NonBlocking.State (vcqQ k n α)}
    (h : NonBlocking.Reachable (vcqQ k n α) m s) (he : ∀ p ∈ s.pcs, p ≠ .emptyRead) : ¬ QueueRace s.pcs := by
  obtain ⟨l, hI⟩ := NonBlocking.reach_inv (vcqLawful k n hn α) h
  rintro ⟨t, u, p, p', htu, ht, hu, hp, hp'⟩
  have hne := he p (List.mem_of_getElem? ht)
  exact htu (hI.unique ht hu (by cases p <;> simp_all [NonBlocking.PC.reads, NonBlocking.PC.holds])
    (by cases p' <;> simp_all [NonBlocking.PC.writes, NonBlocking.PC.holds]))

/-- one thread modifies the queue, another waits for the lock, a third is past its look at the queue -/
example : ((NonBlocking.exec [.callEmpty 0, .callEnq 1 3, .run 0, .run 1, .callDeq 2] (NonBlocking.start (stdQ Nat) 3)).map
    fun s => s.pcs) = some [.emptyRet true, .enqPush 3, .deqLock] := by decide +kernel

/-! ## C34: DoubleBuffer

`Reach k n m drain c s`: clients in `m` threads of which only thread `c` consumes, calling `dequeue` only if the read
buffer is not empty, can bring a double buffer of capacity `n` into state `s`; with `drain`, thread `c` swaps only if the
read buffer is empty. -/

/-- C34: the history of a double buffer with one consumer is linearizable with respect to the sequential double buffer,
there is no data race, the two pointers differ (so the destructor frees two buffers), and every enqueued element is
dequeued, in one of the buffers, or was displaced by a push onto a write buffer of `n` elements. -/
theorem C34_double_buffer (k : Kind) {n m : Nat} (hn : 0 < n) {drain : Bool} {c : Nat} {s : DBuf.State α}
    (h : DBuf.Reach k n m drain c s) :
    ∃ r w, Cyclic.Vcq.contents (s.buf s.rp) = .ok r (s.buf s.rp) ∧ Cyclic.Vcq.contents (s.buf s.wp) = .ok w (s.buf s.wp) ∧
      DLegal n (events s.log) [] [] r w ∧ (∀ t, ∃ p, PhaseRun (ofThread t s.log) p) ∧
      (pushes (events s.log)).Perm (pops (events s.log) ++ ddrops n (events s.log) [] [] ++ (r ++ w)) ∧
      s.rp ≠ s.wp ∧ s.bad = false ∧ ¬ DBuf.Race s := by
  obtain ⟨r, w, hI⟩ := DBuf.reach_inv hn h
  exact ⟨r, w, Cyclic.Vcq.contents_run hI.repR, Cyclic.Vcq.contents_run hI.repW, hI.legal, fun t => ⟨_, hI.phase t⟩,
    by simpa using DBuf.dlegal_perm hI.legal, hI.ptr, hI.good, hI.noRace⟩

/-- C34 as far as it holds: if the consumer swaps only when its read buffer is empty, elements come out in enqueue
order, and if no push displaced an element nothing is lost either. -/
theorem C34_order_partial (k : Kind) {n m : Nat} (hn : 0 < n) {c : Nat} {s : DBuf.State α} (h : DBuf.Reach k n m true c s) :
    ∃ r w, Cyclic.Vcq.contents (s.buf s.rp) = .ok r (s.buf s.rp) ∧ Cyclic.Vcq.contents (s.buf s.wp) = .ok w (s.buf s.wp) ∧
      (pops (events s.log) ++ r ++ w).Sublist (pushes (events s.log)) ∧
      (ddrops n (events s.log) [] [] = [] → pops (events s.log) ++ r ++ w = pushes (events s.log)) := by
  obtain ⟨r, w, hI⟩ := DBuf.reach_inv hn h
  refine ⟨r, w, Cyclic.Vcq.contents_run hI.repR, Cyclic.Vcq.contents_run hI.repW, hI.order rfl, fun hd => ?_⟩
  have h1 := DBuf.dlegal_perm hI.legal
  rw [hd] at h1
  refine (hI.order rfl).eq_of_length ?_
  have := h1.length_eq
  simp only [List.nil_append, List.length_append, List.length_nil] at this ⊢
  omega

/-- C34: with one consumer every call comes to an end: a call takes at most three steps once the scheduler lets it run,
and when no step is possible every call has returned. -/
theorem C34_progress (k : Kind) {n m : Nat} (hn : 0 < n) {drain : Bool} {c : Nat} {s : DBuf.State α}
    (h : DBuf.Reach k n m drain c s) :
    (∀ t s', DBuf.step k s (.run t) = some s' → weight DBuf.PC.fuel s'.pcs < weight DBuf.PC.fuel s.pcs) ∧
    ((∀ t, DBuf.step k s (.run t) = none) → ∀ p ∈ s.pcs, p = .idle) := by
  obtain ⟨r, w, hI⟩ := DBuf.reach_inv hn h
  refine ⟨fun t s' hs => DBuf.fuel_step hI hs, fun hs p hp => ?_⟩
  obtain ⟨t, ht⟩ := List.getElem?_of_mem hp
  by_cases h1 : p = .idle
  · exact h1
  obtain ⟨u, s2, h3⟩ := DBuf.progress hI ht h1
  rw [hs u] at h3
  simp at h3

/-- one producer (thread 0) and the consumer (thread 1), which drains before it swaps; capacity 2 -/
def schedule34 : List (DBuf.Act Nat) :=
  [.callEnq 0 1, .run 0, .run 0, .run 0, .callEnq 0 2, .run 0, .callSwap 1, .run 0, .run 0, .run 1, .run 1, .run 1,
    .callDeq 1, .run 1, .run 1, .callEnq 0 3, .callDeq 1, .run 0, .run 0, .run 1, .run 1, .run 0, .callSwap 1, .run 1,
    .run 1, .run 1]

example : ∃ s, DBuf.Reach .managed 2 2 true 1 s ∧ pushes (events s.log) = [1, 2, 3] ∧ pops (events s.log) = [1, 2] ∧
    ddrops 2 (events s.log) [] [] = [] :=
  ⟨(DBuf.execA .managed true 1 schedule34 (DBuf.start 2 2)).get (by decide +kernel),
    DBuf.execA_reach .start (by simp [schedule34]; rfl), by decide +kernel, by decide +kernel, by decide +kernel⟩

/-- the same producer and consumer, but the consumer swaps before it has drained its read buffer -/
def schedule34b : List (DBuf.Act Nat) :=
  [.callEnq 0 1, .run 0, .run 0, .run 0, .callEnq 0 2, .run 0, .run 0, .run 0, .callSwap 1, .run 1, .run 1, .run 1,
    .callDeq 1, .run 1, .run 1, .callEnq 0 3, .run 0, .run 0, .run 0, .callSwap 1, .run 1, .run 1, .run 1,
    .callDeq 1, .run 1, .run 1, .callSwap 1, .run 1, .run 1, .run 1, .callDeq 1, .run 1, .run 1]

/-- C34 is false without draining: the elements 1, 2, 3 come out as 1, 3, 2 although never more than two were pending
in a buffer of capacity 2. -/
theorem C34_out_of_order : ∃ s : DBuf.State Nat, DBuf.Reach .managed 2 2 false 1 s ∧
    pushes (events s.log) = [1, 2, 3] ∧ pops (events s.log) = [1, 3, 2] ∧ ddrops 2 (events s.log) [] [] = [] :=
  ⟨(DBuf.execA .managed false 1 schedule34b (DBuf.start 2 2)).get (by decide +kernel),
    DBuf.execA_reach .start (by simp [schedule34b]; rfl), by decide +kernel, by decide +kernel, by decide +kernel⟩

/-- C34: with two consumers there is a data race, on the pointer to the read buffer: one dequeues while the other swaps. -/
theorem C34_two_consumers_race : ∃ (as : List (DBuf.Act Nat)) (s : DBuf.State Nat),
    DBuf.exec .managed as (DBuf.start 2 3) = some s ∧ DBuf.Race s := by
  refine ⟨[.callEnq 0 1, .run 0, .run 0, .run 0, .callSwap 1, .run 1, .run 1, .run 1, .callDeq 1, .callSwap 2, .run 2],
    (DBuf.exec .managed [.callEnq 0 1, .run 0, .run 0, .run 0, .callSwap 1, .run 1, .run 1, .run 1, .callDeq 1, .callSwap 2,
      .run 2] (DBuf.start 2 3)).get (by decide +kernel), by simp, 1, 2, .deq, .swap, .readPtr, false, true, by decide, by decide +kernel,
    by decide +kernel, by decide +kernel, by decide +kernel, .inr rfl⟩

/-- C34: `dequeue` on an empty read buffer is undefined. -/
theorem C34_dequeue_empty_ub : ∃ (as : List (DBuf.Act Nat)) (s : DBuf.State Nat),
    DBuf.exec .managed as (DBuf.start 2 2) = some s ∧ s.bad = true :=
  ⟨[.callDeq 1, .run 1], (DBuf.exec .managed [.callDeq 1, .run 1] (DBuf.start 2 2)).get (by decide +kernel), by simp,
    by decide +kernel⟩

end Props
end Efp
