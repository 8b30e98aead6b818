import Verif.ConcurrencyCopiesLemmas
import Verif.Props.ConcurrencyThrow

/-!
# Exceptions thrown by element copies inside the bounded queues and `NonBlockingQ`: C135, C136

`Blocking.execV F as s` and `NonBlocking.execV F as s` run a schedule in which, besides the ordinary steps, copy number `b`
inside `enqueue` (`throwPush t b`), the move out of the queue inside `dequeue` (`throwPop t`) or, for `NonBlockingQ`, the
construction of the returned `Maybe` (`throwRet t`) may throw in thread `t`.  `F` says what a failed push leaves behind.
-/

namespace Efp
namespace Props

open Spec Conc Cyclic

variable {α : Type}

/-- the second copies that threw in a schedule -/
def secondCopies : List (Blocking.ActV α) → Nat
  | [] => 0
  | .throwPush _ b :: as => b + secondCopies as
  | _ :: as => secondCopies as

theorem leaks_sum (as : List (Blocking.ActV α)) : (as.map Blocking.ActV.leaks).sum = secondCopies as := by
  induction as with
  | nil => rfl
  | cons a as ih => cases a <;> simp [Blocking.ActV.leaks, secondCopies, ih]

/-! ## C135: bounded BlockingQ and NonBlockingQ -/

/-- C135, as far as it holds: if copies throw only while the queue has room, then whatever copies throw, the history is
linearizable with respect to the bounded FIFO queue (a call that threw had no effect), no access to the queue is
undefined, no two threads access it at the same time, and when the queue is destroyed at most one element per failed
second copy has leaked. -/
theorem C135_blocking_partial {n m : Nat} (hn : 0 < n) {as : List (Blocking.ActV α)}
    {s : Blocking.State (vcqQ .managed n α)}
    (hr : ∀ as1 t b as2 s1, as = as1 ++ .throwPush t b :: as2 →
      Blocking.execV (vcqFails .managed n α) as1 (Blocking.start _ m) = some s1 → VcqS.size s1.q < n)
    (h : Blocking.execV (vcqFails .managed n α) as (Blocking.start _ m) = some s) :
    ∃ q u, Vcq.contents s.q = .ok q s.q ∧ LinearizableT (some n) s.log q ∧ s.bad = false ∧
      (pops (events s.log) ++ q).Sublist (pushes (events s.log)) ∧
      (∀ (t u : Nat) (p p' : Blocking.PC α), s.pcs[t]? = some p → s.pcs[u]? = some p' →
        p.accesses = true → p'.accesses = true → t = u) ∧
      Vcq.dtor .managed s.q = .ok () u ∧ u.mem.led.made ≤ u.mem.led.gone + secondCopies as := by
  obtain ⟨l, hI⟩ := Blocking.execV_inv (M := vcqFamily n hn α) as (Blocking.startV_inv _ m) hr h
  obtain ⟨⟨c, hc, hL⟩, hq⟩ := hI.inv.rep
  obtain ⟨u, h1, h2⟩ := hL.dtor
  obtain ⟨-, h3, -⟩ := legal_some hn (by simp) hI.inv.legal
  rw [leaks_sum] at hc
  refine ⟨l, u, hL.contents, ⟨hI.inv.legal, fun t => ?_⟩, hI.inv.good, by simpa using h3,
    fun t u p p' h1 h2 hp hp' => hI.inv.toCore.unique h1 h2 ?_ ?_, h1, by omega⟩
  · obtain ⟨p, hp, -⟩ := hI.phase t
    exact ⟨p, hp⟩
  · cases p <;> simp_all [Blocking.PC.accesses, Blocking.PC.holds]
  · cases p' <;> simp_all [Blocking.PC.accesses, Blocking.PC.holds]

/-- C135, the lock is released, under the same condition: calls under way come to an end, with or without an exception,
within `8 * m` steps, and when no ordinary step is possible every thread is outside or asleep waiting for an element. -/
theorem C135_released_partial {n m : Nat} (hn : 0 < n) {as0 as : List (Blocking.ActV α)}
    {s s' : Blocking.State (vcqQ .managed n α)}
    (h : Blocking.execV (vcqFails .managed n α) as0 (Blocking.start _ m) = some s)
    (ha : ∀ a ∈ as, a.inner = true) (he : Blocking.execV (vcqFails .managed n α) as s = some s')
    (hr : ∀ as1 t b as2 s1, as0 ++ as = as1 ++ .throwPush t b :: as2 →
      Blocking.execV (vcqFails .managed n α) as1 (Blocking.start _ m) = some s1 → VcqS.size s1.q < n) :
    as.length ≤ 8 * m ∧
    ((∀ a : Blocking.Act α, a.inner = true → Blocking.step s' a = none) →
      ∀ (t : Nat) (p : Blocking.PC α), s'.pcs[t]? = some p → p = .idle ∨ p = .asleep) := by
  have happ : ∀ (as1 as2 : List (Blocking.ActV α)) {x y : Blocking.State (vcqQ .managed n α)},
      Blocking.execV (vcqFails .managed n α) as1 x = some y →
      Blocking.execV (vcqFails .managed n α) (as1 ++ as2) x = Blocking.execV (vcqFails .managed n α) as2 y := by
    intro as1
    induction as1 with
    | nil => intro as2 x y hx; simp only [Blocking.execV, Option.some.injEq] at hx; rw [hx]; rfl
    | cons a as1 ih =>
      intro as2 x y hx
      simp only [Blocking.execV, List.cons_append] at hx ⊢
      split at hx
      · rename_i z hz
        exact ih as2 hx
      · simp at hx
  have hs0 : Blocking.Safe (vcqFails .managed n α) (fun q => VcqS.size q < n) as0 (Blocking.start _ m) :=
    fun as1 t b as2 s1 e h1 => hr as1 t b (as2 ++ as) s1 (by rw [e]; simp) h1
  have hs1 : Blocking.Safe (vcqFails .managed n α) (fun q => VcqS.size q < n) as s :=
    fun as1 t b as2 s1 e h1 => hr (as0 ++ as1) t b as2 s1 (by rw [e]; simp) (by rw [happ as0 as1 h]; exact h1)
  obtain ⟨l, hI⟩ := Blocking.execV_inv (M := vcqFamily n hn α) as0 (Blocking.startV_inv _ m) hs0 h
  obtain ⟨l', hI'⟩ := Blocking.execV_inv as hI hs1 he
  have hlen : s.pcs.length = m := by
    have := Blocking.execV_length h
    simpa [Blocking.start] using this
  constructor
  · have h1 := Blocking.execV_fuel hI hs1 ha he
    have h2 := weight_le (w := Blocking.PC.fuel) (b := 8) (fun p => by cases p <;> simp [Blocking.PC.fuel]) s.pcs
    rw [hlen] at h2
    omega
  · intro hst t p ht
    by_cases h1 : p = .idle
    · exact .inl h1
    by_cases h2 : p = .asleep
    · exact .inr h2
    obtain ⟨a, s2, h3, h4⟩ := Blocking.progress hI'.inv.toCore ht h1 h2
    rw [hst a ((Blocking.inner_iff a).mpr h3)] at h4
    simp at h4

/-- a `dequeue` of a queue whose pop is undefined -/
theorem deq_ub {Q : QImpl α} {s : Blocking.State Q} {u : Nat} {w : UB} (hu : s.pcs[u]? = some .idle)
    (hl : s.lock = none) (he : Q.empty s.q = false) (hp : Q.pop s.q = .ub w) :
    ∃ s2, Blocking.exec [.callDeq u, .run u, .run u, .run u] s = some s2 ∧ s2.bad = true := by
  have hlt : u < s.pcs.length := (List.getElem?_eq_some_iff.mp hu).1
  have e1 : Blocking.step s (.callDeq u) = some ((s.goto u .deqLock).emit u .callDeq) := by
    simp only [Blocking.step, hu]
  have e2 : Blocking.step ((s.goto u .deqLock).emit u .callDeq) (.run u) =
      some ({ (s.goto u .deqLock).emit u .callDeq with lock := some u }.goto u .deqCheck) := by
    simp [Blocking.step, Blocking.runPC, Blocking.State.goto, Blocking.State.emit, hlt, hl]
  have e3 : Blocking.step ({ (s.goto u .deqLock).emit u .callDeq with lock := some u }.goto u .deqCheck) (.run u) =
      some (({ (s.goto u .deqLock).emit u .callDeq with lock := some u }.goto u .deqCheck).goto u .deqPop) := by
    simp [Blocking.step, Blocking.runPC, Blocking.State.goto, Blocking.State.emit, hlt, he]
  have e4 : Blocking.step
      (({ (s.goto u .deqLock).emit u .callDeq with lock := some u }.goto u .deqCheck).goto u .deqPop) (.run u) =
      some { (({ (s.goto u .deqLock).emit u .callDeq with lock := some u }.goto u .deqCheck).goto u .deqPop) with
        bad := true } := by
    simp [Blocking.step, Blocking.runPC, Blocking.State.goto, Blocking.State.emit, hlt, hp]
  exact ⟨{ (({ (s.goto u .deqLock).emit u .callDeq with lock := some u }.goto u .deqCheck).goto u .deqPop) with
    bad := true }, by simp only [Blocking.exec, e1, e2, e3, e4], rfl⟩

/-- **C135 is false of a full queue.** If a copy throws inside `enqueue` while the queue is full, the oldest element has
been destroyed already but still counts: the next `dequeue`, by any idle thread, is undefined behaviour, and so is the
destructor of the queue. -/
theorem C135_full_broken {n m : Nat} (hn : 0 < n) {as : List (Blocking.ActV α)}
    {s : Blocking.State (vcqQ .managed n α)}
    (hr : ∀ as1 t b as2 s1, as = as1 ++ .throwPush t b :: as2 →
      Blocking.execV (vcqFails .managed n α) as1 (Blocking.start _ m) = some s1 → VcqS.size s1.q < n)
    (h : Blocking.execV (vcqFails .managed n α) as (Blocking.start _ m) = some s)
    {t b u : Nat} {a : α} (ht : s.pcs[t]? = some (.enqPush a)) (hfull : VcqS.size s.q = n) (hb : b < 2)
    (hu : u = t ∨ s.pcs[u]? = some .idle) :
    ∃ s1 s2, Blocking.stepV (vcqFails .managed n α) s (.throwPush t b) = some s1 ∧
      Vcq.dtor .managed s1.q = .ub .deadDestroy ∧
      Blocking.exec [.callDeq u, .run u, .run u, .run u] s1 = some s2 ∧ s2.bad = true := by
  obtain ⟨l, hI⟩ := Blocking.execV_inv (M := vcqFamily n hn α) as (Blocking.startV_inv _ m) hr h
  obtain ⟨⟨c, hc, hL⟩, hq⟩ := hI.inv.rep
  obtain ⟨q, e1, e2, e3, ⟨w, e4⟩, e5⟩ := hL.full_fails (by rw [hq]; exact hfull) a hb
  have hF : vcqFails .managed n α b a s.q = some q := by unfold vcqFails; rw [e1]; rfl
  have hu' : (s.pcs.set t .idle)[u]? = some .idle := by
    rw [get_set ht]
    split
    · rfl
    · next hne => exact hu.resolve_left hne
  have hlen : u < (s.pcs.set t .idle).length := (List.getElem?_eq_some_iff.mp hu').1
  have hne : (vcqQ .managed n α).empty q = false := by
    show decide (q.size = 0) = false
    rw [e2, hfull]
    simp; omega
  have hpop : (vcqQ .managed n α).pop q = .ub w := e4
  obtain ⟨s2, h2⟩ := deq_ub (s := ({ s with lock := none, q := q } : Blocking.State (vcqQ .managed n α)).goto t .idle)
    hu' rfl hne hpop
  exact ⟨_, s2, by simp only [Blocking.stepV, ht, hF], e5, h2⟩

/-- capacity 2: the second copy of 5 throws, 6 and 7 are queued -/
def schedule135 : List (Blocking.ActV Nat) :=
  [.act (.callEnq 0 5), .act (.run 0), .throwPush 0 1, .act (.callEnq 0 6), .act (.run 0), .act (.run 0),
    .act (.notify 0 none), .act (.run 0), .act (.callEnq 0 7), .act (.run 0), .act (.run 0), .act (.notify 0 none),
    .act (.run 0)]

/-- a schedule whose only failed push finds room -/
theorem schedule135_room : ∀ as1 t b as2 s1, schedule135 = as1 ++ .throwPush t b :: as2 →
    Blocking.execV (vcqFails .managed 2 Nat) as1 (Blocking.start _ 2) = some s1 → VcqS.size s1.q < 2 := by
  intro as1 t b as2 s1 e h
  have : as1 = [.act (.callEnq 0 5), .act (.run 0)] := by
    match as1 with
    | [] | [_] => simp [schedule135] at e
    | [x, y] =>
      simp only [schedule135, List.cons_append, List.nil_append, List.cons.injEq] at e
      rw [← e.1, ← e.2.1]
    | [_, _, _] | [_, _, _, _] | [_, _, _, _, _] | [_, _, _, _, _, _] | [_, _, _, _, _, _, _]
    | [_, _, _, _, _, _, _, _] | [_, _, _, _, _, _, _, _, _] | [_, _, _, _, _, _, _, _, _, _]
    | [_, _, _, _, _, _, _, _, _, _, _] | [_, _, _, _, _, _, _, _, _, _, _, _] => simp [schedule135] at e
    | _ :: _ :: _ :: _ :: _ :: _ :: _ :: _ :: _ :: _ :: _ :: _ :: _ :: _ => simp [schedule135] at e
  subst this
  have e2 : (Blocking.execV (vcqFails .managed 2 Nat)
      [.act (.callEnq 0 5), .act (.run 0)] (Blocking.start _ 2)).map (fun s => VcqS.size s.q) = some 0 := by decide +kernel
  rw [h] at e2
  simp only [Option.map_some, Option.some.injEq] at e2
  omega

example : ((Blocking.execV (vcqFails .managed 2 Nat) schedule135 (Blocking.start (vcqQ .managed 2 Nat) 2)).map fun s =>
      (s.pcs, VcqS.size s.q, pushes (events s.log), secondCopies schedule135)) =
    some ([.idle, .idle], 2, [6, 7], 1) := by decide +kernel

/-- the same, then one more `enqueue` up to the push onto the full queue -/
example : ((Blocking.execV (vcqFails .managed 2 Nat) (schedule135 ++ [.act (.callEnq 0 8), .act (.run 0)])
      (Blocking.start (vcqQ .managed 2 Nat) 2)).map fun s => (s.pcs, VcqS.size s.q)) =
    some ([.enqPush 8, .idle], 2) := by decide +kernel

/-- C135 for the wake-ups, under the same condition: if no `dequeue` throws, a consumer that sleeps un-notified while
nobody holds the lock or waits for it finds the queue empty. -/
theorem C135_wakeup_partial {n m : Nat} (hn : 0 < n) {as : List (Blocking.ActV α)}
    (ha : ∀ t, Blocking.ActV.throwPop t ∉ as) {s : Blocking.State (vcqQ .managed n α)}
    (hr : ∀ as1 t b as2 s1, as = as1 ++ .throwPush t b :: as2 →
      Blocking.execV (vcqFails .managed n α) as1 (Blocking.start _ m) = some s1 → VcqS.size s1.q < n)
    (h : Blocking.execV (vcqFails .managed n α) as (Blocking.start _ m) = some s) {t : Nat}
    (ht : s.pcs[t]? = some .asleep) (hl : s.lock = none)
    (hw : ∀ (u : Nat) (p : Blocking.PC α), s.pcs[u]? = some p → p ≠ .woken ∧ p ≠ .deqLock ∧ ∀ a, p ≠ .enqLock a) :
    VcqS.size s.q = 0 := by
  obtain ⟨l, hI⟩ := Blocking.execV_inv (M := vcqFamily n hn α) as (Blocking.startV_inv _ m) hr h
  have hall : (true && as.all (fun a => !a.popThrows)) = true := by
    rw [Bool.true_and, List.all_eq_true]
    intro a hm
    cases a with
    | throwPop u => exact absurd hm (ha u)
    | _ => rfl
  have h1 := hI.inv.wake hall t ht
  have h2 : ¬ 0 < weight Blocking.PC.pending s.pcs := by
    intro hp
    obtain ⟨u, p, hu, hp⟩ := weight_pos hp
    have := hw u p hu
    have h3 := hI.inv.lock u p hu
    rw [hl] at h3
    cases p <;> simp_all [Blocking.PC.pending, Blocking.PC.holds]
  obtain ⟨⟨c, hc, hL⟩, hq⟩ := hI.inv.rep
  rw [hL.size]
  omega

/-- a consumer goes to sleep, a first copy throws -/
example : ((Blocking.execV (vcqFails .managed 2 Nat)
      [.act (.callDeq 0), .act (.run 0), .act (.run 0), .act (.callEnq 1 5), .act (.run 1), .throwPush 1 0]
      (Blocking.start (vcqQ .managed 2 Nat) 2)).map fun s => (s.pcs, s.lock, VcqS.size s.q)) =
    some ([.asleep, .idle], none, 0) := by decide +kernel

/-- the second copies that threw in a schedule of a NonBlockingQ -/
def secondCopiesN : List (NonBlocking.ActV α) → Nat
  | [] => 0
  | .throwPush _ b :: as => b + secondCopiesN as
  | _ :: as => secondCopiesN as

theorem leaks_sumN (as : List (NonBlocking.ActV α)) : (as.map NonBlocking.ActV.leaks).sum = secondCopiesN as := by
  induction as with
  | nil => rfl
  | cons a as ih => cases a <;> simp [NonBlocking.ActV.leaks, secondCopiesN, ih]

/-- C135 for the bounded NonBlockingQ, under the same condition -/
theorem C135_nonblocking_partial {n m : Nat} (hn : 0 < n) {as : List (NonBlocking.ActV α)}
    {s : NonBlocking.State (vcqQ .managed n α)}
    (hr : ∀ as1 t b as2 s1, as = as1 ++ .throwPush t b :: as2 →
      NonBlocking.execV (vcqFails .managed n α) as1 (NonBlocking.start _ m) = some s1 → VcqS.size s1.q < n)
    (h : NonBlocking.execV (vcqFails .managed n α) as (NonBlocking.start _ m) = some s) :
    ∃ q u, Vcq.contents s.q = .ok q s.q ∧ Legal (some n) (events s.log) [] q ∧
      ((∀ t, NonBlocking.ActV.throwRet t ∉ as) → LinearizableT (some n) s.log q) ∧ s.bad = false ∧
      (pops (events s.log) ++ q).Sublist (pushes (events s.log)) ∧
      (∀ (t u : Nat) (p p' : NonBlocking.PC α), s.pcs[t]? = some p → s.pcs[u]? = some p' →
        p.writes = true → p'.writes = true → t = u) ∧
      Vcq.dtor .managed s.q = .ok () u ∧ u.mem.led.made ≤ u.mem.led.gone + secondCopiesN as := by
  obtain ⟨l, hI⟩ := NonBlocking.execV_inv (M := vcqFamily n hn α) as (NonBlocking.startV_inv _ m) hr h
  obtain ⟨⟨c, hc, hL⟩, hq⟩ := hI.inv.rep
  obtain ⟨u, h1, h2⟩ := hL.dtor
  obtain ⟨-, h3, -⟩ := legal_some hn (by simp) hI.inv.legal
  rw [leaks_sumN] at hc
  refine ⟨l, u, hL.contents, hI.inv.legal, fun hno => ⟨hI.inv.legal, fun t => ?_⟩, hI.inv.good, by simpa using h3,
    fun t u p p' h1 h2 hp hp' => hI.inv.unique h1 h2 ?_ ?_, h1, by omega⟩
  · have hall : (true && as.all (fun a => !a.retThrows)) = true := by
      rw [Bool.true_and, List.all_eq_true]
      intro a hm
      cases a with
      | throwRet u => exact absurd hm (hno u)
      | _ => rfl
    obtain ⟨p, hp, -⟩ := hI.phase hall t
    exact ⟨p, hp⟩
  · cases p <;> simp_all [NonBlocking.PC.writes, NonBlocking.PC.holds]
  · cases p' <;> simp_all [NonBlocking.PC.writes, NonBlocking.PC.holds]

/-- capacity 1: a copy throws while there is room, another thread's element is queued and dequeued -/
def schedule135n : List (NonBlocking.ActV Nat) :=
  [.act (.callEnq 0 5), .act (.run 0), .throwPush 0 1, .act (.callEnq 1 6), .act (.run 1), .act (.run 1), .act (.run 1),
    .act (.callDeq 0), .act (.run 0), .act (.run 0), .act (.run 0), .act (.run 0)]

theorem schedule135n_room : ∀ as1 t b as2 s1, schedule135n = as1 ++ .throwPush t b :: as2 →
    NonBlocking.execV (vcqFails .managed 1 Nat) as1 (NonBlocking.start _ 2) = some s1 → VcqS.size s1.q < 1 := by
  intro as1 t b as2 s1 e h
  have : as1 = [.act (.callEnq 0 5), .act (.run 0)] := by
    match as1 with
    | [] | [_] => simp [schedule135n] at e
    | [x, y] =>
      simp only [schedule135n, List.cons_append, List.nil_append, List.cons.injEq] at e
      rw [← e.1, ← e.2.1]
    | [_, _, _] | [_, _, _, _] | [_, _, _, _, _] | [_, _, _, _, _, _] | [_, _, _, _, _, _, _]
    | [_, _, _, _, _, _, _, _] | [_, _, _, _, _, _, _, _, _] | [_, _, _, _, _, _, _, _, _, _]
    | [_, _, _, _, _, _, _, _, _, _, _] => simp [schedule135n] at e
    | _ :: _ :: _ :: _ :: _ :: _ :: _ :: _ :: _ :: _ :: _ :: _ :: _ => simp [schedule135n] at e
  subst this
  have e2 : (NonBlocking.execV (vcqFails .managed 1 Nat)
      [.act (.callEnq 0 5), .act (.run 0)] (NonBlocking.start _ 2)).map (fun s => VcqS.size s.q) = some 0 := by
    decide +kernel
  rw [h] at e2
  simp only [Option.map_some, Option.some.injEq] at e2
  omega

example : ((NonBlocking.execV (vcqFails .managed 1 Nat) schedule135n (NonBlocking.start (vcqQ .managed 1 Nat) 2)).map
      fun s => (s.pcs, VcqS.size s.q, pops (events s.log), deqRets (events s.log))) =
    some ([.idle, .idle], 0, [6], [6]) := by decide +kernel

/-- a `dequeue` of a NonBlockingQ whose pop is undefined -/
theorem deq_ubN {Q : QImpl α} {s : NonBlocking.State Q} {u : Nat} {w : UB} (hu : s.pcs[u]? = some .idle)
    (hl : s.lock = none) (he : Q.empty s.q = false) (hp : Q.pop s.q = .ub w) :
    ∃ s2, NonBlocking.exec [.callDeq u, .run u, .run u, .run u] s = some s2 ∧ s2.bad = true := by
  have hlt : u < s.pcs.length := (List.getElem?_eq_some_iff.mp hu).1
  have e1 : NonBlocking.step s (.callDeq u) = some ((s.goto u .deqLock).emit u .callDeq) := by
    simp only [NonBlocking.step, hu]
  have e2 : NonBlocking.step ((s.goto u .deqLock).emit u .callDeq) (.run u) =
      some ({ (s.goto u .deqLock).emit u .callDeq with lock := some u }.goto u .deqCheck) := by
    simp [NonBlocking.step, NonBlocking.runPC, NonBlocking.State.goto, NonBlocking.State.emit, hlt, hl]
  have e3 : NonBlocking.step ({ (s.goto u .deqLock).emit u .callDeq with lock := some u }.goto u .deqCheck) (.run u) =
      some (({ (s.goto u .deqLock).emit u .callDeq with lock := some u }.goto u .deqCheck).goto u .deqPop) := by
    simp [NonBlocking.step, NonBlocking.runPC, NonBlocking.State.goto, NonBlocking.State.emit, hlt, he]
  have e4 : NonBlocking.step
      (({ (s.goto u .deqLock).emit u .callDeq with lock := some u }.goto u .deqCheck).goto u .deqPop) (.run u) =
      some { (({ (s.goto u .deqLock).emit u .callDeq with lock := some u }.goto u .deqCheck).goto u .deqPop) with
        bad := true } := by
    simp [NonBlocking.step, NonBlocking.runPC, NonBlocking.State.goto, NonBlocking.State.emit, hlt, hp]
  exact ⟨{ (({ (s.goto u .deqLock).emit u .callDeq with lock := some u }.goto u .deqCheck).goto u .deqPop) with
    bad := true }, by simp only [NonBlocking.exec, e1, e2, e3, e4], rfl⟩

/-- **C135 is false of a full bounded NonBlockingQ**, in the same way. -/
theorem C135_full_broken_nonblocking {n m : Nat} (hn : 0 < n) {as : List (NonBlocking.ActV α)}
    {s : NonBlocking.State (vcqQ .managed n α)}
    (hr : ∀ as1 t b as2 s1, as = as1 ++ .throwPush t b :: as2 →
      NonBlocking.execV (vcqFails .managed n α) as1 (NonBlocking.start _ m) = some s1 → VcqS.size s1.q < n)
    (h : NonBlocking.execV (vcqFails .managed n α) as (NonBlocking.start _ m) = some s)
    {t b u : Nat} {a : α} (ht : s.pcs[t]? = some (.enqPush a)) (hfull : VcqS.size s.q = n) (hb : b < 2)
    (hu : u = t ∨ s.pcs[u]? = some .idle) :
    ∃ s1 s2, NonBlocking.stepV (vcqFails .managed n α) s (.throwPush t b) = some s1 ∧
      Vcq.dtor .managed s1.q = .ub .deadDestroy ∧
      NonBlocking.exec [.callDeq u, .run u, .run u, .run u] s1 = some s2 ∧ s2.bad = true := by
  obtain ⟨l, hI⟩ := NonBlocking.execV_inv (M := vcqFamily n hn α) as (NonBlocking.startV_inv _ m) hr h
  obtain ⟨⟨c, hc, hL⟩, hq⟩ := hI.inv.rep
  obtain ⟨q, e1, e2, e3, ⟨w, e4⟩, e5⟩ := hL.full_fails (by rw [hq]; exact hfull) a hb
  have hF : vcqFails .managed n α b a s.q = some q := by unfold vcqFails; rw [e1]; rfl
  have hu' : (s.pcs.set t .idle)[u]? = some .idle := by
    rw [get_set ht]
    split
    · rfl
    · next hne => exact hu.resolve_left hne
  have hlen : u < (s.pcs.set t .idle).length := (List.getElem?_eq_some_iff.mp hu').1
  have hne : (vcqQ .managed n α).empty q = false := by
    show decide (q.size = 0) = false
    rw [e2, hfull]
    simp; omega
  have hpop : (vcqQ .managed n α).pop q = .ub w := e4
  obtain ⟨s2, h2⟩ := deq_ubN (s := ({ s with lock := none, q := q } : NonBlocking.State (vcqQ .managed n α)).goto t .idle)
    hu' rfl hne hpop
  exact ⟨_, s2, by simp only [NonBlocking.stepV, ht, hF], e5, h2⟩

/-- a full queue of capacity 1, about to be pushed onto -/
example : ((NonBlocking.execV (vcqFails .managed 1 Nat)
      [.act (.callEnq 0 5), .act (.run 0), .act (.run 0), .act (.run 0), .act (.callEnq 0 6), .act (.run 0)]
      (NonBlocking.start (vcqQ .managed 1 Nat) 2)).map fun s => (s.pcs, VcqS.size s.q)) =
    some ([.enqPush 6, .idle], 1) := by decide +kernel

/-! ## C136: a NonBlockingQ whose dequeue throws -/

/-- the exceptions thrown while the return value of a `dequeue` was constructed -/
def returnThrows : List (NonBlocking.ActV α) → Nat
  | [] => 0
  | .throwRet _ :: as => returnThrows as + 1
  | _ :: as => returnThrows as

/-- the dequeues that have taken an element and not yet returned it -/
def inFlight (pcs : List (NonBlocking.PC α)) : Nat := weight (fun p => match p with
  | .deqUnlock (some _) => 1
  | _ => 0) pcs

/-- C136, as far as it holds: whatever copies throw in the unbounded NonBlockingQ, what has been taken out followed by
what is still queued is what was enqueued by calls that did not throw, in order; no access is undefined, and no two
threads write the queue at the same time.  If no construction of a return value throws, the history is linearizable:
a call that threw had no effect. -/
theorem C136_fifo_partial {m : Nat} {as : List (NonBlocking.ActV α)} {s : NonBlocking.State (stdQ α)}
    (h : NonBlocking.execV (stdFails α) as (NonBlocking.start _ m) = some s) :
    pops (events s.log) ++ s.q = pushes (events s.log) ∧ s.bad = false ∧
      ((∀ t, NonBlocking.ActV.throwRet t ∉ as) → LinearizableT none s.log s.q) ∧
      ∀ (t u : Nat) (p p' : NonBlocking.PC α), s.pcs[t]? = some p → s.pcs[u]? = some p' →
        p.writes = true → p'.writes = true → t = u := by
  obtain ⟨l, hI⟩ := NonBlocking.execV_inv (M := stdFamily α) as (NonBlocking.startV_inv _ m)
    (fun _ _ _ _ _ _ _ => trivial) h
  have hrep : s.q = l := hI.inv.rep
  have := legal_none hI.inv.legal
  refine ⟨by rw [hrep, ← this, List.nil_append], hI.inv.good, fun hno => ⟨by rw [hrep]; exact hI.inv.legal, fun t => ?_⟩,
    fun t u p p' h1 h2 hp hp' => hI.inv.unique h1 h2 ?_ ?_⟩
  · have hall : (true && as.all (fun a => !a.retThrows)) = true := by
      rw [Bool.true_and, List.all_eq_true]
      intro a hm
      cases a with
      | throwRet u => exact absurd hm (hno u)
      | _ => rfl
    obtain ⟨p, hp, -⟩ := hI.phase hall t
    exact ⟨p, hp⟩
  · cases p <;> simp_all [NonBlocking.PC.writes, NonBlocking.PC.holds]
  · cases p' <;> simp_all [NonBlocking.PC.writes, NonBlocking.PC.holds]

theorem inFlight_step {Q : QImpl α} {s s' : NonBlocking.State Q} {a : NonBlocking.Act α}
    (h : NonBlocking.step s a = some s') :
    (pops (events s'.log)).length + (deqRets (events s.log)).length + inFlight s.pcs =
      (pops (events s.log)).length + (deqRets (events s'.log)).length + inFlight s'.pcs := by
  have key : ∀ {t : Nat} {p0 : NonBlocking.PC α} (p : NonBlocking.PC α), s.pcs[t]? = some p0 → _ :=
    fun {t p0} p h0 => weight_set (fun p : NonBlocking.PC α => match p with
      | .deqUnlock (some _) => 1
      | _ => 0) h0 p
  cases a with
  | run t =>
    simp only [NonBlocking.step] at h
    split at h
    · rename_i p h0
      cases p with
      | deqUnlock v =>
        simp only [NonBlocking.runPC, Option.some.injEq] at h
        subst h
        have := key .idle h0
        cases v <;> simp only [inFlight, NonBlocking.State.goto, NonBlocking.State.emit, events, List.map_append, pops,
          deqRets, List.filterMap_append, List.length_append] at this ⊢ <;> simp at this ⊢ <;> omega
      | enqPush a =>
        simp only [NonBlocking.runPC] at h
        split at h <;> simp only [Option.some.injEq] at h <;> subst h
        · have := key .enqUnlock h0
          simp only [inFlight, NonBlocking.State.goto, NonBlocking.State.emit, events, List.map_append, pops,
            deqRets, List.filterMap_append, List.length_append] at this ⊢ <;> simp at this ⊢ <;> omega
        · rfl
      | deqPop =>
        simp only [NonBlocking.runPC] at h
        split at h <;> simp only [Option.some.injEq] at h <;> subst h
        · rename_i v q _
          have := key (.deqUnlock (some v)) h0
          simp only [inFlight, NonBlocking.State.goto, NonBlocking.State.emit, events, List.map_append, pops,
            deqRets, List.filterMap_append, List.length_append] at this ⊢ <;> simp at this ⊢ <;> omega
        · rfl
      | idle => simp [NonBlocking.runPC] at h
      | deqCheck =>
        simp only [NonBlocking.runPC] at h
        split at h <;> simp only [Option.some.injEq] at h <;> subst h
        · have := key (.deqUnlock none) h0
          simp only [inFlight, NonBlocking.State.goto, NonBlocking.State.emit, events, List.map_append, pops,
            deqRets, List.filterMap_append, List.length_append] at this ⊢ <;> simp at this ⊢ <;> omega
        · have := key .deqPop h0
          simp only [inFlight, NonBlocking.State.goto] at this ⊢ <;> simp at this ⊢ <;> omega
      | enqLock a =>
        simp only [NonBlocking.runPC] at h
        split at h <;> simp only [Option.some.injEq, reduceCtorEq] at h
        subst h
        have := key (.enqPush a) h0
        simp only [inFlight, NonBlocking.State.goto] at this ⊢ <;> simp at this ⊢ <;> omega
      | deqLock =>
        simp only [NonBlocking.runPC] at h
        split at h <;> simp only [Option.some.injEq, reduceCtorEq] at h
        subst h
        have := key .deqCheck h0
        simp only [inFlight, NonBlocking.State.goto] at this ⊢ <;> simp at this ⊢ <;> omega
      | enqUnlock =>
        simp only [NonBlocking.runPC, Option.some.injEq] at h
        subst h
        have := key .idle h0
        simp only [inFlight, NonBlocking.State.goto, NonBlocking.State.emit, events, List.map_append, pops,
            deqRets, List.filterMap_append, List.length_append] at this ⊢ <;> simp at this ⊢ <;> omega
      | emptyRead =>
        simp only [NonBlocking.runPC, Option.some.injEq] at h
        subst h
        have := key (.emptyRet (Q.empty s.q)) h0
        simp only [inFlight, NonBlocking.State.goto, NonBlocking.State.emit, events, List.map_append, pops,
            deqRets, List.filterMap_append, List.length_append] at this ⊢ <;> simp at this ⊢ <;> omega
      | emptyRet b =>
        simp only [NonBlocking.runPC, Option.some.injEq] at h
        subst h
        have := key .idle h0
        simp only [inFlight, NonBlocking.State.goto, NonBlocking.State.emit, events, List.map_append, pops,
            deqRets, List.filterMap_append, List.length_append] at this ⊢ <;> simp at this ⊢ <;> omega
    · simp at h
  | callEnq t a =>
    simp only [NonBlocking.step] at h
    split at h <;> simp only [Option.some.injEq, reduceCtorEq] at h
    subst h
    rename_i h0
    have := key (.enqLock a) h0
    simp only [inFlight, NonBlocking.State.goto, NonBlocking.State.emit, events, List.map_append, pops,
            deqRets, List.filterMap_append, List.length_append] at this ⊢ <;> simp at this ⊢ <;> omega
  | callDeq t =>
    simp only [NonBlocking.step] at h
    split at h <;> simp only [Option.some.injEq, reduceCtorEq] at h
    subst h
    rename_i h0
    have := key .deqLock h0
    simp only [inFlight, NonBlocking.State.goto, NonBlocking.State.emit, events, List.map_append, pops,
            deqRets, List.filterMap_append, List.length_append] at this ⊢ <;> simp at this ⊢ <;> omega
  | callEmpty t =>
    simp only [NonBlocking.step] at h
    split at h <;> simp only [Option.some.injEq, reduceCtorEq] at h
    subst h
    rename_i h0
    have := key .emptyRead h0
    simp only [inFlight, NonBlocking.State.goto, NonBlocking.State.emit, events, List.map_append, pops,
            deqRets, List.filterMap_append, List.length_append] at this ⊢ <;> simp at this ⊢ <;> omega

/-- C136, what is lost: every construction of a return value that throws loses one element, and nothing else does.  The
elements taken out of the queue are those returned, those about to be returned, and one for each such exception. -/
theorem C136_loss_partial {Q : QImpl α} {F : PushFails Q} {m : Nat} {as : List (NonBlocking.ActV α)}
    {s : NonBlocking.State Q} (h : NonBlocking.execV F as (NonBlocking.start Q m) = some s) :
    (pops (events s.log)).length = (deqRets (events s.log)).length + inFlight s.pcs + returnThrows as := by
  have key : ∀ (as : List (NonBlocking.ActV α)) (s s' : NonBlocking.State Q), NonBlocking.execV F as s = some s' →
      (pops (events s'.log)).length + (deqRets (events s.log)).length + inFlight s.pcs =
        (pops (events s.log)).length + (deqRets (events s'.log)).length + inFlight s'.pcs + returnThrows as := by
    intro as
    induction as with
    | nil => intro s s' h; simp only [NonBlocking.execV, Option.some.injEq] at h; subst h; rfl
    | cons a as ih =>
      intro s s' h
      simp only [NonBlocking.execV] at h
      split at h
      · rename_i s1 h1
        have e := ih s1 s' h
        have hset : ∀ {t : Nat} {p0 : NonBlocking.PC α}, s.pcs[t]? = some p0 → _ :=
          fun {t p0} h0 => weight_set (fun p : NonBlocking.PC α => match p with
            | .deqUnlock (some _) => 1
            | _ => 0) h0 .idle
        cases a with
        | act a =>
          have := inFlight_step (show NonBlocking.step s a = some s1 from h1)
          simp only [returnThrows]
          omega
        | throwPush t b =>
          simp only [NonBlocking.stepV] at h1
          split at h1
          · rename_i h0
            split at h1 <;> simp only [Option.some.injEq, reduceCtorEq] at h1
            subst h1
            have := hset h0
            simp only [inFlight, NonBlocking.State.goto, returnThrows, Nat.add_zero] at this e ⊢
            omega
          · simp at h1
        | throwPop t =>
          simp only [NonBlocking.stepV] at h1
          split at h1 <;> simp only [Option.some.injEq, reduceCtorEq] at h1
          rename_i h0
          subst h1
          have := hset h0
          simp only [inFlight, NonBlocking.State.goto, returnThrows, Nat.add_zero] at this e ⊢
          omega
        | throwRet t =>
          simp only [NonBlocking.stepV] at h1
          split at h1 <;> simp only [Option.some.injEq, reduceCtorEq] at h1
          rename_i h0
          subst h1
          have := hset h0
          simp only [inFlight, NonBlocking.State.goto, returnThrows, Nat.add_zero] at this e ⊢
          omega
      · simp at h
  have h1 := key as _ s h
  have h2 : inFlight (NonBlocking.start Q m).pcs = 0 := by
    simp [inFlight, weight, NonBlocking.start]
  rw [h2] at h1
  simp only [NonBlocking.start, events, List.map_nil, pops, deqRets, List.filterMap_nil, List.length_nil] at h1 ⊢
  omega

/-- C136, the lock is released, whatever throws: calls under way come to an end, with or without an exception, within
`4 * m` steps, and when no ordinary step is possible every thread is outside. -/
theorem C136_released_partial {m : Nat} {as0 as : List (NonBlocking.ActV α)} {s s' : NonBlocking.State (stdQ α)}
    (h : NonBlocking.execV (stdFails α) as0 (NonBlocking.start _ m) = some s)
    (ha : ∀ a ∈ as, a.inner = true) (he : NonBlocking.execV (stdFails α) as s = some s') :
    as.length ≤ 4 * m ∧ ((∀ t, NonBlocking.step s' (.run t) = none) → ∀ p ∈ s'.pcs, p = .idle) := by
  have hs : ∀ as s, NonBlocking.Safe (stdFails α) (fun _ => True) as s := fun _ _ _ _ _ _ _ _ _ => trivial
  obtain ⟨l, hI⟩ := NonBlocking.execV_inv (M := stdFamily α) as0 (NonBlocking.startV_inv _ m) (hs _ _) h
  obtain ⟨l', hI'⟩ := NonBlocking.execV_inv as hI (hs _ _) he
  have hlen : s.pcs.length = m := by
    have := NonBlocking.execV_length h
    simpa [NonBlocking.start] using this
  constructor
  · have h1 := NonBlocking.execV_fuel hI (hs _ _) ha he
    have h2 := weight_le (w := NonBlocking.PC.fuel) (b := 4) (fun p => by cases p <;> simp [NonBlocking.PC.fuel]) s.pcs
    rw [hlen] at h2
    omega
  · intro hst p hp
    obtain ⟨t, ht⟩ := List.getElem?_of_mem hp
    by_cases h1 : p = .idle
    · exact h1
    obtain ⟨u, s2, h3⟩ := NonBlocking.progress hI'.inv ht h1
    rw [hst u] at h3
    simp at h3

/-- 5 and 6 are enqueued; the construction of the first `dequeue`'s result throws -/
def schedule136 : List (NonBlocking.ActV Nat) :=
  [.act (.callEnq 0 5), .act (.run 0), .act (.run 0), .act (.run 0), .act (.callEnq 0 6), .act (.run 0), .act (.run 0),
    .act (.run 0), .act (.callDeq 1), .act (.run 1), .act (.run 1), .act (.run 1), .throwRet 1, .act (.callDeq 1),
    .act (.run 1), .act (.run 1), .act (.run 1), .act (.run 1)]

/-- **C136 is false**: if the construction of the `Maybe` which `dequeue` returns throws, the element has left the queue
and is never returned.  Every call is over, the queue is empty, and 5 was enqueued but not dequeued. -/
theorem C136_element_lost : ∃ s : NonBlocking.State (stdQ Nat),
    NonBlocking.execV (stdFails Nat) schedule136 (NonBlocking.start _ 2) = some s ∧ s.pcs = [.idle, .idle] ∧
      pushes (events s.log) = [5, 6] ∧ deqRets (events s.log) = [6] ∧ s.q = [] :=
  ⟨(NonBlocking.execV (stdFails Nat) schedule136 (NonBlocking.start (stdQ Nat) 2)).get (by decide +kernel), by simp,
    by decide +kernel, by decide +kernel, by decide +kernel, by decide +kernel⟩

/-- **C136 is false in every such state**: a `dequeue` that throws while it constructs its result leaves the queue without
the element it had taken, `v`; the call is over and the lock is free. -/
theorem C136_always_lost {m : Nat} {as : List (NonBlocking.ActV α)} {s : NonBlocking.State (stdQ α)}
    (h : NonBlocking.execV (stdFails α) as (NonBlocking.start _ m) = some s) {t : Nat} {v : α}
    (ht : s.pcs[t]? = some (.deqUnlock (some v))) :
    ∃ s1, NonBlocking.stepV (stdFails α) s (.throwRet t) = some s1 ∧ s1.pcs[t]? = some .idle ∧ s1.lock = none ∧
      s1.log = s.log ∧ pops (events s1.log) ++ s1.q = pushes (events s1.log) ∧
      (pops (events s1.log)).length = (deqRets (events s1.log)).length + inFlight s1.pcs + returnThrows as + 1 := by
  have hx : NonBlocking.stepV (stdFails α) s (.throwRet t) = some ({ s with lock := none }.goto t .idle) := by
    simp only [NonBlocking.stepV, ht]
  have happ : ∀ (as1 as2 : List (NonBlocking.ActV α)) {x y : NonBlocking.State (stdQ α)},
      NonBlocking.execV (stdFails α) as1 x = some y →
      NonBlocking.execV (stdFails α) (as1 ++ as2) x = NonBlocking.execV (stdFails α) as2 y := by
    intro as1
    induction as1 with
    | nil => intro as2 x y hx; simp only [NonBlocking.execV, Option.some.injEq] at hx; rw [hx]; rfl
    | cons a as1 ih =>
      intro as2 x y hx
      simp only [NonBlocking.execV, List.cons_append] at hx ⊢
      split at hx
      · exact ih as2 hx
      · simp at hx
  have hall : NonBlocking.execV (stdFails α) (as ++ [.throwRet t]) (NonBlocking.start _ m) =
      some ({ s with lock := none }.goto t .idle) := by
    rw [happ as _ h]
    simp only [NonBlocking.execV, hx]
  have hcount : ∀ as : List (NonBlocking.ActV α), returnThrows (as ++ [.throwRet t]) = returnThrows as + 1 := by
    intro as
    induction as with
    | nil => rfl
    | cons a as ih => cases a <;> simp only [List.cons_append, returnThrows, ih]
  have h1 := C136_loss_partial hall
  rw [hcount] at h1
  refine ⟨_, hx, ?_, rfl, rfl, (C136_fifo_partial hall).1, h1⟩
  simp only [NonBlocking.State.goto]
  rw [get_set ht, if_pos rfl]

/-- the state before the exception in `schedule136` -/
example : ((NonBlocking.execV (stdFails Nat) (schedule136.take 12) (NonBlocking.start (stdQ Nat) 2)).map fun s =>
    (s.pcs, (s.q : List Nat))) = some ([.idle, .deqUnlock (some 5)], [6]) := by decide +kernel

end Props
end Efp
