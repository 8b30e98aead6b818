import Verif.FairLemmas

/-!
# Fair executions of `BlockingQ`
-/

namespace Efp
namespace Conc
namespace Blocking

open Spec

variable {α : Type} {Q : QImpl α} {cap : Option Nat}

/-- the thread that takes a step inside an operation (concurrency.hpp 45-60, 84-101); calls and spurious wake-ups are
nobody's duty -/
def Act.of : Act α → Option Nat
  | .run t => some t
  | .notify t _ => some t
  | _ => none

/-- the thread can always run -/
def PC.free : PC α → Bool := PC.holds

/-- the thread wants the mutex -/
def PC.waits : PC α → Bool
  | .enqLock _ | .deqLock | .woken => true
  | _ => false

/-- where a thread goes when it moves -/
inductive Succ (l : List α) : PC α → PC α → Prop where
  | enqLock (a : α) : Succ l (.enqLock a) (.enqPush a)
  | enqPush (a : α) : Succ l (.enqPush a) .enqNotify
  | enqNotify : Succ l .enqNotify .enqUnlock
  | enqUnlock : Succ l .enqUnlock .idle
  | deqLock : Succ l .deqLock .deqCheck
  | woken : Succ l .woken .deqCheck
  | sleep : l = [] → Succ l .deqCheck .asleep
  | deqCheck : l ≠ [] → Succ l .deqCheck .deqPop
  | deqPop (v : α) : Succ l .deqPop (.deqUnlock v)
  | deqUnlock (v : α) : Succ l (.deqUnlock v) .idle

theorem succ_fuel {l : List α} {p p' : PC α} (h : Succ l p p') : p'.fuel < p.fuel := by
  cases h <;> simp [PC.fuel]

theorem set_self {l : List (PC α)} {t : Nat} {p0 : PC α} (h : l[t]? = some p0) (p : PC α) :
    (l.set t p)[t]? = some p := by rw [get_set h, if_pos rfl]

/-- a step of thread `t` -/
theorem own_step {L : Lawful Q cap} {s s' : State Q} {l : List α} (hI : Core L s l) {a : Act α} {t : Nat} {p : PC α}
    (h : step s a = some s') (ha : a.of = some t) (h0 : s.pcs[t]? = some p) :
    ∃ p', s'.pcs[t]? = some p' ∧ Succ l p p' := by
  cases a with
  | callEnq t a => simp [Act.of] at ha
  | callDeq t => simp [Act.of] at ha
  | spurious t => simp [Act.of] at ha
  | notify u w =>
    simp only [Act.of, Option.some.injEq] at ha
    subst ha
    simp only [step] at h
    split at h
    · rename_i hn
      rw [hn] at h0; cases h0
      split at h
      · rename_i w
        split at h <;> simp only [Option.some.injEq, reduceCtorEq] at h
        subst h
        rename_i hw
        refine ⟨.enqUnlock, ?_, .enqNotify⟩
        have hne : u ≠ w := by
          rintro rfl
          rw [hn] at hw
          simp at hw
        have : (s.pcs.set w .woken)[u]? = some .enqNotify := by rw [get_set hw, if_neg hne, hn]
        exact set_self this _
      · split at h <;> simp only [Option.some.injEq, reduceCtorEq] at h
        subst h
        exact ⟨.enqUnlock, set_self hn _, .enqNotify⟩
    · simp at h
  | run u =>
    simp only [Act.of, Option.some.injEq] at ha
    subst ha
    simp only [step, h0] at h
    cases p with
    | idle => simp [runPC] at h
    | enqNotify => simp [runPC] at h
    | asleep => simp [runPC] at h
    | enqLock a =>
      simp only [runPC] at h
      split at h <;> simp only [Option.some.injEq, reduceCtorEq] at h
      subst h; exact ⟨_, set_self h0 _, .enqLock a⟩
    | deqLock =>
      simp only [runPC] at h
      split at h <;> simp only [Option.some.injEq, reduceCtorEq] at h
      subst h; exact ⟨_, set_self h0 _, .deqLock⟩
    | woken =>
      simp only [runPC] at h
      split at h <;> simp only [Option.some.injEq, reduceCtorEq] at h
      subst h; exact ⟨_, set_self h0 _, .woken⟩
    | enqPush a =>
      obtain ⟨q', hq, hr⟩ := L.push a hI.rep
      simp only [runPC, hq, Option.some.injEq] at h
      subst h; exact ⟨_, set_self h0 _, .enqPush a⟩
    | enqUnlock =>
      simp only [runPC, Option.some.injEq] at h
      subst h; exact ⟨_, set_self h0 _, .enqUnlock⟩
    | deqCheck =>
      have he := L.empty hI.rep
      simp only [runPC] at h
      split at h <;> simp only [Option.some.injEq] at h <;> subst h
      · rename_i hq
        exact ⟨_, set_self h0 _, .sleep (by rw [hq] at he; simpa using he.symm)⟩
      · rename_i hq
        exact ⟨_, set_self h0 _, .deqCheck (by rintro rfl; rw [he] at hq; exact hq rfl)⟩
    | deqPop =>
      obtain ⟨v, r, rfl⟩ := List.exists_cons_of_ne_nil (hI.nonempty _ h0)
      obtain ⟨q', hq, hr⟩ := L.pop hI.rep
      simp only [runPC, hq, Option.some.injEq] at h
      subst h; exact ⟨_, set_self h0 _, .deqPop v⟩
    | deqUnlock v =>
      simp only [runPC, Option.some.injEq] at h
      subst h; exact ⟨_, set_self h0 _, .deqUnlock v⟩

/-- a statement of another thread leaves the program counter alone -/
theorem run_other {s s' : State Q} {t u : Nat} {p : PC α} (h : runPC u s p = some s') (hu : s.pcs[u]? = some p) (ht : t ≠ u) :
    s'.pcs[t]? = s.pcs[t]? := by
  have key : ∀ p', (s.pcs.set u p')[t]? = s.pcs[t]? := fun p' => by rw [get_set hu, if_neg ht]
  cases p <;> simp only [runPC] at h <;> (try split at h) <;>
    simp only [Option.some.injEq, reduceCtorEq] at h <;> subst h <;> first | rfl | exact key _

/-- what other threads' steps do to a thread -/
theorem other_step {s s' : State Q} {a : Act α} {t : Nat} {p : PC α} (h : step s a = some s') (ha : a.of ≠ some t)
    (h0 : s.pcs[t]? = some p) : s'.pcs[t]? = some p ∨ p = .idle ∨ (p = .asleep ∧ s'.pcs[t]? = some .woken) := by
  have key : ∀ {u : Nat} {q : PC α} (q' : PC α), s.pcs[u]? = some q → t ≠ u → (s.pcs.set u q')[t]? = some p := by
    intro u q q' hu ht
    rw [get_set hu, if_neg ht, h0]
  cases a with
  | callEnq u a =>
    simp only [step] at h
    split at h <;> simp only [Option.some.injEq, reduceCtorEq] at h
    subst h; rename_i hu
    by_cases ht : t = u
    · subst ht; rw [h0] at hu; cases hu; exact .inr (.inl rfl)
    · exact .inl (key _ hu ht)
  | callDeq u =>
    simp only [step] at h
    split at h <;> simp only [Option.some.injEq, reduceCtorEq] at h
    subst h; rename_i hu
    by_cases ht : t = u
    · subst ht; rw [h0] at hu; cases hu; exact .inr (.inl rfl)
    · exact .inl (key _ hu ht)
  | spurious u =>
    simp only [step] at h
    split at h <;> simp only [Option.some.injEq, reduceCtorEq] at h
    subst h; rename_i hu
    by_cases ht : t = u
    · subst ht; rw [h0] at hu; cases hu; exact .inr (.inr ⟨rfl, set_self h0 _⟩)
    · exact .inl (key _ hu ht)
  | run u =>
    have ht : t ≠ u := fun h' => ha (by rw [h']; rfl)
    simp only [step] at h
    split at h
    · rename_i hu
      exact .inl (by rw [run_other h hu ht, h0])
    · simp at h
  | notify u w =>
    have ht : t ≠ u := fun h' => ha (by rw [h']; rfl)
    simp only [step] at h
    split at h
    · rename_i hn
      split at h
      · rename_i w
        split at h <;> simp only [Option.some.injEq, reduceCtorEq] at h
        subst h
        rename_i hw
        have hne : u ≠ w := by
          rintro rfl
          rw [hn] at hw
          simp at hw
        have hu2 : (s.pcs.set w .woken)[u]? = some .enqNotify := by rw [get_set hw, if_neg hne, hn]
        have e : ((s.goto w .woken).goto u .enqUnlock).pcs[t]? = (s.pcs.set w .woken)[t]? := by
          show ((s.pcs.set w .woken).set u .enqUnlock)[t]? = _
          rw [get_set hu2, if_neg ht]
        rw [e]
        by_cases htw : t = w
        · subst htw; rw [h0] at hw; cases hw; exact .inr (.inr ⟨rfl, set_self h0 _⟩)
        · exact .inl (key _ hw htw)
      · split at h <;> simp only [Option.some.injEq, reduceCtorEq] at h
        subst h
        exact .inl (key _ hn ht)
    · simp at h

/-- whoever holds the mutex, or wants it while it is free, can move -/
theorem can_move {L : Lawful Q cap} {s : State Q} {l : List α} (hI : Core L s l) {t : Nat} {p : PC α} (h0 : s.pcs[t]? = some p)
    (hp : p.free = true ∨ (p.waits = true ∧ s.lock = none)) : CanMove step Act.of s t := by
  have run : (∃ s', runPC t s p = some s') → CanMove step Act.of s t := fun ⟨s', h⟩ =>
    ⟨.run t, rfl, by simp [step, h0, h]⟩
  cases p with
  | idle => simp [PC.free, PC.holds, PC.waits] at hp
  | asleep => simp [PC.free, PC.holds, PC.waits] at hp
  | enqLock a =>
    have hl : s.lock = none := by simpa [PC.free, PC.holds, PC.waits] using hp
    exact run ⟨_, by simp only [runPC, hl, if_true]; rfl⟩
  | deqLock =>
    have hl : s.lock = none := by simpa [PC.free, PC.holds, PC.waits] using hp
    exact run ⟨_, by simp only [runPC, hl, if_true]; rfl⟩
  | woken =>
    have hl : s.lock = none := by simpa [PC.free, PC.holds, PC.waits] using hp
    exact run ⟨_, by simp only [runPC, hl, if_true]; rfl⟩
  | enqPush a =>
    obtain ⟨q', hq, hr⟩ := L.push a hI.rep
    exact run ⟨_, by simp only [runPC, hq]; rfl⟩
  | enqUnlock => exact run ⟨_, rfl⟩
  | deqCheck => exact run (by simp only [runPC]; split <;> exact ⟨_, rfl⟩)
  | deqPop =>
    obtain ⟨v, r, rfl⟩ := List.exists_cons_of_ne_nil (hI.nonempty _ h0)
    obtain ⟨q', hq, hr⟩ := L.pop hI.rep
    exact run ⟨_, by simp only [runPC, hq]; rfl⟩
  | deqUnlock v => exact run ⟨_, rfl⟩
  | enqNotify =>
    by_cases ha : s.pcs.any PC.isAsleep = true
    · obtain ⟨q, hq, hs⟩ := List.any_eq_true.mp ha
      have hqa : q = .asleep := by cases q <;> simp [PC.isAsleep] at hs ⊢
      subst hqa
      obtain ⟨w, hw⟩ := List.getElem?_of_mem hq
      exact ⟨.notify t (some w), rfl, by simp [step, h0, hw]⟩
    · exact ⟨.notify t none, rfl, by simp [step, h0, ha]⟩

theorem lock_keep {s s' : State Q} {a : Act α} {t : Nat}
    (hl : s.lock = some t) (h : step s a = some s') : s'.lock = none ∨ s'.lock = some t := by
  cases a with
  | callEnq u a =>
    simp only [step] at h
    split at h <;> simp only [Option.some.injEq, reduceCtorEq] at h
    subst h; exact .inr hl
  | callDeq u =>
    simp only [step] at h
    split at h <;> simp only [Option.some.injEq, reduceCtorEq] at h
    subst h; exact .inr hl
  | spurious u =>
    simp only [step] at h
    split at h <;> simp only [Option.some.injEq, reduceCtorEq] at h
    subst h; exact .inr hl
  | notify u w =>
    simp only [step] at h
    split at h
    · split at h
      · split at h <;> simp only [Option.some.injEq, reduceCtorEq] at h
        subst h; exact .inr hl
      · split at h <;> simp only [Option.some.injEq, reduceCtorEq] at h
        subst h; exact .inr hl
    · simp at h
  | run u =>
    simp only [step] at h
    split at h
    · rename_i p hu
      cases p <;> simp only [runPC] at h <;> (try split at h) <;>
        simp only [Option.some.injEq, reduceCtorEq] at h <;> subst h <;>
        first | exact .inr hl | exact .inl rfl | (exfalso; simp_all)
    · simp at h

/-- BlockingQ as a machine with one lock -/
def guarded (L : Lawful Q cap) : Fair.Guarded (step (Q := Q)) Act.of (PC α) where
  inv := fun s => ∃ l, Inv L s l
  pcs := State.pcs
  lock := State.lock
  free := PC.free
  waits := PC.waits
  fuel := PC.fuel
  stay := fun {s a s' t p} _ h h0 hp ha => by
    rcases other_step h ha h0 with h | rfl | ⟨rfl, _⟩
    · exact h
    · simp [PC.free, PC.holds, PC.waits] at hp
    · simp [PC.free, PC.holds, PC.waits] at hp
  ready := fun ⟨_, hI⟩ h0 hp => can_move hI.toCore h0 hp
  less := fun ⟨_, hI⟩ h ha h0 => by
    obtain ⟨p', h1, h2⟩ := own_step hI.toCore h ha h0
    exact ⟨p', h1, succ_fuel h2, by cases h2 <;> rfl⟩
  owner := fun {s t} ⟨_, hI⟩ hl => by
    have ht := hI.owner t hl
    exact ⟨s.pcs[t], List.getElem?_eq_getElem ht, (hI.lock t _ (List.getElem?_eq_getElem ht)).mpr hl⟩
  keep := fun _ _ hl h => lock_keep hl h

/-! ### Sleepers and contents -/

theorem legal_unique {cap : Option Nat} : ∀ {es : List (Ev α)} {q q1 q2 : List α}, Legal cap es q q1 → Legal cap es q q2 →
    q1 = q2
  | [], q, q1, q2, h1, h2 => h1.symm.trans h2
  | e :: es, q, q1, q2, h1, h2 => by
    cases e with
    | push a => exact legal_unique (es := es) h1 h2
    | pop o =>
      cases o with
      | none => exact legal_unique (es := es) h1.2 h2.2
      | some v =>
        obtain ⟨r, hr, h1⟩ := h1
        obtain ⟨r', hr', h2⟩ := h2
        rw [hr] at hr'
        cases hr'
        exact legal_unique h1 h2
    | look b => exact legal_unique (es := es) h1.2 h2.2
    | _ => exact legal_unique (es := es) (q := q) h1 h2

theorem legal_last {cap : Option Nat} {log : List (Nat × Ev α)} {t : Nat} {e : Ev α} {l l' : List α}
    (h : Legal cap (events log) [] l) (h' : Legal cap (events (log ++ [(t, e)])) [] l') : Legal cap [e] l l' := by
  rw [show events (log ++ [(t, e)]) = events log ++ [e] by simp [events], legal_append] at h'
  obtain ⟨mid, h1, h2⟩ := h'
  rw [legal_unique h h1]
  exact h2

/-- without a push the queue does not grow, and a pop makes it shorter -/
theorem contents_step {L : Lawful Q cap} {s s' : State Q} {l l' : List α} (hI : Inv L s l) (hI' : Inv L s' l') {a : Act α}
    (h : step s a = some s') (hno : ∀ (u : Nat) b, s.pcs[u]? ≠ some (.enqPush b)) :
    l'.length ≤ l.length ∧ ∀ u : Nat, a.of = some u → s.pcs[u]? = some .deqPop → l'.length < l.length := by
  have same : s'.log = s.log → l' = l := fun he => by
    have := hI'.legal
    rw [he] at this
    exact legal_unique this hI.legal
  have quiet : ∀ {u : Nat} {e : Ev α}, s'.log = s.log ++ [(u, e)] → (Legal cap [e] l l' → l = l') → l'.length ≤ l.length := by
    intro u e he hq
    have := hI'.legal
    rw [he] at this
    rw [hq (legal_last hI.legal this)]
    exact Nat.le_refl _
  cases a with
  | callEnq u a =>
    refine ⟨?_, fun u hu => by simp [Act.of] at hu⟩
    simp only [step] at h
    split at h <;> simp only [Option.some.injEq, reduceCtorEq] at h
    subst h; exact quiet rfl id
  | callDeq u =>
    refine ⟨?_, fun u hu => by simp [Act.of] at hu⟩
    simp only [step] at h
    split at h <;> simp only [Option.some.injEq, reduceCtorEq] at h
    subst h; exact quiet rfl id
  | spurious u =>
    refine ⟨?_, fun u hu => by simp [Act.of] at hu⟩
    simp only [step] at h
    split at h <;> simp only [Option.some.injEq, reduceCtorEq] at h
    subst h; rw [same rfl]; exact Nat.le_refl _
  | notify u w =>
    simp only [step] at h
    split at h
    · rename_i hn
      have h2 : ∀ v : Nat, Act.of (Act.notify u w : Act α) = some v → s.pcs[v]? = some .deqPop → l'.length < l.length := by
        intro v hv hp
        simp only [Act.of, Option.some.injEq] at hv
        subst hv
        rw [hn] at hp
        simp at hp
      refine ⟨?_, h2⟩
      split at h
      · split at h <;> simp only [Option.some.injEq, reduceCtorEq] at h
        subst h; rw [same rfl]; exact Nat.le_refl _
      · split at h <;> simp only [Option.some.injEq, reduceCtorEq] at h
        subst h; rw [same rfl]; exact Nat.le_refl _
    · simp at h
  | run u =>
    simp only [step] at h
    split at h
    · rename_i p hu
      by_cases hp : p = .deqPop
      · subst hp
        have hl := hI.nonempty u hu
        obtain ⟨v, r, rfl⟩ := List.exists_cons_of_ne_nil hl
        obtain ⟨q', hq, hr⟩ := L.pop hI.rep
        simp only [runPC, hq, Option.some.injEq] at h
        have hlen : l'.length < (v :: r).length := by
          have := hI'.legal
          rw [← h] at this
          obtain ⟨r', h1, h2⟩ := legal_last hI.legal this
          cases h1
          rw [← show r = l' from h2]
          simp
        exact ⟨by omega, fun _ _ _ => hlen⟩
      · have h2 : ∀ v : Nat, Act.of (Act.run u : Act α) = some v → s.pcs[v]? = some .deqPop → l'.length < l.length := by
          intro v hv hp'
          simp only [Act.of, Option.some.injEq] at hv
          subst hv
          rw [hu] at hp'
          exact absurd (Option.some.inj hp') hp
        refine ⟨?_, h2⟩
        cases p with
        | deqPop => exact absurd rfl hp
        | enqPush b => exact absurd hu (hno u b)
        | deqUnlock v =>
          simp only [runPC, Option.some.injEq] at h
          subst h; exact quiet rfl id
        | enqUnlock =>
          simp only [runPC, Option.some.injEq] at h
          subst h; exact quiet rfl id
        | _ =>
          simp only [runPC] at h
          (try split at h) <;> simp only [Option.some.injEq, reduceCtorEq] at h
          all_goals subst h; rw [same rfl]; exact Nat.le_refl _
    · simp at h

/-- how many threads sleep -/
def sleepers (s : State Q) : Nat := weight (fun p => if p.isAsleep then 1 else 0) s.pcs

/-- while there is something in the queue, nobody goes to sleep, and `notify_one` wakes somebody -/
theorem sleepers_step {L : Lawful Q cap} {s s' : State Q} {l : List α} (hI : Inv L s l) (hl : l ≠ []) {a : Act α}
    (h : step s a = some s') : sleepers s' ≤ sleepers s ∧ ∀ u t : Nat, a.of = some u → s.pcs[u]? = some .enqNotify →
      s.pcs[t]? = some .asleep → sleepers s' < sleepers s := by
  have key : ∀ {pcs : List (PC α)} {u : Nat} {p : PC α} (p' : PC α), pcs[u]? = some p → p'.isAsleep = false →
      weight (fun p => if p.isAsleep then 1 else 0) (pcs.set u p') ≤ weight (fun p => if p.isAsleep then 1 else 0) pcs := by
    intro pcs u p p' hu hp
    have := weight_set (fun p : PC α => if p.isAsleep then 1 else 0) hu p'
    rw [hp] at this
    simp only [Bool.false_eq_true, if_false] at this
    omega
  cases a with
  | callEnq u a =>
    refine ⟨?_, fun u t hu => by simp [Act.of] at hu⟩
    simp only [step] at h
    split at h <;> simp only [Option.some.injEq, reduceCtorEq] at h
    subst h; rename_i hu; exact key _ hu rfl
  | callDeq u =>
    refine ⟨?_, fun u t hu => by simp [Act.of] at hu⟩
    simp only [step] at h
    split at h <;> simp only [Option.some.injEq, reduceCtorEq] at h
    subst h; rename_i hu; exact key _ hu rfl
  | spurious u =>
    refine ⟨?_, fun u t hu => by simp [Act.of] at hu⟩
    simp only [step] at h
    split at h <;> simp only [Option.some.injEq, reduceCtorEq] at h
    subst h; rename_i hu; exact key _ hu rfl
  | notify u w =>
    simp only [step] at h
    split at h
    · rename_i hn
      split at h
      · rename_i w
        split at h <;> simp only [Option.some.injEq, reduceCtorEq] at h
        subst h
        rename_i hw
        have hne : u ≠ w := by
          rintro rfl
          rw [hn] at hw
          simp at hw
        have hu2 : (s.pcs.set w .woken)[u]? = some .enqNotify := by rw [get_set hw, if_neg hne, hn]
        have e1 := key .enqUnlock hu2 rfl
        have e2 : weight (fun p : PC α => if p.isAsleep then 1 else 0) (s.pcs.set w .woken) + 1 = weight _ s.pcs + 0 :=
          weight_set _ hw .woken
        have : sleepers ((s.goto w .woken).goto u .enqUnlock) < sleepers s := by
          show weight _ ((s.pcs.set w .woken).set u .enqUnlock) < weight _ s.pcs
          omega
        exact ⟨by omega, fun _ _ _ _ _ => this⟩
      · split at h <;> simp only [Option.some.injEq, reduceCtorEq] at h
        rename_i hany
        subst h
        exact ⟨key _ hn rfl, fun v t _ _ ht =>
          absurd (List.any_eq_true.mpr ⟨_, List.mem_of_getElem? ht, rfl⟩) hany⟩
    · simp at h
  | run u =>
    refine ⟨?_, fun v t hv hn _ => by
      simp only [Act.of, Option.some.injEq] at hv
      subst hv
      simp [step, hn, runPC] at h⟩
    simp only [step] at h
    split at h
    · rename_i p hu
      obtain ⟨p', h1, h2⟩ := own_step hI.toCore (show step s (.run u) = some s' by simp [step, hu, h]) rfl hu
      have hnot : p'.isAsleep = false := by
        cases h2 with
        | sleep he => exact absurd he hl
        | _ => rfl
      cases p <;> simp only [runPC] at h <;> (try split at h) <;>
        simp only [Option.some.injEq, reduceCtorEq] at h <;> subst h <;>
        first
          | exact key _ hu rfl
          | exact Nat.le_refl _
          | (exfalso
             have h3 := set_self hu (PC.asleep : PC α)
             rw [State.goto] at h1
             rw [h3] at h1
             cases h1
             simp [PC.isAsleep] at hnot)
    · simp at h

/-! ### Never-ending executions -/

section
variable {m : Nat} {sch : Nat → Act α}

local notation "st" => Spec.run step (start Q m) sch

theorem run_inv' (L : Lawful Q cap) : ∀ i, ∃ l, Inv L (st i) l
  | 0 => ⟨[], start_inv L m⟩
  | i + 1 => by
    obtain ⟨l, hI⟩ := run_inv' L i
    rcases Fair.run_succ step (start Q m) sch i with ⟨s', h1, h2⟩ | ⟨_, h2⟩
    · rw [h2]; exact step_inv hI h1
    · rw [h2]; exact ⟨l, hI⟩

theorem step_log {s s' : State Q} {a : Act α} (h : step s a = some s') : ∃ l, s'.log = s.log ++ l := by
  cases a with
  | callEnq u a =>
    simp only [step] at h
    split at h <;> simp only [Option.some.injEq, reduceCtorEq] at h
    subst h; exact ⟨_, rfl⟩
  | callDeq u =>
    simp only [step] at h
    split at h <;> simp only [Option.some.injEq, reduceCtorEq] at h
    subst h; exact ⟨_, rfl⟩
  | spurious u =>
    simp only [step] at h
    split at h <;> simp only [Option.some.injEq, reduceCtorEq] at h
    subst h; exact ⟨[], by simp [State.goto]⟩
  | notify u w =>
    simp only [step] at h
    split at h
    · split at h
      · split at h <;> simp only [Option.some.injEq, reduceCtorEq] at h
        subst h; exact ⟨[], by simp [State.goto]⟩
      · split at h <;> simp only [Option.some.injEq, reduceCtorEq] at h
        subst h; exact ⟨[], by simp [State.goto]⟩
    · simp at h
  | run u =>
    simp only [step] at h
    split at h
    · rename_i p hu
      cases p <;> simp only [runPC] at h <;> (try split at h) <;>
        simp only [Option.some.injEq, reduceCtorEq] at h <;> subst h <;>
        first | exact ⟨[_], rfl⟩ | exact ⟨[], by simp [State.goto]⟩
    · simp at h

/-- a thread in the middle of an operation, and not asleep, goes on -/
theorem goes_on (L : Lawful Q cap) (hf : StrongFair step Act.of (start Q m) sch) {t : Nat} {p : PC α}
    (hp : p.free = true ∨ p.waits = true) {i : Nat} (h0 : (st i).pcs[t]? = some p) :
    ∃ j p' l, i ≤ j ∧ Inv L (st j) l ∧ (st j).pcs[t]? = some p ∧ Act.of (sch j) = some t ∧
      step (st j) (sch j) = some (st (j + 1)) ∧ (st (j + 1)).pcs[t]? = some p' ∧ Succ l p p' := by
  obtain ⟨j, h1, h2, h3, h4⟩ := Fair.moves (guarded L) (run_inv' L) hf hp h0
  obtain ⟨l, hI⟩ := run_inv' (m := m) (sch := sch) L j
  obtain ⟨p', h5, h6⟩ := own_step hI.toCore h4 h3 h2
  exact ⟨j, p', l, h1, hI, h2, h3, h4, h5, h6⟩

theorem enq_returns (L : Lawful Q cap) (hf : StrongFair step Act.of (start Q m) sch) {t : Nat} : ∀ (f : Nat) {p : PC α} {i : Nat},
    p.fuel ≤ f → Fair.phaseOp p.phase = some .enqueue → (st i).pcs[t]? = some p → ∃ j, i ≤ j ∧ (st j).pcs[t]? = some .idle := by
  intro f
  induction f with
  | zero => intro p i hfu hp h0; cases p <;> simp [PC.fuel, PC.phase, Fair.phaseOp] at hfu hp
  | succ f ih =>
    intro p i hfu hp h0
    have hfw : p.free = true ∨ p.waits = true := by
      cases p <;> simp [PC.phase, Fair.phaseOp, PC.free, PC.holds, PC.waits] at hp ⊢
    obtain ⟨j, p', l, hij, _, _, _, _, h5, h6⟩ := goes_on L hf hfw h0
    by_cases hid : p' = .idle
    · subst hid; exact ⟨j + 1, by omega, h5⟩
    · have hp' : Fair.phaseOp p'.phase = some .enqueue := by
        cases h6 <;> simp [PC.phase, Fair.phaseOp] at hp hid ⊢
      obtain ⟨k, hk, hk'⟩ := ih (by have := succ_fuel h6; omega) hp' h5
      exact ⟨k, by omega, hk'⟩

/-- with elements in the queue all the time, a thread inside `dequeue` that is not asleep comes to its `pop` -/
theorem deq_pops (L : Lawful Q cap) (hf : StrongFair step Act.of (start Q m) sch) {n : Nat}
    (hne : ∀ i l, n ≤ i → Inv L (st i) l → l ≠ []) {t : Nat} {p : PC α} {i : Nat} (hi : n ≤ i)
    (hp : p = .deqLock ∨ p = .woken ∨ p = .deqCheck ∨ p = .deqPop) (h0 : (st i).pcs[t]? = some p) :
    ∃ j, i ≤ j ∧ (st j).pcs[t]? = some .deqPop ∧ Act.of (sch j) = some t ∧ step (st j) (sch j) = some (st (j + 1)) := by
  have pop : ∀ {i}, (st i).pcs[t]? = some .deqPop → ∃ j, i ≤ j ∧ (st j).pcs[t]? = some .deqPop ∧ Act.of (sch j) = some t ∧
      step (st j) (sch j) = some (st (j + 1)) := fun h =>
    Fair.moves (guarded L) (run_inv' L) hf (.inl rfl) h
  have check : ∀ {i}, n ≤ i → (st i).pcs[t]? = some .deqCheck → ∃ j, i ≤ j ∧ (st j).pcs[t]? = some .deqPop ∧
      Act.of (sch j) = some t ∧ step (st j) (sch j) = some (st (j + 1)) := by
    intro i hi h
    obtain ⟨j, p', l, hij, hI, _, _, _, h5, h6⟩ := goes_on L hf (.inl rfl) h
    cases h6 with
    | sleep hl => exact absurd hl (hne j l (by omega) hI)
    | deqCheck _ => obtain ⟨k, hk, h⟩ := pop h5; exact ⟨k, by omega, h⟩
  have lock : ∀ {i} {p : PC α}, n ≤ i → (p = .deqLock ∨ p = .woken) → (st i).pcs[t]? = some p → ∃ j, i ≤ j ∧
      (st j).pcs[t]? = some .deqPop ∧ Act.of (sch j) = some t ∧ step (st j) (sch j) = some (st (j + 1)) := by
    intro i p hi hp h
    obtain ⟨j, p', l, hij, hI, _, _, _, h5, h6⟩ := goes_on L hf (.inr (by rcases hp with rfl | rfl <;> rfl)) h
    have : p' = .deqCheck := by rcases hp with rfl | rfl <;> cases h6 <;> rfl
    subst this
    obtain ⟨k, hk, h⟩ := check (by omega) h5
    exact ⟨k, by omega, h⟩
  rcases hp with rfl | rfl | rfl | rfl
  · exact lock hi (.inl rfl) h0
  · exact lock hi (.inr rfl) h0
  · exact check hi h0
  · exact pop h0

/-- and returns -/
theorem deq_returns (L : Lawful Q cap) (hf : StrongFair step Act.of (start Q m) sch) {n : Nat}
    (hne : ∀ i l, n ≤ i → Inv L (st i) l → l ≠ []) {t : Nat} {p : PC α} {i : Nat} (hi : n ≤ i)
    (hp : Fair.phaseOp p.phase = some .dequeue) (hs : p ≠ .asleep) (h0 : (st i).pcs[t]? = some p) :
    ∃ j, i ≤ j ∧ (st j).pcs[t]? = some .idle := by
  have unlock : ∀ {i v}, (st i).pcs[t]? = some (.deqUnlock v) → ∃ j, i ≤ j ∧ (st j).pcs[t]? = some .idle := by
    intro i v h
    obtain ⟨j, p', l, hij, hI, _, _, _, h5, h6⟩ := goes_on L hf (.inl rfl) h
    cases h6
    exact ⟨j + 1, by omega, h5⟩
  by_cases hu : ∃ v, p = .deqUnlock v
  · obtain ⟨v, rfl⟩ := hu
    exact unlock h0
  · have hp' : p = .deqLock ∨ p = .woken ∨ p = .deqCheck ∨ p = .deqPop := by
      cases p <;> simp [PC.phase, Fair.phaseOp] at hp hs hu ⊢
    obtain ⟨j, hij, h1, h2, h3⟩ := deq_pops L hf hne hi hp' h0
    obtain ⟨l, hI⟩ := run_inv' (m := m) (sch := sch) L j
    obtain ⟨p', h5, h6⟩ := own_step hI.toCore h3 h2 h1
    cases h6
    obtain ⟨k, hk, h⟩ := unlock h5
    exact ⟨k, by omega, h⟩

/-- with elements in the queue all the time, nobody sleeps for ever -/
theorem no_sleep (L : Lawful Q cap) (hf : StrongFair step Act.of (start Q m) sch) {n : Nat}
    (hne : ∀ i l, n ≤ i → Inv L (st i) l → l ≠ []) {t : Nat} (hs : ∀ i, n ≤ i → (st i).pcs[t]? = some .asleep) : False := by
  have mono : ∀ i, n ≤ i → ∀ d, sleepers (st (i + d)) ≤ sleepers (st i) := by
    intro i hi d
    induction d with
    | zero => exact Nat.le_refl _
    | succ d ih =>
      obtain ⟨l, hI⟩ := run_inv' (m := m) (sch := sch) L (i + d)
      rcases Fair.run_succ step (start Q m) sch (i + d) with ⟨s', h1, h2⟩ | ⟨_, h2⟩
      · have := (sleepers_step hI (hne _ _ (by omega) hI) h1).1
        rw [← Nat.add_assoc, h2]; omega
      · rw [← Nat.add_assoc, h2]; exact ih
  have settle : ∀ k i, n ≤ i → sleepers (st i) ≤ k → ∃ M, n ≤ M ∧ ∀ j, M ≤ j → sleepers (st j) = sleepers (st M) := by
    intro k
    induction k with
    | zero =>
      intro i hi hk
      refine ⟨i, hi, fun j hj => ?_⟩
      have := mono i hi (j - i)
      rw [Nat.add_sub_cancel' hj] at this
      omega
    | succ k ih =>
      intro i hi hk
      rcases Fair.infOften_or_never (fun j => sleepers (st j) < sleepers (st i)) i with ⟨j, hj, hlt⟩ | h
      · exact ih j (by omega) (by omega)
      · refine ⟨i, hi, fun j hj => ?_⟩
        have h1 := mono i hi (j - i)
        have h2 := h j hj
        rw [Nat.add_sub_cancel' hj] at h1
        omega
  obtain ⟨M, hM, hfix⟩ := settle _ n (Nat.le_refl _) (Nat.le_refl _)
  have noNotify : ∀ i u : Nat, M ≤ i → (st i).pcs[u]? ≠ some .enqNotify := by
    intro i u hi hu
    obtain ⟨j, p', l, hij, hI, h2, h3, h4, _, _⟩ := goes_on L hf (.inl rfl) hu
    have := (sleepers_step hI (hne j l (by omega) hI) h4).2 u t h3 h2 (hs j (by omega))
    rw [hfix j (by omega), hfix (j + 1) (by omega)] at this
    omega
  have noPush : ∀ (i u : Nat) b, M ≤ i → (st i).pcs[u]? ≠ some (.enqPush b) := by
    intro i u b hi hu
    obtain ⟨j, p', l, hij, hI, _, _, _, h5, h6⟩ := goes_on L hf (.inl rfl) hu
    cases h6
    exact noNotify (j + 1) u (by omega) h5
  have shrink : ∀ i l, M ≤ i → Inv L (st i) l → ∀ d l', Inv L (st (i + d)) l' → l'.length ≤ l.length := by
    intro i l hi hI d
    induction d with
    | zero =>
      intro l' hI'
      rw [legal_unique hI'.legal hI.legal]
      exact Nat.le_refl _
    | succ d ih =>
      intro l' hI'
      obtain ⟨l1, hI1⟩ := run_inv' (m := m) (sch := sch) L (i + d)
      have := ih l1 hI1
      rw [← Nat.add_assoc] at hI'
      rcases Fair.run_succ step (start Q m) sch (i + d) with ⟨s', h1, h2⟩ | ⟨_, h2⟩
      · rw [h2] at hI'
        have := (contents_step hI1 hI' h1 fun u b => noPush _ u b (by omega)).1
        omega
      · rw [h2] at hI'
        rw [legal_unique hI'.legal hI1.legal]
        exact this
  have key : ∀ k i l, M ≤ i → Inv L (st i) l → l.length ≤ k → False := by
    intro k
    induction k with
    | zero => intro i l hi hI hk; exact hne i l (by omega) hI (List.length_eq_zero_iff.mp (by omega))
    | succ k ih =>
      intro i l hi hI hk
      have hpos : 0 < l.length := List.length_pos_iff.mpr (hne i l (by omega) hI)
      have hw := hI.wake t (hs i (by omega))
      obtain ⟨u, p, hu, hp⟩ := weight_pos (show 0 < weight PC.pending (st i).pcs by omega)
      have hp' : p = .deqLock ∨ p = .woken ∨ p = .deqCheck ∨ p = .deqPop := by
        cases p with
        | enqNotify => exact absurd hu (noNotify i u hi)
        | _ => simp [PC.pending] at hp ⊢
      obtain ⟨j, hij, h1, h2, h3⟩ := deq_pops L hf hne (by omega) hp' hu
      obtain ⟨lj, hIj⟩ := run_inv' (m := m) (sch := sch) L j
      obtain ⟨lj', hIj'⟩ := run_inv' (m := m) (sch := sch) L (j + 1)
      have e1 := (contents_step hIj hIj' h3 fun v b => noPush j v b (by omega)).2 u h2 h1
      have e2 := shrink i l hi hI (j - i) lj (by rw [Nat.add_sub_cancel' hij]; exact hIj)
      exact ih (j + 1) lj' (by omega) hIj' (by omega)
  obtain ⟨l, hI⟩ := run_inv' (m := m) (sch := sch) L M
  exact key _ M l (Nat.le_refl _) hI (Nat.le_refl _)

/-- a thread stays inside its operation until the operation returns -/
theorem inside (L : Lawful Q cap) (t : Nat) (i : Nat) (o : CallName) :
    called o t (st i).log = returned o t (st i).log +
      (if Fair.phaseOp (phaseAt PC.phase (st i).pcs t) = some o then 1 else 0) := by
  obtain ⟨l, hI⟩ := run_inv' (m := m) (sch := sch) L i
  exact Fair.phase_count (hI.phase t) o

theorem called_mono {i j : Nat} (h : i ≤ j) (o : CallName) (t : Nat) : called o t (st i).log ≤ called o t (st j).log := by
  obtain ⟨l, hl⟩ := Fair.log_mono (s0 := start Q m) (sch := sch) (log := State.log) (fun s a s' => step_log) i (j - i)
  rw [Nat.add_sub_cancel' h] at hl
  rw [hl]
  exact Fair.called_append _ _ _ _

theorem idle_returned (L : Lawful Q cap) {t i j : Nat} (h : i ≤ j) (hj : (st j).pcs[t]? = some .idle) (o : CallName) :
    called o t (st i).log ≤ returned o t (st j).log := by
  have h1 := called_mono (m := m) (sch := sch) (Q := Q) h o t
  have h2 := inside (m := m) (sch := sch) L t j o
  rw [phaseAt_some hj] at h2
  simp only [PC.phase, Fair.phaseOp, reduceCtorEq, if_false] at h2
  omega

theorem enqueue_returns (L : Lawful Q cap) (hf : StrongFair step Act.of (start Q m) sch) (t : Nat) :
    AllReturn (fun i => (st i).log) .enqueue t := by
  intro i
  show ∃ j, called .enqueue t (st i).log ≤ returned .enqueue t (st j).log
  have h := inside (m := m) (sch := sch) L t i .enqueue
  cases hp : (st i).pcs[t]? with
  | none => simp only [phaseAt, hp, Fair.phaseOp, reduceCtorEq, if_false] at h; exact ⟨i, by omega⟩
  | some p =>
    rw [phaseAt_some hp] at h
    by_cases ho : Fair.phaseOp p.phase = some .enqueue
    · obtain ⟨j, hij, hj⟩ := enq_returns L hf _ (Nat.le_refl _) ho hp
      exact ⟨j, idle_returned L hij hj _⟩
    · simp only [ho, if_false] at h
      exact ⟨i, by omega⟩

/-- a dequeue that does not return is one whose queue is empty again and again -/
theorem dequeue_returns (L : Lawful Q cap) (hf : StrongFair step Act.of (start Q m) sch) (t i : Nat)
    (hno : ∀ j, returned .dequeue t (st j).log < called .dequeue t (st i).log) :
    InfOften fun j => Legal cap (events (st j).log) [] [] := by
  intro n
  rcases Fair.infOften_or_never (fun j => Legal cap (events (st j).log) [] []) n with h | h
  · exact h
  exfalso
  have hne : ∀ j l, max i n ≤ j → Inv L (st j) l → l ≠ [] := by
    rintro j l hj hI rfl
    exact h j (by omega) hI.legal
  have inDeq : ∀ j, max i n ≤ j → ∃ p, (st j).pcs[t]? = some p ∧ Fair.phaseOp p.phase = some .dequeue := by
    intro j hj
    have h1 := inside (m := m) (sch := sch) L t j .dequeue
    have h2 := hno j
    have h3 := called_mono (m := m) (sch := sch) (Q := Q) (show i ≤ j by omega) .dequeue t
    cases hp : (st j).pcs[t]? with
    | none => simp only [phaseAt, hp, Fair.phaseOp, reduceCtorEq, if_false] at h1; omega
    | some p =>
      refine ⟨p, rfl, Decidable.byContradiction fun hc => ?_⟩
      rw [phaseAt_some hp] at h1
      simp only [hc, if_false] at h1
      omega
  refine no_sleep L hf hne (t := t) fun j hj => ?_
  obtain ⟨p, hp, ho⟩ := inDeq j hj
  by_cases hs : p = .asleep
  · rw [hp, hs]
  · exfalso
    obtain ⟨k, hk, hidle⟩ := deq_returns L hf hne hj ho hs hp
    have := idle_returned L (show i ≤ k by omega) hidle .dequeue
    have := hno k
    omega

end

end Blocking
end Conc
end Efp
