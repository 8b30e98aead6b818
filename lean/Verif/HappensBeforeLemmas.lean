import Verif.HappensBefore
import Verif.ConcurrencyThrowLemmas

/-! A lock discipline keeps a trace free of data races; the queues keep to it. -/

namespace Efp
namespace Spec

variable {ξ : Type}

theorem HB.lt {tr : Trace ξ} {i j : Nat} (h : HB tr i j) : i < j := by
  induction h with
  | thread h _ _ => exact h
  | sync h _ _ _ => exact h
  | trans _ _ h1 h2 => omega

theorem get_append {tr es : Trace ξ} {i : Nat} {e : Nat × Op ξ} (h : tr[i]? = some e) : (tr ++ es)[i]? = some e := by
  obtain ⟨hi, -⟩ := List.getElem?_eq_some_iff.1 h
  rw [List.getElem?_append_left hi, h]

theorem HB.append {tr : Trace ξ} (es : Trace ξ) {i j : Nat} (h : HB tr i j) : HB (tr ++ es) i j := by
  induction h with
  | thread h h1 h2 => exact .thread h (get_append h1) (get_append h2)
  | sync h h1 h2 h3 =>
    refine .sync h (get_append h1) (get_append h2) fun k v a hk hk' hka => ?_
    obtain ⟨hj, -⟩ := List.getElem?_eq_some_iff.1 h2
    rw [List.getElem?_append_left (by omega)] at hka
    exact h3 k v a hk hk' hka
  | trans _ _ h1 h2 => exact .trans h1 h2

/-- between threads the order goes through a release of the first one -/
theorem HB.release {tr : Trace ξ} {i j : Nat} (h : HB tr i j) {t u : Nat} {a b : Op ξ} (hi : tr[i]? = some (t, a))
    (hj : tr[j]? = some (u, b)) (htu : t ≠ u) : ∃ k, i ≤ k ∧ k < j ∧ tr[k]? = some (t, .release) := by
  induction h generalizing t u a b with
  | thread _ h1 h2 =>
    rw [h1] at hi; rw [h2] at hj
    cases hi; cases hj
    exact (htu rfl).elim
  | @sync i j _ _ h h1 _ _ =>
    rw [h1] at hi
    cases hi
    exact ⟨i, Nat.le_refl _, h, h1⟩
  | @trans i k j h1 h2 ih1 ih2 =>
    have hk : ∃ v c, tr[k]? = some (v, c) := by
      have : ∀ {i j : Nat}, HB tr i j → ∃ v c, tr[i]? = some (v, c) := by
        intro i j h
        induction h with
        | thread _ h _ => exact ⟨_, _, h⟩
        | sync _ h _ _ => exact ⟨_, _, h⟩
        | trans _ _ h _ => exact h
      exact this h2
    obtain ⟨v, c, hv⟩ := hk
    by_cases htv : t = v
    · subst htv
      obtain ⟨x, h3, h4, h5⟩ := ih2 hv hj htu
      have := h1.lt
      exact ⟨x, by omega, h4, h5⟩
    · obtain ⟨x, h3, h4, h5⟩ := ih1 hi hv htv
      have := h2.lt
      exact ⟨x, h3, by omega, h5⟩

/-- operation `i` happened before what thread `t` does next -/
def Known (tr : Trace ξ) (t i : Nat) : Prop := ∃ j a, tr[j]? = some (t, a) ∧ (i = j ∨ HB tr i j)

/-- operation `i` happened before what the next thread to take the lock does then -/
def Freed (tr : Trace ξ) (i : Nat) : Prop :=
  ∃ j t, tr[j]? = some (t, .release) ∧ (∀ (k v : Nat) (a : Op ξ), j < k → tr[k]? = some (v, a) → a.onLock = false) ∧ (i = j ∨ HB tr i j)

theorem Known.append {tr : Trace ξ} (es : Trace ξ) {t i : Nat} (h : Known tr t i) : Known (tr ++ es) t i := by
  obtain ⟨j, a, h1, h2⟩ := h
  exact ⟨j, a, get_append h1, h2.imp id (HB.append es)⟩

/-- who may access a location: the thread `c` (`some c`), or the thread that has the lock (`none`) -/
structure Disciplined (tr : Trace ξ) (lock : Option Nat) (guard : ξ → Option Nat) : Prop where
  known : ∀ (i u : Nat) (x : ξ) (w : Bool), tr[i]? = some (u, .access x w) → match guard x, lock with
    | some c, _ => Known tr c i
    | none, some t => Known tr t i
    | none, none => Freed tr i
  free : RaceFree tr

theorem Disciplined.nil (guard : ξ → Option Nat) : Disciplined [] none guard where
  known := by simp
  free := by intro i j t u x w w' _ h; simp at h

/-- an element of a list with one more element at its end -/
theorem get_snoc {tr : Trace ξ} {e e' : Nat × Op ξ} {i : Nat} (h : (tr ++ [e])[i]? = some e') :
    tr[i]? = some e' ∨ (i = tr.length ∧ e' = e) := by
  rcases Nat.lt_or_ge i tr.length with hi | hi
  · rw [List.getElem?_append_left hi] at h
    exact .inl h
  · rw [List.getElem?_append_right hi] at h
    have h0 : i - tr.length = 0 := by
      cases hn : i - tr.length with
      | zero => rfl
      | succ n => rw [hn] at h; simp at h
    rw [h0] at h
    simp at h
    exact .inr ⟨by omega, h.symm⟩

theorem get_last {tr : Trace ξ} {e : Nat × Op ξ} : (tr ++ [e])[tr.length]? = some e := by simp

theorem get_lt {tr : Trace ξ} {e : Nat × Op ξ} {i : Nat} (h : tr[i]? = some e) : i < tr.length := (List.getElem?_eq_some_iff.1 h).1

/-- what thread `t` knows happens before its next operation -/
theorem Known.next {tr : Trace ξ} {t i : Nat} (h : Known tr t i) (o : Op ξ) : HB (tr ++ [(t, o)]) i tr.length := by
  obtain ⟨j, a, h1, h2⟩ := h
  have h3 : HB (tr ++ [(t, o)]) j tr.length := .thread (get_lt h1) (get_append h1) get_last
  rcases h2 with rfl | h2
  · exact h3
  · exact .trans (h2.append _) h3

theorem Known.self {tr : Trace ξ} (t : Nat) (o : Op ξ) : Known (tr ++ [(t, o)]) t tr.length := ⟨_, o, get_last, .inl rfl⟩

/-- a lock operation adds no access -/
theorem RaceFree.lockOp {tr : Trace ξ} (h : RaceFree tr) {t : Nat} {o : Op ξ} (ho : o.onLock = true) : RaceFree (tr ++ [(t, o)]) := by
  intro i j u v x w w' hij hi hj huv hw
  rcases get_snoc hi with hi | ⟨-, hi⟩
  · rcases get_snoc hj with hj | ⟨-, hj⟩
    · exact (h i j u v x w w' hij hi hj huv hw).append _
    · cases hj; simp [Op.onLock] at ho
  · cases hi; simp [Op.onLock] at ho

theorem Disciplined.acquire {tr : Trace ξ} {guard : ξ → Option Nat} (h : Disciplined tr none guard) (t : Nat) :
    Disciplined (tr ++ [(t, .acquire)]) (some t) guard where
  free := h.free.lockOp rfl
  known := fun i u x w hi => by
    rcases get_snoc hi with hi | ⟨-, hi⟩
    · have := h.known i u x w hi
      cases hg : guard x with
      | some c => simp only [hg] at this ⊢; exact this.append _
      | none =>
        simp only [hg] at this ⊢
        obtain ⟨j, v, h1, h2, h3⟩ := this
        have h4 : HB (tr ++ [(t, .acquire)]) j tr.length := .sync (get_lt h1) (get_append h1) get_last fun k y a hk hk' hka => by
          rw [List.getElem?_append_left hk'] at hka
          exact h2 k y a hk hka
        refine ⟨tr.length, .acquire, get_last, .inr ?_⟩
        rcases h3 with rfl | h3
        · exact h4
        · exact .trans (h3.append _) h4
    · cases hi

theorem Disciplined.release {tr : Trace ξ} {guard : ξ → Option Nat} {t : Nat} (h : Disciplined tr (some t) guard) :
    Disciplined (tr ++ [(t, .release)]) none guard where
  free := h.free.lockOp rfl
  known := fun i u x w hi => by
    rcases get_snoc hi with hi | ⟨-, hi⟩
    · have := h.known i u x w hi
      cases hg : guard x with
      | some c => simp only [hg] at this ⊢; exact this.append _
      | none =>
        simp only [hg] at this ⊢
        refine ⟨tr.length, t, get_last, fun k v a hk hka => ?_, .inr (this.next _)⟩
        have := get_lt hka
        simp at this
        omega
    · cases hi

theorem Disciplined.access {tr : Trace ξ} {guard : ξ → Option Nat} {lock : Option Nat} (h : Disciplined tr lock guard) {t : Nat} {x : ξ}
    (w : Bool) (ht : guard x = some t ∨ guard x = none ∧ lock = some t) : Disciplined (tr ++ [(t, .access x w)]) lock guard where
  known := fun i u y w' hi => by
    rcases get_snoc hi with hi | ⟨rfl, he⟩
    · have := h.known i u y w' hi
      cases hg : guard y with
      | some c => simp only [hg] at this ⊢; exact this.append _
      | none =>
        cases lock with
        | some c => simp only [hg] at this ⊢; exact this.append _
        | none =>
          simp only [hg] at this ⊢
          obtain ⟨j, v, h1, h2, h3⟩ := this
          refine ⟨j, v, get_append h1, fun k z a hk hka => ?_, h3.imp id (HB.append _)⟩
          rcases get_snoc hka with hka | ⟨-, hka⟩
          · exact h2 k z a hk hka
          · cases hka; rfl
    · cases he
      rcases ht with ht | ⟨ht, rfl⟩
      · simp only [ht]; exact Known.self _ _
      · simp only [ht]; exact Known.self _ _
  free := fun i j u v y w1 w2 hij hi hj huv hw => by
    rcases get_snoc hj with hj | ⟨rfl, he⟩
    · rcases get_snoc hi with hi | ⟨rfl, -⟩
      · exact (h.free i j u v y w1 w2 hij hi hj huv hw).append _
      · have := get_lt hj; omega
    · cases he
      rcases get_snoc hi with hi | ⟨rfl, -⟩
      · have := h.known i u x w1 hi
        have hk : Known tr t i := by
          rcases ht with ht | ⟨ht, rfl⟩
          · simpa only [ht] using this
          · simpa only [ht] using this
        exact hk.next _
      · omega

theorem Disciplined.guarded {tr : Trace ξ} {guard guard' : ξ → Option Nat} {lock : Option Nat} (h : Disciplined tr lock guard) (e : guard' = guard) :
    Disciplined tr lock guard' := e ▸ h

/-- the thread that has the lock may take a location for itself or give up one of its own -/
theorem Disciplined.transfer {tr : Trace ξ} {guard guard' : ξ → Option Nat} {t : Nat} (h : Disciplined tr (some t) guard)
    (hg : ∀ x, guard' x = guard x ∨ (guard x = none ∧ guard' x = some t) ∨ (guard x = some t ∧ guard' x = none)) :
    Disciplined tr (some t) guard' where
  free := h.free
  known := fun i u x w hi => by
    have := h.known i u x w hi
    rcases hg x with e | ⟨e1, e2⟩ | ⟨e1, e2⟩
    · rw [e]; exact this
    · simp only [e1] at this
      simp only [e2]
      exact this
    · simp only [e1] at this
      simp only [e2]
      exact this

end Spec

open Spec

variable {α : Type}

/-! ### BlockingQ -/

namespace Conc.Blocking

variable {Q : QImpl α} {cap : Option Nat}

theorem ops_run {s : State Q} {t : Nat} {p : PC α} (h : s.pcs[t]? = some p) : ops s (.run t) = (opsPC s p).map fun o => (t, o) := by
  simp [ops, h]

theorem step_disciplined {L : Lawful Q cap} {s s' : State Q} {l : List α} (hI : Inv L s l) {a : Act α} (h : step s a = some s') {tr : Trace Unit}
    (hd : Disciplined tr s.lock fun _ => none) : Disciplined (tr ++ ops s a) s'.lock fun _ => none := by
  cases a with
  | callEnq t a =>
    simp only [step] at h
    split at h <;> simp only [Option.some.injEq, reduceCtorEq] at h
    subst h
    simpa [ops, State.goto, State.emit] using hd
  | callDeq t =>
    simp only [step] at h
    split at h <;> simp only [Option.some.injEq, reduceCtorEq] at h
    subst h
    simpa [ops, State.goto, State.emit] using hd
  | spurious t =>
    simp only [step] at h
    split at h <;> simp only [Option.some.injEq, reduceCtorEq] at h
    subst h
    simpa [ops, State.goto] using hd
  | notify t w =>
    simp only [step] at h
    split at h
    · split at h
      · split at h <;> simp only [Option.some.injEq, reduceCtorEq] at h
        subst h
        simpa [ops, State.goto] using hd
      · split at h <;> simp only [Option.some.injEq, reduceCtorEq] at h
        subst h
        simpa [ops, State.goto] using hd
    · simp at h
  | run t =>
    simp only [step] at h
    split at h
    · rename_i p0 h0
      rw [ops_run h0]
      have hlock := hI.lock t p0 h0
      cases p0 with
      | idle => simp [runPC] at h
      | enqNotify => simp [runPC] at h
      | asleep => simp [runPC] at h
      | enqLock a =>
        simp only [runPC] at h
        split at h <;> simp only [Option.some.injEq, reduceCtorEq] at h
        rename_i hl
        subst h
        rw [hl] at hd
        exact hd.acquire t
      | deqLock =>
        simp only [runPC] at h
        split at h <;> simp only [Option.some.injEq, reduceCtorEq] at h
        rename_i hl
        subst h
        rw [hl] at hd
        exact hd.acquire t
      | woken =>
        simp only [runPC] at h
        split at h <;> simp only [Option.some.injEq, reduceCtorEq] at h
        rename_i hl
        subst h
        rw [hl] at hd
        exact hd.acquire t
      | enqPush a =>
        have hl := hlock.1 rfl
        obtain ⟨q', hq, -⟩ := L.push a hI.rep
        simp only [runPC, hq, Option.some.injEq] at h
        subst h
        exact hd.access (t := t) true (.inr ⟨rfl, hl⟩)
      | deqPop =>
        have hl := hlock.1 rfl
        obtain ⟨v, r, rfl⟩ := List.exists_cons_of_ne_nil (hI.nonempty t h0)
        obtain ⟨q', hq, -⟩ := L.pop hI.rep
        simp only [runPC, hq, Option.some.injEq] at h
        subst h
        exact hd.access (t := t) true (.inr ⟨rfl, hl⟩)
      | enqUnlock =>
        have hl := hlock.1 rfl
        simp only [runPC, Option.some.injEq] at h
        subst h
        rw [hl] at hd
        exact hd.release
      | deqUnlock v =>
        have hl := hlock.1 rfl
        simp only [runPC, Option.some.injEq] at h
        subst h
        rw [hl] at hd
        exact hd.release
      | deqCheck =>
        have hl := hlock.1 rfl
        have h1 := hd.access (t := t) (x := ()) false (.inr ⟨rfl, hl⟩)
        simp only [runPC] at h
        split at h <;> simp only [Option.some.injEq] at h <;> subst h
        · rename_i he
          rw [hl] at h1
          have := h1.release
          simp only [opsPC, if_pos he, List.map_cons, List.map_nil]
          rw [List.append_assoc] at this
          exact this
        · rename_i he
          simp only [opsPC, if_neg he, List.map_cons, List.map_nil]
          exact h1
    · simp at h

theorem traced_disciplined (L : Lawful Q cap) {m : Nat} {s : State Q} {tr : Trace Unit} (h : Traced Q m s tr) :
    (∃ l, Inv L s l) ∧ Disciplined tr s.lock fun _ => none := by
  induction h with
  | start => exact ⟨⟨[], start_inv L m⟩, Disciplined.nil _⟩
  | step a _ hs ih =>
    obtain ⟨⟨l, hI⟩, hd⟩ := ih
    exact ⟨step_inv hI hs, step_disciplined hI hs hd⟩

end Conc.Blocking

/-! ### NonBlockingQ -/

namespace Conc.NonBlocking

variable {Q : QImpl α} {cap : Option Nat}

theorem ops_run {s : State Q} {t : Nat} {p : PC α} (h : s.pcs[t]? = some p) : ops s (.run t) = (opsPC p).map fun o => (t, o) := by
  simp [ops, h]

/-- nobody is inside `is_empty` -/
def Quiet (s : State Q) : Prop := ∀ (t : Nat) (p : PC α), s.pcs[t]? = some p → p ≠ .emptyRead ∧ ∀ b, p ≠ .emptyRet b

theorem Quiet.set {s s' : State Q} (hq : Quiet s) {t : Nat} {p0 p1 : PC α} (h0 : s.pcs[t]? = some p0) (hp : s'.pcs = s.pcs.set t p1)
    (h1 : p1 ≠ .emptyRead ∧ ∀ b, p1 ≠ .emptyRet b) : Quiet s' := by
  intro u p hu
  rw [hp, get_set h0] at hu
  by_cases e : u = t
  · rw [if_pos e, Option.some.injEq] at hu
    subst hu
    exact h1
  · rw [if_neg e] at hu
    exact hq u p hu

theorem step_disciplined {L : Lawful Q cap} {s s' : State Q} {l : List α} (hI : Inv L s l) (hq : Quiet s) {a : Act α}
    (ha : ∀ t, a ≠ .callEmpty t) (h : step s a = some s') {tr : Trace Unit}
    (hd : Disciplined tr s.lock fun _ => none) : Disciplined (tr ++ ops s a) s'.lock (fun _ => none) ∧ Quiet s' := by
  cases a with
  | callEmpty t => exact absurd rfl (ha t)
  | callEnq t a =>
    simp only [step] at h
    split at h <;> simp only [Option.some.injEq, reduceCtorEq] at h
    rename_i h0
    subst h
    exact ⟨by simpa [ops, State.goto, State.emit] using hd, hq.set h0 rfl (by simp)⟩
  | callDeq t =>
    simp only [step] at h
    split at h <;> simp only [Option.some.injEq, reduceCtorEq] at h
    rename_i h0
    subst h
    exact ⟨by simpa [ops, State.goto, State.emit] using hd, hq.set h0 rfl (by simp)⟩
  | run t =>
    simp only [step] at h
    split at h
    · rename_i p0 h0
      rw [ops_run h0]
      have hlock := hI.lock t p0 h0
      cases p0 with
      | idle => simp [runPC] at h
      | emptyRead => exact absurd rfl (hq t _ h0).1
      | emptyRet b => exact absurd rfl ((hq t _ h0).2 b)
      | enqLock a =>
        simp only [runPC] at h
        split at h <;> simp only [Option.some.injEq, reduceCtorEq] at h
        rename_i hl
        subst h
        rw [hl] at hd
        exact ⟨hd.acquire t, hq.set h0 rfl (by simp)⟩
      | deqLock =>
        simp only [runPC] at h
        split at h <;> simp only [Option.some.injEq, reduceCtorEq] at h
        rename_i hl
        subst h
        rw [hl] at hd
        exact ⟨hd.acquire t, hq.set h0 rfl (by simp)⟩
      | enqPush a =>
        have hl := hlock.1 rfl
        obtain ⟨q', hq', -⟩ := L.push a hI.rep
        simp only [runPC, hq', Option.some.injEq] at h
        subst h
        exact ⟨hd.access (t := t) true (.inr ⟨rfl, hl⟩), hq.set h0 rfl (by simp)⟩
      | deqPop =>
        have hl := hlock.1 rfl
        obtain ⟨v, r, rfl⟩ := List.exists_cons_of_ne_nil (hI.nonempty t h0)
        obtain ⟨q', hq', -⟩ := L.pop hI.rep
        simp only [runPC, hq', Option.some.injEq] at h
        subst h
        exact ⟨hd.access (t := t) true (.inr ⟨rfl, hl⟩), hq.set h0 rfl (by simp)⟩
      | enqUnlock =>
        have hl := hlock.1 rfl
        simp only [runPC, Option.some.injEq] at h
        subst h
        rw [hl] at hd
        exact ⟨hd.release, hq.set h0 rfl (by simp)⟩
      | deqUnlock v =>
        have hl := hlock.1 rfl
        simp only [runPC, Option.some.injEq] at h
        subst h
        rw [hl] at hd
        exact ⟨hd.release, hq.set h0 rfl (by simp)⟩
      | deqCheck =>
        have hl := hlock.1 rfl
        have h1 := hd.access (t := t) (x := ()) false (.inr ⟨rfl, hl⟩)
        simp only [runPC] at h
        split at h <;> simp only [Option.some.injEq] at h <;> subst h
        · exact ⟨h1, hq.set h0 rfl (by simp)⟩
        · exact ⟨h1, hq.set h0 rfl (by simp)⟩
    · simp at h

theorem traced_disciplined (L : Lawful Q cap) {m : Nat} {s : State Q} {tr : Trace Unit} (h : Traced Q m false s tr) :
    (∃ l, Inv L s l) ∧ Quiet s ∧ Disciplined tr s.lock fun _ => none := by
  induction h with
  | start =>
    refine ⟨⟨[], start_inv L m⟩, fun t p h => ?_, Disciplined.nil _⟩
    have : p = .idle := by simp [start, List.getElem?_replicate] at h; exact h.2.symm
    subst this
    simp
  | step a _ ha hs ih =>
    obtain ⟨⟨l, hI⟩, hq, hd⟩ := ih
    obtain ⟨h1, h2⟩ := step_disciplined hI hq (ha rfl) hs hd
    exact ⟨step_inv hI hs, h2, h1⟩

end Conc.NonBlocking

/-! ### DoubleBuffer -/

namespace DBuf

theorem ops_run {s : State α} {t : Nat} {p : PC α} (h : s.pcs[t]? = some p) : ops s (.run t) = (opsPC s p).map fun o => (t, o) := by
  simp [ops, h]

/-- the consumer owns the pointer to the read buffer and the read buffer; the others belong to the lock -/
def guard (c : Nat) (s : State α) : Loc → Option Nat
  | .readPtr => some c
  | .writePtr => none
  | .buf p => if p = s.rp then some c else none

/-- the owner of the lock -/
structure Owner (s : State α) (lock : Option Nat) : Prop where
  holds : ∀ (u : Nat) (p : PC α), s.pcs[u]? = some p → (p.holds = true ↔ lock = some u)
  flag : s.flag = lock.isSome

theorem setBuf_rp (s : State α) (p : Bool) (b : Cyclic.VcqS α) : (s.setBuf p b).rp = s.rp := by
  simp only [State.setBuf]; split <;> rfl

theorem guard_eq {c : Nat} {s s' : State α} (h : s'.rp = s.rp) : guard c s' = guard c s := by
  funext x
  cases x <;> simp [guard, h]

theorem step_disciplined {k : Kind} {n : Nat} {drain : Bool} {c : Nat} {s s' : State α} {r w : List α} (hI : Inv k n drain c s r w) {a : Act α}
    (h : step k s a = some s') (hgood : s'.bad = false) {tr : Trace Loc} {lock : Option Nat} (ho : Owner s lock)
    (hd : Disciplined tr lock (guard c s)) : ∃ lock', Owner s' lock' ∧ Disciplined (tr ++ ops s a) lock' (guard c s') := by
  cases a with
  | callEnq t a =>
    simp only [step] at h
    split at h <;> simp only [Option.some.injEq, reduceCtorEq] at h
    rename_i h0
    subst h
    refine ⟨lock, ⟨Conc.lock_set ho.holds h0 (.inl ⟨rfl, rfl⟩), ho.flag⟩, ?_⟩
    refine Disciplined.guarded (guard := guard c s) ?_ (guard_eq rfl)
    simpa [ops] using hd
  | callSwap t =>
    simp only [step] at h
    split at h <;> simp only [Option.some.injEq, reduceCtorEq] at h
    rename_i h0
    subst h
    refine ⟨lock, ⟨Conc.lock_set ho.holds h0 (.inl ⟨rfl, rfl⟩), ho.flag⟩, ?_⟩
    refine Disciplined.guarded (guard := guard c s) ?_ (guard_eq rfl)
    simpa [ops] using hd
  | callDeq t =>
    simp only [step] at h
    split at h <;> simp only [Option.some.injEq, reduceCtorEq] at h
    rename_i h0
    subst h
    refine ⟨lock, ⟨Conc.lock_set ho.holds h0 (.inl ⟨rfl, rfl⟩), ho.flag⟩, ?_⟩
    refine Disciplined.guarded (guard := guard c s) ?_ (guard_eq rfl)
    simpa [ops] using hd
  | callEmpty t =>
    simp only [step] at h
    split at h <;> simp only [Option.some.injEq, reduceCtorEq] at h
    rename_i h0
    subst h
    refine ⟨lock, ⟨Conc.lock_set ho.holds h0 (.inl ⟨rfl, rfl⟩), ho.flag⟩, ?_⟩
    refine Disciplined.guarded (guard := guard c s) ?_ (guard_eq rfl)
    simpa [ops] using hd
  | run t =>
    simp only [step] at h
    split at h
    · rename_i p0 h0
      rw [ops_run h0]
      have hlock := ho.holds t p0 h0
      have hone := hI.one t p0 h0
      cases p0 with
      | idle => simp [runPC] at h
      | enqSpin a =>
        simp only [runPC] at h
        split at h <;> simp only [Option.some.injEq, reduceCtorEq] at h
        rename_i hf
        have hl : lock = none := by
          have := ho.flag
          cases lock with
          | none => rfl
          | some _ => rw [this] at hf; simp at hf
        subst hl h
        refine ⟨some t, ⟨Conc.lock_set ho.holds h0 (.inr (.inl ⟨rfl, rfl, rfl⟩)), rfl⟩, ?_⟩
        refine Disciplined.guarded (guard := guard c s) ?_ (guard_eq rfl)
        exact hd.acquire t
      | swapSpin =>
        simp only [runPC] at h
        split at h <;> simp only [Option.some.injEq, reduceCtorEq] at h
        rename_i hf
        have hl : lock = none := by
          have := ho.flag
          cases lock with
          | none => rfl
          | some _ => rw [this] at hf; simp at hf
        subst hl h
        refine ⟨some t, ⟨Conc.lock_set ho.holds h0 (.inr (.inl ⟨rfl, rfl, rfl⟩)), rfl⟩, ?_⟩
        refine Disciplined.guarded (guard := guard c s) ?_ (guard_eq rfl)
        exact hd.acquire t
      | enqPush a =>
        have hl := hlock.1 rfl
        simp only [runPC] at h
        split at h <;> simp only [Option.some.injEq] at h <;> subst h
        · refine ⟨lock, ⟨?_, ?_⟩, ?_⟩
          · show ∀ u p, ((s.setBuf s.wp _).pcs.set t .enqUnlock)[u]? = some p → _
            rw [setBuf_pcs]
            exact Conc.lock_set ho.holds h0 (.inl ⟨rfl, rfl⟩)
          · show (s.setBuf s.wp _).flag = _
            rw [setBuf_flag]
            exact ho.flag
          · refine Disciplined.guarded (guard := guard c s) ?_ (guard_eq (by simp [State.goto, State.emit, setBuf_rp]))
            have h1 := hd.access (t := t) (x := .writePtr) false (.inr ⟨rfl, hl⟩)
            have h2 := h1.access (t := t) (x := .buf s.wp) true (.inr ⟨if_neg hI.ptr.symm, hl⟩)
            rw [List.append_assoc] at h2
            exact h2
        · simp at hgood
      | enqUnlock =>
        have hl := hlock.1 rfl
        simp only [runPC, Option.some.injEq] at h
        subst h
        refine ⟨none, ⟨Conc.lock_set ho.holds h0 (.inr (.inr ⟨rfl, rfl, rfl⟩)), rfl⟩, ?_⟩
        refine Disciplined.guarded (guard := guard c s) ?_ (guard_eq rfl)
        rw [hl] at hd
        exact hd.release
      | swapUnlock =>
        have hl := hlock.1 rfl
        simp only [runPC, Option.some.injEq] at h
        subst h
        refine ⟨none, ⟨Conc.lock_set ho.holds h0 (.inr (.inr ⟨rfl, rfl, rfl⟩)), rfl⟩, ?_⟩
        refine Disciplined.guarded (guard := guard c s) ?_ (guard_eq rfl)
        rw [hl] at hd
        exact hd.release
      | swap =>
        have hl := hlock.1 rfl
        have hc := hone rfl
        simp only [runPC, Option.some.injEq] at h
        subst h
        refine ⟨lock, ⟨Conc.lock_set ho.holds h0 (.inl ⟨rfl, rfl⟩), ho.flag⟩, ?_⟩
        have h1 := hd.access (t := t) (x := .writePtr) true (.inr ⟨rfl, hl⟩)
        have h2 := h1.access (t := t) (x := .readPtr) true (.inl (by rw [hc]; rfl))
        rw [List.append_assoc] at h2
        subst hl
        refine h2.transfer fun x => ?_
        have hptr := hI.ptr
        cases x with
        | readPtr => exact .inl rfl
        | writePtr => exact .inl rfl
        | buf p =>
          by_cases hp : p = s.rp
          · refine .inr (.inr ⟨by rw [hc]; exact if_pos hp, if_neg ?_⟩)
            show ¬ p = s.wp
            rw [hp]; exact hptr
          · refine .inr (.inl ⟨if_neg hp, ?_⟩)
            rw [hc]
            refine if_pos ?_
            show p = s.wp
            revert hp hptr
            cases p <;> cases s.rp <;> cases s.wp <;> simp
      | deq =>
        have hc := hone rfl
        simp only [runPC] at h
        split at h <;> simp only [Option.some.injEq] at h <;> subst h
        · refine ⟨lock, ⟨?_, ?_⟩, ?_⟩
          · show ∀ u p, ((s.setBuf s.rp _).pcs.set t _)[u]? = some p → _
            rw [setBuf_pcs]
            exact Conc.lock_set ho.holds h0 (.inl ⟨rfl, rfl⟩)
          · show (s.setBuf s.rp _).flag = _
            rw [setBuf_flag]
            exact ho.flag
          · refine Disciplined.guarded (guard := guard c s) ?_ (guard_eq (by simp [State.goto, State.emit, setBuf_rp]))
            have h1 := hd.access (t := t) (x := .readPtr) false (.inl (by rw [hc]; rfl))
            have h2 := h1.access (t := t) (x := .buf s.rp) true (.inl (by rw [hc]; exact if_pos rfl))
            rw [List.append_assoc] at h2
            exact h2
        · simp at hgood
      | deqRet v =>
        simp only [runPC, Option.some.injEq] at h
        subst h
        refine ⟨lock, ⟨Conc.lock_set ho.holds h0 (.inl ⟨rfl, rfl⟩), ho.flag⟩, ?_⟩
        refine Disciplined.guarded (guard := guard c s) ?_ (guard_eq rfl)
        simpa [opsPC, accesses] using hd
      | look =>
        have hc := hone rfl
        simp only [runPC, Option.some.injEq] at h
        subst h
        refine ⟨lock, ⟨Conc.lock_set ho.holds h0 (.inl ⟨rfl, rfl⟩), ho.flag⟩, ?_⟩
        refine Disciplined.guarded (guard := guard c s) ?_ (guard_eq rfl)
        have h1 := hd.access (t := t) (x := .readPtr) false (.inl (by rw [hc]; rfl))
        have h2 := h1.access (t := t) (x := .buf s.rp) false (.inl (by rw [hc]; exact if_pos rfl))
        rw [List.append_assoc] at h2
        exact h2
      | lookRet b =>
        simp only [runPC, Option.some.injEq] at h
        subst h
        refine ⟨lock, ⟨Conc.lock_set ho.holds h0 (.inl ⟨rfl, rfl⟩), ho.flag⟩, ?_⟩
        refine Disciplined.guarded (guard := guard c s) ?_ (guard_eq rfl)
        simpa [opsPC, accesses] using hd
    · simp at h

theorem traced_disciplined {k : Kind} {n m : Nat} (hn : 0 < n) {drain : Bool} {c : Nat} {s : State α} {tr : Trace Loc}
    (h : Traced k n m drain c s tr) : Reach k n m drain c s ∧ ∃ lock, Owner s lock ∧ Disciplined tr lock (guard c s) := by
  induction h with
  | start =>
    refine ⟨.start, none, ⟨fun u p h => ?_, rfl⟩, Disciplined.nil _⟩
    have : p = .idle := by simp [start, List.getElem?_replicate] at h; exact h.2.symm
    subst this
    simp [PC.holds]
  | step a _ ha hs ih =>
    obtain ⟨hr, lock, ho, hd⟩ := ih
    obtain ⟨r, w, hI⟩ := reach_inv hn hr
    have hr' := hr.step a ha hs
    obtain ⟨r', w', hI'⟩ := reach_inv hn hr'
    exact ⟨hr', step_disciplined hI hs hI'.good ho hd⟩

end DBuf
end Efp
