import Verif.FairLemmas

/-!
# Fair executions of `NonBlockingQ`
-/

namespace Efp
namespace Conc
namespace NonBlocking

open Spec

variable {α : Type} {Q : QImpl α} {cap : Option Nat}

/-- the thread that takes a step inside an operation (concurrency.hpp 125-143, 166-186); calls are nobody's duty -/
def Act.of : Act α → Option Nat
  | .run t => some t
  | _ => none

/-- the thread can always run -/
def PC.free : PC α → Bool
  | .emptyRead | .emptyRet _ => true
  | p => p.holds

/-- the thread wants the mutex -/
def PC.waits : PC α → Bool
  | .enqLock _ | .deqLock => true
  | _ => false

theorem set_self {l : List (PC α)} {t : Nat} {p0 : PC α} (h : l[t]? = some p0) (p : PC α) :
    (l.set t p)[t]? = some p := by rw [get_set h, if_pos rfl]

/-- a step of thread `t`: what it leads to, and that it gives back the mutex only with a return -/
theorem own_step {L : Lawful Q cap} {s s' : State Q} {l : List α} (hI : Core L s l) {t : Nat} {p : PC α}
    (h : step s (.run t) = some s') (h0 : s.pcs[t]? = some p) :
    (∃ p', s'.pcs[t]? = some p' ∧ p'.fuel < p.fuel ∧ p'.waits = false) ∧
    (s.lock ≠ none → s'.lock = s.lock ∨ s'.lock = none ∧ ∃ o, ∃ e, retOf e = some o ∧ s'.log = s.log ++ [(t, e)]) := by
  simp only [step, h0] at h
  cases p with
  | idle => simp [runPC] at h
  | enqLock a =>
    simp only [runPC] at h
    split at h <;> simp only [Option.some.injEq, reduceCtorEq] at h
    rename_i hl
    subst h; exact ⟨⟨_, set_self h0 _, by simp [PC.fuel], rfl⟩, fun hn => absurd hl hn⟩
  | deqLock =>
    simp only [runPC] at h
    split at h <;> simp only [Option.some.injEq, reduceCtorEq] at h
    rename_i hl
    subst h; exact ⟨⟨_, set_self h0 _, by simp [PC.fuel], rfl⟩, fun hn => absurd hl hn⟩
  | enqPush a =>
    obtain ⟨q', hq, hr⟩ := L.push a hI.rep
    simp only [runPC, hq, Option.some.injEq] at h
    subst h; exact ⟨⟨_, set_self h0 _, by simp [PC.fuel], rfl⟩, fun _ => .inl rfl⟩
  | enqUnlock =>
    simp only [runPC, Option.some.injEq] at h
    subst h; exact ⟨⟨_, set_self h0 _, by simp [PC.fuel], rfl⟩, fun _ => .inr ⟨rfl, _, _, rfl, rfl⟩⟩
  | deqCheck =>
    simp only [runPC] at h
    split at h <;> simp only [Option.some.injEq] at h <;> subst h
    · exact ⟨⟨_, set_self h0 _, by simp [PC.fuel], rfl⟩, fun _ => .inl rfl⟩
    · exact ⟨⟨_, set_self h0 _, by simp [PC.fuel], rfl⟩, fun _ => .inl rfl⟩
  | deqPop =>
    obtain ⟨v, r, rfl⟩ := List.exists_cons_of_ne_nil (hI.nonempty _ h0)
    obtain ⟨q', hq, hr⟩ := L.pop hI.rep
    simp only [runPC, hq, Option.some.injEq] at h
    subst h; exact ⟨⟨_, set_self h0 _, by simp [PC.fuel], rfl⟩, fun _ => .inl rfl⟩
  | deqUnlock v =>
    simp only [runPC, Option.some.injEq] at h
    subst h; exact ⟨⟨_, set_self h0 _, by simp [PC.fuel], rfl⟩, fun _ => .inr ⟨rfl, _, _, rfl, rfl⟩⟩
  | emptyRead =>
    simp only [runPC, Option.some.injEq] at h
    subst h; exact ⟨⟨_, set_self h0 _, by simp [PC.fuel], rfl⟩, fun _ => .inl rfl⟩
  | emptyRet b =>
    simp only [runPC, Option.some.injEq] at h
    subst h; exact ⟨⟨_, set_self h0 _, by simp [PC.fuel], rfl⟩, fun _ => .inl rfl⟩

theorem of_run {a : Act α} {t : Nat} (h : a.of = some t) : a = .run t := by
  cases a <;> simp_all [Act.of]

/-- what other threads' steps do to a thread -/
theorem other_step {s s' : State Q} {a : Act α} {t : Nat} {p : PC α} (h : step s a = some s') (ha : a.of ≠ some t)
    (h0 : s.pcs[t]? = some p) : s'.pcs[t]? = some p ∨ p = .idle := by
  have key : ∀ {u : Nat} {q : PC α} (q' : PC α), s.pcs[u]? = some q → t ≠ u → (s.pcs.set u q')[t]? = some p := by
    intro u q q' hu ht
    rw [get_set hu, if_neg ht, h0]
  cases a with
  | run u =>
    have ht : t ≠ u := fun h' => ha (by rw [h']; rfl)
    simp only [step] at h
    split at h
    · rename_i p' hu
      left
      cases p' <;> simp only [runPC] at h <;> (try split at h) <;>
        simp only [Option.some.injEq, reduceCtorEq] at h <;> subst h <;> first | exact h0 | exact key _ hu ht
    · simp at h
  | _ u =>
    simp only [step] at h
    split at h <;> simp only [Option.some.injEq, reduceCtorEq] at h
    subst h; rename_i hu
    by_cases ht : t = u
    · subst ht; rw [h0] at hu; cases hu; exact .inr rfl
    · exact .inl (key _ hu ht)

/-- whoever holds the mutex, or wants it while it is free, or needs no mutex, can move -/
theorem can_move {L : Lawful Q cap} {s : State Q} {l : List α} (hI : Core L s l) {t : Nat} {p : PC α} (h0 : s.pcs[t]? = some p)
    (hp : p.free = true ∨ (p.waits = true ∧ s.lock = none)) : CanMove step Act.of s t := by
  have run : (∃ s', runPC t s p = some s') → CanMove step Act.of s t := fun ⟨s', h⟩ =>
    ⟨.run t, rfl, by simp [step, h0, h]⟩
  cases p with
  | idle => simp [PC.free, PC.holds, PC.waits] at hp
  | enqLock a =>
    have hl : s.lock = none := by simpa [PC.free, PC.holds, PC.waits] using hp
    exact run ⟨_, by simp only [runPC, hl, if_true]; rfl⟩
  | deqLock =>
    have hl : s.lock = none := by simpa [PC.free, PC.holds, PC.waits] using hp
    exact run ⟨_, by simp only [runPC, hl, if_true]; rfl⟩
  | enqPush a =>
    obtain ⟨q', hq, hr⟩ := L.push a hI.rep
    exact run ⟨_, by simp only [runPC, hq]; rfl⟩
  | deqCheck => exact run (by simp only [runPC]; split <;> exact ⟨_, rfl⟩)
  | deqPop =>
    obtain ⟨v, r, rfl⟩ := List.exists_cons_of_ne_nil (hI.nonempty _ h0)
    obtain ⟨q', hq, hr⟩ := L.pop hI.rep
    exact run ⟨_, by simp only [runPC, hq]; rfl⟩
  | _ => exact run ⟨_, rfl⟩

/-- the mutex changes hands only through being free -/
theorem lock_keep {s s' : State Q} {a : Act α} {t : Nat}
    (hl : s.lock = some t) (h : step s a = some s') : s'.lock = none ∨ s'.lock = some t := by
  cases a with
  | run u =>
    simp only [step] at h
    split at h
    · rename_i p hu
      cases p <;> simp only [runPC] at h <;> (try split at h) <;>
        simp only [Option.some.injEq, reduceCtorEq] at h <;> subst h <;>
        first | exact .inr hl | exact .inl rfl | (exfalso; simp_all)
    · simp at h
  | _ u =>
    simp only [step] at h
    split at h <;> simp only [Option.some.injEq, reduceCtorEq] at h
    subst h; exact .inr hl

theorem step_log {s s' : State Q} {a : Act α} (h : step s a = some s') : ∃ l, s'.log = s.log ++ l := by
  cases a with
  | run u =>
    simp only [step] at h
    split at h
    · rename_i p hu
      cases p <;> simp only [runPC] at h <;> (try split at h) <;>
        simp only [Option.some.injEq, reduceCtorEq] at h <;> subst h <;>
        first | exact ⟨[_], rfl⟩ | exact ⟨[], by simp [State.goto]⟩
    · simp at h
  | _ u =>
    simp only [step] at h
    split at h <;> simp only [Option.some.injEq, reduceCtorEq] at h
    subst h; exact ⟨_, rfl⟩

/-- NonBlockingQ as a machine with one lock -/
def guarded (L : Lawful Q cap) : Fair.Guarded (step (Q := Q)) Act.of (PC α) where
  inv := fun s => ∃ l, Inv L s l
  pcs := State.pcs
  lock := State.lock
  free := PC.free
  waits := PC.waits
  fuel := PC.fuel
  stay := fun {s a s' t p} _ h h0 hp ha => by
    rcases other_step h ha h0 with h | rfl
    · exact h
    · simp [PC.free, PC.holds, PC.waits] at hp
  ready := fun ⟨_, hI⟩ h0 hp => can_move hI.toCore h0 hp
  less := fun ⟨_, hI⟩ h ha h0 => by
    have := of_run ha
    subst this
    exact (own_step hI.toCore h h0).1
  owner := fun {s t} ⟨_, hI⟩ hl => by
    have ht := hI.owner t hl
    have hh := (hI.lock t _ (List.getElem?_eq_getElem ht)).mpr hl
    exact ⟨s.pcs[t], List.getElem?_eq_getElem ht, by cases hp : s.pcs[t] <;> rw [hp] at hh <;> simp [PC.holds] at hh <;> rfl⟩
  keep := fun _ _ hl h => lock_keep hl h

section
variable {m : Nat} {sch : Nat → Act α}

local notation "st" => Spec.run step (start Q m) sch

theorem run_inv' (L : Lawful Q cap) : ∀ i, ∃ l, Inv L (st i) l
  | 0 => ⟨[], start_inv L m⟩
  | i + 1 => by
    obtain ⟨l, hI⟩ := run_inv' L i
    rcases Fair.run_succ step (start Q m) sch i with ⟨s', h1, h2⟩ | ⟨_, h2⟩
    · rw [h2]; exact step_inv hI h1
    · rw [h2]; exact ⟨l, hI⟩

theorem inside (L : Lawful Q cap) (t : Nat) (i : Nat) (o : CallName) :
    called o t (st i).log = returned o t (st i).log +
      (if Fair.phaseOp (phaseAt PC.phase (st i).pcs t) = some o then 1 else 0) := by
  obtain ⟨l, hI⟩ := run_inv' (m := m) (sch := sch) L i
  exact Fair.phase_count (hI.phase t) o

theorem called_mono {i j : Nat} (h : i ≤ j) (o : CallName) (t : Nat) : called o t (st i).log ≤ called o t (st j).log := by
  obtain ⟨l, hl⟩ := Fair.log_mono (s0 := start Q m) (sch := sch) (log := State.log) (fun s a s' => step_log) i (j - i)
  rw [Nat.add_sub_cancel' h] at hl
  rw [hl]
  exact Fair.called_append _ _ _ _

theorem idle_returned (L : Lawful Q cap) {t i j : Nat} (h : i ≤ j) (hj : (st j).pcs[t]? = some .idle) (o : CallName) :
    called o t (st i).log ≤ returned o t (st j).log := by
  have h1 := called_mono (m := m) (sch := sch) (Q := Q) h o t
  have h2 := inside (m := m) (sch := sch) L t j o
  rw [phaseAt_some hj] at h2
  simp only [PC.phase, Fair.phaseOp, reduceCtorEq, if_false] at h2
  omega

/-- whoever gives back the mutex returns -/
theorem release_returns (L : Lawful Q cap) {i : Nat} (h1 : (st i).lock ≠ none) (h2 : (st (i + 1)).lock = none) :
    ∃ t o, Moves step Act.of (start Q m) sch t i ∧ returned o t (st i).log < returned o t (st (i + 1)).log := by
  obtain ⟨l, hI⟩ := run_inv' (m := m) (sch := sch) L i
  rcases Fair.run_succ step (start Q m) sch i with ⟨s', h3, h4⟩ | ⟨_, h4⟩
  · rw [h4] at h2 ⊢
    cases ha : sch i with
    | run t =>
      rw [ha] at h3
      cases hp : (st i).pcs[t]? with
      | none => simp [step, hp] at h3
      | some p =>
        rcases (own_step hI.toCore h3 hp).2 h1 with h5 | ⟨_, o, e, he, hl⟩
        · exact absurd (h5 ▸ h2) h1
        · exact ⟨t, o, ⟨by rw [ha]; rfl, by rw [ha, h3]; simp⟩, by rw [hl]; exact Fair.returned_snoc he _⟩
    | _ u =>
      rw [ha] at h3
      simp only [step] at h3
      split at h3 <;> simp only [Option.some.injEq, reduceCtorEq] at h3
      rw [← h3] at h2
      exact absurd h2 h1
  · rw [h4] at h2; exact absurd h2 h1

/-- with any scheduler that gives all threads processor time, a call returns, or calls of others return again and again -/
theorem others_return (L : Lawful Q cap) (hf : WeakFair step Act.of (start Q m) sch) (o : CallName) (t i : Nat)
    (hno : ∀ j, returned o t (st j).log < called o t (st i).log) :
    InfOften fun k => ∃ u o', u ≠ t ∧ returned o' u (st k).log < returned o' u (st (k + 1)).log := by
  cases hp : (st i).pcs[t]? with
  | none =>
    have h := inside (m := m) (sch := sch) L t i o
    simp only [phaseAt, hp, Fair.phaseOp, reduceCtorEq, if_false] at h
    have := hno i
    omega
  | some p =>
    rcases Fair.ends_or_waits (guarded L) (run_inv' L) hf (idle := PC.idle)
      (fun p hp => by cases p <;> simp [guarded, PC.free, PC.holds, PC.waits] at hp ⊢) hp with ⟨j, hij, hj⟩ | ⟨hw, hstay⟩
    · have := idle_returned L hij hj o
      have := hno j
      omega
    · intro n
      obtain ⟨k, hk, h1, h2⟩ := Fair.overtaken (guarded L) (run_inv' L) hf hw hstay (max i n)
      obtain ⟨u, o', hm, hr⟩ := release_returns L h1 h2
      refine ⟨k, by omega, u, o', ?_, hr⟩
      rintro rfl
      obtain ⟨l, hI⟩ := run_inv' (m := m) (sch := sch) L k
      rcases Fair.run_succ step (start Q m) sch k with ⟨s', h3, h4⟩ | ⟨h3, _⟩
      · rw [of_run hm.1] at h3
        obtain ⟨p', h5, _, h6⟩ := (own_step hI.toCore h3 (hstay k (by omega))).1
        have h7 := hstay (k + 1) (by omega)
        rw [h4] at h7
        have h8 : s'.pcs[u]? = some p := h7
        rw [h8] at h5
        cases h5
        have : p.waits = true := hw
        rw [this] at h6
        simp at h6
      · exact hm.2 h3

/-- with a fair lock every call returns -/
theorem all_return (L : Lawful Q cap) (hf : StrongFair step Act.of (start Q m) sch) (o : CallName) (t : Nat) :
    AllReturn (fun i => (st i).log) o t := by
  intro i
  show ∃ j, called o t (st i).log ≤ returned o t (st j).log
  cases hp : (st i).pcs[t]? with
  | none =>
    have h := inside (m := m) (sch := sch) L t i o
    simp only [phaseAt, hp, Fair.phaseOp, reduceCtorEq, if_false] at h
    exact ⟨i, by omega⟩
  | some p =>
    obtain ⟨j, hij, hj⟩ := Fair.returns (guarded L) (run_inv' L) hf (idle := PC.idle)
      (fun p hp => by cases p <;> simp [guarded, PC.free, PC.holds, PC.waits] at hp ⊢) _ (Nat.le_refl _) hp
    exact ⟨j, idle_returned L hij hj o⟩

end

end NonBlocking
end Conc
end Efp
