import Verif.ConcurrencyThrow
import Verif.DoubleBufferLemmas

/-!
# Lemmas about exceptions in the concurrent queues
-/

namespace Efp

variable {α : Type}

namespace Conc.Blocking

open Spec

variable {Q : QImpl α} {cap : Option Nat} {L : Lawful Q cap}

/-- the invariant; `w`: no dequeue has thrown -/
structure InvT (L : Lawful Q cap) (w : Bool) (s : State Q) (l : List α) : Prop extends Core L s l where
  wake : w = true → ∀ t : Nat, s.pcs[t]? = some PC.asleep → l.length ≤ weight PC.pending s.pcs

theorem startT_inv (L : Lawful Q cap) (m : Nat) : InvT L true (start Q m) [] :=
  ⟨(start_inv L m).toCore, fun _ => (start_inv L m).wake⟩

theorem InvT.next {w : Bool} {s : State Q} {l l' : List α} (hI : InvT L w s l) {t : Nat} {p0 p1 : PC α}
    (h0 : s.pcs[t]? = some p0) {k : Option Nat} {q' : Q.St} {log' : List (Nat × Ev α)}
    (hk : (k = s.lock ∧ p1.holds = p0.holds) ∨ (s.lock = none ∧ k = some t ∧ p1.holds = true) ∨
      (p0.holds = true ∧ k = none ∧ p1.holds = false))
    (hrep : L.Rep q' l') (hlegal : Legal cap (events log') [] l')
    (hpop : p1 = .deqPop → l' ≠ []) (hkeep : l' = l ∨ p0.holds = true) {w' : Bool} (hw' : w' = true → w = true)
    (hw : w' = true → l' = [] ∨ (p1 ≠ .asleep ∧ l'.length + p0.pending ≤ l.length + p1.pending)) :
    InvT L w' ⟨s.pcs.set t p1, k, q', s.bad, log'⟩ l' where
  lock := lock_set hI.lock h0 hk
  owner := owner_set hI.owner h0 (by
    rcases hk with ⟨h, _⟩ | ⟨_, h, _⟩ | ⟨_, h, _⟩ <;> simp [h])
  good := hI.good
  rep := hrep
  legal := hlegal
  nonempty := fun u h => by
    by_cases hp : p1 = .deqPop
    · exact hpop hp
    · obtain ⟨hu, h⟩ := pc_set_other h0 hp h
      rcases hkeep with rfl | hh
      · exact hI.nonempty u h
      · exact absurd (hI.toCore.unique h h0 rfl hh) hu
  wake := fun hww u h => by
    rcases hw hww with rfl | ⟨hp, hw⟩
    · simp
    · obtain ⟨hu, h⟩ := pc_set_other h0 hp h
      have := hI.wake (hw' hww) u h
      have h2 := weight_set PC.pending h0 p1
      show _ ≤ weight PC.pending (s.pcs.set t p1)
      omega

theorem runT_inv {w : Bool} {s s' : State Q} {l : List α} (hI : InvT L w s l) {t : Nat} {p0 : PC α}
    (h0 : s.pcs[t]? = some p0) (h : runPC t s p0 = some s') : ∃ l', InvT L w s' l' := by
  cases p0 with
  | idle => simp [runPC] at h
  | enqNotify => simp [runPC] at h
  | asleep => simp [runPC] at h
  | enqLock a =>
    simp only [runPC] at h
    split at h <;> simp only [Option.some.injEq, reduceCtorEq] at h
    subst h
    rename_i hl
    exact ⟨l, hI.next h0 (p1 := .enqPush a) (.inr (.inl ⟨hl, rfl, rfl⟩)) hI.rep hI.legal
      (by simp) (.inl rfl) id (fun _ => .inr ⟨by simp, by simp [PC.pending]⟩)⟩
  | deqLock =>
    simp only [runPC] at h
    split at h <;> simp only [Option.some.injEq, reduceCtorEq] at h
    subst h
    rename_i hl
    exact ⟨l, hI.next h0 (p1 := .deqCheck) (.inr (.inl ⟨hl, rfl, rfl⟩)) hI.rep hI.legal
      (by simp) (.inl rfl) id (fun _ => .inr ⟨by simp, by simp [PC.pending]⟩)⟩
  | woken =>
    simp only [runPC] at h
    split at h <;> simp only [Option.some.injEq, reduceCtorEq] at h
    subst h
    rename_i hl
    exact ⟨l, hI.next h0 (p1 := .deqCheck) (.inr (.inl ⟨hl, rfl, rfl⟩)) hI.rep hI.legal
      (by simp) (.inl rfl) id (fun _ => .inr ⟨by simp, by simp [PC.pending]⟩)⟩
  | enqPush a =>
    obtain ⟨q', hq, hr⟩ := L.push a hI.rep
    simp only [runPC, hq, Option.some.injEq] at h
    subst h
    have := capPush_length cap l a
    exact ⟨capPush cap l a, hI.next h0 (p1 := .enqNotify) (.inl ⟨rfl, rfl⟩) hr
      (legal_snoc (e := .push a) hI.legal rfl) (by simp) (.inr rfl) id
      (fun _ => .inr ⟨by simp, by simp only [PC.pending]; omega⟩)⟩
  | enqUnlock =>
    simp only [runPC, Option.some.injEq] at h
    subst h
    exact ⟨l, hI.next h0 (p1 := .idle) (.inr (.inr ⟨rfl, rfl, rfl⟩)) hI.rep
      (legal_snoc (e := .retEnq) hI.legal rfl) (by simp) (.inl rfl) id (fun _ => .inr ⟨by simp, by simp [PC.pending]⟩)⟩
  | deqCheck =>
    have he := L.empty hI.rep
    simp only [runPC] at h
    split at h <;> simp only [Option.some.injEq] at h <;> subst h
    · rename_i hq
      rw [hq] at he
      have hl : l = [] := by simpa using he.symm
      exact ⟨l, hI.next h0 (p1 := .asleep) (.inr (.inr ⟨rfl, rfl, rfl⟩)) hI.rep hI.legal
        (by simp) (.inl rfl) id (fun _ => .inl hl)⟩
    · rename_i hq
      have hl : l ≠ [] := by
        intro hl
        rw [he, hl] at hq
        exact hq rfl
      exact ⟨l, hI.next h0 (p1 := .deqPop) (.inl ⟨rfl, rfl⟩) hI.rep hI.legal
        (fun _ => hl) (.inl rfl) id (fun _ => .inr ⟨by simp, by simp [PC.pending]⟩)⟩
  | deqPop =>
    have hl := hI.nonempty t h0
    obtain ⟨v, r, rfl⟩ := List.exists_cons_of_ne_nil hl
    obtain ⟨q', hq, hr⟩ := L.pop hI.rep
    simp only [runPC, hq, Option.some.injEq] at h
    subst h
    exact ⟨r, hI.next h0 (p1 := .deqUnlock v) (.inl ⟨rfl, rfl⟩) hr
      (legal_snoc (e := .pop (some v)) hI.legal ⟨r, rfl, rfl⟩) (by simp) (.inr rfl) id
      (fun _ => .inr ⟨by simp, by simp [PC.pending]⟩)⟩
  | deqUnlock v =>
    simp only [runPC, Option.some.injEq] at h
    subst h
    exact ⟨l, hI.next h0 (p1 := .idle) (.inr (.inr ⟨rfl, rfl, rfl⟩)) hI.rep
      (legal_snoc (e := .retDeq (some v)) hI.legal rfl) (by simp) (.inl rfl) id (fun _ => .inr ⟨by simp, by simp [PC.pending]⟩)⟩

theorem actT_inv {w : Bool} {s s' : State Q} {l : List α} (hI : InvT L w s l) {a : Act α}
    (h : step s a = some s') : ∃ l', InvT L w s' l' := by
  cases a with
  | callEnq t a =>
    simp only [step] at h
    split at h <;> simp only [Option.some.injEq, reduceCtorEq] at h
    subst h
    rename_i h0
    exact ⟨l, hI.next h0 (p1 := .enqLock a) (.inl ⟨rfl, rfl⟩) hI.rep
      (legal_snoc (e := .callEnq a) hI.legal rfl) (by simp) (.inl rfl) id (fun _ => .inr ⟨by simp, by simp [PC.pending]⟩)⟩
  | callDeq t =>
    simp only [step] at h
    split at h <;> simp only [Option.some.injEq, reduceCtorEq] at h
    subst h
    rename_i h0
    exact ⟨l, hI.next h0 (p1 := .deqLock) (.inl ⟨rfl, rfl⟩) hI.rep
      (legal_snoc (e := .callDeq) hI.legal rfl) (by simp) (.inl rfl) id (fun _ => .inr ⟨by simp, by simp [PC.pending]⟩)⟩
  | run t =>
    simp only [step] at h
    split at h
    · rename_i h0; exact runT_inv hI h0 h
    · simp at h
  | spurious t =>
    simp only [step] at h
    split at h <;> simp only [Option.some.injEq, reduceCtorEq] at h
    subst h
    rename_i h0
    exact ⟨l, hI.next h0 (p1 := .woken) (.inl ⟨rfl, rfl⟩) hI.rep hI.legal
      (by simp) (.inl rfl) id (fun _ => .inr ⟨by simp, by simp [PC.pending]⟩)⟩
  | notify t x =>
    simp only [step] at h
    split at h
    · rename_i h0
      split at h
      · rename_i x
        split at h <;> simp only [Option.some.injEq, reduceCtorEq] at h
        subst h
        rename_i hx
        have hI2 : InvT L w (s.goto x .woken) l := hI.next hx (p1 := .woken) (.inl ⟨rfl, rfl⟩) hI.rep hI.legal
          (by simp) (.inl rfl) id (fun _ => .inr ⟨by simp, by simp [PC.pending]⟩)
        have hne : t ≠ x := by
          rintro rfl
          rw [h0] at hx
          simp at hx
        have h0' : (s.goto x .woken).pcs[t]? = some .enqNotify := by
          show (s.pcs.set x .woken)[t]? = _
          rw [get_set hx, if_neg hne, h0]
        refine ⟨l, ⟨lock_set hI2.lock h0' (.inl ⟨rfl, rfl⟩), owner_set hI2.owner h0' (.inl rfl), hI2.good, hI2.rep,
          hI2.legal, fun u hu => ?_⟩, fun hw u hu => ?_⟩
        · exact hI2.nonempty u (pc_set_other h0' (by simp) hu).2
        · have hu2 := (pc_set_other h0' (by simp) hu).2
          have hu3 := (pc_set_other hx (by simp) hu2).2
          have e1 := hI.wake hw u hu3
          have e2 := weight_set PC.pending hx .woken
          have e3 := weight_set PC.pending h0' .enqUnlock
          have e4 : (s.goto x .woken).pcs = s.pcs.set x .woken := rfl
          rw [← e4] at e2
          simp only [PC.pending] at e2 e3
          show _ ≤ weight PC.pending ((s.goto x .woken).pcs.set t .enqUnlock)
          omega
      · split at h <;> simp only [Option.some.injEq, reduceCtorEq] at h
        subst h
        rename_i hn
        refine ⟨l, ⟨lock_set hI.lock h0 (.inl ⟨rfl, rfl⟩), owner_set hI.owner h0 (.inl rfl), hI.good, hI.rep,
          hI.legal, fun u hu => ?_⟩, fun hw u hu => ?_⟩
        · exact hI.nonempty u (pc_set_other h0 (by simp) hu).2
        · exfalso
          have hu2 := (pc_set_other h0 (by simp) hu).2
          exact hn (List.any_eq_true.mpr ⟨_, List.mem_of_getElem? hu2, rfl⟩)
    · simp at h

/-- is it an exception of `dequeue`? -/
def ActT.popThrows : ActT α → Bool
  | .throwPop _ => true
  | _ => false

theorem stepT_inv {w : Bool} {s s' : State Q} {l : List α} (hI : InvT L w s l) {a : ActT α}
    (h : stepT s a = some s') : ∃ l', InvT L (w && !a.popThrows) s' l' := by
  cases a with
  | act a =>
    obtain ⟨l', h'⟩ := actT_inv hI (show step s a = some s' from h)
    exact ⟨l', by simpa [ActT.popThrows] using h'⟩
  | throwPush t =>
    simp only [stepT] at h
    split at h <;> simp only [Option.some.injEq, reduceCtorEq] at h
    subst h
    rename_i a h0
    exact ⟨l, hI.next h0 (p1 := .idle) (.inr (.inr ⟨rfl, rfl, rfl⟩)) hI.rep hI.legal (by simp) (.inl rfl)
      (fun h => (Bool.and_eq_true_iff.mp h).1) (fun _ => .inr ⟨by simp, by simp [PC.pending]⟩)⟩
  | throwPop t =>
    simp only [stepT] at h
    split at h <;> simp only [Option.some.injEq, reduceCtorEq] at h
    subst h
    rename_i h0
    exact ⟨l, hI.next h0 (p1 := .idle) (.inr (.inr ⟨rfl, rfl, rfl⟩)) hI.rep hI.legal (by simp) (.inl rfl)
      (fun h => (Bool.and_eq_true_iff.mp h).1) (fun h => by simp [ActT.popThrows] at h)⟩

theorem execT_inv : ∀ (as : List (ActT α)) {w : Bool} {s s' : State Q} {l : List α}, InvT L w s l →
    execT as s = some s' → ∃ l', InvT L (w && as.all (fun a => !a.popThrows)) s' l'
  | [], w, s, s', l, hI, h => by
    simp only [execT, Option.some.injEq] at h; subst h; exact ⟨l, by simpa using hI⟩
  | a :: as, w, s, s', l, hI, h => by
    simp only [execT] at h
    split at h
    · rename_i h1
      obtain ⟨l1, hI1⟩ := stepT_inv hI h1
      obtain ⟨l2, hI2⟩ := execT_inv as hI1 h
      exact ⟨l2, by simpa [Bool.and_assoc] using hI2⟩
    · simp at h

theorem execT_length : ∀ {as : List (ActT α)} {s s' : State Q}, execT as s = some s' → s'.pcs.length = s.pcs.length
  | [], s, s', h => by simp only [execT, Option.some.injEq] at h; rw [h]
  | a :: as, s, s', h => by
    simp only [execT] at h
    split at h
    · rename_i h1
      refine (execT_length h).trans ?_
      cases a with
      | act a => exact step_length h1
      | _ =>
        simp only [stepT] at h1
        split at h1 <;> simp only [Option.some.injEq, reduceCtorEq] at h1
        subst h1; simp [State.goto]
    · simp at h

/-- steps of operations under way, with or without an exception -/
def ActT.inner : ActT α → Bool
  | .act a => a.inner
  | _ => true

theorem execT_fuel : ∀ {as : List (ActT α)} {w : Bool} {s s' : State Q} {l : List α}, InvT L w s l →
    (∀ a ∈ as, a.inner = true) → execT as s = some s' → as.length + weight PC.fuel s'.pcs ≤ weight PC.fuel s.pcs
  | [], w, s, s', l, _, _, h => by simp only [execT, Option.some.injEq] at h; simp [h]
  | a :: as, w, s, s', l, hI, ha, h => by
    simp only [execT] at h
    split at h
    · rename_i s1 h1
      obtain ⟨l1, hI1⟩ := stepT_inv hI h1
      have e2 := execT_fuel hI1 (fun b hb => ha b (by simp [hb])) h
      have e1 : weight PC.fuel s1.pcs + 1 ≤ weight PC.fuel s.pcs := by
        cases a with
        | act a => exact fuel_step hI.toCore ((inner_iff a).mp (show a.inner = true from ha (.act a) (by simp))) h1
        | _ =>
          simp only [stepT] at h1
          split at h1 <;> simp only [Option.some.injEq, reduceCtorEq] at h1
          subst h1
          rename_i h0
          have := weight_set PC.fuel h0 .idle
          simp only [PC.fuel] at this
          show weight PC.fuel (s.pcs.set _ .idle) + 1 ≤ _
          omega
      simp only [List.length_cons]
      omega
    · simp at h

end Conc.Blocking

namespace DBuf

open Spec

/-- the effects and returns of enqueues and swaps -/
def locked (log : List (Nat × Ev α)) : List (Ev α) := (events log).filter fun e => match e with
  | .push _ | .swap | .retEnq | .retSwap => true
  | _ => false

/-- nobody owns the spinlock, but its flag is set -/
def Stuck (s : State α) : Prop := s.flag = true ∧ ∀ (t : Nat) (p : PC α), s.pcs[t]? = some p → p.holds = false

theorem locked_snoc (log : List (Nat × Ev α)) (t : Nat) (e : Ev α) :
    locked (log ++ [(t, e)]) = locked log ++ locked [(t, e)] := by simp [locked, events]

/-- at most one thread is between lock and unlock, and then the flag is set -/
structure Excl (s : State α) : Prop where
  flag : ∀ (t : Nat) (p : PC α), s.pcs[t]? = some p → p.holds = true → s.flag = true
  one : ∀ (t u : Nat) (p p' : PC α), s.pcs[t]? = some p → s.pcs[u]? = some p' → p.holds = true → p'.holds = true → t = u

theorem Excl.set {s s' : State α} (hI : Excl s) {t : Nat} {p0 p1 : PC α} (h0 : s.pcs[t]? = some p0)
    (hp : s'.pcs = s.pcs.set t p1)
    (h : (p1.holds = false ∧ (s'.flag = s.flag ∨ p0.holds = true)) ∨ (p0.holds = true ∧ s'.flag = s.flag) ∨
      (s.flag = false ∧ s'.flag = true)) : Excl s' where
  flag := fun u p hu hh => by
    rw [hp, Conc.get_set h0] at hu
    by_cases e : u = t
    · rw [if_pos e, Option.some.injEq] at hu
      subst hu
      rcases h with ⟨h, _⟩ | ⟨h1, h2⟩ | ⟨_, h⟩
      · rw [h] at hh; simp at hh
      · rw [h2]; exact hI.flag t p0 h0 h1
      · exact h
    · rw [if_neg e] at hu
      rcases h with ⟨_, h | h⟩ | ⟨h1, h2⟩ | ⟨_, h⟩
      · rw [h]; exact hI.flag u p hu hh
      · exact absurd (hI.one u t p p0 hu h0 hh h) e
      · rw [h2]; exact hI.flag u p hu hh
      · exact h
  one := fun u v p p' hu hv hh hh' => by
    rw [hp, Conc.get_set h0] at hu hv
    have key : ∀ {x : Nat} {q : PC α}, x ≠ t → s.pcs[x]? = some q → q.holds = true → p1.holds = true → False := by
      intro x q hx hq hqh hp1
      rcases h with ⟨h, _⟩ | ⟨h1, _⟩ | ⟨h1, _⟩
      · rw [h] at hp1; simp at hp1
      · exact hx (hI.one x t q p0 hq h0 hqh h1)
      · have := hI.flag x q hq hqh
        rw [h1] at this; simp at this
    by_cases e : u = t <;> by_cases e' : v = t
    · rw [e, e']
    · rw [if_pos e, Option.some.injEq] at hu
      rw [if_neg e'] at hv
      subst hu
      exact (key e' hv hh' hh).elim
    · rw [if_neg e] at hu
      rw [if_pos e', Option.some.injEq] at hv
      subst hv
      exact (key e hu hh hh').elim
    · rw [if_neg e] at hu
      rw [if_neg e'] at hv
      exact hI.one u v p p' hu hv hh hh'

theorem setBuf_pcs (s : State α) (p : Bool) (b : Cyclic.VcqS α) : (s.setBuf p b).pcs = s.pcs := by
  simp only [State.setBuf]; split <;> rfl

theorem setBuf_flag (s : State α) (p : Bool) (b : Cyclic.VcqS α) : (s.setBuf p b).flag = s.flag := by
  simp only [State.setBuf]; split <;> rfl

theorem setBuf_log (s : State α) (p : Bool) (b : Cyclic.VcqS α) : (s.setBuf p b).log = s.log := by
  simp only [State.setBuf]; split <;> rfl

theorem start_excl (n m : Nat) : Excl (start n m : State α) where
  flag := fun t p h hh => by
    have : p = .idle := by simp [start, List.getElem?_replicate] at h; exact h.2.symm
    subst this; simp [PC.holds] at hh
  one := fun t u p p' h _ hh _ => by
    have : p = .idle := by simp [start, List.getElem?_replicate] at h; exact h.2.symm
    subst this; simp [PC.holds] at hh

/-- What a step does to the flag, the program counters and the log: thread `t` goes from `p0` to `p1`; or the access was
undefined. -/
theorem step_shape {k : Kind} {s s' : State α} {a : Act α} (h : step k s a = some s') :
    (s'.pcs = s.pcs ∧ s'.flag = s.flag ∧ s'.log = s.log) ∨
    ∃ (t : Nat) (p0 p1 : PC α), s.pcs[t]? = some p0 ∧ s'.pcs = s.pcs.set t p1 ∧
      ((p1.holds = false ∧ s'.flag = s.flag ∧ p0.holds = false ∧ locked s'.log = locked s.log) ∨
       (p1.holds = false ∧ p0.holds = true) ∨
       (p0.holds = true ∧ s'.flag = s.flag) ∨
       (s.flag = false ∧ s'.flag = true)) := by
  have silent : ∀ {l : List (Nat × Ev α)} {t : Nat} {e : Ev α}, locked [(t, e)] = [] → locked (l ++ [(t, e)]) = locked l :=
    fun h => by rw [locked_snoc, h, List.append_nil]
  cases a with
  | callEnq t a =>
    simp only [step] at h
    split at h <;> simp only [Option.some.injEq, reduceCtorEq] at h
    subst h; rename_i h0
    exact .inr ⟨t, _, _, h0, rfl, .inl ⟨rfl, rfl, rfl, silent rfl⟩⟩
  | callSwap t =>
    simp only [step] at h
    split at h <;> simp only [Option.some.injEq, reduceCtorEq] at h
    subst h; rename_i h0
    exact .inr ⟨t, _, _, h0, rfl, .inl ⟨rfl, rfl, rfl, silent rfl⟩⟩
  | callDeq t =>
    simp only [step] at h
    split at h <;> simp only [Option.some.injEq, reduceCtorEq] at h
    subst h; rename_i h0
    exact .inr ⟨t, _, _, h0, rfl, .inl ⟨rfl, rfl, rfl, silent rfl⟩⟩
  | callEmpty t =>
    simp only [step] at h
    split at h <;> simp only [Option.some.injEq, reduceCtorEq] at h
    subst h; rename_i h0
    exact .inr ⟨t, _, _, h0, rfl, .inl ⟨rfl, rfl, rfl, silent rfl⟩⟩
  | run t =>
    simp only [step] at h
    split at h
    · rename_i p0 h0
      cases p0 with
      | idle => simp [runPC] at h
      | enqSpin a =>
        simp only [runPC] at h
        split at h <;> simp only [Option.some.injEq, reduceCtorEq] at h
        subst h; rename_i hf
        exact .inr ⟨t, _, _, h0, rfl, .inr (.inr (.inr ⟨by simpa using hf, rfl⟩))⟩
      | swapSpin =>
        simp only [runPC] at h
        split at h <;> simp only [Option.some.injEq, reduceCtorEq] at h
        subst h; rename_i hf
        exact .inr ⟨t, _, _, h0, rfl, .inr (.inr (.inr ⟨by simpa using hf, rfl⟩))⟩
      | enqPush a =>
        simp only [runPC] at h
        split at h <;> simp only [Option.some.injEq] at h <;> subst h
        · refine .inr ⟨t, _, .enqUnlock, h0, ?_, .inr (.inr (.inl ⟨rfl, ?_⟩))⟩
          · simp [State.goto, State.emit, setBuf_pcs]
          · simp [State.goto, State.emit, setBuf_flag]
        · exact .inl ⟨rfl, rfl, rfl⟩
      | enqUnlock =>
        simp only [runPC, Option.some.injEq] at h; subst h
        exact .inr ⟨t, _, _, h0, rfl, .inr (.inl ⟨rfl, rfl⟩)⟩
      | swap =>
        simp only [runPC, Option.some.injEq] at h; subst h
        exact .inr ⟨t, _, _, h0, rfl, .inr (.inr (.inl ⟨rfl, rfl⟩))⟩
      | swapUnlock =>
        simp only [runPC, Option.some.injEq] at h; subst h
        exact .inr ⟨t, _, _, h0, rfl, .inr (.inl ⟨rfl, rfl⟩)⟩
      | deq =>
        simp only [runPC] at h
        split at h <;> simp only [Option.some.injEq] at h <;> subst h
        · rename_i v b _
          refine .inr ⟨t, _, .deqRet v, h0, ?_, .inl ⟨rfl, ?_, rfl, ?_⟩⟩
          · simp [State.goto, State.emit, setBuf_pcs]
          · simp [State.goto, State.emit, setBuf_flag]
          · show locked ((s.setBuf s.rp b).log ++ [(t, .pop (some v))]) = _
            rw [setBuf_log]; exact silent rfl
        · exact .inl ⟨rfl, rfl, rfl⟩
      | deqRet v =>
        simp only [runPC, Option.some.injEq] at h; subst h
        exact .inr ⟨t, _, _, h0, rfl, .inl ⟨rfl, rfl, rfl, silent rfl⟩⟩
      | look =>
        simp only [runPC, Option.some.injEq] at h; subst h
        exact .inr ⟨t, _, _, h0, rfl, .inl ⟨rfl, rfl, rfl, silent rfl⟩⟩
      | lookRet b =>
        simp only [runPC, Option.some.injEq] at h; subst h
        exact .inr ⟨t, _, _, h0, rfl, .inl ⟨rfl, rfl, rfl, silent rfl⟩⟩
    · simp at h

theorem stepT_excl {k : Kind} {s s' : State α} (hI : Excl s) {a : ActT α} (h : stepT k s a = some s') : Excl s' := by
  cases a with
  | act a =>
    rcases step_shape (show step k s a = some s' from h) with ⟨h1, h2, _⟩ | ⟨t, p0, p1, h0, hp, hc⟩
    · exact ⟨by rw [h1, h2]; exact hI.flag, by rw [h1]; exact hI.one⟩
    · refine hI.set h0 hp ?_
      rcases hc with ⟨h1, h2, _, _⟩ | ⟨h1, h2⟩ | h1 | h1
      · exact .inl ⟨h1, .inl h2⟩
      · exact .inl ⟨h1, .inr h2⟩
      · exact .inr (.inl h1)
      · exact .inr (.inr h1)
  | throwPush t b =>
    simp only [stepT] at h
    split at h <;> simp only [Option.some.injEq, reduceCtorEq] at h
    subst h; rename_i h0
    exact hI.set (p1 := .idle) h0 (by simp [State.goto, setBuf_pcs]) (.inl ⟨rfl, .inl (by simp [State.goto, setBuf_flag])⟩)

theorem execT_excl {k : Kind} : ∀ {as : List (ActT α)} {s s' : State α}, Excl s → execT k as s = some s' → Excl s'
  | [], s, s', hI, h => by simp only [execT, Option.some.injEq] at h; rwa [← h]
  | a :: as, s, s', hI, h => by
    simp only [execT] at h
    split at h
    · rename_i h1; exact execT_excl (stepT_excl hI h1) h
    · simp at h

/-- the exception leaves the spinlock locked -/
theorem throw_stuck {k : Kind} {s s' : State α} (hI : Excl s) {t : Nat} {b : Cyclic.VcqS α}
    (h : stepT k s (.throwPush t b) = some s') : Stuck s' ∧ s'.log = s.log := by
  simp only [stepT] at h
  split at h <;> simp only [Option.some.injEq, reduceCtorEq] at h
  subst h; rename_i h0
  refine ⟨⟨?_, fun u p hu => ?_⟩, ?_⟩
  · show (s.setBuf s.wp b).flag = true
    rw [setBuf_flag]; exact hI.flag t _ h0 rfl
  · have hu : (s.pcs.set t .idle)[u]? = some p := by
      have : ((s.setBuf s.wp b).goto t .idle).pcs = s.pcs.set t .idle := by simp [State.goto, setBuf_pcs]
      rw [← this]; exact hu
    rw [Conc.get_set h0] at hu
    by_cases e : u = t
    · rw [if_pos e, Option.some.injEq] at hu; subst hu; rfl
    · rw [if_neg e] at hu
      cases hh : p.holds with
      | false => rfl
      | true => exact absurd (hI.one u t p _ hu h0 hh rfl) e
  · exact setBuf_log _ _ _

/-- and nothing ever unlocks it -/
theorem stuck_step {k : Kind} {s s' : State α} (hS : Stuck s) {a : ActT α} (h : stepT k s a = some s') :
    Stuck s' ∧ locked s'.log = locked s.log := by
  cases a with
  | act a =>
    rcases step_shape (show step k s a = some s' from h) with ⟨h1, h2, h3⟩ | ⟨t, p0, p1, h0, hp, hc⟩
    · exact ⟨⟨by rw [h2]; exact hS.1, by rw [h1]; exact hS.2⟩, by rw [h3]⟩
    · have hp0 := hS.2 t p0 h0
      rcases hc with ⟨h1, h2, _, h4⟩ | ⟨_, h2⟩ | ⟨h1, _⟩ | ⟨h1, _⟩
      · refine ⟨⟨by rw [h2]; exact hS.1, fun u p hu => ?_⟩, h4⟩
        rw [hp, Conc.get_set h0] at hu
        by_cases e : u = t
        · rw [if_pos e, Option.some.injEq] at hu; subst hu; exact h1
        · rw [if_neg e] at hu; exact hS.2 u p hu
      · rw [hp0] at h2; simp at h2
      · rw [hp0] at h1; simp at h1
      · rw [hS.1] at h1; simp at h1
  | throwPush t b =>
    simp only [stepT] at h
    split at h <;> simp only [Option.some.injEq, reduceCtorEq] at h
    rename_i h0
    have := hS.2 t _ h0
    simp [PC.holds] at this

theorem stuck_exec {k : Kind} : ∀ {as : List (ActT α)} {s s' : State α}, Stuck s → execT k as s = some s' →
    Stuck s' ∧ locked s'.log = locked s.log
  | [], s, s', hS, h => by simp only [execT, Option.some.injEq] at h; rw [← h]; exact ⟨hS, rfl⟩
  | a :: as, s, s', hS, h => by
    simp only [execT] at h
    split at h
    · rename_i h1
      obtain ⟨h2, h3⟩ := stuck_step hS h1
      obtain ⟨h4, h5⟩ := stuck_exec h2 h
      exact ⟨h4, h5.trans h3⟩
    · simp at h

end DBuf
end Efp
