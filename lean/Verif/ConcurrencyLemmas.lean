import Verif.Concurrency
import Verif.CyclicLemmas

/-!
# Lemmas about the concurrent queues
-/

namespace Efp
namespace Conc

open Spec

variable {α β : Type}

/-! ### Lists of program counters -/

theorem get_set {l : List β} {t : Nat} {p0 : β} (h : l[t]? = some p0) (p : β) (u : Nat) :
    (l.set t p)[u]? = if u = t then some p else l[u]? := by
  have ht : t < l.length := (List.getElem?_eq_some_iff.mp h).1
  by_cases hu : u = t
  · subst hu; simp [ht]
  · rw [List.getElem?_set_ne (fun h => hu h.symm), if_neg hu]

/-- sum of a weight over all threads -/
def weight (w : β → Nat) (l : List β) : Nat := (l.map w).sum

theorem weight_set (w : β → Nat) : ∀ {l : List β} {t : Nat} {p0 : β} (_ : l[t]? = some p0) (p : β),
    weight w (l.set t p) + w p0 = weight w l + w p
  | [], _, _, h, _ => by simp at h
  | x :: l, 0, p0, h, p => by
    simp only [List.getElem?_cons_zero, Option.some.injEq] at h
    subst h
    simp only [weight, List.set_cons_zero, List.map_cons, List.sum_cons]
    omega
  | x :: l, t + 1, p0, h, p => by
    have := weight_set w (l := l) (t := t) (by simpa using h) p
    simp only [weight, List.set_cons_succ, List.map_cons, List.sum_cons] at this ⊢
    omega

theorem weight_pos {w : β → Nat} : ∀ {l : List β}, 0 < weight w l → ∃ (t : Nat) (p : β), l[t]? = some p ∧ 0 < w p
  | [], h => by simp [weight] at h
  | x :: l, h => by
    by_cases hx : 0 < w x
    · exact ⟨0, x, rfl, hx⟩
    · have : 0 < weight w l := by simp only [weight, List.map_cons, List.sum_cons] at h ⊢; omega
      obtain ⟨t, p, h1, h2⟩ := weight_pos this
      exact ⟨t + 1, p, by simpa using h1, h2⟩

theorem weight_le {w : β → Nat} {b : Nat} (hw : ∀ p, w p ≤ b) : ∀ l : List β, weight w l ≤ b * l.length
  | [] => by simp [weight]
  | x :: l => by
    have h1 := weight_le hw l
    have h2 := hw x
    simp only [weight, List.map_cons, List.sum_cons, List.length_cons, Nat.mul_add, Nat.mul_one] at h1 ⊢
    omega

/-! ### Histories -/

theorem legal_append (cap : Option Nat) : ∀ (l1 l2 : List (Ev α)) (q q' : List α),
    Legal cap (l1 ++ l2) q q' ↔ ∃ m, Legal cap l1 q m ∧ Legal cap l2 m q'
  | [], l2, q, q' => by simp [Legal]
  | e :: l1, l2, q, q' => by
    cases e with
    | pop o =>
      cases o with
      | none => simp only [List.cons_append, Legal, legal_append cap l1 l2]; grind
      | some v => simp only [List.cons_append, Legal, legal_append cap l1 l2]; grind
    | look b => simp only [List.cons_append, Legal, legal_append cap l1 l2]; grind
    | _ => simp only [List.cons_append, Legal, legal_append cap l1 l2]

theorem legal_snoc {cap : Option Nat} {log : List (Nat × Ev α)} {q m q' : List α} {t : Nat} {e : Ev α}
    (h : Legal cap (events log) q m) (h2 : Legal cap [e] m q') : Legal cap (events (log ++ [(t, e)])) q q' := by
  rw [events, List.map_append]
  exact (legal_append cap _ _ _ _).mpr ⟨m, h, h2⟩

/-- an unbounded queue delivers everything in order -/
theorem legal_none : ∀ {es : List (Ev α)} {q q' : List α}, Legal none es q q' → q ++ pushes es = pops es ++ q'
  | [], q, q', h => by simp only [Legal] at h; simp [pushes, pops, h]
  | e :: es, q, q', h => by
    cases e with
    | push a =>
      have := legal_none (show Legal none es (q ++ [a]) q' from h)
      simp only [List.append_assoc, List.singleton_append] at this
      simpa [pushes, pops] using this
    | pop o =>
      cases o with
      | none => have := legal_none h.2; simpa [pushes, pops] using this
      | some v =>
        obtain ⟨r, rfl, h⟩ := h
        have := legal_none h
        simpa [pushes, pops] using this
    | look b => have := legal_none h.2; simpa [pushes, pops] using this
    | _ => have := legal_none (show Legal none es q q' from h); simpa [pushes, pops] using this

theorem fifoPush_le {n : Nat} (hn : 0 < n) {q : List α} (hq : q.length ≤ n) (a : α) : (fifoPush n q a).length ≤ n := by
  simp only [fifoPush]; split <;> simp <;> omega

theorem fifoPush_sublist (n : Nat) (q : List α) (a : α) : (fifoPush n q a).Sublist (q ++ [a]) := by
  simp only [fifoPush]
  split
  · exact (List.tail_sublist q).append_right _
  · exact List.Sublist.refl _

theorem fifoPush_perm (n : Nat) (q : List α) (a : α) :
    (q ++ [a]).Perm ((if q.length = n then q.take 1 else []) ++ fifoPush n q a) := by
  simp only [fifoPush]
  split
  · cases q with
    | nil => simp
    | cons x q => simp
  · simp

/-- a queue of capacity `n`: bound, order and accounting -/
theorem legal_some {n : Nat} (hn : 0 < n) : ∀ {es : List (Ev α)} {q q' : List α}, q.length ≤ n → Legal (some n) es q q' →
    q'.length ≤ n ∧ (pops es ++ q').Sublist (q ++ pushes es) ∧
    (q ++ pushes es).Perm (pops es ++ drops n es q ++ q')
  | [], q, q', hq, h => by simp only [Legal] at h; subst h; simp [pushes, pops, drops, hq]
  | e :: es, q, q', hq, h => by
    cases e with
    | push a =>
      obtain ⟨h1, h2, h3⟩ := legal_some hn (fifoPush_le hn hq a) h
      have hp : pushes (Ev.push a :: es) = a :: pushes es := rfl
      have hp2 : pops (Ev.push a :: es) = pops es := rfl
      refine ⟨h1, ?_, ?_⟩
      · rw [hp, hp2, ← List.singleton_append, ← List.append_assoc]
        exact h2.trans ((fifoPush_sublist n q a).append_right _)
      · rw [hp, hp2, ← List.singleton_append, ← List.append_assoc]
        refine ((fifoPush_perm n q a).append_right _).trans ?_
        rw [List.append_assoc]
        refine (List.Perm.append_left _ h3).trans ?_
        simp only [drops]
        rw [← List.append_assoc, ← List.append_assoc, ← List.append_assoc]
        exact ((List.perm_append_comm).append_right _).append_right _
    | pop o =>
      cases o with
      | none => have := legal_some hn hq h.2; simpa [pushes, pops, drops] using this
      | some v =>
        obtain ⟨r, rfl, h⟩ := h
        obtain ⟨h1, h2, h3⟩ := legal_some hn (by simp at hq; omega) h
        refine ⟨h1, ?_, ?_⟩
        · simpa [pushes, pops] using h2
        · simpa [pushes, pops, drops] using h3
    | look b => have := legal_some hn hq h.2; simpa [pushes, pops, drops] using this
    | _ => have := legal_some hn hq (show Legal (some n) es q q' from h); simpa [pushes, pops, drops] using this

/-- an element behind which fewer than `n` elements come is not displaced -/
theorem legal_kept {n : Nat} {a : α} : ∀ {es : List (Ev α)} {p r q' : List α}, Legal (some n) es (p ++ a :: r) q' →
    r.length + (pushes es).length < n → a ∈ pops es ∨ a ∈ q'
  | [], p, r, q', h, _ => .inr (by simp only [Legal] at h; subst h; simp)
  | e :: es, p, r, q', h, hb => by
    cases e with
    | push b =>
      have hb' : (r ++ [b]).length + (pushes es).length < n := by
        simp only [pushes, List.filterMap_cons, List.length_cons, List.length_append, List.length_nil] at hb ⊢
        omega
      have hp2 : pops (Ev.push b :: es) = pops es := rfl
      rw [hp2]
      replace h : Legal (some n) es (fifoPush n (p ++ a :: r) b) q' := h
      cases p with
      | nil =>
        have hne : ([] ++ a :: r : List α).length ≠ n := by
          simp only [List.length_append, List.length_cons, List.length_nil] at hb' ⊢
          omega
        rw [fifoPush, if_neg hne] at h
        exact legal_kept (p := []) (r := r ++ [b]) (by simpa using h) hb'
      | cons x p =>
        rw [fifoPush] at h
        split at h
        · exact legal_kept (p := p) (r := r ++ [b]) (by simpa using h) hb'
        · exact legal_kept (p := x :: p) (r := r ++ [b]) (by simpa using h) hb'
    | pop o =>
      cases o with
      | none => exact absurd h.1 (by simp)
      | some v =>
        have hp : pops (Ev.pop (some v) :: es) = v :: pops es := rfl
        have hp2 : pushes (Ev.pop (some v) :: es) = pushes es := rfl
        rw [hp2] at hb
        rw [hp]
        obtain ⟨q, e, h⟩ := h
        cases p with
        | nil =>
          obtain ⟨rfl, -⟩ := List.cons.inj e
          simp
        | cons x p =>
          obtain ⟨-, rfl⟩ := List.cons.inj e
          exact (legal_kept h hb).imp (List.mem_cons_of_mem _) id
    | look b => have := legal_kept (es := es) h.2 hb; simpa [pops] using this
    | _ => have := legal_kept (show Legal (some n) es (p ++ a :: r) q' from h) hb; simpa [pops] using this

theorem linearizable_kept {n : Nat} {log : List (Nat × Ev α)} {q : List α} (h : Linearizable (some n) log q)
    {a : α} {es₁ es₂ : List (Ev α)} (he : events log = es₁ ++ .push a :: es₂) (hb : (pushes es₂).length < n) :
    a ∈ pops es₂ ∨ a ∈ q := by
  have h1 := h.1
  rw [he] at h1
  obtain ⟨m, -, h2⟩ := (legal_append _ _ _ _ _).1 h1
  exact legal_kept (p := if m.length = n then m.tail else m) (r := []) h2 (by simpa using hb)

/-- nothing is displaced if no more than `n` elements are ever outstanding -/
theorem drops_nil {n : Nat} : ∀ {es : List (Ev α)} {q q' : List α}, Legal (some n) es q q' →
    (∀ es1 es2, es = es1 ++ es2 → q.length + (pushes es1).length ≤ (pops es1).length + n) → drops n es q = []
  | [], q, q', h, hb => rfl
  | e :: es, q, q', h, hb => by
    cases e with
    | push a =>
      have h1 := hb [.push a] es rfl
      simp only [pushes, pops, List.filterMap_cons, List.filterMap_nil, List.length_cons, List.length_nil] at h1
      have hne : q.length ≠ n := by omega
      have hf : fifoPush n q a = q ++ [a] := by simp [fifoPush, hne]
      have h2 : Legal (some n) es (q ++ [a]) q' := by rw [← hf]; exact h
      simp only [drops, if_neg hne, List.nil_append, hf]
      refine drops_nil h2 fun es1 es2 he => ?_
      have := hb (.push a :: es1) es2 (by rw [he]; rfl)
      simp only [pushes, pops, List.filterMap_cons, List.length_cons, List.length_append, List.length_nil] at this ⊢
      omega
    | pop o =>
      cases o with
      | none =>
        show drops n es q = []
        refine drops_nil h.2 fun es1 es2 he => ?_
        have := hb (.pop none :: es1) es2 (by rw [he]; rfl)
        simpa [pushes, pops] using this
      | some v =>
        obtain ⟨r, rfl, h⟩ := h
        show drops n es r = []
        refine drops_nil h fun es1 es2 he => ?_
        have := hb (.pop (some v) :: es1) es2 (by rw [he]; rfl)
        simp only [pushes, pops, List.filterMap_cons, List.length_cons] at this ⊢
        omega
    | look b =>
      show drops n es q = []
      refine drops_nil h.2 fun es1 es2 he => ?_
      have := hb (.look b :: es1) es2 (by rw [he]; rfl)
      simpa [pushes, pops] using this
    | _ =>
      show drops n es q = []
      refine drops_nil (show Legal (some n) es q q' from h) fun es1 es2 he => ?_
      have := hb (_ :: es1) es2 (by rw [he]; rfl)
      simpa [pushes, pops] using this

/-- the values in an operation that has not returned yet -/
theorem phaseRun_calls {es : List (Ev α)} {p : Phase α} (h : PhaseRun es p) :
    enqCalls es = pushes es ++ (match p with | .enqCalled a => [a] | _ => []) ∧
    pops es = deqRets es ++ (match p with | .deqDone o => o.toList | _ => []) := by
  induction h with
  | nil => simp [enqCalls, pushes, pops, deqRets]
  | snoc _ hs ih =>
    simp only [enqCalls, pushes, pops, deqRets, List.filterMap_append] at ih ⊢
    cases hs with
    | pop o => cases o <;> simp_all
    | retDeq o => cases o <;> simp_all
    | _ => simp_all

theorem ofThread_snoc_self (t : Nat) (log : List (Nat × Ev α)) (e : Ev α) :
    ofThread t (log ++ [(t, e)]) = ofThread t log ++ [e] := by simp [ofThread]

theorem ofThread_snoc_ne {t u : Nat} (h : u ≠ t) (log : List (Nat × Ev α)) (e : Ev α) :
    ofThread u (log ++ [(t, e)]) = ofThread u log := by
  have h' : ¬ t = u := fun h' => h h'.symm
  simp [ofThread, h']

/-- the phase of thread `t`; threads that do not exist are outside -/
def phaseAt (ph : β → Phase α) (pcs : List β) (t : Nat) : Phase α :=
  match pcs[t]? with
  | some p => ph p
  | none => .outside

theorem phaseAt_some {ph : β → Phase α} {pcs : List β} {t : Nat} {p : β} (h : pcs[t]? = some p) :
    phaseAt ph pcs t = ph p := by simp [phaseAt, h]

theorem phase_set {pcs : List β} {ph : β → Phase α} {log : List (Nat × Ev α)} {t : Nat} {p0 p1 : β}
    (hI : ∀ u : Nat, PhaseRun (ofThread u log) (phaseAt ph pcs u))
    (h0 : pcs[t]? = some p0) (e : Ev α) (hs : PhaseStep (ph p0) e (ph p1)) (u : Nat) :
    PhaseRun (ofThread u (log ++ [(t, e)])) (phaseAt ph (pcs.set t p1) u) := by
  by_cases hu : u = t
  · subst hu
    rw [ofThread_snoc_self, phaseAt_some (by rw [get_set h0, if_pos rfl] : (pcs.set u p1)[u]? = some p1)]
    have := hI u
    rw [phaseAt_some h0] at this
    exact PhaseRun.snoc this hs
  · rw [ofThread_snoc_ne hu]
    have : phaseAt ph (pcs.set t p1) u = phaseAt ph pcs u := by simp only [phaseAt, get_set h0, if_neg hu]
    rw [this]
    exact hI u

theorem phase_set_silent {pcs : List β} {ph : β → Phase α} {log : List (Nat × Ev α)} {t : Nat} {p0 p1 : β}
    (hI : ∀ u : Nat, PhaseRun (ofThread u log) (phaseAt ph pcs u))
    (h0 : pcs[t]? = some p0) (hs : ph p1 = ph p0) (u : Nat) :
    PhaseRun (ofThread u log) (phaseAt ph (pcs.set t p1) u) := by
  have : phaseAt ph (pcs.set t p1) u = phaseAt ph pcs u := by
    by_cases hu : u = t
    · subst hu
      rw [phaseAt_some (by rw [get_set h0, if_pos rfl] : (pcs.set u p1)[u]? = some p1), phaseAt_some h0, hs]
    · simp only [phaseAt, get_set h0, if_neg hu]
  rw [this]
  exact hI u

/-- A step of thread `t` keeps the mutex invariant: `k` is the new owner. -/
theorem lock_set {pcs : List β} {holds : β → Bool} {lock : Option Nat} {t : Nat} {p0 p1 : β} {k : Option Nat}
    (hI : ∀ (u : Nat) (p : β), pcs[u]? = some p → (holds p = true ↔ lock = some u))
    (h0 : pcs[t]? = some p0) (hk : (k = lock ∧ holds p1 = holds p0) ∨
      (lock = none ∧ k = some t ∧ holds p1 = true) ∨ (holds p0 = true ∧ k = none ∧ holds p1 = false))
    (u : Nat) (p : β) (h : (pcs.set t p1)[u]? = some p) : holds p = true ↔ k = some u := by
  rw [get_set h0] at h
  by_cases hu : u = t
  · subst hu
    simp only [if_pos, Option.some.injEq] at h
    subst h
    have := hI _ _ h0
    rcases hk with ⟨rfl, h1⟩ | ⟨h1, rfl, h2⟩ | ⟨h1, rfl, h2⟩ <;> simp_all
  · rw [if_neg hu] at h
    have h1 := hI _ _ h
    have h2 := hI _ _ h0
    rcases hk with ⟨rfl, h3⟩ | ⟨h3, rfl, h4⟩ | ⟨h3, rfl, h4⟩
    · exact h1
    · rw [h1, h3]; simp [show ¬ t = u from fun h => hu h.symm]
    · rw [h1, (h2.mp h3)]; simp [show ¬ t = u from fun h => hu h.symm]

theorem owner_set {pcs : List β} {lock : Option Nat} {t : Nat} {p1 p0 : β} {k : Option Nat} (hI : ∀ t, lock = some t → t < pcs.length)
    (h0 : pcs[t]? = some p0) (hk : k = lock ∨ k = some t ∨ k = none) (u : Nat) (h : k = some u) :
    u < (pcs.set t p1).length := by
  rw [List.length_set]
  rcases hk with rfl | rfl | rfl
  · exact hI u h
  · cases h; exact (List.getElem?_eq_some_iff.mp h0).1
  · simp at h

theorem pc_set_other {pcs : List β} {t : Nat} {p0 p1 p : β} (h0 : pcs[t]? = some p0) (hp : p1 ≠ p) {u : Nat}
    (h : (pcs.set t p1)[u]? = some p) : u ≠ t ∧ pcs[u]? = some p := by
  rw [get_set h0] at h
  by_cases hu : u = t
  · rw [if_pos hu] at h; exact absurd (Option.some.inj h) hp
  · exact ⟨hu, by rwa [if_neg hu] at h⟩

/-! ### Sequential queues that behave as FIFO lists -/

/-- what the machines need to know about the queue they guard -/
structure Lawful (Q : QImpl α) (cap : Option Nat) where
  Rep : Q.St → List α → Prop
  init : Rep Q.init []
  empty : ∀ {q l}, Rep q l → Q.empty q = l.isEmpty
  push : ∀ {q l} (a : α), Rep q l → ∃ q', Q.push a q = .ok () q' ∧ Rep q' (capPush cap l a)
  pop : ∀ {q v l}, Rep q (v :: l) → ∃ q', Q.pop q = .ok v q' ∧ Rep q' l

/-- `std::queue` -/
def stdLawful (α : Type) : Lawful (stdQ α) none where
  Rep := fun q l => q = l
  init := rfl
  empty := fun h => by subst h; rfl
  push := fun a h => by subst h; exact ⟨_, rfl, rfl⟩
  pop := fun h => by subst h; exact ⟨_, rfl, rfl⟩

/-- `Vcq` -/
def vcqLawful (k : Kind) (n : Nat) (hn : 0 < n) (α : Type) : Lawful (vcqQ k n α) (some n) where
  Rep := fun q l => Cyclic.Vcq.Rep k q l ∧ q.n = n
  init := ⟨Cyclic.Vcq.mk0_rep k n hn, rfl⟩
  empty := fun {q l} h => by
    have := h.1.size
    show decide (q.size = 0) = _
    rw [this]
    cases l <;> simp
  push := fun {q l} a h => by
    obtain ⟨q', h1, h2, h3, _⟩ := Cyclic.Vcq.pushBack_run h.1 a
    refine ⟨q', h1, ?_, h2.trans h.2⟩
    have := h.2
    rw [this] at h3
    exact h3
  pop := fun {q v l} h => by
    obtain ⟨q', h1, h2, h3, _⟩ := Cyclic.Vcq.popFront_run h.1
    exact ⟨q', h1, h3, h2.trans h.2⟩

theorem capPush_length (cap : Option Nat) (l : List α) (a : α) : (capPush cap l a).length ≤ l.length + 1 := by
  cases cap with
  | none => simp [capPush]
  | some n => simp only [capPush, fifoPush]; split <;> simp

theorem capPush_ne (cap : Option Nat) (l : List α) (a : α) : capPush cap l a ≠ [] := by
  cases cap <;> simp [capPush, fifoPush]

/-! ### BlockingQ -/

namespace Blocking

variable {Q : QImpl α} {cap : Option Nat}

/-- threads that will look at the queue again, or wake somebody who will -/
def PC.pending : PC α → Nat
  | .woken | .deqLock | .deqCheck | .deqPop | .enqNotify => 1
  | _ => 0

/-- the part of an operation a thread is in -/
def PC.phase : PC α → Phase α
  | .idle => .outside
  | .enqLock a | .enqPush a => .enqCalled a
  | .enqNotify | .enqUnlock => .enqDone
  | .deqLock | .deqCheck | .asleep | .woken | .deqPop => .deqCalled
  | .deqUnlock v => .deqDone (some v)

/-- the part of the invariant that survives exceptions -/
structure Core (L : Lawful Q cap) (s : State Q) (l : List α) : Prop where
  lock : ∀ (t : Nat) (p : PC α), s.pcs[t]? = some p → (p.holds = true ↔ s.lock = some t)
  owner : ∀ t, s.lock = some t → t < s.pcs.length
  good : s.bad = false
  rep : L.Rep s.q l
  legal : Legal cap (events s.log) [] l
  nonempty : ∀ t : Nat, s.pcs[t]? = some PC.deqPop → l ≠ []

/-- the invariant -/
structure Inv (L : Lawful Q cap) (s : State Q) (l : List α) : Prop extends Core L s l where
  wake : ∀ t : Nat, s.pcs[t]? = some PC.asleep → l.length ≤ weight PC.pending s.pcs
  phase : ∀ t : Nat, PhaseRun (ofThread t s.log) (phaseAt PC.phase s.pcs t)

theorem start_inv (L : Lawful Q cap) (m : Nat) : Inv L (start Q m) [] where
  lock := fun t p h => by
    have : p = .idle := by simp [start, List.getElem?_replicate] at h; exact h.2.symm
    subst this; simp [PC.holds, start]
  owner := fun t h => by simp [start] at h
  good := rfl
  rep := L.init
  legal := rfl
  nonempty := fun t h => by simp [start, List.getElem?_replicate] at h
  wake := fun t h => by simp [start, List.getElem?_replicate] at h
  phase := fun t => by
    have : phaseAt PC.phase (start Q m).pcs t = .outside := by
      simp only [phaseAt, start, List.getElem?_replicate]
      split
      · rename_i h; split at h
        · cases h; rfl
        · simp at h
      · rfl
    rw [this]; exact PhaseRun.nil

/-- only one thread is between lock and unlock -/
theorem Core.unique {L : Lawful Q cap} {s : State Q} {l : List α} (hI : Core L s l) {t u : Nat} {p p' : PC α}
    (h1 : s.pcs[t]? = some p) (h2 : s.pcs[u]? = some p') (hp : p.holds = true) (hp' : p'.holds = true) : t = u := by
  have a := (hI.lock _ _ h1).mp hp
  have b := (hI.lock _ _ h2).mp hp'
  rw [a] at b
  exact Option.some.inj b

theorem Inv.unique {L : Lawful Q cap} {s : State Q} {l : List α} (hI : Inv L s l) {t u : Nat} {p p' : PC α}
    (h1 : s.pcs[t]? = some p) (h2 : s.pcs[u]? = some p') (hp : p.holds = true) (hp' : p'.holds = true) : t = u :=
  hI.toCore.unique h1 h2 hp hp'

/-- a step of thread `t` from `p0` to `p1` keeps the invariant -/
theorem Inv.next {L : Lawful Q cap} {s : State Q} {l l' : List α} (hI : Inv L s l) {t : Nat} {p0 p1 : PC α}
    (h0 : s.pcs[t]? = some p0) {k : Option Nat} {q' : Q.St} {log' : List (Nat × Ev α)}
    (hk : (k = s.lock ∧ p1.holds = p0.holds) ∨ (s.lock = none ∧ k = some t ∧ p1.holds = true) ∨
      (p0.holds = true ∧ k = none ∧ p1.holds = false))
    (hrep : L.Rep q' l') (hlegal : Legal cap (events log') [] l')
    (hphase : ∀ u : Nat, PhaseRun (ofThread u log') (phaseAt PC.phase (s.pcs.set t p1) u))
    (hpop : p1 = .deqPop → l' ≠ []) (hkeep : l' = l ∨ p0.holds = true)
    (hw : l' = [] ∨ (p1 ≠ .asleep ∧ l'.length + p0.pending ≤ l.length + p1.pending)) :
    Inv L ⟨s.pcs.set t p1, k, q', s.bad, log'⟩ l' where
  lock := lock_set hI.lock h0 hk
  owner := owner_set hI.owner h0 (by
    rcases hk with ⟨h, _⟩ | ⟨_, h, _⟩ | ⟨_, h, _⟩ <;> simp [h])
  good := hI.good
  rep := hrep
  legal := hlegal
  nonempty := fun u h => by
    by_cases hp : p1 = .deqPop
    · exact hpop hp
    · obtain ⟨hu, h⟩ := pc_set_other h0 hp h
      rcases hkeep with rfl | hh
      · exact hI.nonempty u h
      · exact absurd (hI.unique h h0 rfl hh) hu
  wake := fun u h => by
    rcases hw with rfl | ⟨hp, hw⟩
    · simp
    · obtain ⟨hu, h⟩ := pc_set_other h0 hp h
      have := hI.wake u h
      have h2 := weight_set PC.pending h0 p1
      show _ ≤ weight PC.pending (s.pcs.set t p1)
      omega
  phase := hphase

theorem run_inv {L : Lawful Q cap} {s s' : State Q} {l : List α} (hI : Inv L s l) {t : Nat} {p0 : PC α}
    (h0 : s.pcs[t]? = some p0) (h : runPC t s p0 = some s') : ∃ l', Inv L s' l' := by
  cases p0 with
  | idle => simp [runPC] at h
  | enqNotify => simp [runPC] at h
  | asleep => simp [runPC] at h
  | enqLock a =>
    simp only [runPC] at h
    split at h <;> simp only [Option.some.injEq, reduceCtorEq] at h
    subst h
    rename_i hl
    exact ⟨l, hI.next h0 (p1 := .enqPush a) (.inr (.inl ⟨hl, rfl, rfl⟩)) hI.rep hI.legal
      (phase_set_silent hI.phase h0 rfl) (by simp) (.inl rfl) (.inr ⟨by simp, by simp [PC.pending]⟩)⟩
  | deqLock =>
    simp only [runPC] at h
    split at h <;> simp only [Option.some.injEq, reduceCtorEq] at h
    subst h
    rename_i hl
    exact ⟨l, hI.next h0 (p1 := .deqCheck) (.inr (.inl ⟨hl, rfl, rfl⟩)) hI.rep hI.legal
      (phase_set_silent hI.phase h0 rfl) (by simp) (.inl rfl) (.inr ⟨by simp, by simp [PC.pending]⟩)⟩
  | woken =>
    simp only [runPC] at h
    split at h <;> simp only [Option.some.injEq, reduceCtorEq] at h
    subst h
    rename_i hl
    exact ⟨l, hI.next h0 (p1 := .deqCheck) (.inr (.inl ⟨hl, rfl, rfl⟩)) hI.rep hI.legal
      (phase_set_silent hI.phase h0 rfl) (by simp) (.inl rfl) (.inr ⟨by simp, by simp [PC.pending]⟩)⟩
  | enqPush a =>
    obtain ⟨q', hq, hr⟩ := L.push a hI.rep
    simp only [runPC, hq, Option.some.injEq] at h
    subst h
    have := capPush_length cap l a
    exact ⟨capPush cap l a, hI.next h0 (p1 := .enqNotify) (.inl ⟨rfl, rfl⟩) hr
      (legal_snoc hI.legal rfl)
      (phase_set hI.phase h0 _ (PhaseStep.push a)) (by simp) (.inr rfl)
      (.inr ⟨by simp, by simp only [PC.pending]; omega⟩)⟩
  | enqUnlock =>
    simp only [runPC, Option.some.injEq] at h
    subst h
    exact ⟨l, hI.next h0 (p1 := .idle) (.inr (.inr ⟨rfl, rfl, rfl⟩)) hI.rep
      (legal_snoc hI.legal rfl)
      (phase_set hI.phase h0 _ PhaseStep.retEnq) (by simp) (.inl rfl) (.inr ⟨by simp, by simp [PC.pending]⟩)⟩
  | deqCheck =>
    have he := L.empty hI.rep
    simp only [runPC] at h
    split at h <;> simp only [Option.some.injEq] at h <;> subst h
    · rename_i hq
      rw [hq] at he
      have hl : l = [] := by simpa using he.symm
      exact ⟨l, hI.next h0 (p1 := .asleep) (.inr (.inr ⟨rfl, rfl, rfl⟩)) hI.rep hI.legal
        (phase_set_silent hI.phase h0 rfl) (by simp) (.inl rfl) (.inl hl)⟩
    · rename_i hq
      have hl : l ≠ [] := by
        intro hl
        rw [he, hl] at hq
        exact hq rfl
      exact ⟨l, hI.next h0 (p1 := .deqPop) (.inl ⟨rfl, rfl⟩) hI.rep hI.legal
        (phase_set_silent hI.phase h0 rfl) (fun _ => hl) (.inl rfl) (.inr ⟨by simp, by simp [PC.pending]⟩)⟩
  | deqPop =>
    have hl := hI.nonempty t h0
    obtain ⟨v, r, rfl⟩ := List.exists_cons_of_ne_nil hl
    obtain ⟨q', hq, hr⟩ := L.pop hI.rep
    simp only [runPC, hq, Option.some.injEq] at h
    subst h
    exact ⟨r, hI.next h0 (p1 := .deqUnlock v) (.inl ⟨rfl, rfl⟩) hr
      (legal_snoc hI.legal ⟨r, rfl, rfl⟩)
      (phase_set hI.phase h0 _ (PhaseStep.pop _)) (by simp) (.inr rfl)
      (.inr ⟨by simp, by simp [PC.pending]⟩)⟩
  | deqUnlock v =>
    simp only [runPC, Option.some.injEq] at h
    subst h
    exact ⟨l, hI.next h0 (p1 := .idle) (.inr (.inr ⟨rfl, rfl, rfl⟩)) hI.rep
      (legal_snoc hI.legal rfl)
      (phase_set hI.phase h0 _ (PhaseStep.retDeq _)) (by simp) (.inl rfl) (.inr ⟨by simp, by simp [PC.pending]⟩)⟩

theorem step_inv {L : Lawful Q cap} {s s' : State Q} {l : List α} (hI : Inv L s l) {a : Act α}
    (h : step s a = some s') : ∃ l', Inv L s' l' := by
  cases a with
  | callEnq t a =>
    simp only [step] at h
    split at h <;> simp only [Option.some.injEq, reduceCtorEq] at h
    subst h
    rename_i h0
    exact ⟨l, hI.next h0 (p1 := .enqLock a) (.inl ⟨rfl, rfl⟩) hI.rep
      (legal_snoc hI.legal rfl)
      (phase_set hI.phase h0 _ (PhaseStep.callEnq a)) (by simp) (.inl rfl) (.inr ⟨by simp, by simp [PC.pending]⟩)⟩
  | callDeq t =>
    simp only [step] at h
    split at h <;> simp only [Option.some.injEq, reduceCtorEq] at h
    subst h
    rename_i h0
    exact ⟨l, hI.next h0 (p1 := .deqLock) (.inl ⟨rfl, rfl⟩) hI.rep
      (legal_snoc hI.legal rfl)
      (phase_set hI.phase h0 _ PhaseStep.callDeq) (by simp) (.inl rfl) (.inr ⟨by simp, by simp [PC.pending]⟩)⟩
  | run t =>
    simp only [step] at h
    split at h
    · rename_i h0; exact run_inv hI h0 h
    · simp at h
  | spurious t =>
    simp only [step] at h
    split at h <;> simp only [Option.some.injEq, reduceCtorEq] at h
    subst h
    rename_i h0
    exact ⟨l, hI.next h0 (p1 := .woken) (.inl ⟨rfl, rfl⟩) hI.rep hI.legal
      (phase_set_silent hI.phase h0 rfl) (by simp) (.inl rfl) (.inr ⟨by simp, by simp [PC.pending]⟩)⟩
  | notify t w =>
    simp only [step] at h
    split at h
    · rename_i h0
      split at h
      · rename_i w
        split at h <;> simp only [Option.some.injEq, reduceCtorEq] at h
        subst h
        rename_i hw
        have hI2 : Inv L (s.goto w .woken) l := hI.next hw (p1 := .woken) (.inl ⟨rfl, rfl⟩) hI.rep hI.legal
          (phase_set_silent hI.phase hw rfl) (by simp) (.inl rfl) (.inr ⟨by simp, by simp [PC.pending]⟩)
        have hne : t ≠ w := by
          rintro rfl
          rw [h0] at hw
          simp at hw
        have h0' : (s.goto w .woken).pcs[t]? = some .enqNotify := by
          show (s.pcs.set w .woken)[t]? = _
          rw [get_set hw, if_neg hne, h0]
        refine ⟨l, ⟨lock_set hI2.lock h0' (.inl ⟨rfl, rfl⟩), owner_set hI2.owner h0' (.inl rfl), hI2.good, hI2.rep,
          hI2.legal, fun u hu => ?_⟩, fun u hu => ?_, phase_set_silent hI2.phase h0' rfl⟩
        · exact hI2.nonempty u (pc_set_other h0' (by simp) hu).2
        · have hu2 := (pc_set_other h0' (by simp) hu).2
          have hu3 := (pc_set_other hw (by simp) hu2).2
          have e1 := hI.wake u hu3
          have e2 := weight_set PC.pending hw .woken
          have e3 := weight_set PC.pending h0' .enqUnlock
          have e4 : (s.goto w .woken).pcs = s.pcs.set w .woken := rfl
          rw [← e4] at e2
          simp only [PC.pending] at e2 e3
          show _ ≤ weight PC.pending ((s.goto w .woken).pcs.set t .enqUnlock)
          omega
      · split at h <;> simp only [Option.some.injEq, reduceCtorEq] at h
        subst h
        rename_i hn
        refine ⟨l, ⟨lock_set hI.lock h0 (.inl ⟨rfl, rfl⟩), owner_set hI.owner h0 (.inl rfl), hI.good, hI.rep,
          hI.legal, fun u hu => ?_⟩, fun u hu => ?_, phase_set_silent hI.phase h0 rfl⟩
        · exact hI.nonempty u (pc_set_other h0 (by simp) hu).2
        · exfalso
          have hu2 := (pc_set_other h0 (by simp) hu).2
          exact hn (List.any_eq_true.mpr ⟨_, List.mem_of_getElem? hu2, rfl⟩)
    · simp at h

theorem exec_inv {L : Lawful Q cap} : ∀ (as : List (Act α)) {s s' : State Q} {l : List α}, Inv L s l →
    exec as s = some s' → ∃ l', Inv L s' l'
  | [], s, s', l, hI, h => by simp only [exec, Option.some.injEq] at h; subst h; exact ⟨l, hI⟩
  | a :: as, s, s', l, hI, h => by
    simp only [exec] at h
    split at h
    · rename_i h1
      obtain ⟨l1, hI1⟩ := step_inv hI h1
      exact exec_inv as hI1 h
    · simp at h

theorem reach_inv (L : Lawful Q cap) {m : Nat} {s : State Q} (h : Reachable Q m s) : ∃ l, Inv L s l := by
  obtain ⟨as, h⟩ := h
  exact exec_inv as (start_inv L m) h

/-! #### Progress -/

/-- how many steps an operation still has to take, at most -/
def PC.fuel : PC α → Nat
  | .idle | .asleep => 0
  | .enqUnlock | .deqUnlock _ => 1
  | .deqPop => 2
  | .deqCheck => 3
  | .woken | .deqLock => 4
  | .enqNotify => 6
  | .enqPush _ => 7
  | .enqLock _ => 8

theorem fuel_step {L : Lawful Q cap} {s s' : State Q} {l : List α} (hI : Core L s l) {a : Act α}
    (ha : (∃ t, a = .run t) ∨ ∃ t w, a = .notify t w) (h : step s a = some s') :
    weight PC.fuel s'.pcs + 1 ≤ weight PC.fuel s.pcs := by
  have key : ∀ {t : Nat} {p0 : PC α} (p1 : PC α), s.pcs[t]? = some p0 → p1.fuel + 1 ≤ p0.fuel →
      weight PC.fuel (s.pcs.set t p1) + 1 ≤ weight PC.fuel s.pcs := by
    intro t p0 p1 h0 hf
    have := weight_set PC.fuel h0 p1
    omega
  rcases ha with ⟨t, rfl⟩ | ⟨t, w, rfl⟩
  · simp only [step] at h
    split at h
    · rename_i p0 h0
      cases p0 with
      | idle => simp [runPC] at h
      | enqNotify => simp [runPC] at h
      | asleep => simp [runPC] at h
      | enqLock a =>
        simp only [runPC] at h
        split at h <;> simp only [Option.some.injEq, reduceCtorEq] at h
        subst h; exact key _ h0 (by simp [PC.fuel])
      | deqLock =>
        simp only [runPC] at h
        split at h <;> simp only [Option.some.injEq, reduceCtorEq] at h
        subst h; exact key _ h0 (by simp [PC.fuel])
      | woken =>
        simp only [runPC] at h
        split at h <;> simp only [Option.some.injEq, reduceCtorEq] at h
        subst h; exact key _ h0 (by simp [PC.fuel])
      | enqPush a =>
        obtain ⟨q', hq, hr⟩ := L.push a hI.rep
        simp only [runPC, hq, Option.some.injEq] at h
        subst h; exact key _ h0 (by simp [PC.fuel])
      | enqUnlock =>
        simp only [runPC, Option.some.injEq] at h
        subst h; exact key _ h0 (by simp [PC.fuel])
      | deqCheck =>
        simp only [runPC] at h
        split at h <;> simp only [Option.some.injEq] at h <;> subst h
        · exact key _ h0 (by simp [PC.fuel])
        · exact key _ h0 (by simp [PC.fuel])
      | deqPop =>
        obtain ⟨v, r, rfl⟩ := List.exists_cons_of_ne_nil (hI.nonempty t h0)
        obtain ⟨q', hq, hr⟩ := L.pop hI.rep
        simp only [runPC, hq, Option.some.injEq] at h
        subst h; exact key _ h0 (by simp [PC.fuel])
      | deqUnlock v =>
        simp only [runPC, Option.some.injEq] at h
        subst h; exact key _ h0 (by simp [PC.fuel])
    · simp at h
  · simp only [step] at h
    split at h
    · rename_i h0
      split at h
      · rename_i w
        split at h <;> simp only [Option.some.injEq, reduceCtorEq] at h
        subst h
        rename_i hw
        have hne : t ≠ w := by
          rintro rfl
          rw [h0] at hw
          simp at hw
        have h0' : (s.pcs.set w .woken)[t]? = some .enqNotify := by
          rw [get_set hw, if_neg hne, h0]
        have e2 := weight_set PC.fuel hw .woken
        have e3 := weight_set PC.fuel h0' .enqUnlock
        simp only [PC.fuel] at e2 e3
        show weight PC.fuel ((s.pcs.set w .woken).set t .enqUnlock) + 1 ≤ _
        omega
      · split at h <;> simp only [Option.some.injEq, reduceCtorEq] at h
        subst h; exact key _ h0 (by simp [PC.fuel])
    · simp at h

/-- if some thread is inside an operation and not asleep, some thread can run -/
theorem progress {L : Lawful Q cap} {s : State Q} {l : List α} (hI : Core L s l) {t : Nat} {p : PC α}
    (h0 : s.pcs[t]? = some p) (hp : p ≠ .idle) (hp2 : p ≠ .asleep) :
    ∃ a s', ((∃ t, a = .run t) ∨ ∃ t w, a = .notify t w) ∧ step s a = some s' := by
  -- the owner of the mutex can run; if there is none, `t` can take it
  have run : ∀ {u : Nat} {p : PC α}, s.pcs[u]? = some p → p.holds = true →
      ∃ a s', ((∃ t, a = .run t) ∨ ∃ t w, a = .notify t w) ∧ step s a = some s' := by
    intro u p hu hh
    cases p with
    | enqPush a =>
      obtain ⟨q', hq, -⟩ := L.push a hI.rep
      exact ⟨.run u, _, .inl ⟨u, rfl⟩, by simp only [step, hu, runPC, hq]; rfl⟩
    | enqNotify =>
      by_cases hs : s.pcs.any PC.isAsleep
      · obtain ⟨x, hx, hx2⟩ := List.any_eq_true.mp hs
        obtain ⟨w, hw⟩ := List.getElem?_of_mem hx
        cases x <;> simp only [PC.isAsleep, reduceCtorEq] at hx2
        exact ⟨.notify u (some w), _, .inr ⟨u, _, rfl⟩, by simp only [step, hu, hw]; rfl⟩
      · exact ⟨.notify u none, _, .inr ⟨u, _, rfl⟩, by simp only [step, hu, hs]; rfl⟩
    | enqUnlock => exact ⟨.run u, _, .inl ⟨u, rfl⟩, by simp only [step, hu, runPC]; rfl⟩
    | deqCheck =>
      by_cases he : Q.empty s.q = true
      · exact ⟨.run u, _, .inl ⟨u, rfl⟩, by simp only [step, hu, runPC, he]; rfl⟩
      · exact ⟨.run u, _, .inl ⟨u, rfl⟩, by simp only [step, hu, runPC, he]; rfl⟩
    | deqPop =>
      obtain ⟨v, r, rfl⟩ := List.exists_cons_of_ne_nil (hI.nonempty u hu)
      obtain ⟨q', hq, hr⟩ := L.pop hI.rep
      exact ⟨.run u, _, .inl ⟨u, rfl⟩, by simp only [step, hu, runPC, hq]; rfl⟩
    | deqUnlock v => exact ⟨.run u, _, .inl ⟨u, rfl⟩, by simp only [step, hu, runPC]; rfl⟩
    | _ => simp [PC.holds] at hh
  cases hl : s.lock with
  | some u =>
    have hu := hI.owner u hl
    have hu2 : s.pcs[u]? = some s.pcs[u] := List.getElem?_eq_getElem hu
    exact run hu2 ((hI.lock _ _ hu2).mpr hl)
  | none =>
    cases p with
    | idle => exact absurd rfl hp
    | asleep => exact absurd rfl hp2
    | enqLock a => exact ⟨.run t, _, .inl ⟨t, rfl⟩, by simp only [step, h0, runPC, hl]; rfl⟩
    | deqLock => exact ⟨.run t, _, .inl ⟨t, rfl⟩, by simp only [step, h0, runPC, hl]; rfl⟩
    | woken => exact ⟨.run t, _, .inl ⟨t, rfl⟩, by simp only [step, h0, runPC, hl]; rfl⟩
    | _ => exact run h0 rfl

theorem step_length {s s' : State Q} {a : Act α} (h : step s a = some s') : s'.pcs.length = s.pcs.length := by
  cases a with
  | run t =>
    simp only [step] at h
    split at h
    · rename_i p _
      cases p <;> simp only [runPC] at h <;> (try split at h) <;>
        simp only [Option.some.injEq, reduceCtorEq] at h <;> subst h <;> simp [State.goto, State.emit]
    · simp at h
  | notify t w =>
    simp only [step] at h
    split at h
    · split at h <;> split at h <;> simp only [Option.some.injEq, reduceCtorEq] at h <;> subst h <;> simp [State.goto]
    · simp at h
  | _ =>
    simp only [step] at h
    split at h <;> simp only [Option.some.injEq, reduceCtorEq] at h
    subst h; simp [State.goto, State.emit]

theorem exec_length : ∀ {as : List (Act α)} {s s' : State Q}, exec as s = some s' → s'.pcs.length = s.pcs.length
  | [], s, s', h => by simp only [exec, Option.some.injEq] at h; rw [h]
  | a :: as, s, s', h => by
    simp only [exec] at h
    split at h
    · rename_i h1; exact (exec_length h).trans (step_length h1)
    · simp at h

/-- steps of operations under way: no new calls, no spurious wake-ups -/
def Act.inner : Act α → Bool
  | .run _ | .notify _ _ => true
  | _ => false

theorem inner_iff (a : Act α) : a.inner = true ↔ (∃ t, a = .run t) ∨ ∃ t w, a = .notify t w := by
  cases a <;> simp [Act.inner]

theorem exec_fuel {L : Lawful Q cap} : ∀ {as : List (Act α)} {s s' : State Q} {l : List α}, Inv L s l →
    (∀ a ∈ as, a.inner = true) → exec as s = some s' → as.length + weight PC.fuel s'.pcs ≤ weight PC.fuel s.pcs
  | [], s, s', l, _, _, h => by simp only [exec, Option.some.injEq] at h; simp [h]
  | a :: as, s, s', l, hI, ha, h => by
    simp only [exec] at h
    split at h
    · rename_i h1
      obtain ⟨l1, hI1⟩ := step_inv hI h1
      have e1 := fuel_step hI.toCore ((inner_iff a).mp (ha a (by simp))) h1
      have e2 := exec_fuel hI1 (fun b hb => ha b (by simp [hb])) h
      simp only [List.length_cons]
      omega
    · simp at h

end Blocking

/-! ### NonBlockingQ -/

namespace NonBlocking

variable {Q : QImpl α} {cap : Option Nat}

/-- the part of an operation a thread is in -/
def PC.phase : PC α → Phase α
  | .idle => .outside
  | .enqLock a | .enqPush a => .enqCalled a
  | .enqUnlock => .enqDone
  | .deqLock | .deqCheck | .deqPop => .deqCalled
  | .deqUnlock v => .deqDone v
  | .emptyRead => .lookCalled
  | .emptyRet b => .lookDone b

/-- the invariant without the phases -/
structure Core (L : Lawful Q cap) (s : State Q) (l : List α) : Prop where
  lock : ∀ (t : Nat) (p : PC α), s.pcs[t]? = some p → (p.holds = true ↔ s.lock = some t)
  owner : ∀ t, s.lock = some t → t < s.pcs.length
  good : s.bad = false
  rep : L.Rep s.q l
  legal : Legal cap (events s.log) [] l
  nonempty : ∀ t : Nat, s.pcs[t]? = some PC.deqPop → l ≠ []

/-- the invariant -/
structure Inv (L : Lawful Q cap) (s : State Q) (l : List α) : Prop extends Core L s l where
  phase : ∀ t : Nat, PhaseRun (ofThread t s.log) (phaseAt PC.phase s.pcs t)

theorem start_inv (L : Lawful Q cap) (m : Nat) : Inv L (start Q m) [] where
  lock := fun t p h => by
    have : p = .idle := by simp [start, List.getElem?_replicate] at h; exact h.2.symm
    subst this; simp [PC.holds, start]
  owner := fun t h => by simp [start] at h
  good := rfl
  rep := L.init
  legal := rfl
  nonempty := fun t h => by simp [start, List.getElem?_replicate] at h
  phase := fun t => by
    have : phaseAt PC.phase (start Q m).pcs t = .outside := by
      simp only [phaseAt, start, List.getElem?_replicate]
      split
      · rename_i h; split at h
        · cases h; rfl
        · simp at h
      · rfl
    rw [this]; exact PhaseRun.nil

/-- only one thread is between lock and unlock -/
theorem Inv.unique {L : Lawful Q cap} {s : State Q} {l : List α} (hI : Inv L s l) {t u : Nat} {p p' : PC α}
    (h1 : s.pcs[t]? = some p) (h2 : s.pcs[u]? = some p') (hp : p.holds = true) (hp' : p'.holds = true) : t = u := by
  have a := (hI.lock _ _ h1).mp hp
  have b := (hI.lock _ _ h2).mp hp'
  rw [a] at b
  exact Option.some.inj b

/-- a step of thread `t` from `p0` to `p1` keeps the invariant -/
theorem Inv.next {L : Lawful Q cap} {s : State Q} {l l' : List α} (hI : Inv L s l) {t : Nat} {p0 p1 : PC α}
    (h0 : s.pcs[t]? = some p0) {k : Option Nat} {q' : Q.St} {log' : List (Nat × Ev α)}
    (hk : (k = s.lock ∧ p1.holds = p0.holds) ∨ (s.lock = none ∧ k = some t ∧ p1.holds = true) ∨
      (p0.holds = true ∧ k = none ∧ p1.holds = false))
    (hrep : L.Rep q' l') (hlegal : Legal cap (events log') [] l')
    (hphase : ∀ u : Nat, PhaseRun (ofThread u log') (phaseAt PC.phase (s.pcs.set t p1) u))
    (hpop : p1 = .deqPop → l' ≠ []) (hkeep : l' = l ∨ p0.holds = true) :
    Inv L ⟨s.pcs.set t p1, k, q', s.bad, log'⟩ l' where
  lock := lock_set hI.lock h0 hk
  owner := owner_set hI.owner h0 (by
    rcases hk with ⟨h, _⟩ | ⟨_, h, _⟩ | ⟨_, h, _⟩ <;> simp [h])
  good := hI.good
  rep := hrep
  legal := hlegal
  nonempty := fun u h => by
    by_cases hp : p1 = .deqPop
    · exact hpop hp
    · obtain ⟨hu, h⟩ := pc_set_other h0 hp h
      rcases hkeep with rfl | hh
      · exact hI.nonempty u h
      · exact absurd (hI.unique h h0 rfl hh) hu
  phase := hphase

theorem run_inv {L : Lawful Q cap} {s s' : State Q} {l : List α} (hI : Inv L s l) {t : Nat} {p0 : PC α}
    (h0 : s.pcs[t]? = some p0) (h : runPC t s p0 = some s') : ∃ l', Inv L s' l' := by
  cases p0 with
  | idle => simp [runPC] at h
  | enqLock a =>
    simp only [runPC] at h
    split at h <;> simp only [Option.some.injEq, reduceCtorEq] at h
    subst h
    rename_i hl
    exact ⟨l, hI.next h0 (p1 := .enqPush a) (.inr (.inl ⟨hl, rfl, rfl⟩)) hI.rep hI.legal
      (phase_set_silent hI.phase h0 rfl) (by simp) (.inl rfl)⟩
  | deqLock =>
    simp only [runPC] at h
    split at h <;> simp only [Option.some.injEq, reduceCtorEq] at h
    subst h
    rename_i hl
    exact ⟨l, hI.next h0 (p1 := .deqCheck) (.inr (.inl ⟨hl, rfl, rfl⟩)) hI.rep hI.legal
      (phase_set_silent hI.phase h0 rfl) (by simp) (.inl rfl)⟩
  | enqPush a =>
    obtain ⟨q', hq, hr⟩ := L.push a hI.rep
    simp only [runPC, hq, Option.some.injEq] at h
    subst h
    exact ⟨capPush cap l a, hI.next h0 (p1 := .enqUnlock) (.inl ⟨rfl, rfl⟩) hr
      (legal_snoc hI.legal rfl)
      (phase_set hI.phase h0 _ (PhaseStep.push a)) (by simp) (.inr rfl)⟩
  | enqUnlock =>
    simp only [runPC, Option.some.injEq] at h
    subst h
    exact ⟨l, hI.next h0 (p1 := .idle) (.inr (.inr ⟨rfl, rfl, rfl⟩)) hI.rep
      (legal_snoc hI.legal rfl)
      (phase_set hI.phase h0 _ PhaseStep.retEnq) (by simp) (.inl rfl)⟩
  | deqCheck =>
    have he := L.empty hI.rep
    simp only [runPC] at h
    split at h <;> simp only [Option.some.injEq] at h <;> subst h
    · rename_i hq
      rw [hq] at he
      have hl : l = [] := by simpa using he.symm
      exact ⟨l, hI.next h0 (p1 := .deqUnlock none) (.inl ⟨rfl, rfl⟩) hI.rep
        (legal_snoc hI.legal ⟨hl, rfl⟩)
        (phase_set hI.phase h0 _ (PhaseStep.pop none)) (by simp) (.inl rfl)⟩
    · rename_i hq
      have hl : l ≠ [] := by
        intro hl
        rw [he, hl] at hq
        exact hq rfl
      exact ⟨l, hI.next h0 (p1 := .deqPop) (.inl ⟨rfl, rfl⟩) hI.rep hI.legal
        (phase_set_silent hI.phase h0 rfl) (fun _ => hl) (.inl rfl)⟩
  | deqPop =>
    have hl := hI.nonempty t h0
    obtain ⟨v, r, rfl⟩ := List.exists_cons_of_ne_nil hl
    obtain ⟨q', hq, hr⟩ := L.pop hI.rep
    simp only [runPC, hq, Option.some.injEq] at h
    subst h
    exact ⟨r, hI.next h0 (p1 := .deqUnlock (some v)) (.inl ⟨rfl, rfl⟩) hr
      (legal_snoc hI.legal ⟨r, rfl, rfl⟩)
      (phase_set hI.phase h0 _ (PhaseStep.pop _)) (by simp) (.inr rfl)⟩
  | deqUnlock v =>
    simp only [runPC, Option.some.injEq] at h
    subst h
    exact ⟨l, hI.next h0 (p1 := .idle) (.inr (.inr ⟨rfl, rfl, rfl⟩)) hI.rep
      (legal_snoc hI.legal rfl)
      (phase_set hI.phase h0 _ (PhaseStep.retDeq _)) (by simp) (.inl rfl)⟩
  | emptyRead =>
    simp only [runPC, Option.some.injEq] at h
    subst h
    exact ⟨l, hI.next h0 (p1 := .emptyRet _) (.inl ⟨rfl, rfl⟩) hI.rep
      (legal_snoc hI.legal ⟨L.empty hI.rep, rfl⟩)
      (phase_set hI.phase h0 _ (PhaseStep.look _)) (by simp) (.inl rfl)⟩
  | emptyRet b =>
    simp only [runPC, Option.some.injEq] at h
    subst h
    exact ⟨l, hI.next h0 (p1 := .idle) (.inl ⟨rfl, rfl⟩) hI.rep
      (legal_snoc hI.legal rfl)
      (phase_set hI.phase h0 _ (PhaseStep.retLook _)) (by simp) (.inl rfl)⟩

theorem step_inv {L : Lawful Q cap} {s s' : State Q} {l : List α} (hI : Inv L s l) {a : Act α}
    (h : step s a = some s') : ∃ l', Inv L s' l' := by
  cases a with
  | callEnq t a =>
    simp only [step] at h
    split at h <;> simp only [Option.some.injEq, reduceCtorEq] at h
    subst h
    rename_i h0
    exact ⟨l, hI.next h0 (p1 := .enqLock a) (.inl ⟨rfl, rfl⟩) hI.rep
      (legal_snoc hI.legal rfl)
      (phase_set hI.phase h0 _ (PhaseStep.callEnq a)) (by simp) (.inl rfl)⟩
  | callDeq t =>
    simp only [step] at h
    split at h <;> simp only [Option.some.injEq, reduceCtorEq] at h
    subst h
    rename_i h0
    exact ⟨l, hI.next h0 (p1 := .deqLock) (.inl ⟨rfl, rfl⟩) hI.rep
      (legal_snoc hI.legal rfl)
      (phase_set hI.phase h0 _ PhaseStep.callDeq) (by simp) (.inl rfl)⟩
  | callEmpty t =>
    simp only [step] at h
    split at h <;> simp only [Option.some.injEq, reduceCtorEq] at h
    subst h
    rename_i h0
    exact ⟨l, hI.next h0 (p1 := .emptyRead) (.inl ⟨rfl, rfl⟩) hI.rep
      (legal_snoc hI.legal rfl)
      (phase_set hI.phase h0 _ PhaseStep.callLook) (by simp) (.inl rfl)⟩
  | run t =>
    simp only [step] at h
    split at h
    · rename_i h0; exact run_inv hI h0 h
    · simp at h

theorem exec_inv {L : Lawful Q cap} : ∀ (as : List (Act α)) {s s' : State Q} {l : List α}, Inv L s l →
    exec as s = some s' → ∃ l', Inv L s' l'
  | [], s, s', l, hI, h => by simp only [exec, Option.some.injEq] at h; subst h; exact ⟨l, hI⟩
  | a :: as, s, s', l, hI, h => by
    simp only [exec] at h
    split at h
    · rename_i h1
      obtain ⟨l1, hI1⟩ := step_inv hI h1
      exact exec_inv as hI1 h
    · simp at h

theorem reach_inv (L : Lawful Q cap) {m : Nat} {s : State Q} (h : Reachable Q m s) : ∃ l, Inv L s l := by
  obtain ⟨as, h⟩ := h
  exact exec_inv as (start_inv L m) h

/-! #### Progress -/

/-- how many steps an operation still has to take, at most -/
def PC.fuel : PC α → Nat
  | .idle => 0
  | .enqUnlock | .deqUnlock _ | .emptyRet _ => 1
  | .deqPop | .enqPush _ | .emptyRead => 2
  | .deqCheck | .enqLock _ => 3
  | .deqLock => 4

theorem fuel_step {L : Lawful Q cap} {s s' : State Q} {l : List α} (hI : Core L s l) {t : Nat}
    (h : step s (.run t) = some s') : weight PC.fuel s'.pcs + 1 ≤ weight PC.fuel s.pcs := by
  have key : ∀ {t : Nat} {p0 : PC α} (p1 : PC α), s.pcs[t]? = some p0 → p1.fuel + 1 ≤ p0.fuel →
      weight PC.fuel (s.pcs.set t p1) + 1 ≤ weight PC.fuel s.pcs := by
    intro t p0 p1 h0 hf
    have := weight_set PC.fuel h0 p1
    omega
  simp only [step] at h
  split at h
  · rename_i p0 h0
    cases p0 with
    | idle => simp [runPC] at h
    | enqLock a =>
      simp only [runPC] at h
      split at h <;> simp only [Option.some.injEq, reduceCtorEq] at h
      subst h; exact key _ h0 (by simp [PC.fuel])
    | deqLock =>
      simp only [runPC] at h
      split at h <;> simp only [Option.some.injEq, reduceCtorEq] at h
      subst h; exact key _ h0 (by simp [PC.fuel])
    | enqPush a =>
      obtain ⟨q', hq, hr⟩ := L.push a hI.rep
      simp only [runPC, hq, Option.some.injEq] at h
      subst h; exact key _ h0 (by simp [PC.fuel])
    | deqCheck =>
      simp only [runPC] at h
      split at h <;> simp only [Option.some.injEq] at h <;> subst h
      · exact key _ h0 (by simp [PC.fuel])
      · exact key _ h0 (by simp [PC.fuel])
    | deqPop =>
      obtain ⟨v, r, rfl⟩ := List.exists_cons_of_ne_nil (hI.nonempty t h0)
      obtain ⟨q', hq, hr⟩ := L.pop hI.rep
      simp only [runPC, hq, Option.some.injEq] at h
      subst h; exact key _ h0 (by simp [PC.fuel])
    | _ =>
      simp only [runPC, Option.some.injEq] at h
      subst h; exact key _ h0 (by simp [PC.fuel])
  · simp at h

/-- if some thread is inside an operation, some thread can run -/
theorem progress {L : Lawful Q cap} {s : State Q} {l : List α} (hI : Core L s l) {t : Nat} {p : PC α}
    (h0 : s.pcs[t]? = some p) (hp : p ≠ .idle) : ∃ u s', step s (.run u) = some s' := by
  have run : ∀ {u : Nat} {p : PC α}, s.pcs[u]? = some p → p.holds = true → ∃ u s', step s (.run u) = some s' := by
    intro u p hu hh
    cases p with
    | enqPush a =>
      obtain ⟨q', hq, -⟩ := L.push a hI.rep
      exact ⟨u, _, by simp only [step, hu, runPC, hq]; rfl⟩
    | enqUnlock => exact ⟨u, _, by simp only [step, hu, runPC]; rfl⟩
    | deqCheck =>
      by_cases he : Q.empty s.q = true
      · exact ⟨u, _, by simp only [step, hu, runPC, he]; rfl⟩
      · exact ⟨u, _, by simp only [step, hu, runPC, he]; rfl⟩
    | deqPop =>
      obtain ⟨v, r, rfl⟩ := List.exists_cons_of_ne_nil (hI.nonempty u hu)
      obtain ⟨q', hq, hr⟩ := L.pop hI.rep
      exact ⟨u, _, by simp only [step, hu, runPC, hq]; rfl⟩
    | deqUnlock v => exact ⟨u, _, by simp only [step, hu, runPC]; rfl⟩
    | _ => simp [PC.holds] at hh
  cases hl : s.lock with
  | some u =>
    have hu := hI.owner u hl
    have hu2 : s.pcs[u]? = some s.pcs[u] := List.getElem?_eq_getElem hu
    exact run hu2 ((hI.lock _ _ hu2).mpr hl)
  | none =>
    cases p with
    | idle => exact absurd rfl hp
    | enqLock a => exact ⟨t, _, by simp only [step, h0, runPC, hl]; rfl⟩
    | deqLock => exact ⟨t, _, by simp only [step, h0, runPC, hl]; rfl⟩
    | emptyRead => exact ⟨t, _, by simp only [step, h0, runPC]; rfl⟩
    | emptyRet b => exact ⟨t, _, by simp only [step, h0, runPC]; rfl⟩
    | _ => exact run h0 rfl

theorem step_length {s s' : State Q} {a : Act α} (h : step s a = some s') : s'.pcs.length = s.pcs.length := by
  cases a with
  | run t =>
    simp only [step] at h
    split at h
    · rename_i p _
      cases p <;> simp only [runPC] at h <;> (try split at h) <;>
        simp only [Option.some.injEq, reduceCtorEq] at h <;> subst h <;> simp [State.goto, State.emit]
    · simp at h
  | _ =>
    simp only [step] at h
    split at h <;> simp only [Option.some.injEq, reduceCtorEq] at h
    subst h; simp [State.goto, State.emit]

theorem exec_length : ∀ {as : List (Act α)} {s s' : State Q}, exec as s = some s' → s'.pcs.length = s.pcs.length
  | [], s, s', h => by simp only [exec, Option.some.injEq] at h; rw [h]
  | a :: as, s, s', h => by
    simp only [exec] at h
    split at h
    · rename_i h1; exact (exec_length h).trans (step_length h1)
    · simp at h

theorem exec_fuel {L : Lawful Q cap} : ∀ {as : List (Act α)} {s s' : State Q} {l : List α}, Inv L s l →
    (∀ a ∈ as, ∃ t, a = .run t) → exec as s = some s' → as.length + weight PC.fuel s'.pcs ≤ weight PC.fuel s.pcs
  | [], s, s', l, _, _, h => by simp only [exec, Option.some.injEq] at h; simp [h]
  | a :: as, s, s', l, hI, ha, h => by
    simp only [exec] at h
    split at h
    · rename_i h1
      obtain ⟨l1, hI1⟩ := step_inv hI h1
      obtain ⟨t, rfl⟩ := ha a (by simp)
      have e1 := fuel_step hI.toCore h1
      have e2 := exec_fuel hI1 (fun b hb => ha b (by simp [hb])) h
      simp only [List.length_cons]
      omega
    · simp at h

end NonBlocking

end Conc
end Efp
