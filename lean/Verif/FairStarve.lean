import Verif.FairBlocking
import Verif.FairNonBlocking
import Verif.FairDoubleBuffer

/-!
# Fair executions in which a call never returns, and counting of dequeues
-/

namespace Efp
namespace Fair

open Spec Conc

variable {α : Type}

theorem returned_append (o : CallName) (t : Nat) (l l' : List (Nat × Ev α)) : returned o t l ≤ returned o t (l ++ l') := by
  simp [returned, ofThread, List.filterMap_append, List.countP_append]

/-- in a schedule that repeats, a count that is zero after every round is always zero -/
theorem never_returned {S A X : Type} {step : S → A → Option S} {s0 : S} {pre per : List A} {a : A} {log : S → List (Nat × Ev α)}
    (hlog : ∀ s a s', step s a = some s' → ∃ l, log s' = log s ++ l) (F : X → S) (Good : X → Nat → Prop) (hper : 0 < per.length)
    (hk : ∀ k, ∃ x, run step s0 (periodic pre per a) (pre.length + per.length * k) = F x ∧ Good x k) {o : CallName} {t : Nat}
    (hz : ∀ x k, Good x k → returned o t (log (F x)) = 0) (j : Nat) :
    returned o t (log (run step s0 (periodic pre per a) j)) = 0 := by
  obtain ⟨x, hx, hg⟩ := hk j
  have hj : j ≤ pre.length + per.length * j := by
    have := Nat.le_mul_of_pos_left j hper
    omega
  obtain ⟨l, hl⟩ := log_mono (s0 := s0) (sch := periodic pre per a) hlog j (pre.length + per.length * j - j)
  rw [Nat.add_sub_cancel' hj, hx] at hl
  have h1 := hz x j hg
  rw [hl] at h1
  have h2 := returned_append o t (log (run step s0 (periodic pre per a) j)) l
  omega

/-! ### One consumer -/

/-- is a dequeue under way that has not taken effect? -/
def deqOpen : Phase α → Nat
  | .deqCalled => 1
  | _ => 0

theorem phase_pops {es : List (Ev α)} {p : Phase α} (h : PhaseRun es p) :
    (pops es).length + deqOpen p ≤ es.countP (fun e => callOf e == some .dequeue) := by
  induction h with
  | nil => simp [pops, deqOpen]
  | @snoc es p p' e hr hs ih =>
    have e1 : pops (es ++ [e]) = pops es ++ pops [e] := by simp [pops, List.filterMap_append]
    rw [e1, List.length_append, List.countP_append]
    cases hs with
    | pop o => cases o <;> simp [pops, callOf, deqOpen] at ih ⊢ <;> omega
    | _ => simp [pops, callOf, deqOpen] at ih ⊢ <;> omega

theorem pops_one {t : Nat} : ∀ {log : List (Nat × Ev α)}, (∀ u, u ≠ t → pops (ofThread u log) = []) →
    pops (events log) = pops (ofThread t log)
  | [], _ => rfl
  | (u, e) :: log, h => by
    have ih := pops_one (t := t) (log := log) fun v hv => by
      have := h v hv
      by_cases hu : u = v
      · simp only [ofThread, List.filterMap_cons, hu, if_true] at this
        simp only [pops, List.filterMap_cons] at this
        split at this
        · exact this
        · simp at this
      · simpa only [ofThread, List.filterMap_cons, hu, if_false] using this
    have e1 : events ((u, e) :: log) = e :: events log := rfl
    by_cases hu : u = t
    · have e2 : ofThread t ((u, e) :: log) = e :: ofThread t log := by simp [ofThread, hu]
      rw [e1, e2]
      simp only [pops, List.filterMap_cons] at ih ⊢
      rw [ih]
    · have e2 : ofThread t ((u, e) :: log) = ofThread t log := by simp [ofThread, hu]
      have e3 : ofThread u ((u, e) :: log) = e :: ofThread u log := by simp [ofThread]
      have := h u hu
      rw [e3] at this
      rw [e1, e2, ← ih]
      simp only [pops, List.filterMap_cons] at this ⊢
      split at this
      · rfl
      · simp at this

/-- if one thread consumes, and enough is enqueued, its calls return -/
theorem single_consumer {m : Nat} {sch : Nat → Blocking.Act α}
    (hf : StrongFair Blocking.step Blocking.Act.of (Blocking.start (stdQ α) m) sch) (t : Nat)
    (hone : ∀ j u, u ≠ t → called .dequeue u (run Blocking.step (Blocking.start (stdQ α) m) sch j).log = 0)
    (hmany : ∀ i, ∃ j, called .dequeue t (run Blocking.step (Blocking.start (stdQ α) m) sch i).log ≤
      (pushes (events (run Blocking.step (Blocking.start (stdQ α) m) sch j).log)).length) :
    AllReturn (fun i => (run Blocking.step (Blocking.start (stdQ α) m) sch i).log) .dequeue t := by
  intro i
  rcases infOften_or_never (fun j => called .dequeue t (run Blocking.step (Blocking.start (stdQ α) m) sch i).log ≤
    returned .dequeue t (run Blocking.step (Blocking.start (stdQ α) m) sch j).log) 0 with ⟨j, _, h⟩ | h
  · exact ⟨j, h⟩
  exfalso
  have hno : ∀ j, returned .dequeue t (run Blocking.step (Blocking.start (stdQ α) m) sch j).log <
      called .dequeue t (run Blocking.step (Blocking.start (stdQ α) m) sch i).log := fun j => by
    have := h j (Nat.zero_le _); omega
  obtain ⟨k, hk⟩ := hmany i
  obtain ⟨j, hj, he⟩ := Blocking.dequeue_returns (stdLawful α) hf t i hno (max i k)
  have h1 : pushes (events (run Blocking.step (Blocking.start (stdQ α) m) sch j).log) =
      pops (events (run Blocking.step (Blocking.start (stdQ α) m) sch j).log) := by simpa using legal_none he
  obtain ⟨l, hI⟩ := Blocking.run_inv' (m := m) (sch := sch) (stdLawful α) j
  have h2 := pops_one (t := t) (log := (run Blocking.step (Blocking.start (stdQ α) m) sch j).log) fun u hu => by
    have h3 := phase_pops (hI.phase u)
    have h4 := hone j u hu
    simp only [called] at h4
    exact List.length_eq_zero_iff.mp (by omega)
  have h3 := phase_pops (hI.phase t)
  obtain ⟨ll, hll⟩ := log_mono (s0 := Blocking.start (stdQ α) m) (sch := sch) (log := Blocking.State.log)
    (fun s a s' => Blocking.step_log) k (j - k)
  rw [Nat.add_sub_cancel' (by omega)] at hll
  have h4 : (pushes (events (run Blocking.step (Blocking.start (stdQ α) m) sch k).log)).length ≤
      (pushes (events (run Blocking.step (Blocking.start (stdQ α) m) sch j).log)).length := by
    rw [hll]; simp [pushes, events, List.filterMap_append]
  have h5 := Blocking.inside (m := m) (sch := sch) (stdLawful α) t j .dequeue
  have h6 := hno j
  have h7 := Blocking.called_mono (m := m) (sch := sch) (Q := stdQ α) (show i ≤ j by omega) .dequeue t
  have h8 : Fair.phaseOp (phaseAt Blocking.PC.phase (run Blocking.step (Blocking.start (stdQ α) m) sch j).pcs t) = some .dequeue :=
    Decidable.byContradiction fun hc => by simp only [hc, if_false] at h5; omega
  simp only [h8, if_true] at h5
  have h9 : called .dequeue t (run Blocking.step (Blocking.start (stdQ α) m) sch j).log =
    (ofThread t (run Blocking.step (Blocking.start (stdQ α) m) sch j).log).countP (fun e => callOf e == some .dequeue) := rfl
  have hlen : (pops (events (run Blocking.step (Blocking.start (stdQ α) m) sch j).log)).length =
      (pops (ofThread t (run Blocking.step (Blocking.start (stdQ α) m) sch j).log)).length := by rw [h2]
  rw [← h9] at h3
  rw [h1] at h4
  cases hp : (run Blocking.step (Blocking.start (stdQ α) m) sch j).pcs[t]? with
  | none => simp [phaseAt, hp, Fair.phaseOp] at h8
  | some p =>
    rw [phaseAt_some hp] at h8 h3
    cases p with
    | deqUnlock v =>
      obtain ⟨j', p', l', hjj, _, _, _, _, h10, h11⟩ := Blocking.goes_on (stdLawful α) hf (.inl rfl) hp
      cases h11
      have := Blocking.idle_returned (stdLawful α) (show i ≤ j' + 1 by omega) h10 .dequeue
      have := hno (j' + 1)
      omega
    | _ => first
      | (simp [Blocking.PC.phase, Fair.phaseOp] at h8; done)
      | (simp only [Blocking.PC.phase, deqOpen] at h3; omega)

/-! ### BlockingQ: an enqueue starves if the mutex is not fair -/

namespace StarveEnq

def pre : List (Blocking.Act Nat) := [.callEnq 0 1]
def per : List (Blocking.Act Nat) := [.callEnq 1 7, .run 1, .run 0, .run 1, .notify 1 none, .run 1]
def sch : Nat → Blocking.Act Nat := periodic pre per (.run 0)
def F (x : List Nat × List (Nat × Ev Nat)) : Blocking.State (stdQ Nat) := ⟨[.enqLock 1, .idle], none, x.1, false, x.2⟩
def Good (x : List Nat × List (Nat × Ev Nat)) (_ : Nat) : Prop := called .enqueue 0 x.2 = 1 ∧ returned .enqueue 0 x.2 = 0

theorem rounds : ∀ k, ∃ x, run Blocking.step (Blocking.start (stdQ Nat) 2) (periodic pre per (.run 0))
    (pre.length + per.length * k) = F x ∧ Good x k :=
  periodic_run F Good ⟨([], [(0, .callEnq 1)]), rfl, by decide, by decide⟩ (by
    rintro ⟨q, L⟩ k ⟨h1, h2⟩
    refine ⟨(q ++ [7], L ++ [(1, .callEnq 7)] ++ [(1, .push 7)] ++ [(1, .retEnq)]), rfl, ?_, ?_⟩
    · simpa [called, ofThread, List.filterMap_append] using h1
    · simpa [returned, ofThread, List.filterMap_append] using h2)

theorem starves : WeakFair Blocking.step Blocking.Act.of (Blocking.start (stdQ Nat) 2) sch ∧
    ¬ AllReturn (fun i => (run Blocking.step (Blocking.start (stdQ Nat) 2) sch i).log) .enqueue 0 := by
  constructor
  · intro t n hc
    by_cases ht : t = 1
    · subst ht
      exact periodic_often (Q := fun s a => Blocking.Act.of a = some 1 ∧ Blocking.step s a ≠ none) F Good (by decide) rounds 1 (by decide)
        (fun x k _ => ⟨rfl, by simp [go, F, per, Blocking.step, Blocking.State.goto, Blocking.State.emit, Blocking.runPC]⟩)
    · exfalso
      have := periodic_often (Q := fun s _ => s.lock = some 1 ∧ s.pcs = [.enqLock 1, .enqPush 7]) F Good (by decide) rounds 2 (by decide)
        (fun x k _ => ⟨rfl, rfl⟩) n
      obtain ⟨i, hi, h1, h2⟩ := this
      obtain ⟨a, ha, hs⟩ := hc i hi
      apply hs
      show Blocking.step (run Blocking.step (Blocking.start (stdQ Nat) 2) (periodic pre per (.run 0)) i) a = none
      generalize run Blocking.step (Blocking.start (stdQ Nat) 2) (periodic pre per (.run 0)) i = s at h1 h2
      cases a with
      | run u =>
        simp only [Blocking.Act.of, Option.some.injEq] at ha
        subst ha
        match u with
        | 0 => simp [Blocking.step, h2, Blocking.runPC, h1]
        | 1 => exact absurd rfl ht
        | u + 2 => simp [Blocking.step, h2]
      | notify u w =>
        simp only [Blocking.Act.of, Option.some.injEq] at ha
        subst ha
        match u with
        | 0 => simp [Blocking.step, h2]
        | 1 => exact absurd rfl ht
        | u + 2 => simp [Blocking.step, h2]
      | _ => simp [Blocking.Act.of] at ha
  · intro h
    obtain ⟨j, hj⟩ := h 1
    have h1 : called .enqueue 0 (run Blocking.step (Blocking.start (stdQ Nat) 2) sch 1).log = 1 := by decide
    have h2 := never_returned (log := Blocking.State.log) (fun s a s' => Blocking.step_log) F Good (by decide) rounds
      (fun x k hg => hg.2) j
    have h3 : returned .enqueue 0 (run Blocking.step (Blocking.start (stdQ Nat) 2) sch j).log = 0 := h2
    simp only at hj
    omega

end StarveEnq

/-! ### BlockingQ: a dequeue starves even if the mutex is fair -/

namespace StarveDeq

def pre : List (Blocking.Act Nat) := [.callDeq 0, .run 0, .run 0]
def per : List (Blocking.Act Nat) := [.callDeq 2, .run 2, .run 2, .callEnq 1 7, .run 1, .run 1, .notify 1 (some 2), .run 1,
  .run 2, .run 2, .run 2, .run 2]
def sch : Nat → Blocking.Act Nat := periodic pre per (.run 0)
def F (x : List (Nat × Ev Nat)) : Blocking.State (stdQ Nat) := ⟨[.asleep, .idle, .idle], none, [], false, x⟩
def Good (x : List (Nat × Ev Nat)) (k : Nat) : Prop :=
  called .dequeue 0 x = 1 ∧ returned .dequeue 0 x = 0 ∧ (pushes (events x)).length = k

theorem rounds : ∀ k, ∃ x, run Blocking.step (Blocking.start (stdQ Nat) 3) (periodic pre per (.run 0))
    (pre.length + per.length * k) = F x ∧ Good x k :=
  periodic_run F Good ⟨[(0, .callDeq)], rfl, by decide, by decide, by decide⟩ (by
    rintro L k ⟨h1, h2, h3⟩
    refine ⟨L ++ [(2, .callDeq)] ++ [(1, .callEnq 7)] ++ [(1, .push 7)] ++ [(1, .retEnq)] ++ [(2, .pop (some 7))] ++
      [(2, .retDeq (some 7))], by simp [go, per, F, Blocking.step, Blocking.runPC, Blocking.State.goto, Blocking.State.emit],
      ?_, ?_, ?_⟩
    · simpa [called, ofThread, List.filterMap_append] using h1
    · simpa [returned, ofThread, List.filterMap_append] using h2
    · simpa [pushes, events, List.filterMap_append] using h3)

theorem asleep (x : List (Nat × Ev Nat)) : ∀ d, d < per.length →
    (go Blocking.step (per.take d) (F x)).pcs[0]? = some .asleep ∧ (go Blocking.step (per.take d) (F x)).pcs.length = 3 := by
  intro d hd
  match d, hd with
  | 0, _ | 1, _ | 2, _ | 3, _ | 4, _ | 5, _ | 6, _ | 7, _ | 8, _ | 9, _ | 10, _ | 11, _ => exact ⟨rfl, rfl⟩

theorem starves : StrongFair Blocking.step Blocking.Act.of (Blocking.start (stdQ Nat) 3) sch ∧
    (∀ n, ∃ j, n ≤ (pushes (events (run Blocking.step (Blocking.start (stdQ Nat) 3) sch j).log)).length) ∧
    ¬ AllReturn (fun i => (run Blocking.step (Blocking.start (stdQ Nat) 3) sch i).log) .dequeue 0 := by
  refine ⟨?_, ?_, ?_⟩
  · intro t hc
    by_cases h1 : t = 1
    · subst h1
      exact periodic_often (Q := fun s a => Blocking.Act.of a = some 1 ∧ Blocking.step s a ≠ none) F Good (by decide) rounds 4 (by decide)
        (fun x k _ => ⟨rfl, by simp [go, F, per, Blocking.step, Blocking.State.goto, Blocking.State.emit, Blocking.runPC]⟩)
    by_cases h2 : t = 2
    · subst h2
      exact periodic_often (Q := fun s a => Blocking.Act.of a = some 2 ∧ Blocking.step s a ≠ none) F Good (by decide) rounds 1 (by decide)
        (fun x k _ => ⟨rfl, by simp [go, F, per, Blocking.step, Blocking.State.goto, Blocking.State.emit, Blocking.runPC]⟩)
    exfalso
    obtain ⟨i, hi, a, ha, hs⟩ := hc 3
    obtain ⟨x, d, hd, _, he⟩ := periodic_at F Good (by decide) rounds (show pre.length ≤ i from hi)
    obtain ⟨h3, h4⟩ := asleep x d hd
    rw [← he] at h3 h4
    apply hs
    show Blocking.step (run Blocking.step (Blocking.start (stdQ Nat) 3) (periodic pre per (.run 0)) i) a = none
    generalize run Blocking.step (Blocking.start (stdQ Nat) 3) (periodic pre per (.run 0)) i = s at h3 h4
    have hout : ∀ u : Nat, s.pcs[u + 3]? = none := fun u => List.getElem?_eq_none (by omega)
    cases a with
    | run u =>
      simp only [Blocking.Act.of, Option.some.injEq] at ha
      subst ha
      match u with
      | 0 => simp [Blocking.step, h3, Blocking.runPC]
      | 1 => exact absurd rfl h1
      | 2 => exact absurd rfl h2
      | u + 3 => simp [Blocking.step, hout u]
    | notify u w =>
      simp only [Blocking.Act.of, Option.some.injEq] at ha
      subst ha
      match u with
      | 0 => simp [Blocking.step, h3]
      | 1 => exact absurd rfl h1
      | 2 => exact absurd rfl h2
      | u + 3 => simp [Blocking.step, hout u]
    | _ => simp [Blocking.Act.of] at ha
  · intro n
    obtain ⟨x, hx, hg⟩ := rounds n
    refine ⟨pre.length + per.length * n, ?_⟩
    show n ≤ (pushes (events (run Blocking.step (Blocking.start (stdQ Nat) 3) (periodic pre per (.run 0)) _).log)).length
    rw [hx]
    exact Nat.le_of_eq hg.2.2.symm
  · intro h
    obtain ⟨j, hj⟩ := h 1
    have h1 : called .dequeue 0 (run Blocking.step (Blocking.start (stdQ Nat) 3) sch 1).log = 1 := by decide
    have h2 := never_returned (log := Blocking.State.log) (fun s a s' => Blocking.step_log) F Good (by decide) rounds
      (fun x k hg => hg.2.1) j
    have h3 : returned .dequeue 0 (run Blocking.step (Blocking.start (stdQ Nat) 3) sch j).log = 0 := h2
    simp only at hj
    omega

end StarveDeq

/-! ### BlockingQ: one producer and one consumer -/

namespace Pair

def per : List (Blocking.Act Nat) := [.callDeq 1, .run 1, .run 1, .callEnq 0 7, .run 0, .run 0, .notify 0 (some 1), .run 0,
  .run 1, .run 1, .run 1, .run 1]
def sch : Nat → Blocking.Act Nat := periodic [] per (.run 0)
def F (x : List (Nat × Ev Nat)) : Blocking.State (stdQ Nat) := ⟨[.idle, .idle], none, [], false, x⟩
def Good (x : List (Nat × Ev Nat)) (k : Nat) : Prop :=
  called .dequeue 1 x = k ∧ (pushes (events x)).length = k ∧ ∀ u, u ≠ 1 → called .dequeue u x = 0

theorem rounds : ∀ k, ∃ x, run Blocking.step (Blocking.start (stdQ Nat) 2) (periodic [] per (.run 0))
    (([] : List (Blocking.Act Nat)).length + per.length * k) = F x ∧ Good x k :=
  periodic_run F Good ⟨[], rfl, by decide, by decide, fun u _ => rfl⟩ (by
    rintro L k ⟨h1, h2, h3⟩
    refine ⟨L ++ [(1, .callDeq)] ++ [(0, .callEnq 7)] ++ [(0, .push 7)] ++ [(0, .retEnq)] ++ [(1, .pop (some 7))] ++
      [(1, .retDeq (some 7))], by simp [go, per, F, Blocking.step, Blocking.runPC, Blocking.State.goto, Blocking.State.emit],
      ?_, ?_, ?_⟩
    · simpa [called, ofThread, List.filterMap_append, callOf, List.countP_append] using h1
    · simpa [pushes, events, List.filterMap_append] using h2
    · intro u hu
      have := h3 u hu
      have hu' : ¬ 1 = u := fun h => hu h.symm
      by_cases h0 : 0 = u
      · subst h0; simpa [called, ofThread, List.filterMap_append, callOf, List.countP_append] using this
      · simpa [called, ofThread, List.filterMap_append, hu', h0] using this)

theorem called_le {l l' l'' : List (Nat × Ev Nat)} (h : l' = l ++ l'') (o : CallName) (t : Nat) : called o t l ≤ called o t l' := by
  rw [h]; exact called_append _ _ _ _

theorem later (j : Nat) : ∃ x, Good x j ∧ ∀ o t, called o t (run Blocking.step (Blocking.start (stdQ Nat) 2) sch j).log ≤ called o t x := by
  obtain ⟨x, hx, hg⟩ := rounds j
  have hj : j ≤ ([] : List (Blocking.Act Nat)).length + per.length * j := by
    have := Nat.le_mul_of_pos_left j (show 0 < per.length by decide)
    omega
  obtain ⟨l, hl⟩ := log_mono (s0 := Blocking.start (stdQ Nat) 2) (sch := sch) (log := Blocking.State.log)
    (fun s a s' => Blocking.step_log) j (([] : List (Blocking.Act Nat)).length + per.length * j - j)
  rw [Nat.add_sub_cancel' hj] at hl
  have hx' : (run Blocking.step (Blocking.start (stdQ Nat) 2) sch (([] : List (Blocking.Act Nat)).length + per.length * j)).log = x := by
    have : run Blocking.step (Blocking.start (stdQ Nat) 2) sch (([] : List (Blocking.Act Nat)).length + per.length * j) = F x := hx
    rw [this]; rfl
  rw [hx'] at hl
  exact ⟨x, hg, fun o t => called_le hl o t⟩

theorem fair : StrongFair Blocking.step Blocking.Act.of (Blocking.start (stdQ Nat) 2) sch ∧
    (∀ j u, u ≠ 1 → called .dequeue u (run Blocking.step (Blocking.start (stdQ Nat) 2) sch j).log = 0) ∧
    (∀ i, ∃ j, called .dequeue 1 (run Blocking.step (Blocking.start (stdQ Nat) 2) sch i).log ≤
      (pushes (events (run Blocking.step (Blocking.start (stdQ Nat) 2) sch j).log)).length) ∧
    ∀ n, ∃ i, n ≤ called .dequeue 1 (run Blocking.step (Blocking.start (stdQ Nat) 2) sch i).log := by
  refine ⟨?_, ?_, ?_, ?_⟩
  · intro t hc
    by_cases h1 : t = 0
    · subst h1
      exact periodic_often (Q := fun s a => Blocking.Act.of a = some 0 ∧ Blocking.step s a ≠ none) F Good (by decide) rounds 4 (by decide)
        (fun x k _ => ⟨rfl, by simp [go, F, per, Blocking.step, Blocking.State.goto, Blocking.State.emit, Blocking.runPC]⟩)
    by_cases h2 : t = 1
    · subst h2
      exact periodic_often (Q := fun s a => Blocking.Act.of a = some 1 ∧ Blocking.step s a ≠ none) F Good (by decide) rounds 1 (by decide)
        (fun x k _ => ⟨rfl, by simp [go, F, per, Blocking.step, Blocking.State.goto, Blocking.State.emit, Blocking.runPC]⟩)
    exfalso
    obtain ⟨i, hi, a, ha, hs⟩ := hc 0
    apply hs
    have hlen : (run Blocking.step (Blocking.start (stdQ Nat) 2) sch i).pcs.length = 2 := by
      clear hi hs
      induction i with
      | zero => rfl
      | succ i ih =>
        rcases run_succ Blocking.step (Blocking.start (stdQ Nat) 2) sch i with ⟨s', h3, h4⟩ | ⟨_, h4⟩
        · rw [h4, Blocking.step_length h3, ih]
        · rw [h4, ih]
    have hout : (run Blocking.step (Blocking.start (stdQ Nat) 2) sch i).pcs[t]? = none := List.getElem?_eq_none (by omega)
    cases a with
    | run u =>
      simp only [Blocking.Act.of, Option.some.injEq] at ha
      subst ha
      simp [Blocking.step, hout]
    | notify u w =>
      simp only [Blocking.Act.of, Option.some.injEq] at ha
      subst ha
      simp [Blocking.step, hout]
    | _ => simp [Blocking.Act.of] at ha
  · intro j u hu
    obtain ⟨x, hg, hx⟩ := later j
    have := hx .dequeue u
    rw [hg.2.2 u hu] at this
    omega
  · intro i
    obtain ⟨x, hg, hx⟩ := later i
    have := hx .dequeue 1
    obtain ⟨y, hy, hgy⟩ := rounds i
    refine ⟨([] : List (Blocking.Act Nat)).length + per.length * i, ?_⟩
    have hy' : run Blocking.step (Blocking.start (stdQ Nat) 2) sch (([] : List (Blocking.Act Nat)).length + per.length * i) = F y := hy
    rw [hy']
    show _ ≤ (pushes (events y)).length
    rw [hgy.2.1]
    rw [hg.1] at this
    exact this
  · intro n
    obtain ⟨y, hy, hgy⟩ := rounds n
    refine ⟨([] : List (Blocking.Act Nat)).length + per.length * n, ?_⟩
    have hy' : run Blocking.step (Blocking.start (stdQ Nat) 2) sch (([] : List (Blocking.Act Nat)).length + per.length * n) = F y := hy
    rw [hy']
    exact Nat.le_of_eq hgy.1.symm

end Pair

/-! ### NonBlockingQ: an enqueue starves if the mutex is not fair -/

namespace StarveNon

def pre : List (NonBlocking.Act Nat) := [.callEnq 0 1]
def per : List (NonBlocking.Act Nat) := [.callDeq 1, .run 1, .run 0, .run 1, .run 1]
def sch : Nat → NonBlocking.Act Nat := periodic pre per (.run 0)
def F (x : List (Nat × Ev Nat)) : NonBlocking.State (stdQ Nat) := ⟨[.enqLock 1, .idle], none, [], false, x⟩
def Good (x : List (Nat × Ev Nat)) (_ : Nat) : Prop := called .enqueue 0 x = 1 ∧ returned .enqueue 0 x = 0

theorem rounds : ∀ k, ∃ x, run NonBlocking.step (NonBlocking.start (stdQ Nat) 2) (periodic pre per (.run 0))
    (pre.length + per.length * k) = F x ∧ Good x k :=
  periodic_run F Good ⟨[(0, .callEnq 1)], rfl, by decide, by decide⟩ (by
    rintro L k ⟨h1, h2⟩
    refine ⟨L ++ [(1, .callDeq)] ++ [(1, .pop none)] ++ [(1, .retDeq none)], rfl, ?_, ?_⟩
    · simpa [called, ofThread, List.filterMap_append] using h1
    · simpa [returned, ofThread, List.filterMap_append] using h2)

theorem starves : WeakFair NonBlocking.step NonBlocking.Act.of (NonBlocking.start (stdQ Nat) 2) sch ∧
    ¬ AllReturn (fun i => (run NonBlocking.step (NonBlocking.start (stdQ Nat) 2) sch i).log) .enqueue 0 := by
  constructor
  · intro t n hc
    by_cases ht : t = 1
    · subst ht
      exact periodic_often (Q := fun s a => NonBlocking.Act.of a = some 1 ∧ NonBlocking.step s a ≠ none) F Good (by decide) rounds 1 (by decide)
        (fun x k _ => ⟨rfl, by
          simp [go, F, per, NonBlocking.step, NonBlocking.State.goto, NonBlocking.State.emit, NonBlocking.runPC]⟩)
    · exfalso
      have := periodic_often (Q := fun s _ => s.lock = some 1 ∧ s.pcs = [.enqLock 1, .deqCheck]) F Good (by decide) rounds 2 (by decide)
        (fun x k _ => ⟨rfl, rfl⟩) n
      obtain ⟨i, hi, h1, h2⟩ := this
      obtain ⟨a, ha, hs⟩ := hc i hi
      apply hs
      show NonBlocking.step (run NonBlocking.step (NonBlocking.start (stdQ Nat) 2) (periodic pre per (.run 0)) i) a = none
      generalize run NonBlocking.step (NonBlocking.start (stdQ Nat) 2) (periodic pre per (.run 0)) i = s at h1 h2
      have := NonBlocking.of_run ha
      subst this
      match t with
      | 0 => simp [NonBlocking.step, h2, NonBlocking.runPC, h1]
      | 1 => exact absurd rfl ht
      | u + 2 => simp [NonBlocking.step, h2]
  · intro h
    obtain ⟨j, hj⟩ := h 1
    have h1 : called .enqueue 0 (run NonBlocking.step (NonBlocking.start (stdQ Nat) 2) sch 1).log = 1 := by decide
    have h2 := never_returned (log := NonBlocking.State.log) (fun s a s' => NonBlocking.step_log) F Good (by decide) rounds
      (fun x k hg => hg.2) j
    have h3 : returned .enqueue 0 (run NonBlocking.step (NonBlocking.start (stdQ Nat) 2) sch j).log = 0 := h2
    simp only at hj
    omega

end StarveNon

/-! ### DoubleBuffer: an enqueue spins for ever -/

namespace StarveBuf

def pre : List (DBuf.Act Nat) := [.callEnq 0 1]
def per : List (DBuf.Act Nat) := [.callSwap 1, .run 1, .run 0, .run 1, .run 1, .callSwap 1, .run 1, .run 0, .run 1, .run 1]
def sch : Nat → DBuf.Act Nat := periodic pre per (.run 0)
def F (x : List (Nat × Ev Nat)) : DBuf.State Nat :=
  ⟨[.enqSpin 1, .idle], false, Cyclic.Vcq.mk0 2, Cyclic.Vcq.mk0 2, false, true, false, x⟩
def Good (x : List (Nat × Ev Nat)) (_ : Nat) : Prop := called .enqueue 0 x = 1 ∧ returned .enqueue 0 x = 0

theorem rounds : ∀ k, ∃ x, run (DBuf.step .managed) (DBuf.start 2 2) (periodic pre per (.run 0))
    (pre.length + per.length * k) = F x ∧ Good x k :=
  periodic_run F Good ⟨[(0, .callEnq 1)], rfl, by decide, by decide⟩ (by
    rintro L k ⟨h1, h2⟩
    refine ⟨L ++ [(1, .callSwap)] ++ [(1, .swap)] ++ [(1, .retSwap)] ++ [(1, .callSwap)] ++ [(1, .swap)] ++ [(1, .retSwap)], rfl, ?_, ?_⟩
    · simpa [called, ofThread, List.filterMap_append] using h1
    · simpa [returned, ofThread, List.filterMap_append] using h2)

theorem allowed (i : Nat) : DBuf.Allowed true 1 (run (DBuf.step .managed) (DBuf.start 2 2) sch i) (sch i) := by
  by_cases hi : i = 0
  · subst hi; trivial
  obtain ⟨x, d, hd, _, he⟩ := periodic_at F Good (by decide) rounds (show pre.length ≤ i by simp [pre]; omega)
  have hs : sch i = periodic [] per (.run 0) ((i - 1) % per.length) := by
    have h1 : ¬ i < pre.length := by simp [pre]; omega
    simp only [sch, periodic, h1, if_false, List.length_nil, Nat.not_lt_zero, Nat.sub_zero, Nat.mod_mod]
    rfl
  show DBuf.Allowed true 1 (run (DBuf.step .managed) (DBuf.start 2 2) (periodic pre per (.run 0)) i) (sch i)
  have hall : ∀ (e : Nat), e < per.length → ∀ s : DBuf.State Nat, Cyclic.Vcq.empty (s.buf s.rp) = true →
      DBuf.Allowed true 1 s (periodic [] per (.run 0) e) := by
    intro e he s hs
    match e, he with
    | 0, _ | 5, _ => exact ⟨rfl, fun _ => hs⟩
    | 1, _ | 2, _ | 3, _ | 4, _ | 6, _ | 7, _ | 8, _ | 9, _ => trivial
  rw [hs, he]
  refine hall _ (Nat.mod_lt _ (by decide)) _ ?_
  match d, hd with
  | 0, _ | 1, _ | 2, _ | 3, _ | 4, _ | 5, _ | 6, _ | 7, _ | 8, _ | 9, _ => rfl

theorem starves : WeakFair (DBuf.step .managed) DBuf.Act.of (DBuf.start 2 2) sch ∧
    (∀ t, t < 2 → InfOften fun i => sch i = .run t) ∧
    ¬ AllReturn (fun i => (run (DBuf.step .managed) (DBuf.start 2 2) sch i).log) .enqueue 0 := by
  refine ⟨?_, ?_, ?_⟩
  · intro t n hc
    by_cases ht : t = 1
    · subst ht
      exact periodic_often (Q := fun s a => DBuf.Act.of a = some 1 ∧ DBuf.step .managed s a ≠ none) F Good (by decide) rounds 1 (by decide)
        (fun x k _ => ⟨rfl, by
          simp [go, F, per, DBuf.step, DBuf.State.goto, DBuf.State.emit, DBuf.runPC]⟩)
    · exfalso
      have := periodic_often (Q := fun s _ => s.flag = true ∧ s.pcs = [.enqSpin 1, .swap]) F Good (by decide) rounds 2 (by decide)
        (fun x k _ => ⟨rfl, rfl⟩) n
      obtain ⟨i, hi, h1, h2⟩ := this
      obtain ⟨a, ha, hs⟩ := hc i hi
      apply hs
      show DBuf.step .managed (run (DBuf.step .managed) (DBuf.start 2 2) (periodic pre per (.run 0)) i) a = none
      generalize run (DBuf.step .managed) (DBuf.start 2 2) (periodic pre per (.run 0)) i = s at h1 h2
      have := DBuf.of_run ha
      subst this
      match t with
      | 0 => simp [DBuf.step, h2, DBuf.runPC, h1]
      | 1 => exact absurd rfl ht
      | u + 2 => simp [DBuf.step, h2]
  · intro t ht
    match t, ht with
    | 0, _ => exact periodic_often (Q := fun _ a => a = .run 0) F Good (by decide) rounds 2 (by decide) (fun x k _ => rfl)
    | 1, _ => exact periodic_often (Q := fun _ a => a = .run 1) F Good (by decide) rounds 1 (by decide) (fun x k _ => rfl)
  · intro h
    obtain ⟨j, hj⟩ := h 1
    have h1 : called .enqueue 0 (run (DBuf.step .managed) (DBuf.start 2 2) sch 1).log = 1 := by decide +kernel
    have h2 := never_returned (log := DBuf.State.log) (fun s a s' => DBuf.step_log) F Good (by decide) rounds
      (fun x k hg => hg.2) j
    have h3 : returned .enqueue 0 (run (DBuf.step .managed) (DBuf.start 2 2) sch j).log = 0 := h2
    simp only at hj
    omega

end StarveBuf

/-! ### Strongly fair executions of NonBlockingQ and DoubleBuffer -/

namespace PairNon

def per : List (NonBlocking.Act Nat) := [.callEnq 0 7, .callDeq 1, .run 0, .run 1, .run 0, .run 0, .run 1, .run 1, .run 1, .run 1]
def sch : Nat → NonBlocking.Act Nat := periodic [] per (.run 0)
def F (x : List (Nat × Ev Nat)) : NonBlocking.State (stdQ Nat) := ⟨[.idle, .idle], none, [], false, x⟩
def Good (x : List (Nat × Ev Nat)) (k : Nat) : Prop := called .enqueue 0 x = k

theorem rounds : ∀ k, ∃ x, run NonBlocking.step (NonBlocking.start (stdQ Nat) 2) (periodic [] per (.run 0))
    (([] : List (NonBlocking.Act Nat)).length + per.length * k) = F x ∧ Good x k :=
  periodic_run F Good ⟨[], rfl, rfl⟩ (by
    intro L k h1
    refine ⟨L ++ [(0, .callEnq 7)] ++ [(1, .callDeq)] ++ [(0, .push 7)] ++ [(0, .retEnq)] ++ [(1, .pop (some 7))] ++
      [(1, .retDeq (some 7))], by simp [go, per, F, NonBlocking.step, NonBlocking.runPC, NonBlocking.State.goto, NonBlocking.State.emit],
      ?_⟩
    simpa [Good, called, ofThread, List.filterMap_append, callOf, List.countP_append] using h1)

theorem fair : StrongFair NonBlocking.step NonBlocking.Act.of (NonBlocking.start (stdQ Nat) 2) sch ∧
    ∀ n, ∃ i, n ≤ called .enqueue 0 (run NonBlocking.step (NonBlocking.start (stdQ Nat) 2) sch i).log := by
  constructor
  · intro t hc
    by_cases h1 : t = 0
    · subst h1
      exact periodic_often (Q := fun s a => NonBlocking.Act.of a = some 0 ∧ NonBlocking.step s a ≠ none) F Good (by decide) rounds 2
        (by decide) (fun x k _ => ⟨rfl, by
          simp [go, F, per, NonBlocking.step, NonBlocking.State.goto, NonBlocking.State.emit, NonBlocking.runPC]⟩)
    by_cases h2 : t = 1
    · subst h2
      exact periodic_often (Q := fun s a => NonBlocking.Act.of a = some 1 ∧ NonBlocking.step s a ≠ none) F Good (by decide) rounds 6
        (by decide) (fun x k _ => ⟨rfl, by
          simp [go, F, per, NonBlocking.step, NonBlocking.State.goto, NonBlocking.State.emit, NonBlocking.runPC]⟩)
    exfalso
    obtain ⟨i, hi, a, ha, hs⟩ := hc 0
    apply hs
    have hlen : (run NonBlocking.step (NonBlocking.start (stdQ Nat) 2) sch i).pcs.length = 2 := by
      clear hi hs
      induction i with
      | zero => rfl
      | succ i ih =>
        rcases run_succ NonBlocking.step (NonBlocking.start (stdQ Nat) 2) sch i with ⟨s', h3, h4⟩ | ⟨_, h4⟩
        · rw [h4, NonBlocking.step_length h3, ih]
        · rw [h4, ih]
    have hout : (run NonBlocking.step (NonBlocking.start (stdQ Nat) 2) sch i).pcs[t]? = none := List.getElem?_eq_none (by omega)
    rw [NonBlocking.of_run ha]
    simp [NonBlocking.step, hout]
  · intro n
    obtain ⟨y, hy, hgy⟩ := rounds n
    refine ⟨([] : List (NonBlocking.Act Nat)).length + per.length * n, ?_⟩
    have hy' : run NonBlocking.step (NonBlocking.start (stdQ Nat) 2) sch (([] : List (NonBlocking.Act Nat)).length + per.length * n) =
      F y := hy
    rw [hy']
    exact Nat.le_of_eq hgy.symm

end PairNon

namespace PairBuf

def per : List (DBuf.Act Nat) := [.callSwap 1, .run 1, .run 1, .run 1, .callEmpty 1, .run 1, .run 1, .callSwap 1, .run 1, .run 1, .run 1]
def sch : Nat → DBuf.Act Nat := periodic [] per (.run 0)
def F (x : List (Nat × Ev Nat)) : DBuf.State Nat :=
  ⟨[.idle, .idle], false, Cyclic.Vcq.mk0 2, Cyclic.Vcq.mk0 2, false, true, false, x⟩
def Good (x : List (Nat × Ev Nat)) (k : Nat) : Prop := k ≤ called .swap 1 x

theorem rounds : ∀ k, ∃ x, run (DBuf.step .managed) (DBuf.start 2 2) (periodic [] per (.run 0))
    (([] : List (DBuf.Act Nat)).length + per.length * k) = F x ∧ Good x k :=
  periodic_run F Good ⟨[], rfl, by simp [Good]⟩ (by
    intro L k h1
    refine ⟨L ++ [(1, .callSwap)] ++ [(1, .swap)] ++ [(1, .retSwap)] ++ [(1, .callLook)] ++ [(1, .look true)] ++
      [(1, .retLook true)] ++ [(1, .callSwap)] ++ [(1, .swap)] ++ [(1, .retSwap)],
      by simp [go, per, F, DBuf.step, DBuf.runPC, DBuf.State.goto, DBuf.State.emit, DBuf.State.buf, Cyclic.Vcq.empty, Cyclic.Vcq.mk0], ?_⟩
    simp only [Good, called, ofThread, callOf] at h1
    simp [Good, called, ofThread, List.filterMap_append, callOf, List.countP_append]
    omega)

theorem allowed (i : Nat) : DBuf.Allowed true 1 (run (DBuf.step .managed) (DBuf.start 2 2) sch i) (sch i) := by
  obtain ⟨x, d, hd, _, he⟩ := periodic_at F Good (by decide) rounds (show ([] : List (DBuf.Act Nat)).length ≤ i by simp)
  have hs : sch i = periodic [] per (.run 0) (i % per.length) := by
    simp only [sch, periodic, List.length_nil, Nat.not_lt_zero, if_false, Nat.sub_zero, Nat.mod_mod]
  show DBuf.Allowed true 1 (run (DBuf.step .managed) (DBuf.start 2 2) (periodic [] per (.run 0)) i) (sch i)
  have hall : ∀ (e : Nat), e < per.length → ∀ s : DBuf.State Nat, Cyclic.Vcq.empty (s.buf s.rp) = true →
      DBuf.Allowed true 1 s (periodic [] per (.run 0) e) := by
    intro e he s hs
    match e, he with
    | 0, _ | 7, _ => exact ⟨rfl, fun _ => hs⟩
    | 4, _ => exact rfl
    | 1, _ | 2, _ | 3, _ | 5, _ | 6, _ | 8, _ | 9, _ | 10, _ => trivial
  rw [hs, he]
  refine hall _ (Nat.mod_lt _ (by decide)) _ ?_
  match d, hd with
  | 0, _ | 1, _ | 2, _ | 3, _ | 4, _ | 5, _ | 6, _ | 7, _ | 8, _ | 9, _ | 10, _ => rfl

theorem fair : (∀ i, DBuf.Allowed true 1 (run (DBuf.step .managed) (DBuf.start 2 2) sch i) (sch i)) ∧
    StrongFair (DBuf.step .managed) DBuf.Act.of (DBuf.start 2 2) sch ∧
    ∀ n, ∃ i, n ≤ called .swap 1 (run (DBuf.step .managed) (DBuf.start 2 2) sch i).log := by
  refine ⟨allowed, ?_, ?_⟩
  · intro t hc
    by_cases h2 : t = 1
    · subst h2
      exact periodic_often (Q := fun s a => DBuf.Act.of a = some 1 ∧ DBuf.step .managed s a ≠ none) F Good (by decide) rounds 1
        (by decide) (fun x k _ => ⟨rfl, by simp [go, F, per, DBuf.step, DBuf.State.goto, DBuf.State.emit, DBuf.runPC]⟩)
    exfalso
    obtain ⟨i, hi, a, ha, hs⟩ := hc 0
    apply hs
    obtain ⟨x, d, hd, _, he⟩ := periodic_at F Good (by decide) rounds (show ([] : List (DBuf.Act Nat)).length ≤ i by simp)
    have h0 : (go (DBuf.step .managed) (per.take d) (F x)).pcs[0]? = some .idle ∧
        (go (DBuf.step .managed) (per.take d) (F x)).pcs.length = 2 := by
      match d, hd with
      | 0, _ | 1, _ | 2, _ | 3, _ | 4, _ | 5, _ | 6, _ | 7, _ | 8, _ | 9, _ | 10, _ => exact ⟨rfl, rfl⟩
    rw [← he] at h0
    rw [DBuf.of_run ha]
    show DBuf.step .managed (run (DBuf.step .managed) (DBuf.start 2 2) (periodic [] per (.run 0)) i) (.run t) = none
    generalize run (DBuf.step .managed) (DBuf.start 2 2) (periodic [] per (.run 0)) i = s at h0
    match t with
    | 0 => simp [DBuf.step, h0.1, DBuf.runPC]
    | 1 => exact absurd rfl h2
    | u + 2 =>
      have : s.pcs[u + 2]? = none := List.getElem?_eq_none (by omega)
      simp [DBuf.step, this]
  · intro n
    obtain ⟨y, hy, hgy⟩ := rounds n
    refine ⟨([] : List (DBuf.Act Nat)).length + per.length * n, ?_⟩
    have hy' : run (DBuf.step .managed) (DBuf.start 2 2) sch (([] : List (DBuf.Act Nat)).length + per.length * n) = F y := hy
    rw [hy']
    exact hgy

end PairBuf

end Fair
end Efp
