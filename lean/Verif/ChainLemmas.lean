import Verif.Chain
import Verif.ConcurrencyLemmas
import Mathlib.Data.List.Perm.Basic

/-! # Lemmas for chains of queues -/

namespace Efp.Chain

open Conc Spec

variable {α β : Type} {Q : QImpl α} {cap : Option Nat}

/-- the phase of thread `t` in a queue -/
abbrev ph (q : Blocking.State Q) (t : Nat) : Phase α := phaseAt Blocking.PC.phase q.pcs t

theorem phaseAt_set {f : β → Phase α} {pcs : List β} {t : Nat} {p0 : β} (h : pcs[t]? = some p0) (p : β) (u : Nat) :
    phaseAt f (pcs.set t p) u = if u = t then f p else phaseAt f pcs u := by
  simp only [phaseAt, get_set h]
  by_cases hu : u = t <;> simp [hu]

/-- what one step of a queue does to the log and to the phases -/
inductive StepKind (q q' : Blocking.State Q) : Blocking.Act α → Prop where
  | callEnq (t : Nat) (x : α) : t < q.pcs.length → ph q t = .outside → q'.log = q.log ++ [(t, .callEnq x)] →
      (∀ u, ph q' u = if u = t then .enqCalled x else ph q u) → StepKind q q' (.callEnq t x)
  | callDeq (t : Nat) : t < q.pcs.length → ph q t = .outside → q'.log = q.log ++ [(t, .callDeq)] →
      (∀ u, ph q' u = if u = t then .deqCalled else ph q u) → StepKind q q' (.callDeq t)
  | retDeq (t : Nat) (v : α) : t < q.pcs.length → q.pcs[t]? = some (.deqUnlock v) → q'.log = q.log ++ [(t, .retDeq (some v))] →
      (∀ u, ph q' u = if u = t then .outside else ph q u) → StepKind q q' (.run t)
  | retEnq (t : Nat) : t < q.pcs.length → q.pcs[t]? = some .enqUnlock → q'.log = q.log ++ [(t, .retEnq)] →
      (∀ u, ph q' u = if u = t then .outside else ph q u) → StepKind q q' (.run t)
  | push (t : Nat) (x : α) : t < q.pcs.length → q.pcs[t]? = some (.enqPush x) → q'.log = q.log ++ [(t, .push x)] →
      (∀ u, ph q' u = if u = t then .enqDone else ph q u) → StepKind q q' (.run t)
  | pop (t : Nat) (v : α) : t < q.pcs.length → q.pcs[t]? = some .deqPop → q'.log = q.log ++ [(t, .pop (some v))] →
      (∀ u, ph q' u = if u = t then .deqDone (some v) else ph q u) → StepKind q q' (.run t)
  | silent (a : Blocking.Act α) : (∀ t x, a ≠ .callEnq t x) → (∀ t v, a = .run t → q.pcs[t]? ≠ some (.deqUnlock v)) →
      q'.log = q.log → (∀ u, ph q' u = ph q u) → StepKind q q' a

theorem silent_set {pcs : List (Blocking.PC α)} {t : Nat} {p0 p1 : Blocking.PC α} (h : pcs[t]? = some p0)
    (he : p1.phase = p0.phase) (u : Nat) :
    phaseAt Blocking.PC.phase (pcs.set t p1) u = phaseAt Blocking.PC.phase pcs u := by
  rw [phaseAt_set h]
  split
  · rename_i hu; subst hu; rw [phaseAt_some h, he]
  · rfl

theorem step_kind {q q' : Blocking.State Q} {a : Blocking.Act α} (h : Blocking.step q a = some q') : StepKind q q' a := by
  have lt : ∀ {t : Nat} {p}, q.pcs[t]? = some p → t < q.pcs.length := fun h => (List.getElem?_eq_some_iff.mp h).1
  cases a with
  | callEnq t x =>
    simp only [Blocking.step] at h
    split at h <;> simp only [Option.some.injEq, reduceCtorEq] at h
    subst h; rename_i h0
    exact .callEnq t x (lt h0) (phaseAt_some h0) rfl (fun u => phaseAt_set h0 _ u)
  | callDeq t =>
    simp only [Blocking.step] at h
    split at h <;> simp only [Option.some.injEq, reduceCtorEq] at h
    subst h; rename_i h0
    exact .callDeq t (lt h0) (phaseAt_some h0) rfl (fun u => phaseAt_set h0 _ u)
  | spurious t =>
    simp only [Blocking.step] at h
    split at h <;> simp only [Option.some.injEq, reduceCtorEq] at h
    subst h; rename_i h0
    exact .silent _ (by simp) (by simp) rfl (silent_set h0 rfl)
  | notify t w =>
    simp only [Blocking.step] at h
    split at h
    · rename_i h0
      split at h
      · rename_i w
        split at h <;> simp only [Option.some.injEq, reduceCtorEq] at h
        subst h; rename_i hw
        have hne : t ≠ w := by rintro rfl; rw [h0] at hw; simp at hw
        have h0' : (q.pcs.set w .woken)[t]? = some .enqNotify := by rw [get_set hw, if_neg hne, h0]
        refine .silent _ (by simp) (by simp) rfl fun u => ?_
        exact (silent_set (p1 := .enqUnlock) h0' rfl u).trans (silent_set (p1 := .woken) hw rfl u)
      · split at h <;> simp only [Option.some.injEq, reduceCtorEq] at h
        subst h
        exact .silent _ (by simp) (by simp) rfl (silent_set h0 rfl)
    · simp at h
  | run t =>
    simp only [Blocking.step] at h
    split at h
    · rename_i p h0
      have sil : ∀ {p1 : Blocking.PC α} {s' : Blocking.State Q}, p.phase = p1.phase → (∀ v, p ≠ .deqUnlock v) → s'.log = q.log →
          s'.pcs = q.pcs.set t p1 → StepKind q s' (.run t) := by
        intro p1 s' he hn hl hp
        refine .silent _ (by simp) ?_ hl fun u => ?_
        · rintro t' v ⟨⟩ hv
          rw [h0] at hv
          exact hn v (Option.some.inj hv)
        · show phaseAt _ s'.pcs u = _
          rw [hp]; exact silent_set h0 he.symm u
      cases p with
      | idle => simp [Blocking.runPC] at h
      | enqNotify => simp [Blocking.runPC] at h
      | asleep => simp [Blocking.runPC] at h
      | enqLock a =>
        simp only [Blocking.runPC] at h
        split at h <;> simp only [Option.some.injEq, reduceCtorEq] at h
        subst h; exact sil (p1 := .enqPush a) rfl (by simp) rfl rfl
      | deqLock =>
        simp only [Blocking.runPC] at h
        split at h <;> simp only [Option.some.injEq, reduceCtorEq] at h
        subst h; exact sil (p1 := .deqCheck) rfl (by simp) rfl rfl
      | woken =>
        simp only [Blocking.runPC] at h
        split at h <;> simp only [Option.some.injEq, reduceCtorEq] at h
        subst h; exact sil (p1 := .deqCheck) rfl (by simp) rfl rfl
      | deqCheck =>
        simp only [Blocking.runPC] at h
        split at h <;> simp only [Option.some.injEq] at h <;> subst h
        · exact sil (p1 := .asleep) rfl (by simp) rfl rfl
        · exact sil (p1 := .deqPop) rfl (by simp) rfl rfl
      | enqPush a =>
        simp only [Blocking.runPC] at h
        split at h
        · simp only [Option.some.injEq] at h
          subst h
          exact .push t a (lt h0) h0 rfl (fun u => phaseAt_set h0 _ u)
        · simp only [Option.some.injEq] at h
          subst h
          refine .silent _ (by simp) ?_ rfl (fun u => rfl)
          rintro t' v ⟨⟩ hv
          rw [h0] at hv; simp at hv
      | enqUnlock =>
        simp only [Blocking.runPC, Option.some.injEq] at h
        subst h
        exact .retEnq t (lt h0) h0 rfl (fun u => phaseAt_set h0 _ u)
      | deqUnlock v =>
        simp only [Blocking.runPC, Option.some.injEq] at h
        subst h
        exact .retDeq t v (lt h0) h0 rfl (fun u => phaseAt_set h0 _ u)
      | deqPop =>
        simp only [Blocking.runPC] at h
        split at h
        · rename_i v r hv
          simp only [Option.some.injEq] at h
          subst h
          exact .pop t v (lt h0) h0 rfl (fun u => phaseAt_set h0 _ u)
        · simp only [Option.some.injEq] at h
          subst h
          refine .silent _ (by simp) ?_ rfl (fun u => rfl)
          rintro t' v ⟨⟩ hv
          rw [h0] at hv; simp at hv
    · simp at h

/-! ## The events of one thread -/

theorem enqCalls_append (a b : List (Ev α)) : enqCalls (a ++ b) = enqCalls a ++ enqCalls b := by simp [enqCalls]
theorem deqRets_append (a b : List (Ev α)) : deqRets (a ++ b) = deqRets a ++ deqRets b := by simp [deqRets]

theorem ofThread_snoc (t u : Nat) (log : List (Nat × Ev α)) (e : Ev α) :
    ofThread u (log ++ [(t, e)]) = ofThread u log ++ (if u = t then [e] else []) := by
  by_cases h : u = t
  · subst h; rw [ofThread_snoc_self, if_pos rfl]
  · rw [ofThread_snoc_ne h, if_neg h, List.append_nil]

theorem step_enqCalls {q q' : Blocking.State Q} {a : Blocking.Act α} (h : StepKind q q' a) (u : Nat) :
    enqCalls (ofThread u q'.log) = enqCalls (ofThread u q.log) ++ (match a with | .callEnq t x => if u = t then [x] else [] | _ => []) := by
  cases h with
  | silent _ h1 _ hl _ => rw [hl]; split <;> simp_all
  | _ => rename_i hl _; rw [hl, ofThread_snoc, enqCalls_append]; split <;> simp_all [enqCalls]

theorem step_deqRets {q q' : Blocking.State Q} {a : Blocking.Act α} (h : StepKind q q' a) (u : Nat) :
    deqRets (ofThread u q'.log) = deqRets (ofThread u q.log) ++ (match a with
      | .run t => match q.pcs[t]? with | some (.deqUnlock v) => if u = t then [v] else [] | _ => []
      | _ => []) := by
  cases h with
  | silent _ _ h2 hl _ =>
    rw [hl]
    split
    · split
      · rename_i hv; exact absurd hv (h2 _ _ rfl)
      · simp
    · simp
  | callEnq t x _ _ hl => rw [hl, ofThread_snoc, deqRets_append]; split <;> simp [deqRets]
  | callDeq t _ _ hl => rw [hl, ofThread_snoc, deqRets_append]; split <;> simp [deqRets]
  | retDeq t v _ hp hl => rw [hl, ofThread_snoc, deqRets_append]; simp only [hp]; split <;> simp [deqRets]
  | retEnq t _ hp hl => rw [hl, ofThread_snoc, deqRets_append]; simp only [hp]; split <;> simp [deqRets]
  | push t x _ hp hl => rw [hl, ofThread_snoc, deqRets_append]; simp only [hp]; split <;> simp [deqRets]
  | pop t x _ hp hl => rw [hl, ofThread_snoc, deqRets_append]; simp only [hp]; split <;> simp [deqRets]

/-- in `dequeue` -/
def inDeq : Phase α → Prop
  | .deqCalled | .deqDone _ => True
  | _ => False

/-- in `enqueue`, not yet in the queue -/
def pend : Phase α → List α
  | .enqCalled a => [a]
  | _ => []

/-- taken out, not yet returned -/
def gone : Phase α → List α
  | .deqDone o => o.toList
  | _ => []

theorem calls_of {es : List (Ev α)} {p : Phase α} (h : PhaseRun es p) :
    enqCalls es = pushes es ++ pend p ∧ pops es = deqRets es ++ gone p := by
  have := phaseRun_calls h
  cases p <;> simpa [pend, gone] using this

theorem calls {L : Lawful Q cap} {q : Blocking.State Q} {l : List α} (hI : Blocking.Inv L q l) (t : Nat) :
    enqCalls (ofThread t q.log) = pushes (ofThread t q.log) ++ pend (ph q t) ∧
    pops (ofThread t q.log) = deqRets (ofThread t q.log) ++ gone (ph q t) := calls_of (hI.phase t)

/-- a thread that never calls `dequeue` takes nothing out -/
theorem phase_no_deq {es : List (Ev α)} {p : Phase α} (h : PhaseRun es p) : Ev.callDeq ∉ es → pops es = [] ∧ ¬ inDeq p := by
  induction h with
  | nil => intro _; exact ⟨rfl, id⟩
  | @snoc es p p' e _ hs ih =>
    intro hn
    obtain ⟨h1, h2⟩ := ih fun h => hn (List.mem_append_left _ h)
    have hne : e ≠ .callDeq := fun he => hn (by simp [he])
    cases hs <;> simp_all [pops, inDeq]

/-! ## The invariant -/

structure Inv {Qs : Nat → QImpl α} {caps : Nat → Option Nat} (L : ∀ i, Lawful (Qs i) (caps i)) (k : Nat) (F : Nat → Nat → Bool) (m : Nat)
    (s : State Qs) : Prop where
  queue : ∀ i, ∃ l, Blocking.Inv (L i) (s.qs i) l
  size : ∀ i, (s.qs i).pcs.length = m
  threads : ∀ i, ∀ x ∈ (s.qs i).log, x.1 < m
  passed : ∀ i t, i < k → enqCalls (ofThread t (s.qs (i + 1)).log) ++ (s.hand i t).toList = deqRets (ofThread t (s.qs i).log)
  busy : ∀ i t, i < k → inDeq (ph (s.qs i) t) → s.hand i t = none ∧ pend (ph (s.qs (i + 1)) t) = []
  full : ∀ i t, i < k → s.hand i t ≠ none → pend (ph (s.qs (i + 1)) t) = []
  own : ∀ i t, i < k → F i t = false → Ev.callDeq ∉ ofThread t (s.qs i).log

variable {Qs : Nat → QImpl α} {caps : Nat → Option Nat} {L : ∀ i, Lawful (Qs i) (caps i)}

theorem start_inv (k : Nat) (F : Nat → Nat → Bool) (m : Nat) : Inv L k F m (start Qs m) where
  queue := fun i => ⟨[], Blocking.start_inv _ m⟩
  size := fun i => by simp [start, Blocking.start]
  threads := fun i x h => by simp [start, Blocking.start] at h
  passed := fun i t _ => rfl
  busy := fun i t _ h => by
    have := (phase_no_deq ((Blocking.start_inv (L i) m).phase t) (by simp [Blocking.start, ofThread])).2
    exact absurd h this
  full := fun i t _ h => absurd rfl h
  own := fun i t _ _ => by simp [start, Blocking.start, ofThread]

theorem step_threads {q q' : Blocking.State Q} {a : Blocking.Act α} (h : StepKind q q' a) {m : Nat} (hm : q.pcs.length = m)
    (ht : ∀ x ∈ q.log, x.1 < m) : ∀ x ∈ q'.log, x.1 < m := by
  intro x hx
  cases h with
  | silent _ _ _ hl _ => rw [hl] at hx; exact ht x hx
  | callEnq t x' h0 _ hl =>
    rw [hl] at hx; rcases List.mem_append.mp hx with h | h
    · exact ht x h
    · simp at h; subst h; exact hm ▸ h0
  | callDeq t h0 _ hl =>
    rw [hl] at hx; rcases List.mem_append.mp hx with h | h
    · exact ht x h
    · simp at h; subst h; exact hm ▸ h0
  | retDeq t v h0 _ hl =>
    rw [hl] at hx; rcases List.mem_append.mp hx with h | h
    · exact ht x h
    · simp at h; subst h; exact hm ▸ h0
  | retEnq t h0 _ hl =>
    rw [hl] at hx; rcases List.mem_append.mp hx with h | h
    · exact ht x h
    · simp at h; subst h; exact hm ▸ h0
  | push t x' h0 _ hl =>
    rw [hl] at hx; rcases List.mem_append.mp hx with h | h
    · exact ht x h
    · simp at h; subst h; exact hm ▸ h0
  | pop t x' h0 _ hl =>
    rw [hl] at hx; rcases List.mem_append.mp hx with h | h
    · exact ht x h
    · simp at h; subst h; exact hm ▸ h0

/-- the queue a step works on as the source of a stage -/
theorem source_step {Q' : QImpl α} {q q' : Blocking.State Q} {b : Blocking.State Q'} {a : Blocking.Act α} {h : Nat → Option α} (hk : StepKind q q' a)
    (hb : ∀ t, inDeq (ph q t) → h t = none ∧ pend (ph b t) = []) (hf : ∀ t, h t ≠ none → pend (ph b t) = [])
    (hp : ∀ t, enqCalls (ofThread t b.log) ++ (h t).toList = deqRets (ofThread t q.log))
    (ha : ∀ t, a = .callDeq t → h t = none ∧ b.pcs[t]? = some .idle) (t : Nat) :
    let h' := (match a with
      | .run u => match q.pcs[u]? with | some (.deqUnlock v) => if t = u then some v else h t | _ => h t
      | _ => h t)
    (inDeq (ph q' t) → h' = none ∧ pend (ph b t) = []) ∧ (h' ≠ none → pend (ph b t) = []) ∧
      enqCalls (ofThread t b.log) ++ h'.toList = deqRets (ofThread t q'.log) := by
  intro h'
  have e := step_deqRets hk t
  cases hk with
  | silent _ _ h2 hl hph =>
    have eh : h' = h t := by
      simp only [h']
      split
      · split
        · rename_i hv; exact absurd hv (h2 _ _ rfl)
        · rfl
      · rfl
    rw [eh, hph, hl]
    exact ⟨hb t, hf t, hp t⟩
  | callEnq u x _ _ hl hph =>
    refine ⟨fun hd => ?_, hf t, ?_⟩
    · rw [hph] at hd
      split at hd
      · exact absurd hd id
      · exact hb t hd
    · rw [e]; simpa [h'] using hp t
  | callDeq u _ _ hl hph =>
    refine ⟨fun hd => ?_, hf t, ?_⟩
    · rw [hph] at hd
      split at hd
      · rename_i hu; subst hu
        have := ha t rfl
        exact ⟨this.1, by rw [ph, phaseAt_some this.2]; rfl⟩
      · exact hb t hd
    · rw [e]; simpa [h'] using hp t
  | retDeq u v _ hv hl hph =>
    simp only [hv] at e
    have eh : h' = if t = u then some v else h t := by simp only [h', hv]
    clear_value h'
    subst eh
    by_cases hu : t = u
    · subst hu
      have hq : inDeq (ph q t) := by rw [ph, phaseAt_some hv]; exact trivial
      have := hb t hq
      refine ⟨fun hd => ?_, fun _ => this.2, ?_⟩
      · rw [hph, if_pos rfl] at hd; exact absurd hd id
      · have hp' := hp t
        rw [this.1] at hp'
        rw [e]
        simpa using hp'
    · simp only [if_neg hu] at e ⊢
      refine ⟨fun hd => ?_, hf t, ?_⟩
      · rw [hph, if_neg hu] at hd; exact hb t hd
      · rw [e]; simpa using hp t
  | retEnq u _ hv hl hph =>
    simp only [hv] at e
    have eh : h' = h t := by simp only [h', hv]
    clear_value h'
    subst eh
    refine ⟨fun hd => ?_, hf t, ?_⟩
    · rw [hph] at hd
      split at hd
      · exact absurd hd id
      · exact hb t hd
    · rw [e]; simpa using hp t
  | push u x _ hv hl hph =>
    simp only [hv] at e
    have eh : h' = h t := by simp only [h', hv]
    clear_value h'
    subst eh
    refine ⟨fun hd => ?_, hf t, ?_⟩
    · rw [hph] at hd
      split at hd
      · exact absurd hd id
      · exact hb t hd
    · rw [e]; simpa using hp t
  | pop u v _ hv hl hph =>
    simp only [hv] at e
    have eh : h' = h t := by simp only [h', hv]
    clear_value h'
    subst eh
    refine ⟨fun hd => ?_, hf t, ?_⟩
    · rw [hph] at hd
      split at hd
      · rename_i hu; subst hu
        exact hb t (by rw [ph, phaseAt_some hv]; exact trivial)
      · exact hb t hd
    · rw [e]; simpa using hp t

/-- the queue a step works on as the target of a stage -/
theorem target_step {Q' : QImpl α} {q : Blocking.State Q'} {b b' : Blocking.State Q} {a : Blocking.Act α} {h : Nat → Option α} (hk : StepKind b b' a)
    (hb : ∀ t, inDeq (ph q t) → h t = none ∧ pend (ph b t) = []) (hf : ∀ t, h t ≠ none → pend (ph b t) = [])
    (hp : ∀ t, enqCalls (ofThread t b.log) ++ (h t).toList = deqRets (ofThread t q.log))
    (ha : ∀ t x, a = .callEnq t x → h t = some x) (t : Nat) :
    let h' := (match a with
      | .callEnq u _ => if t = u then none else h t
      | _ => h t)
    (inDeq (ph q t) → h' = none ∧ pend (ph b' t) = []) ∧ (h' ≠ none → pend (ph b' t) = []) ∧
      enqCalls (ofThread t b'.log) ++ h'.toList = deqRets (ofThread t q.log) := by
  intro h'
  have e := step_enqCalls hk t
  cases hk with
  | silent _ h1 _ hl hph =>
    have eh : h' = h t := by
      simp only [h']
    rw [eh, hph, hl]
    exact ⟨hb t, hf t, hp t⟩
  | callEnq u x _ _ hl hph =>
    by_cases hu : t = u
    · subst hu
      have hx := ha t x rfl
      simp only [h', if_true] at e ⊢
      refine ⟨fun hd => ?_, fun hn => absurd rfl hn, ?_⟩
      · rw [(hb t hd).1] at hx; cases hx
      · rw [e, ← hp t, hx]; simp
    · simp only [h', if_neg hu] at e ⊢
      rw [hph, if_neg hu, e]
      simpa using ⟨hb t, hf t, hp t⟩
  | callDeq u _ hout hl hph =>
    simp only [h'] at e ⊢
    have : pend (ph b' t) = pend (ph b t) := by
      rw [hph]; split
      · rename_i hu; subst hu; rw [hout]; rfl
      · rfl
    rw [this, e]; simpa using ⟨hb t, hf t, hp t⟩
  | retDeq u v _ hv hl hph =>
    simp only [h'] at e ⊢
    have : pend (ph b' t) = pend (ph b t) := by
      rw [hph]; split
      · rename_i hu; subst hu; rw [ph, phaseAt_some hv]; rfl
      · rfl
    rw [this, e]; simpa using ⟨hb t, hf t, hp t⟩
  | retEnq u _ hv hl hph =>
    simp only [h'] at e ⊢
    have : pend (ph b' t) = pend (ph b t) := by
      rw [hph]; split
      · rename_i hu; subst hu; rw [ph, phaseAt_some hv]; rfl
      · rfl
    rw [this, e]; simpa using ⟨hb t, hf t, hp t⟩
  | push u x _ hv hl hph =>
    simp only [h'] at e ⊢
    have : pend (ph b t) = [] → pend (ph b' t) = [] := by
      intro hz
      rw [hph]; split
      · rfl
      · exact hz
    rw [e]
    exact ⟨fun hd => ⟨(hb t hd).1, this (hb t hd).2⟩, fun hn => this (hf t hn), by simpa using hp t⟩
  | pop u v _ hv hl hph =>
    simp only [h'] at e ⊢
    have : pend (ph b' t) = pend (ph b t) := by
      rw [hph]; split
      · rename_i hu; subst hu; rw [ph, phaseAt_some hv]; rfl
      · rfl
    rw [this, e]; simpa using ⟨hb t, hf t, hp t⟩

theorem step_own {q q' : Blocking.State Q} {a : Blocking.Act α} (hk : StepKind q q' a) {t : Nat} (ha : a ≠ .callDeq t)
    (h : Ev.callDeq ∉ ofThread t q.log) : Ev.callDeq ∉ ofThread t q'.log := by
  cases hk with
  | silent _ _ _ hl _ => rw [hl]; exact h
  | callDeq u _ _ hl _ =>
    rw [hl, ofThread_snoc]
    have : t ≠ u := by rintro rfl; exact ha rfl
    simpa [this] using h
  | callEnq u x _ _ hl _ => rw [hl, ofThread_snoc]; split <;> simpa using h
  | retDeq u v _ _ hl _ => rw [hl, ofThread_snoc]; split <;> simpa using h
  | retEnq u _ _ hl _ => rw [hl, ofThread_snoc]; split <;> simpa using h
  | push u x _ _ hl _ => rw [hl, ofThread_snoc]; split <;> simpa using h
  | pop u v _ _ hl _ => rw [hl, ofThread_snoc]; split <;> simpa using h

theorem hand_source (s : State Qs) (i : Nat) (a : Blocking.Act α) (t : Nat) :
    s.hand' i a i t = (match a with
      | .run u => match (s.qs i).pcs[u]? with | some (.deqUnlock v) => if t = u then some v else s.hand i t | _ => s.hand i t
      | _ => s.hand i t) := by
  simp only [State.hand']
  cases a with
  | callEnq u x => simp
  | run u =>
    simp only [true_and]
    cases (s.qs i).pcs[u]? with
    | none => rfl
    | some p => cases p <;> rfl
  | _ => rfl

theorem hand_target (s : State Qs) (i : Nat) (a : Blocking.Act α) (t : Nat) :
    s.hand' (i + 1) a i t = (match a with | .callEnq u _ => if t = u then none else s.hand i t | _ => s.hand i t) := by
  simp only [State.hand']
  cases a with
  | callEnq u x => simp
  | run u => simp only; split <;> simp
  | _ => rfl

theorem hand_other (s : State Qs) {i j : Nat} (h1 : j ≠ i) (h2 : j + 1 ≠ i) (a : Blocking.Act α) (t : Nat) :
    s.hand' i a j t = s.hand j t := by
  simp only [State.hand']
  cases a with
  | callEnq u x => simp [h2]
  | run u => simp only; split <;> simp [h1]
  | _ => rfl

theorem step_inv {k : Nat} {F : Nat → Nat → Bool} {m : Nat} {s : State Qs} {i : Nat} {q' : Blocking.State (Qs i)}
    {a : Blocking.Act α} (hI : Inv L k F m s) (ha : Allowed k F s i a) (h : Blocking.step (s.qs i) a = some q') :
    Inv L k F m ⟨Function.update s.qs i q', s.hand' i a⟩ := by
  have hk := step_kind h
  have pair : ∀ j t, j < k →
      (inDeq (ph (Function.update s.qs i q' j) t) →
        s.hand' i a j t = none ∧ pend (ph (Function.update s.qs i q' (j + 1)) t) = []) ∧
      (s.hand' i a j t ≠ none → pend (ph (Function.update s.qs i q' (j + 1)) t) = []) ∧
      enqCalls (ofThread t (Function.update s.qs i q' (j + 1)).log) ++ (s.hand' i a j t).toList =
        deqRets (ofThread t (Function.update s.qs i q' j).log) := by
    intro j t hj
    by_cases h1 : j = i
    · subst h1
      rw [Function.update_self, Function.update_of_ne (by omega), hand_source]
      exact source_step hk (fun t => hI.busy j t hj) (fun t => hI.full j t hj) (fun t => hI.passed j t hj)
        (fun t he => by subst he; exact (ha hj).2) t
    · by_cases h2 : j + 1 = i
      · subst h2
        rw [Function.update_self, Function.update_of_ne h1, hand_target]
        exact target_step hk (fun t => hI.busy j t hj) (fun t => hI.full j t hj) (fun t => hI.passed j t hj)
          (fun t x he => by subst he; exact (ha j rfl).2) t
      · rw [Function.update_of_ne h1, Function.update_of_ne h2, hand_other s h1 h2]
        exact ⟨hI.busy j t hj, hI.full j t hj, hI.passed j t hj⟩
  refine ⟨fun j => ?_, fun j => ?_, fun j => ?_, fun j t hj => (pair j t hj).2.2, fun j t hj => (pair j t hj).1,
    fun j t hj => (pair j t hj).2.1, fun j t hj hF => ?_⟩
  · by_cases hj : j = i
    · subst hj
      obtain ⟨l, hl⟩ := hI.queue j
      simp only [Function.update_self]
      exact Blocking.step_inv hl h
    · simp only [Function.update_of_ne hj]
      exact hI.queue j
  · by_cases hj : j = i
    · subst hj
      simp only [Function.update_self]
      exact (Blocking.step_length h).trans (hI.size j)
    · simp only [Function.update_of_ne hj]
      exact hI.size j
  · by_cases hj : j = i
    · subst hj
      simp only [Function.update_self]
      exact step_threads hk (hI.size j) (hI.threads j)
    · simp only [Function.update_of_ne hj]
      exact hI.threads j
  · by_cases hji : j = i
    · subst hji
      simp only [Function.update_self]
      refine step_own hk ?_ (hI.own j t hj hF)
      rintro rfl
      have := (ha hj).1
      rw [hF] at this; cases this
    · simp only [Function.update_of_ne hji]
      exact hI.own j t hj hF

theorem reach_inv (L : ∀ i, Lawful (Qs i) (caps i)) {k : Nat} {F : Nat → Nat → Bool} {m : Nat} {s : State Qs} (h : Reach Qs k F m s) : Inv L k F m s := by
  induction h with
  | start => exact start_inv k F m
  | step i a _ _ ha hs ih => exact step_inv ih ha hs

/-! ## What follows -/

theorem flight_eq (s : State Qs) (i t : Nat) :
    s.flight i t = pend (ph (s.qs (i + 1)) t) ++ (s.hand i t).toList ++ gone (ph (s.qs i) t) := by
  have h1 : (match (s.qs (i + 1)).pcs[t]? with | some (.enqLock a) | some (.enqPush a) => [a] | _ => []) =
      pend (ph (s.qs (i + 1)) t) := by
    simp only [ph, phaseAt]
    cases h : (s.qs (i + 1)).pcs[t]? with
    | none => rfl
    | some p => cases p <;> rfl
  have h2 : (match (s.qs i).pcs[t]? with | some (.deqUnlock v) => [v] | _ => []) = gone (ph (s.qs i) t) := by
    simp only [ph, phaseAt]
    cases h : (s.qs i).pcs[t]? with
    | none => rfl
    | some p => cases p <;> rfl
  rw [← h1, ← h2]
  unfold State.flight
  congr 1

/-- what a thread took out is what it put in and what it still carries -/
theorem thread_flight {k : Nat} {F : Nat → Nat → Bool} {m : Nat} {s : State Qs} (hI : Inv L k F m s) {i : Nat} (hi : i < k) (t : Nat) :
    pushes (ofThread t (s.qs (i + 1)).log) ++ s.flight i t = pops (ofThread t (s.qs i).log) := by
  obtain ⟨l, hl⟩ := hI.queue i
  obtain ⟨l', hl'⟩ := hI.queue (i + 1)
  rw [flight_eq, (calls hl t).2, ← hI.passed i t hi, (calls hl' t).1]
  simp only [List.append_assoc]

/-- one thread only -/
theorem filterMap_one (f : Ev α → Option α) (u : Nat) : ∀ (log : List (Nat × Ev α)),
    (∀ t, t ≠ u → (ofThread t log).filterMap f = []) → (events log).filterMap f = (ofThread u log).filterMap f
  | [], _ => rfl
  | (t, e) :: log, h => by
    have hr := filterMap_one f u log fun t' ht' => by
      have := h t' ht'
      simp only [ofThread, List.filterMap_cons] at this ⊢
      split at this
      · exact this
      · simp only [List.filterMap_cons] at this
        split at this
        · exact this
        · cases this
    by_cases ht : t = u
    · subst ht
      simp only [events, ofThread, List.map_cons, List.filterMap_cons, if_true] at hr ⊢
      rw [hr]
    · have h1 := h t ht
      simp only [ofThread, List.filterMap_cons, if_true] at h1
      have h2 : f e = none := by
        cases hf : f e with
        | none => rfl
        | some x => rw [hf] at h1; cases h1
      simp only [events, ofThread, List.map_cons, List.filterMap_cons, h2, if_neg ht] at hr ⊢
      exact hr

/-- all threads together -/
theorem filterMap_all (f : Ev α → Option α) (m : Nat) : ∀ (log : List (Nat × Ev α)), (∀ x ∈ log, x.1 < m) →
    ((List.range m).flatMap fun t => (ofThread t log).filterMap f).Perm ((events log).filterMap f)
  | [], _ => by simp [ofThread, events]
  | (t, e) :: log, h => by
    have hr := filterMap_all f m log fun x hx => h x (List.mem_cons_of_mem _ hx)
    have ht : t < m := h (t, e) List.mem_cons_self
    have h1 : (fun u => (ofThread u ((t, e) :: log)).filterMap f) =
        fun u => (if u = t then (f e).toList else []) ++ (ofThread u log).filterMap f := by
      funext u
      by_cases hu : u = t
      · subst hu
        simp only [ofThread, List.filterMap_cons, if_true]
        cases f e <;> rfl
      · simp only [ofThread, List.filterMap_cons, if_neg hu, if_neg (Ne.symm hu), List.nil_append]
    have h2 : ((List.range m).flatMap fun u => if u = t then (f e).toList else []) = (f e).toList := by
      have : ∀ n, ((List.range n).flatMap fun u => if u = t then (f e).toList else []) = if t < n then (f e).toList else [] := by
        intro n
        induction n with
        | zero => rfl
        | succ n ih =>
          rw [List.range_succ, List.flatMap_append, ih]
          by_cases hn : n = t
          · subst hn; simp
          · by_cases hl : t < n
            · simp [hl, hn, Nat.lt_succ_of_lt hl]
            · have : ¬ t < n + 1 := by omega
              simp [hl, hn, this]
      rw [this, if_pos ht]
    rw [h1]
    refine (List.flatMap_append_perm (List.range m) _ _).symm.trans ?_
    rw [h2]
    have h3 : (events ((t, e) :: log)).filterMap f = (f e).toList ++ (events log).filterMap f := by
      simp only [events, List.map_cons, List.filterMap_cons]
      cases f e <;> rfl
    rw [h3]
    exact hr.append_left _

end Efp.Chain
