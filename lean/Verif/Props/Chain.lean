import Verif.ChainLemmas

/-!
# Chains of queues (C172)

`Reach Q k F m s`: `m` threads, queues `0` to `k`, where the threads of stage `i` (those with `F i t`) move elements from queue `i` to queue
`i + 1`, can come to state `s`.
-/

namespace Efp.Props

open Conc Spec Chain

variable {α : Type} {Q : Nat → QImpl α}

/-- the queues of a chain with positive capacities keep to the specification -/
noncomputable def chainLawful (kd : Kind) (caps : Nat → Option Nat) (hc : ∀ i n, caps i = some n → 0 < n) (i : Nat) :
    Lawful (queues kd caps i : QImpl α) (caps i) := by
  unfold queues
  cases h : caps i with
  | none => exact stdLawful α
  | some n => exact vcqLawful kd n (hc i n h) α

theorem legal_sublist {cap : Option Nat} (hc : ∀ n, cap = some n → 0 < n) {es : List (Ev α)} {l : List α} (h : Legal cap es [] l) :
    (pops es ++ l).Sublist (pushes es) := by
  cases cap with
  | none => have := legal_none h; rw [← this, List.nil_append]
  | some n => simpa using (legal_some (hc n rfl) (by simp) h).2.1

/-- what the only thread of a stage does is what is done in the stage -/
theorem stage_one {caps : Nat → Option Nat} {L : ∀ i, Lawful (Q i) (caps i)} {k m : Nat} {F : Nat → Nat → Bool} {s : Chain.State Q}
    (hI : Chain.Inv L k F m s) {j u : Nat} (hj : j < k) (hf : ∀ t, F j t = true → t = u) :
    pushes (events (s.qs (j + 1)).log) ++ s.flight j u = pops (events (s.qs j).log) := by
  have no : ∀ t, t ≠ u → pops (ofThread t (s.qs j).log) = [] := by
    intro t ht
    have hF : F j t = false := by
      cases hF : F j t with
      | false => rfl
      | true => exact absurd (hf t hF) ht
    obtain ⟨l, hl⟩ := hI.queue j
    exact (phase_no_deq (hl.phase t) (hI.own j t hj hF)).1
  have no' : ∀ t, t ≠ u → pushes (ofThread t (s.qs (j + 1)).log) = [] := by
    intro t ht
    have := thread_flight hI hj t
    rw [no t ht] at this
    exact (List.append_eq_nil_iff.mp this).1
  have e1 : pops (events (s.qs j).log) = pops (ofThread u (s.qs j).log) := filterMap_one _ _ _ no
  have e2 : pushes (events (s.qs (j + 1)).log) = pushes (ofThread u (s.qs (j + 1)).log) := filterMap_one _ _ _ no'
  rw [e1, e2, thread_flight hI hj u]

/-- what all threads of a stage do is what is done in the stage -/
theorem stage_all {caps : Nat → Option Nat} {L : ∀ i, Lawful (Q i) (caps i)} {k m : Nat} {F : Nat → Nat → Bool} {s : Chain.State Q}
    (hI : Chain.Inv L k F m s) {j : Nat} (hj : j < k) :
    (pushes (events (s.qs (j + 1)).log) ++ (List.range m).flatMap (s.flight j)).Perm (pops (events (s.qs j).log)) := by
  refine ((filterMap_all _ m _ (hI.threads (j + 1))).symm.append_right _).trans ?_
  refine (List.flatMap_append_perm (List.range m) _ _).trans ?_
  refine .trans (.of_eq ?_) (filterMap_all _ m _ (hI.threads j))
  congr 1
  funext t
  exact thread_flight hI hj t

/-- **C172.** One thread per stage: what came out of the last queue, followed by what is in the queues and on the way between them,
oldest first, is what was put into the first queue, in order. -/
theorem C172_order_partial {k m : Nat} {F : Nat → Nat → Bool} {f : Nat → Nat} {s : Chain.State fun _ => stdQ α} (h : Reach _ k F m s)
    (hf : ∀ i t, i < k → F i t = true → t = f i) :
    pops (events (s.qs k).log) ++ s.inside (fun i => s.flight i (f i)) k = pushes (events (s.qs 0).log) := by
  have hI := reach_inv (fun _ => stdLawful α) h
  have fifo : ∀ i, pops (events (s.qs i).log) ++ (s.qs i).q = pushes (events (s.qs i).log) := fun i => by
    obtain ⟨l, hl⟩ := hI.queue i
    have := legal_none hl.legal
    have hr : (s.qs i).q = l := hl.rep
    rw [hr, ← this, List.nil_append]
  have key : ∀ j, j ≤ k → pops (events (s.qs j).log) ++ s.inside (fun i => s.flight i (f i)) j = pushes (events (s.qs 0).log) := by
    intro j
    induction j with
    | zero => intro _; exact fifo 0
    | succ j ih =>
      intro hj
      have hj' : j < k := hj
      rw [← ih (by omega), ← stage_one hI hj' (fun t => hf j t hj'), ← fifo (j + 1)]
      simp only [State.inside, List.append_assoc]
  exact key k (Nat.le_refl k)

/-- **C172.** Any number of threads per stage: no element is lost and none is duplicated. -/
theorem C172_conserved {k m : Nat} {F : Nat → Nat → Bool} {s : Chain.State fun _ => stdQ α} (h : Reach _ k F m s) :
    (pops (events (s.qs k).log) ++ s.inside (fun i => (List.range m).flatMap (s.flight i)) k).Perm
      (pushes (events (s.qs 0).log)) := by
  have hI := reach_inv (fun _ => stdLawful α) h
  have fifo : ∀ i, pops (events (s.qs i).log) ++ (s.qs i).q = pushes (events (s.qs i).log) := fun i => by
    obtain ⟨l, hl⟩ := hI.queue i
    have := legal_none hl.legal
    have hr : (s.qs i).q = l := hl.rep
    rw [hr, ← this, List.nil_append]
  have key : ∀ j, j ≤ k → (pops (events (s.qs j).log) ++ s.inside (fun i => (List.range m).flatMap (s.flight i)) j).Perm
      (pushes (events (s.qs 0).log)) := by
    intro j
    induction j with
    | zero => intro _; exact (fifo 0) ▸ List.Perm.refl _
    | succ j ih =>
      intro hj
      have hj' : j < k := hj
      refine .trans ?_ (ih (by omega))
      refine .trans (.of_eq ?_) ((stage_all hI hj').append_right _)
      rw [← fifo (j + 1)]
      simp only [State.inside, List.append_assoc]
  exact key k (Nat.le_refl k)

/-- **C172.** Bounded and unbounded queues in any combination, one thread per stage: what came out of the last queue was put into the
first queue, in this order. -/
theorem C172_bounded_order_partial {kd : Kind} {caps : Nat → Option Nat} (hc : ∀ i n, caps i = some n → 0 < n) {k m : Nat}
    {F : Nat → Nat → Bool} {f : Nat → Nat} {s : Chain.State (queues kd caps : Nat → QImpl α)} (h : Reach _ k F m s)
    (hf : ∀ i t, i < k → F i t = true → t = f i) :
    (pops (events (s.qs k).log)).Sublist (pushes (events (s.qs 0).log)) := by
  have hI := reach_inv (chainLawful kd caps hc) h
  have fifo : ∀ i, (pops (events (s.qs i).log)).Sublist (pushes (events (s.qs i).log)) := fun i => by
    obtain ⟨l, hl⟩ := hI.queue i
    exact (List.sublist_append_left _ _).trans (legal_sublist (hc i) hl.legal)
  have key : ∀ j, j ≤ k → (pops (events (s.qs j).log)).Sublist (pushes (events (s.qs 0).log)) := by
    intro j
    induction j with
    | zero => intro _; exact fifo 0
    | succ j ih =>
      intro hj
      refine (fifo (j + 1)).trans (.trans ?_ (ih (by omega)))
      rw [← stage_one hI hj (fun t => hf j t hj)]
      exact List.sublist_append_left _ _
  exact key k (Nat.le_refl k)

/-- **C172.** Bounded and unbounded queues in any combination, any number of threads per stage: no element is duplicated or made
up. -/
theorem C172_bounded_no_duplicates {kd : Kind} {caps : Nat → Option Nat} (hc : ∀ i n, caps i = some n → 0 < n) {k m : Nat}
    {F : Nat → Nat → Bool} {s : Chain.State (queues kd caps : Nat → QImpl α)} (h : Reach _ k F m s) :
    (pops (events (s.qs k).log)).Subperm (pushes (events (s.qs 0).log)) := by
  have hI := reach_inv (chainLawful kd caps hc) h
  have fifo : ∀ i, (pops (events (s.qs i).log)).Sublist (pushes (events (s.qs i).log)) := fun i => by
    obtain ⟨l, hl⟩ := hI.queue i
    exact (List.sublist_append_left _ _).trans (legal_sublist (hc i) hl.legal)
  have key : ∀ j, j ≤ k → (pops (events (s.qs j).log)).Subperm (pushes (events (s.qs 0).log)) := by
    intro j
    induction j with
    | zero => intro _; exact (fifo 0).subperm
    | succ j ih =>
      intro hj
      refine (fifo (j + 1)).subperm.trans (.trans ?_ (ih (by omega)))
      exact (List.sublist_append_left _ _).subperm.trans (stage_all hI hj).subperm
  exact key k (Nat.le_refl k)

/-- **C172.** A thread carries at most one element. -/
theorem C172_one_each {kd : Kind} {caps : Nat → Option Nat} (hc : ∀ i n, caps i = some n → 0 < n) {k m : Nat} {F : Nat → Nat → Bool}
    {s : Chain.State (queues kd caps : Nat → QImpl α)} (h : Reach _ k F m s) {i : Nat} (hi : i < k) (t : Nat) :
    (s.flight i t).length ≤ 1 := by
  have hI := reach_inv (chainLawful kd caps hc) h
  rw [flight_eq]
  by_cases hd : inDeq (ph (s.qs i) t)
  · have := hI.busy i t hi hd
    rw [this.1, this.2]
    cases hp : ph (s.qs i) t <;> simp [gone]
  · have hg : gone (ph (s.qs i) t) = [] := by
      cases hp : ph (s.qs i) t <;> first | rfl | (rw [hp] at hd; exact absurd trivial hd)
    rw [hg]
    cases hh : s.hand i t with
    | none => cases hp : ph (s.qs (i + 1)) t <;> simp [pend]
    | some x => rw [hI.full i t hi (by simp [hh])]; simp

/-- does the program allow this? -/
def chainAllowedB [DecidableEq α] (k : Nat) (F : Nat → Nat → Bool) (s : Chain.State Q) (i : Nat) : Blocking.Act α → Bool
  | .callEnq t x => i == 0 || (F (i - 1) t && s.hand (i - 1) t == some x)
  | .callDeq t => i == k || (F i t && s.hand i t == none && (s.qs (i + 1)).pcs[t]? == some .idle)
  | _ => true

/-- a schedule of a chain -/
def runChain [DecidableEq α] (k : Nat) (F : Nat → Nat → Bool) : List (Nat × Blocking.Act α) → Chain.State Q → Option (Chain.State Q)
  | [], s => some s
  | (i, a) :: as, s =>
    if i ≤ k ∧ chainAllowedB k F s i a = true then
      match Blocking.step (s.qs i) a with
      | some q' => runChain k F as ⟨Function.update s.qs i q', s.hand' i a⟩
      | none => none
    else none

theorem runChain_reach [DecidableEq α] {k m : Nat} {F : Nat → Nat → Bool} : ∀ {as : List (Nat × Blocking.Act α)} {s s' : Chain.State Q},
    Reach Q k F m s → runChain k F as s = some s' → Reach Q k F m s'
  | [], s, s', h, e => by simp only [runChain, Option.some.injEq] at e; exact e ▸ h
  | (i, a) :: as, s, s', h, e => by
    simp only [runChain] at e
    split at e
    · rename_i ha
      split at e
      · rename_i q' hq
        refine runChain_reach (h.step i a ha.1 ?_ hq) e
        have hb := ha.2
        cases a with
        | callEnq t x =>
          rintro j rfl
          simpa [chainAllowedB] using hb
        | callDeq t =>
          intro hi
          have : i ≠ k := by omega
          simp only [chainAllowedB, this, beq_iff_eq, Bool.or_eq_true, Bool.and_eq_true, false_or] at hb
          exact ⟨hb.1.1, hb.1.2, hb.2⟩
        | _ => trivial
      · cases e
    · cases e

/-- a whole `enqueue` of thread `t` -/
def chainEnq (i t x : Nat) : List (Nat × Blocking.Act Nat) := [(i, .callEnq t x), (i, .run t), (i, .run t), (i, .notify t none), (i, .run t)]

/-- a whole `dequeue` of thread `t` -/
def chainDeq (i t : Nat) : List (Nat × Blocking.Act Nat) := [(i, .callDeq t), (i, .run t), (i, .run t), (i, .run t), (i, .run t)]

/-- thread 0 produces and consumes; threads 1 and 2 pass on; thread 2 overtakes thread 1 -/
def chainOvertaking : List (Nat × Blocking.Act Nat) :=
  chainEnq 0 0 1 ++ chainEnq 0 0 2 ++ chainDeq 0 1 ++ chainDeq 0 2 ++ chainEnq 1 2 2 ++ chainEnq 1 1 1 ++ chainDeq 1 0 ++ chainDeq 1 0

theorem chainOvertaking_runs : (runChain 1 (fun _ t => t != 0) chainOvertaking (Chain.start (fun _ => stdQ Nat) 3)).isSome = true := by decide +kernel

/-- **C172 is false** of stages with two threads: elements come out in another order. -/
theorem C172_refuted : ¬ ∀ (k m : Nat) (F : Nat → Nat → Bool) (s : Chain.State fun _ => stdQ Nat), Reach _ k F m s →
    pops (events (s.qs k).log) <+: pushes (events (s.qs 0).log) := by
  intro h
  have hr := runChain_reach (F := fun _ t => t != 0) (k := 1) (m := 3) Reach.start (Option.some_get chainOvertaking_runs).symm
  have := h 1 3 _ _ hr
  revert this
  decide +kernel

/-- three queues and two stages, threads 1 and 2: `7` has arrived, `8` is in thread 1's hands, `9` still in the first queue -/
def chainWorking : List (Nat × Blocking.Act Nat) :=
  chainEnq 0 0 7 ++ chainDeq 0 1 ++ chainEnq 1 1 7 ++ chainEnq 0 0 8 ++ chainDeq 1 2 ++ chainDeq 0 1 ++ chainEnq 2 2 7 ++ chainEnq 0 0 9 ++ chainDeq 2 0

theorem chainWorking_runs : (runChain 2 (fun i t => t == i + 1) chainWorking (Chain.start (fun _ => stdQ Nat) 3)).isSome = true := by decide +kernel

example : ∃ s : Chain.State fun _ => stdQ Nat, Reach _ 2 (fun i t => t == i + 1) 3 s ∧ pops (events (s.qs 2).log) = [7] ∧
    s.inside (fun i => s.flight i (i + 1)) 2 = [8, 9] ∧ s.flight 0 1 = [8] ∧ pushes (events (s.qs 0).log) = [7, 8, 9] := by
  refine ⟨_, runChain_reach (F := fun i t => t == i + 1) (k := 2) (m := 3) Reach.start (Option.some_get chainWorking_runs).symm, ?_⟩
  decide +kernel

/-- a first queue of capacity 1: the first element is displaced, the second one passes -/
def chainLossy : List (Nat × Blocking.Act Nat) := chainEnq 0 0 1 ++ chainEnq 0 0 2 ++ chainDeq 0 1 ++ chainEnq 1 1 2 ++ chainDeq 1 0

theorem chainLossy_runs : (runChain 1 (fun i t => t == i + 1) chainLossy
    (Chain.start (queues .managed fun i => if i = 0 then some 1 else none) 2)).isSome = true := by decide +kernel

example : ∃ s : Chain.State (queues .managed fun i => if i = 0 then some 1 else none : Nat → QImpl Nat),
    Reach _ 1 (fun i t => t == i + 1) 2 s ∧ pops (events (s.qs 1).log) = [2] ∧ pushes (events (s.qs 0).log) = [1, 2] := by
  refine ⟨_, runChain_reach (F := fun i t => t == i + 1) (k := 1) (m := 2) Reach.start (Option.some_get chainLossy_runs).symm, ?_⟩
  decide +kernel

end Efp.Props
