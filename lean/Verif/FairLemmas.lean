import Verif.ConcurrencyLemmas
import Verif.Spec.Fair

/-!
# Fair executions of machines with one lock
-/

namespace Efp
namespace Fair

open Spec

variable {S A P α : Type}

/-- what the operation a thread is in means for the counts of calls and returns -/
def phaseOp : Phase α → Option CallName
  | .outside => none
  | .enqCalled _ | .enqDone => some .enqueue
  | .deqCalled | .deqDone _ => some .dequeue
  | .lookCalled | .lookDone _ => some .isEmpty
  | .swapCalled | .swapDone => some .swap

theorem phase_count {es : List (Ev α)} {p : Phase α} (h : PhaseRun es p) (o : CallName) :
    es.countP (fun e => callOf e == some o) =
      es.countP (fun e => retOf e == some o) + (if phaseOp p = some o then 1 else 0) := by
  induction h with
  | nil => simp [phaseOp]
  | snoc _ hs ih =>
    rw [List.countP_append, List.countP_append, ih]
    cases hs <;> cases o <;> simp [callOf, retOf, phaseOp]

theorem called_append (o : CallName) (t : Nat) (l l' : List (Nat × Ev α)) : called o t l ≤ called o t (l ++ l') := by
  simp [called, ofThread, List.filterMap_append, List.countP_append]

theorem returned_snoc {o : CallName} {t : Nat} {e : Ev α} (h : retOf e = some o) (l : List (Nat × Ev α)) :
    returned o t l < returned o t (l ++ [(t, e)]) := by
  simp [returned, ofThread, List.filterMap_append, List.countP_append, h]

theorem run_succ (step : S → A → Option S) (s0 : S) (sch : Nat → A) (i : Nat) :
    (∃ s', step (run step s0 sch i) (sch i) = some s' ∧ run step s0 sch (i + 1) = s') ∨
    (step (run step s0 sch i) (sch i) = none ∧ run step s0 sch (i + 1) = run step s0 sch i) := by
  cases h : step (run step s0 sch i) (sch i) with
  | none => exact .inr ⟨rfl, by simp [run, h]⟩
  | some s' => exact .inl ⟨s', rfl, by simp [run, h]⟩

theorem log_mono {step : S → A → Option S} {s0 : S} {sch : Nat → A} {log : S → List (Nat × Ev α)}
    (hlog : ∀ s a s', step s a = some s' → ∃ l, log s' = log s ++ l) (i : Nat) : ∀ d,
    ∃ l, log (run step s0 sch (i + d)) = log (run step s0 sch i) ++ l
  | 0 => ⟨[], by simp⟩
  | d + 1 => by
    obtain ⟨l, hl⟩ := log_mono hlog i d
    rcases run_succ step s0 sch (i + d) with ⟨s', h1, h2⟩ | ⟨_, h2⟩
    · obtain ⟨l', hl'⟩ := hlog _ _ _ h1
      exact ⟨l ++ l', by rw [← Nat.add_assoc, h2, hl', hl, List.append_assoc]⟩
    · exact ⟨l, by rw [← Nat.add_assoc, h2, hl]⟩

theorem infOften_or_never (Q : Nat → Prop) (n : Nat) : (∃ i, n ≤ i ∧ Q i) ∨ ∀ i, n ≤ i → ¬ Q i := by
  by_cases h : ∃ i, n ≤ i ∧ Q i
  · exact .inl h
  · exact .inr fun i hi hq => h ⟨i, hi, hq⟩

theorem strong_weak {step : S → A → Option S} {of : A → Option Nat} {s0 : S} {sch : Nat → A}
    (h : StrongFair step of s0 sch) : WeakFair step of s0 sch :=
  fun t n hn => h t fun m => ⟨max n m, Nat.le_max_right _ _, hn _ (Nat.le_max_left _ _)⟩

/-- the first moment from `i` on -/
theorem first {Q : Nat → Prop} {i j : Nat} (hij : i ≤ j) (hQ : Q j) : ∃ k, i ≤ k ∧ Q k ∧ ∀ d, i ≤ d → d < k → ¬ Q d := by
  induction j using Nat.strongRecOn with
  | ind j ih =>
    by_cases h : ∃ d, i ≤ d ∧ d < j ∧ Q d
    · obtain ⟨d, h1, h2, h3⟩ := h
      exact ih d h2 h1 h3
    · exact ⟨j, hij, hQ, fun d h1 h2 h3 => h ⟨d, h1, h2, h3⟩⟩

/-- a machine whose threads share one lock -/
structure Guarded (step : S → A → Option S) (of : A → Option Nat) (P : Type) where
  inv : S → Prop
  pcs : S → List P
  lock : S → Option Nat
  /-- the thread can always run its next statement -/
  free : P → Bool
  /-- the thread wants the lock -/
  waits : P → Bool
  fuel : P → Nat
  stay : ∀ {s a s' t p}, inv s → step s a = some s' → (pcs s)[t]? = some p → free p = true ∨ waits p = true →
    of a ≠ some t → (pcs s')[t]? = some p
  ready : ∀ {s t p}, inv s → (pcs s)[t]? = some p → free p = true ∨ (waits p = true ∧ lock s = none) →
    CanMove step of s t
  less : ∀ {s a s' t p}, inv s → step s a = some s' → of a = some t → (pcs s)[t]? = some p →
    ∃ p', (pcs s')[t]? = some p' ∧ fuel p' < fuel p ∧ waits p' = false
  owner : ∀ {s t}, inv s → lock s = some t → ∃ p, (pcs s)[t]? = some p ∧ free p = true
  keep : ∀ {s a s' t}, inv s → inv s' → lock s = some t → step s a = some s' → lock s' = none ∨ lock s' = some t

section
variable {step : S → A → Option S} {of : A → Option Nat} {s0 : S} {sch : Nat → A} (G : Guarded step of P)

local notation "st" => run step s0 sch

/-- as long as a thread does not move, it stays where it is -/
theorem still (hinv : ∀ i, G.inv (st i)) {t : Nat} {p : P} (hp : G.free p = true ∨ G.waits p = true) {i : Nat}
    (h0 : (G.pcs (st i))[t]? = some p) : ∀ {j : Nat}, i ≤ j → (∀ d, i ≤ d → d < j → ¬ Moves step of s0 sch t d) →
    (G.pcs (st j))[t]? = some p := by
  intro j hij
  induction j with
  | zero => intro _; rw [← Nat.le_zero.mp hij]; exact h0
  | succ j ih =>
    intro hno
    by_cases hi : i = j + 1
    · rw [← hi]; exact h0
    have hij' : i ≤ j := by omega
    have hj := ih hij' fun d h1 h2 => hno d h1 (by omega)
    rcases run_succ step s0 sch j with ⟨s', h1, h2⟩ | ⟨_, h2⟩
    · rw [h2]
      refine G.stay (hinv j) h1 hj hp fun ho => hno j hij' (by omega) ⟨ho, by rw [h1]; simp⟩
    · rw [h2]; exact hj

/-- if a thread ever moves, it does so first from the place where it is -/
theorem first_move (hinv : ∀ i, G.inv (st i)) {t : Nat} {p : P} (hp : G.free p = true ∨ G.waits p = true) {i : Nat}
    (h0 : (G.pcs (st i))[t]? = some p) (hm : ∃ j, i ≤ j ∧ Moves step of s0 sch t j) :
    ∃ j, i ≤ j ∧ (G.pcs (st j))[t]? = some p ∧ of (sch j) = some t ∧ step (st j) (sch j) = some (st (j + 1)) := by
  obtain ⟨j, hij, hj⟩ := hm
  obtain ⟨k, h1, h2, h3⟩ := first hij hj
  refine ⟨k, h1, still G hinv hp h0 h1 h3, h2.1, ?_⟩
  rcases run_succ step s0 sch k with ⟨s', h4, h5⟩ | ⟨h4, _⟩
  · rw [h4, h5]
  · exact absurd h4 h2.2

/-- a thread that needs no lock moves -/
theorem free_moves (hinv : ∀ i, G.inv (st i)) (hf : WeakFair step of s0 sch) {t : Nat} {p : P} (hp : G.free p = true)
    {i : Nat} (h0 : (G.pcs (st i))[t]? = some p) :
    ∃ j, i ≤ j ∧ (G.pcs (st j))[t]? = some p ∧ of (sch j) = some t ∧ step (st j) (sch j) = some (st (j + 1)) := by
  refine first_move G hinv (.inl hp) h0 ?_
  rcases infOften_or_never (Moves step of s0 sch t) i with h | h
  · exact h
  · exact hf t i (fun k hk => G.ready (hinv k) (still G hinv (.inl hp) h0 hk fun d h1 _ => h d h1) (.inl hp)) i

/-- the lock is released again and again -/
theorem released (hinv : ∀ i, G.inv (st i)) (hf : WeakFair step of s0 sch) : InfOften fun i => G.lock (st i) = none := by
  intro n
  rcases infOften_or_never (fun i => G.lock (st i) = none) n with h | h
  · exact h
  exfalso
  cases hl : G.lock (st n) with
  | none => exact h n (Nat.le_refl _) hl
  | some t =>
    have hold : ∀ d, G.lock (st (n + d)) = some t := by
      intro d
      induction d with
      | zero => exact hl
      | succ d ih =>
        rcases run_succ step s0 sch (n + d) with ⟨s', h1, h2⟩ | ⟨_, h2⟩
        · rcases G.keep (hinv _) (h2 ▸ hinv (n + d + 1)) ih h1 with hk | hk
          · exact absurd (by rw [← Nat.add_assoc, h2]; exact hk) (h (n + (d + 1)) (by omega))
          · rw [← Nat.add_assoc, h2]; exact hk
        · rw [← Nat.add_assoc, h2]; exact ih
    have key : ∀ f i p, n ≤ i → (G.pcs (st i))[t]? = some p → G.fuel p ≤ f → False := by
      intro f
      induction f with
      | zero =>
        intro i p hi hp hfu
        obtain ⟨p', hp', hfr⟩ := G.owner (hinv i) (by have := hold (i - n); rwa [Nat.add_sub_cancel' hi] at this)
        rw [hp] at hp'; cases hp'
        obtain ⟨j, _, h1, h2, h3⟩ := free_moves G hinv hf hfr hp
        obtain ⟨p', _, hlt, _⟩ := G.less (hinv j) h3 h2 h1
        omega
      | succ f ih =>
        intro i p hi hp hfu
        obtain ⟨p', hp', hfr⟩ := G.owner (hinv i) (by have := hold (i - n); rwa [Nat.add_sub_cancel' hi] at this)
        rw [hp] at hp'; cases hp'
        obtain ⟨j, hij, h1, h2, h3⟩ := free_moves G hinv hf hfr hp
        obtain ⟨p', hp', hlt, _⟩ := G.less (hinv j) h3 h2 h1
        exact ih (j + 1) p' (by omega) hp' (by omega)
    obtain ⟨p, hp, _⟩ := G.owner (hinv n) hl
    exact key _ n p (Nat.le_refl _) hp (Nat.le_refl _)

/-- a thread in the middle of an operation moves -/
theorem moves (hinv : ∀ i, G.inv (st i)) (hf : StrongFair step of s0 sch) {t : Nat} {p : P}
    (hp : G.free p = true ∨ G.waits p = true) {i : Nat} (h0 : (G.pcs (st i))[t]? = some p) :
    ∃ j, i ≤ j ∧ (G.pcs (st j))[t]? = some p ∧ of (sch j) = some t ∧ step (st j) (sch j) = some (st (j + 1)) := by
  refine first_move G hinv hp h0 ?_
  rcases infOften_or_never (Moves step of s0 sch t) i with h | h
  · exact h
  refine hf t (fun m => ?_) i
  obtain ⟨k, hk, hl⟩ := released G hinv (strong_weak hf) (max i m)
  refine ⟨k, by omega, G.ready (hinv k) (still G hinv hp h0 (by omega) fun d h1 _ => h d h1) ?_⟩
  rcases hp with hp | hp
  · exact .inl hp
  · exact .inr ⟨hp, hl⟩

/-- a thread in the middle of an operation comes to its end, if nothing else can stop it -/
theorem returns (hinv : ∀ i, G.inv (st i)) (hf : StrongFair step of s0 sch) {idle : P}
    (hall : ∀ p, p ≠ idle → G.free p = true ∨ G.waits p = true) {t : Nat} : ∀ (f : Nat) {p : P} {i : Nat}, G.fuel p ≤ f →
    (G.pcs (st i))[t]? = some p → ∃ j, i ≤ j ∧ (G.pcs (st j))[t]? = some idle := by
  intro f
  induction f with
  | zero =>
    intro p i hfu h0
    by_cases hp : p = idle
    · exact ⟨i, Nat.le_refl _, by rw [← hp]; exact h0⟩
    · obtain ⟨j, _, h1, h2, h3⟩ := moves G hinv hf (hall p hp) h0
      obtain ⟨p', _, h5, _⟩ := G.less (hinv j) h3 h2 h1
      omega
  | succ f ih =>
    intro p i hfu h0
    by_cases hp : p = idle
    · exact ⟨i, Nat.le_refl _, by rw [← hp]; exact h0⟩
    · obtain ⟨j, hij, h1, h2, h3⟩ := moves G hinv hf (hall p hp) h0
      obtain ⟨p', h4, h5, _⟩ := G.less (hinv j) h3 h2 h1
      obtain ⟨k, hk, h⟩ := ih (by omega) h4
      exact ⟨k, by omega, h⟩

/-- the same with weak fairness, for a thread that has the lock or needs none -/
theorem free_returns (hinv : ∀ i, G.inv (st i)) (hf : WeakFair step of s0 sch) {idle : P}
    (hall : ∀ p, p ≠ idle → G.free p = true ∨ G.waits p = true) {t : Nat} : ∀ (f : Nat) {p : P} {i : Nat}, G.fuel p ≤ f →
    G.waits p = false → (G.pcs (st i))[t]? = some p → ∃ j, i ≤ j ∧ (G.pcs (st j))[t]? = some idle := by
  have hfree : ∀ p, p ≠ idle → G.waits p = false → G.free p = true := by
    intro p hp hw
    rcases hall p hp with h | h
    · exact h
    · rw [hw] at h; simp at h
  intro f
  induction f with
  | zero =>
    intro p i hfu hw h0
    by_cases hp : p = idle
    · exact ⟨i, Nat.le_refl _, by rw [← hp]; exact h0⟩
    · obtain ⟨j, _, h1, h2, h3⟩ := free_moves G hinv hf (hfree p hp hw) h0
      obtain ⟨p', _, h5, _⟩ := G.less (hinv j) h3 h2 h1
      omega
  | succ f ih =>
    intro p i hfu hw h0
    by_cases hp : p = idle
    · exact ⟨i, Nat.le_refl _, by rw [← hp]; exact h0⟩
    · obtain ⟨j, hij, h1, h2, h3⟩ := free_moves G hinv hf (hfree p hp hw) h0
      obtain ⟨p', h4, h5, h6⟩ := G.less (hinv j) h3 h2 h1
      obtain ⟨k, hk, h⟩ := ih (by omega) h6 h4
      exact ⟨k, by omega, h⟩

/-- with weak fairness an operation ends unless it waits for the lock for ever -/
theorem ends_or_waits (hinv : ∀ i, G.inv (st i)) (hf : WeakFair step of s0 sch) {idle : P}
    (hall : ∀ p, p ≠ idle → G.free p = true ∨ G.waits p = true) {t : Nat} {p : P} {i : Nat}
    (h0 : (G.pcs (st i))[t]? = some p) : (∃ j, i ≤ j ∧ (G.pcs (st j))[t]? = some idle) ∨
      (G.waits p = true ∧ ∀ j, i ≤ j → (G.pcs (st j))[t]? = some p) := by
  cases hw : G.waits p with
  | false => exact .inl (free_returns G hinv hf hall _ (Nat.le_refl _) hw h0)
  | true =>
    rcases infOften_or_never (Moves step of s0 sch t) i with h | h
    · obtain ⟨j, hij, h1, h2, h3⟩ := first_move G hinv (.inr hw) h0 h
      obtain ⟨p', h4, _, h6⟩ := G.less (hinv j) h3 h2 h1
      obtain ⟨k, hk, hk'⟩ := free_returns G hinv hf hall _ (Nat.le_refl _) h6 h4
      exact .inl ⟨k, by omega, hk'⟩
    · exact .inr ⟨rfl, fun j hj => still G hinv (.inr hw) h0 hj fun d h1 _ => h d h1⟩

/-- if a thread waits for the lock for ever, others take and release it again and again -/
theorem overtaken (hinv : ∀ i, G.inv (st i)) (hf : WeakFair step of s0 sch) {t : Nat} {p : P} (hp : G.waits p = true) {n : Nat}
    (h0 : ∀ i, n ≤ i → (G.pcs (st i))[t]? = some p) :
    InfOften fun i => G.lock (st i) ≠ none ∧ G.lock (st (i + 1)) = none := by
  have hno : ∀ i, n ≤ i → ¬ Moves step of s0 sch t i := by
    intro i hi hm
    rcases run_succ step s0 sch i with ⟨s', h1, h2⟩ | ⟨h1, _⟩
    · obtain ⟨p', h3, h4, _⟩ := G.less (hinv i) h1 hm.1 (h0 i hi)
      rw [← h2, h0 (i + 1) (by omega)] at h3
      cases h3
      omega
    · exact hm.2 h1
  intro m
  have htaken : ∃ i, max n m ≤ i ∧ G.lock (st i) ≠ none := by
    rcases infOften_or_never (fun i => G.lock (st i) ≠ none) (max n m) with h | h
    · exact h
    · exfalso
      obtain ⟨i, hi, hm⟩ := hf t (max n m) (fun i hi => G.ready (hinv i) (h0 i (by omega))
        (.inr ⟨hp, Classical.not_not.mp (h i hi)⟩)) n
      exact hno i hi hm
  obtain ⟨i, hi, hl⟩ := htaken
  obtain ⟨j, hij, hj⟩ := released G hinv hf i
  obtain ⟨k, h1, h2, h3⟩ := first (Q := fun i => G.lock (st i) = none) hij hj
  have hki : k ≠ i := by rintro rfl; exact hl h2
  refine ⟨k - 1, by omega, h3 (k - 1) (by omega) (by omega), ?_⟩
  rw [Nat.sub_add_cancel (by omega)]
  exact h2

end

/-! ### Schedules that repeat -/

theorem run_add (step : S → A → Option S) (s0 : S) (sch : Nat → A) (i : Nat) : ∀ d,
    run step s0 sch (i + d) = run step (run step s0 sch i) (fun j => sch (i + j)) d
  | 0 => rfl
  | d + 1 => by
    show (step (run step s0 sch (i + d)) (sch (i + d))).getD (run step s0 sch (i + d)) = _
    rw [run_add step s0 sch i d]
    rfl

/-- a schedule of `pre` steps and then `per` steps again and again -/
def periodic (pre : List A) (per : List A) (a : A) (i : Nat) : A :=
  if i < pre.length then pre.getD i a else per.getD ((i - pre.length) % per.length) a

theorem periodic_shift (pre per : List A) (a : A) (k : Nat) :
    (fun j => periodic pre per a (pre.length + per.length * k + j)) = periodic [] per a := by
  funext j
  have h : ¬ pre.length + per.length * k + j < pre.length := by omega
  have h2 : pre.length + per.length * k + j - pre.length = j + per.length * k := by omega
  simp only [periodic, h, if_false, h2, Nat.add_mul_mod_self_left, List.length_nil, Nat.not_lt_zero, Nat.sub_zero]

/-- a finite piece of a schedule -/
def go (step : S → A → Option S) : List A → S → S
  | [], s => s
  | a :: as, s => match step s a with
    | some s' => go step as s'
    | none => go step as s

theorem run_go (step : S → A → Option S) : ∀ (as : List A) (s : S) (sch : Nat → A),
    (∀ i (h : i < as.length), sch i = as[i]) → run step s sch as.length = go step as s
  | [], _, _, _ => rfl
  | a :: as, s, sch, h => by
    have h0 : sch 0 = a := h 0 (by simp)
    have hr : ∀ j (hj : j < as.length), (fun j => sch (1 + j)) j = as[j] := fun j hj => by
      have := h (j + 1) (by simp; omega)
      show sch (1 + j) = _
      rw [Nat.add_comm]
      simpa using this
    rw [List.length_cons, Nat.add_comm, run_add, run_go step as _ _ hr]
    show go step as ((step s (sch 0)).getD s) = _
    rw [h0, go]
    cases step s a <;> rfl

theorem pre_go (step : S → A → Option S) (s : S) (pre per : List A) (a : A) :
    run step s (periodic pre per a) pre.length = go step pre s :=
  run_go step pre s _ fun i h => by simp [periodic, h, List.getD_eq_getElem?_getD]

theorem per_go (step : S → A → Option S) (s : S) (per : List A) (a : A) {d : Nat} (hd : d ≤ per.length) :
    run step s (periodic [] per a) d = go step (per.take d) s := by
  have := run_go step (per.take d) s (periodic [] per a) fun i h => by
    have h1 : i < per.length := by simp at h; omega
    simp [periodic, Nat.mod_eq_of_lt h1, List.getD_eq_getElem?_getD, h1]
  rwa [List.length_take, Nat.min_eq_left hd] at this

/-- if one round leads from a state of a family to another one, the run stays in the rounds of that family -/
theorem periodic_run {step : S → A → Option S} {s0 : S} {pre per : List A} {a : A} {X : Type} (F : X → S) (Good : X → Nat → Prop)
    (h0 : ∃ x, go step pre s0 = F x ∧ Good x 0)
    (h1 : ∀ x k, Good x k → ∃ y, go step per (F x) = F y ∧ Good y (k + 1)) :
    ∀ k, ∃ x, run step s0 (periodic pre per a) (pre.length + per.length * k) = F x ∧ Good x k
  | 0 => by simpa [pre_go] using h0
  | k + 1 => by
    obtain ⟨x, hx, hg⟩ := periodic_run F Good h0 h1 k
    obtain ⟨y, hy, hg'⟩ := h1 x k hg
    refine ⟨y, ?_, hg'⟩
    rw [Nat.mul_succ, ← Nat.add_assoc, run_add, hx, periodic_shift, per_go step _ per a (Nat.le_refl _), List.take_length, hy]

/-- every later moment is in some round -/
theorem periodic_at {step : S → A → Option S} {s0 : S} {pre per : List A} {a : A} {X : Type} (F : X → S) (Good : X → Nat → Prop)
    (hper : 0 < per.length)
    (hk : ∀ k, ∃ x, run step s0 (periodic pre per a) (pre.length + per.length * k) = F x ∧ Good x k) {i : Nat} (hi : pre.length ≤ i) :
    ∃ x d, d < per.length ∧ Good x ((i - pre.length) / per.length) ∧
      run step s0 (periodic pre per a) i = go step (per.take d) (F x) := by
  obtain ⟨x, hx, hg⟩ := hk ((i - pre.length) / per.length)
  refine ⟨x, (i - pre.length) % per.length, Nat.mod_lt _ hper, hg, ?_⟩
  have e : i = pre.length + per.length * ((i - pre.length) / per.length) + (i - pre.length) % per.length := by
    have := Nat.div_add_mod (i - pre.length) per.length
    omega
  calc run step s0 (periodic pre per a) i
      = run step s0 (periodic pre per a)
          (pre.length + per.length * ((i - pre.length) / per.length) + (i - pre.length) % per.length) := by rw [← e]
    _ = _ := by rw [run_add, hx, periodic_shift, per_go step _ per a (Nat.le_of_lt (Nat.mod_lt _ hper))]

/-- and the same moment of every round comes again and again -/
theorem periodic_often {step : S → A → Option S} {s0 : S} {pre per : List A} {a : A} {X : Type} (F : X → S) (Good : X → Nat → Prop)
    (hper : 0 < per.length)
    (hk : ∀ k, ∃ x, run step s0 (periodic pre per a) (pre.length + per.length * k) = F x ∧ Good x k) (d : Nat) (hd : d < per.length)
    {Q : S → A → Prop} (hQ : ∀ x k, Good x k → Q (go step (per.take d) (F x)) per[d]) :
    InfOften fun i => Q (run step s0 (periodic pre per a) i) (periodic pre per a i) := by
  intro n
  obtain ⟨x, hx, hg⟩ := hk n
  refine ⟨pre.length + per.length * n + d, ?_, ?_⟩
  · have := Nat.le_mul_of_pos_left n hper
    omega
  · have e := congrFun (periodic_shift pre per a n) d
    show Q (run step s0 (periodic pre per a) _) (periodic pre per a _)
    have e2 : periodic [] per a d = per[d] := by
      simp [periodic, Nat.mod_eq_of_lt hd, List.getD_eq_getElem?_getD, hd]
    rw [e, run_add, hx, periodic_shift, e2, per_go step _ per a (Nat.le_of_lt hd)]
    exact hQ x n hg

end Fair
end Efp
