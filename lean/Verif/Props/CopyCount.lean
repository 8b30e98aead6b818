import Verif.CopyCount
import Verif.Spec.CopyCount

/-!
# C167: no hidden copies
-/

namespace Efp.Props
open Efp.Copies Efp.Spec

theorem count_loop (a : Act) (n : Nat) (as : List Act) : (loop n as).count a = n * as.count a := by
  induction n with
  | zero => simp [loop]
  | succ n ih => simp [loop, ih, Nat.succ_mul, Nat.add_comm]

theorem relocate_copies (v : V) : (relocate true v).count .copy = 0 := by
  simp [relocate, constructMoved, count_loop]

theorem reserve_spec (h : Bool) (n : Nat) (v : V) : (reserve h n v).1.size = v.size := by
  unfold reserve; split <;> rfl

theorem reserve_copies (n : Nat) (v : V) : (reserve true n v).2.count .copy = 0 := by
  unfold reserve; split
  · exact relocate_copies v
  · rfl

theorem pushWith_size (h : Bool) (l : List Act) (v : V) : (pushWith h l v).1.size = v.size + 1 := by
  unfold pushWith
  split
  rename_i v' as he
  split at he
  · have := reserve_spec h (if v.size = 0 then 2 else 2 * v.size + 1) v
    rw [he] at this; simpa using this
  · cases he; rfl

theorem pushWith_copies (l : List Act) (v : V) : (pushWith true l v).2.count .copy = l.count .copy := by
  unfold pushWith
  split
  rename_i v' as he
  split at he
  · have := reserve_copies (if v.size = 0 then 2 else 2 * v.size + 1) v
    rw [he] at this
    simp only at this
    simp [this]
  · cases he; simp

/-- One operation: what it copies and the size afterwards. -/
theorem step_spec (v : V) (op : Op) :
    (step true v op).2.count .copy = (asks none v.size op).1 ∧ (step true v op).1.size = (asks none v.size op).2 := by
  cases op with
  | pushCopy => simp [step, pushWith_copies, pushWith_size, asks]
  | pushMove => simp [step, pushWith_copies, pushWith_size, asks, constructMoved]
  | emplace => simp [step, pushWith_copies, pushWith_size, asks, constructArgs]
  | pop =>
    simp only [step, asks]
    split <;> simp <;> omega
  | insert i =>
    simp only [step, insertAt, asks]
    by_cases hi : i > v.size
    · rw [if_pos hi, if_pos (Or.inr hi)]; simp
    · rw [if_neg hi, if_neg (c := none = some v.size ∨ v.size < i) (by simpa using hi)]
      by_cases hc : v.size + 1 ≥ v.cap
      · have h1 := reserve_copies (if v.cap = 0 then 2 else 2 * v.cap) v
        have h2 := reserve_spec true (if v.cap = 0 then 2 else 2 * v.cap) v
        simp [if_pos hc, h1, h2, count_loop]
      · simp [if_neg hc, count_loop]
  | erase i =>
    simp only [step, eraseAt, asks]
    by_cases hi : i < v.size
    · rw [if_neg (by omega), if_pos hi]; simp [count_loop]
    · rw [if_pos (by omega), if_neg hi]; simp
  | clear => simp [step, asks, count_loop]
  | reserve n => simp [step, asks, reserve_copies, reserve_spec]
  | shrink =>
    simp only [step, shrinkToFit, asks]
    split
    · exact ⟨relocate_copies v, rfl⟩
    · exact ⟨rfl, rfl⟩
  | copyOut => simp [step, asks, count_loop]

/-- **C167** (vectors on hosted platforms).  Whatever program runs on a vector, elements are copied exactly as often as the
program asked for: once for every element handed over by reference, and once each when the vector is copied.  Growing, shrinking,
inserting and erasing copy nothing else. -/
theorem C167_vector_partial (v : V) (ops : List Op) :
    (run (step true) v ops).2.count .copy = askedCopies none v.size ops := by
  induction ops generalizing v with
  | nil => rfl
  | cons op ops ih =>
    obtain ⟨h1, h2⟩ := step_spec v op
    simp [run, askedCopies, ih, h1, h2]

/-- What a list of actions becomes when moves are copies. -/
def unmoved : Act → Act
  | .move => .copy
  | a => a

theorem step_freestanding (v : V) (op : Op) (he : op ≠ .emplace) :
    (step false v op).1 = (step true v op).1 ∧ (step false v op).2 = (step true v op).2.map unmoved := by
  have hl : ∀ n as, (loop n as).map unmoved = loop n (as.map unmoved) := by
    intro n as
    induction n with
    | zero => rfl
    | succ n ih => simp [loop, ih]
  have hr : ∀ n, (reserve false n v).1 = (reserve true n v).1 ∧
      (reserve false n v).2 = (reserve true n v).2.map unmoved := by
    intro n
    unfold reserve
    split
    · simp [relocate, constructMoved, hl, unmoved]
    · simp
  have hp : ∀ l l' : List Act, l' = l.map unmoved → (pushWith false l' v).1 = (pushWith true l v).1 ∧
      (pushWith false l' v).2 = (pushWith true l v).2.map unmoved := by
    rintro l _ rfl
    unfold pushWith
    by_cases hc : v.size + 1 ≥ v.cap
    · simp only [if_pos hc]
      obtain ⟨h1, h2⟩ := hr (if v.size = 0 then 2 else 2 * v.size + 1)
      simp only [h1, h2, List.map_append, and_self]
    · simp only [if_neg hc, List.nil_append, and_self]
  cases op with
  | pushCopy => exact hp [.copy] [.copy] rfl
  | pushMove => exact hp [.move] [.copy] rfl
  | emplace => exact absurd rfl he
  | pop => simp only [step]; split <;> simp [unmoved]
  | insert i =>
    simp only [step, insertAt]
    split
    · simp
    · by_cases hc : v.size + 1 ≥ v.cap
      · simp only [if_pos hc]
        obtain ⟨h1, h2⟩ := hr (if v.cap = 0 then 2 else 2 * v.cap)
        simp [h1, h2, hl, unmoved]
      · simp [if_neg hc, hl, unmoved]
  | erase i => simp only [step, eraseAt]; split <;> simp [hl, unmoved]
  | clear => simp [step, hl, unmoved]
  | reserve n => exact hr n
  | shrink =>
    simp only [step, shrinkToFit]
    split
    · simp [relocate, constructMoved, hl, unmoved]
    · simp
  | copyOut => simp [step, hl, unmoved]

theorem count_unmoved (as : List Act) :
    (as.map unmoved).count .copy = as.count .copy + as.count .move ∧ (as.map unmoved).count .move = 0 := by
  induction as with
  | nil => simp
  | cons a as ih =>
    obtain ⟨h1, h2⟩ := ih
    cases a <;> simp [unmoved, h1, h2] <;> omega

/-- **C167** (vectors in freestanding builds).  Every element that a hosted build moves into place is copied instead: the copies
are those asked for and one for each move of the hosted build, and nothing is ever moved into place. -/
theorem C167_freestanding (v : V) (ops : List Op) (he : Op.emplace ∉ ops) :
    (run (step false) v ops).2.count .copy =
      askedCopies none v.size ops + (run (step true) v ops).2.count .move ∧
    (run (step false) v ops).2.count .move = 0 := by
  have key : ∀ (v : V) (ops : List Op), Op.emplace ∉ ops →
      (run (step false) v ops).2 = (run (step true) v ops).2.map unmoved := by
    intro v ops
    induction ops generalizing v with
    | nil => intro _; rfl
    | cons op ops ih =>
      intro h
      obtain ⟨h1, h2⟩ := step_freestanding v op (fun hc => h (hc ▸ List.mem_cons_self ..))
      simp [run, h1, h2, ih _ (fun hc => h (List.mem_cons_of_mem _ hc))]
  rw [key v ops he]
  obtain ⟨h1, h2⟩ := count_unmoved (run (step true) v ops).2
  rw [h1, h2, C167_vector_partial]
  exact ⟨rfl, rfl⟩

/-- **C167** is false in freestanding builds: handing over two elements by move copies both, and the first once more. -/
theorem C167_refuted : ¬ ∀ (hosted : Bool) (v : V) (ops : List Op),
    (run (step hosted) v ops).2.count .copy = askedCopies none v.size ops := by
  intro h
  have := h false ⟨0, 0⟩ [.pushMove, .pushMove]
  revert this; decide

/-- **C167** (reserved).  A program that has made room first, for one element more than it will add, relocates nothing: in every
build the actions are just the constructions of the added elements. -/
theorem C167_reserved (hosted : Bool) (v : V) (ops : List Op) (hp : ∀ op ∈ ops, IsPush op)
    (hroom : v.size + ops.length < v.cap) :
    (run (step hosted) v ops).2 = ops.flatMap (fun op => match op with
      | .pushCopy => [.copy]
      | .pushMove => if hosted then [.move] else [.copy]
      | _ => if hosted then [.make] else [.make, .copy, .destroy]) := by
  induction ops generalizing v with
  | nil => rfl
  | cons op ops ih =>
    simp only [List.length_cons] at hroom
    have hw : ∀ l, pushWith hosted l v = (⟨v.size + 1, v.cap⟩, l) := by
      intro l
      unfold pushWith
      rw [if_neg (by omega)]; simp
    have hrec := ih ⟨v.size + 1, v.cap⟩ (fun op h => hp op (List.mem_cons_of_mem _ h)) (by simp only; omega)
    rcases hp op (List.mem_cons_self ..) with rfl | rfl | rfl
    · simp [run, step, hw, hrec]
    · simp [run, step, hw, hrec, constructMoved]
    · simp [run, step, hw, hrec, constructArgs]

theorem arrStep_spec (v : V) (hv : v.size ≤ v.cap) (op : Op) (h1 : op ≠ .emplace) :
    (arrStep v op).2.count .copy = (asks (some v.cap) v.size op).1 ∧
    (arrStep v op).1.size = (asks (some v.cap) v.size op).2 ∧
    (arrStep v op).1.cap = v.cap ∧ (arrStep v op).1.size ≤ v.cap := by
  cases op with
  | pushCopy =>
    simp only [arrStep, asks, Option.some.injEq]
    by_cases hc : v.cap = v.size
    · rw [if_pos (by omega), if_pos hc]; simp [hv]
    · rw [if_neg (by omega), if_neg hc]; simp; omega
  | pushMove =>
    simp only [arrStep, asks, Option.some.injEq]
    by_cases hc : v.cap = v.size
    · rw [if_pos (by omega), if_pos hc]; simp [hv]
    · rw [if_neg (by omega), if_neg hc]; simp; omega
  | emplace => exact absurd rfl h1
  | pop => simp only [arrStep, asks]; split <;> simp <;> omega
  | insert i =>
    simp only [arrStep, asks, Option.some.injEq]
    by_cases hc : v.cap = v.size ∨ v.size < i
    · rw [if_pos (by omega), if_pos hc]; simp [hv]
    · rw [if_neg (by omega), if_neg hc]; simp [count_loop]; omega
  | erase i =>
    simp only [arrStep, asks]
    by_cases hi : i < v.size
    · rw [if_neg (by omega), if_pos hi]; simp [count_loop]; omega
    · rw [if_pos (by omega), if_neg hi]; simp [hv]
  | clear => simp [arrStep, asks, count_loop]
  | reserve n => simp [arrStep, asks, hv]
  | shrink => simp [arrStep, asks, hv]
  | copyOut => simp [arrStep, asks, count_loop, hv]

/-- **C167** (bounded vectors, every build).  A program on an `ArrVec<A, n>` copies exactly as often as it asked for; elements
that are refused because the vector is full are not copied. -/
theorem C167_arrvec (n : Nat) (ops : List Op) (he : Op.emplace ∉ ops) :
    (run arrStep ⟨0, n⟩ ops).2.count .copy = askedCopies (some n) 0 ops := by
  have key : ∀ (v : V) (ops : List Op), Op.emplace ∉ ops → v.size ≤ v.cap →
      (run arrStep v ops).2.count .copy = askedCopies (some v.cap) v.size ops := by
    intro v ops
    induction ops generalizing v with
    | nil => intro _ _; rfl
    | cons op ops ih =>
      intro h hv
      obtain ⟨h1, h2, h3, h4⟩ := arrStep_spec v hv op (fun hc => h (hc ▸ List.mem_cons_self ..))
      have := ih (arrStep v op).1 (fun hc => h (List.mem_cons_of_mem _ hc)) (by omega)
      simp [run, askedCopies, this, h1, h2, h3]
  exact key ⟨0, n⟩ ops he (Nat.zero_le _)

/-- **C167** (queues).  A `Vcq` makes exactly two copies of each element pushed, and taking one out copies nothing. -/
theorem C167_queue (n size : Nat) (ops : List CycOp) :
    (vcqRun n size ops).2.count .copy = 2 * ops.count .push := by
  induction ops generalizing size with
  | nil => rfl
  | cons op ops ih =>
    cases op with
    | push =>
      simp only [vcqRun, vcqStep, List.count_append, ih]
      split <;> simp <;> omega
    | pop =>
      simp only [vcqRun, vcqStep]
      split <;> simp [ih]

/-- A `Vcb` makes three copies of an element pushed. -/
theorem C167_buffer : vcbPush.count .copy = 3 := by decide

/-- A program with growth, insertion, erasure and a refused insertion: three copies asked for and made, nine moves, which a
freestanding build makes copies. -/
example :
    let ops : List Op := [.pushMove, .pushCopy, .pushMove, .insert 1, .erase 0, .insert 9, .pushCopy, .shrink]
    askedCopies none 0 ops = 3 ∧ (run (step true) ⟨0, 0⟩ ops).2.count .copy = 3 ∧
    (run (step true) ⟨0, 0⟩ ops).2.count .move = 9 ∧ (run (step false) ⟨0, 0⟩ ops).2.count .copy = 12 := by
  decide

end Efp.Props
