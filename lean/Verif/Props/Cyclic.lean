import Verif.CyclicLemmas

/-!
# Properties of `Vcb` and `Vcq` (C23-C28, C73-C75)

Vocabulary: `Vcb.mk0 n d` default-constructs a `Vcb<A, n>` (`d` is `A{}`), `Vcb.pushes` pushes a list of values,
`Vcb.window` reads `v[0] ... v[n-1]`.  `Vcq.runOps k ops` runs a history of `push_back` and `pop_front` and returns
what was popped, `Vcq.contents` reads `q[0] ... q[size-1]`, `Vcq.iterate` is a range-for loop.  `Spec.lastN`,
`Spec.slide` and `Spec.fifo` (`Verif.Spec.Cyclic`) are plain list functions; `Spec.removed` counts the elements that
have left the front of a queue.
-/

namespace Efp
namespace Props
namespace Cyc

open Cyclic Spec

variable {α : Type}

theorem slide_replicate (n : Nat) (d : α) (xs : List α) : slide (List.replicate n d) xs = lastN n d xs := rfl

/-- the state of a `Vcb` after a history of pushes -/
theorem vcb_state {n : Nat} (hn : 0 < n) (k : Kind) (d : α) (xs : List α) :
    ∃ s0 s vs, Vcb.mk0 n d = .ok () s0 ∧ Vcb.pushes k xs s0 = .ok () s ∧ s.n = n ∧ s.off = xs.length % n ∧
      Vcb.Rep s vs (lastN n d xs) (lastN n d xs) := by
  obtain ⟨s0, h1, h2, h3, h4⟩ := Vcb.mk0_run n d hn
  obtain ⟨s, vs, g1, g2, g3, g4⟩ := Vcb.pushes_run (k := k) xs h4
  exact ⟨s0, s, vs, h1, g1, g2.trans h2, by rw [g3, h2, h3, Nat.zero_add], g4⟩

theorem rep_window {s : VcbS α} {vs w : List α} (h : Vcb.Rep s vs w w) : Vcb.window s = .ok w s :=
  Vcb.window_run h h.llo (fun _ _ => rfl) (fun _ _ _ => rfl)

/-- the state of a `Vcq` after a history -/
theorem vcq_state {n : Nat} (hn : 0 < n) (k : Kind) {ops : List (QOp α)} {q outs : List α}
    (hf : fifo n ops [] = some (q, outs)) :
    ∃ s, Vcq.runOps k ops (Vcq.mk0 n) = .ok outs s ∧ s.n = n ∧ Vcq.Rep k s q ∧ s.rd = removed n ops [] % n ∧
      s.mem.led.made = 2 * pushCount ops := by
  obtain ⟨s, h1, h2, h3, h4, h5⟩ := Vcq.runOps_fifo ops (Vcq.mk0_rep k n hn) hf
  exact ⟨s, h1, h2, h3, by rw [h4]; simp [Vcq.mk0], by rw [h5]; simp [Vcq.mk0]⟩

theorem slide_get (w ys : List α) (j : Nat) : (slide w ys)[j]? = (w ++ ys)[ys.length + j]? := by
  unfold slide; rw [List.getElem?_drop]

/-- the result of a program, for the examples -/
def result {σ β : Type} : Out σ β → Option β
  | .ok b _ => some b
  | _ => none

/-- a program run on the state another one left, for the examples -/
def after {σ β γ : Type} (o : Out σ β) (m : Cpp σ γ) : Option γ :=
  match o with
  | .ok _ s => result (m s)
  | _ => none

end Cyc

open Cyclic Spec Cyc

variable {α : Type}

/-! ## C23 -/

/-- C23: after any pushes the window is the last `n` values of `n` defaults followed by the pushed values, and the
contiguous slots from `data()` hold the same. -/
theorem C23_window {n : Nat} (hn : 0 < n) (k : Kind) (d : α) (xs : List α) :
    ∃ s0 s, Vcb.mk0 n d = .ok () s0 ∧ Vcb.pushes k xs s0 = .ok () s ∧ Vcb.size s = n ∧
      Vcb.window s = .ok (lastN n d xs) s ∧
      ∀ i a, (lastN n d xs)[i]? = some a → Vcb.at_ i s = .ok a s ∧ s.mem.cells[s.off + i]? = some (.live a) := by
  obtain ⟨s0, s, vs, h1, h2, h3, h4, h5⟩ := vcb_state hn k d xs
  refine ⟨s0, s, h1, h2, h3, rep_window h5, ?_⟩
  intro i a ha
  have hi : i < s.n := by rw [← h5.llo]; exact (List.getElem?_eq_some_iff.mp ha).1
  have hcell : s.mem.cells[s.off + i]? = some (.live a) := by
    rw [h5.cells]
    refine Vcb.getElem?_live ?_
    by_cases hc : s.off + i < s.n
    · rw [← ha, ← h5.lo i hi]; unfold wrap; rw [if_pos hc]
    · rw [← ha, ← h5.hi i hi]; unfold wrap; rw [if_neg hc]; congr 1; omega
  refine ⟨?_, hcell⟩
  unfold Vcb.at_
  rw [Vcb.onMem_ok (read_run hcell)]

/-- C23: the window in words: index `i` shows the value pushed `n - i` pushes ago, and the default while there have
been fewer pushes. -/
theorem C23_lastN_meaning (n : Nat) (d : α) (xs : List α) (i : Nat) (hi : i < n) :
    (lastN n d xs)[i]? = if n ≤ xs.length + i then xs[xs.length + i - n]? else some d := by
  unfold lastN
  rw [List.getElem?_drop, List.getElem?_append]
  simp only [List.length_replicate]
  by_cases h : n ≤ xs.length + i
  · rw [if_neg (by omega), if_pos h]
  · rw [if_pos (by omega), if_neg h, List.getElem?_replicate, if_pos (by omega)]

/-- five pushes into `Vcb<int, 3>` -/
example : after (Vcb.mk0 3 0) (do Vcb.pushes .trivial [1, 2, 3, 4, 5]; Vcb.window) = some [3, 4, 5] := by
  decide +kernel
/-- one push into `Vcb<string, 3>` -/
example : after (Vcb.mk0 3 "") (do Vcb.pushes .managed ["a"]; Vcb.window) = some ["", "", "a"] := by
  decide +kernel

/-! ## C24 -/

/-- the window after `v[i] = x` and pushes `ys`, in full -/
theorem vcb_write_window {n : Nat} (hn : 0 < n) (k : Kind) (d x : α) (xs ys : List α) {i : Nat} (hi : i < n) :
    ∃ s0 s1 s2 s3, Vcb.mk0 n d = .ok () s0 ∧ Vcb.pushes k xs s0 = .ok () s1 ∧ Vcb.write k i x s1 = .ok () s2 ∧
      Vcb.pushes k ys s2 = .ok () s3 ∧
      ((xs.length % n + i < n ∨ xs.length % n + ys.length < n ∨ i < ys.length) →
        Vcb.window s3 = .ok (slide ((lastN n d xs).set i x) ys) s3) ∧
      ((n ≤ xs.length % n + i ∧ n ≤ xs.length % n + ys.length ∧ ys.length ≤ i) →
        Vcb.window s3 = .ok (slide (lastN n d xs) ys) s3) := by
  obtain ⟨s0, s1, v1, h1, h2, h3, h4, h5⟩ := vcb_state hn k d xs
  have hlen : (lastN n d xs).length = n := by rw [h5.llo, h3]
  obtain ⟨s2, v2, g1, g2, g3, g4⟩ := Vcb.write_run (k := k) h5 (i := i) (by rw [h3]; exact hi) x
  obtain ⟨s3, v3, e1, e2, e3, e4⟩ := Vcb.pushes_run (k := k) ys g4
  rw [g2, h3] at e2
  rw [g3, h4, g2, h3] at e3
  rw [h3, h4] at e4
  generalize hw : lastN n d xs = w at *
  generalize ho : xs.length % n = off at *
  have hoff : off < n := by rw [← ho]; exact Nat.mod_lt _ hn
  refine ⟨s0, s1, s2, s3, h1, h2, g1, e1, ?_, ?_⟩
  all_goals
    intro hc
    refine Vcb.window_run e4 (by rw [Vcb.slide_length]; simp [hlen, e2]) ?_ ?_
  · intro j hj
    rw [e2, e3] at hj
    by_cases hc1 : off + i < n
    · rw [if_pos hc1]
    · rw [if_neg hc1, slide_get, slide_get]
      rw [List.getElem?_append, List.getElem?_append, List.length_set]
      split
      · next hlt =>
        rw [List.getElem?_set]
        split
        · next e =>
          exfalso
          have : off + ys.length < n := by omega
          rw [Nat.mod_eq_of_lt this] at hj
          omega
        · rfl
      · rfl
  · intro j hj hj2
    rw [e2] at hj hj2
    rw [e3] at hj2
    by_cases hc1 : off + i < n
    · rw [if_pos hc1, slide_get, slide_get]
      rw [List.getElem?_append, List.getElem?_append, List.length_set]
      split
      · next hlt =>
        rw [List.getElem?_set]
        split
        · next e =>
          exfalso
          have : off + ys.length < n := by omega
          rw [Nat.mod_eq_of_lt this] at hj2
          omega
        · rfl
      · rfl
    · rw [if_neg hc1]
  · intro j hj
    rw [if_neg (by omega)]
  · intro j hj hj2
    rw [e2] at hj hj2
    rw [e3] at hj2
    obtain ⟨c1, c2, c3⟩ := hc
    have hm : (off + ys.length) % n = off + ys.length - n := by
      rw [Nat.mod_eq_sub_mod c2, Nat.mod_eq_of_lt (by omega)]
    rw [hm] at hj2
    rw [if_neg (by omega), slide_get, slide_get]
    rw [List.getElem?_append, List.getElem?_append, List.length_set]
    split
    · next hlt =>
      rw [List.getElem?_set]
      split
      · next e => exfalso; omega
      · rfl
    · rfl

/-- C24, partial: a written value is shown until it leaves the window, if the write fell into the part of the window
before the wrap of the buffer, or the buffer has not wrapped since.  The full statement has no such condition and
fails without it (`C24_write_lost`). -/
theorem C24_write_persists_partial {n : Nat} (hn : 0 < n) (k : Kind) (d x : α) (xs ys : List α) {i : Nat} (hi : i < n)
    (hc : xs.length % n + i < n ∨ xs.length % n + ys.length < n) :
    ∃ s0 s1 s2 s3, Vcb.mk0 n d = .ok () s0 ∧ Vcb.pushes k xs s0 = .ok () s1 ∧ Vcb.write k i x s1 = .ok () s2 ∧
      Vcb.pushes k ys s2 = .ok () s3 ∧ Vcb.window s3 = .ok (slide ((lastN n d xs).set i x) ys) s3 := by
  obtain ⟨s0, s1, s2, s3, h1, h2, h3, h4, h5, -⟩ := vcb_write_window hn k d x xs ys hi
  exact ⟨s0, s1, s2, s3, h1, h2, h3, h4, h5 (by rcases hc with h | h <;> simp [h])⟩

/-- C24 is false in general: a value written behind the wrap of the buffer is replaced by the old one as soon as the
buffer wraps, while it should still be in the window. -/
theorem C24_write_lost {n : Nat} (hn : 0 < n) (k : Kind) (d x : α) (xs ys : List α) {i : Nat} (hi : i < n)
    (hc : n ≤ xs.length % n + i) (hy : n ≤ xs.length % n + ys.length) (hyi : ys.length ≤ i) :
    ∃ s0 s1 s2 s3, Vcb.mk0 n d = .ok () s0 ∧ Vcb.pushes k xs s0 = .ok () s1 ∧ Vcb.write k i x s1 = .ok () s2 ∧
      Vcb.pushes k ys s2 = .ok () s3 ∧ Vcb.window s3 = .ok (slide (lastN n d xs) ys) s3 := by
  obtain ⟨s0, s1, s2, s3, h1, h2, h3, h4, -, h5⟩ := vcb_write_window hn k d x xs ys hi
  exact ⟨s0, s1, s2, s3, h1, h2, h3, h4, h5 ⟨hc, hy, hyi⟩⟩

/-- `Vcb<int, 3>` holding 2, 3, 4: `v[1] = 9` is still shown after one push -/
example : after (Vcb.mk0 3 0) (do
    Vcb.pushes .trivial [1, 2, 3, 4]
    Vcb.write .trivial 1 9
    Vcb.pushes .trivial [5]
    Vcb.window) = some [9, 4, 5] := by decide +kernel
/-- `Vcb<int, 3>` holding 3, 4, 5: `v[2] = 9` is shown at once and lost after one push -/
example : after (Vcb.mk0 3 0) (do
    Vcb.pushes .trivial [1, 2, 3, 4, 5]
    Vcb.write .trivial 2 9
    let w ← Vcb.window
    Vcb.pushes .trivial [6]
    let w' ← Vcb.window
    pure (w, w')) = some ([3, 4, 9], [4, 5, 6]) := by decide +kernel

/-! ## C25 -/

/-- C25: every history of `push_back` and `pop_front` that never pops an empty queue runs as on a FIFO list of
capacity `n`: the popped values, `size()`, `empty()`, every index and the contiguous contents agree. -/
theorem C25_fifo {n : Nat} (hn : 0 < n) (k : Kind) {ops : List (QOp α)} {q outs : List α}
    (hf : fifo n ops [] = some (q, outs)) :
    ∃ s, Vcq.runOps k ops (Vcq.mk0 n) = .ok outs s ∧ s.size = q.length ∧ q.length ≤ n ∧
      (Vcq.empty s = true ↔ q = []) ∧ Vcq.contents s = .ok q s ∧ ∀ i a, q[i]? = some a → Vcq.at_ i s = .ok a s := by
  obtain ⟨s, h1, h2, h3, -, -⟩ := vcq_state hn k hf
  refine ⟨s, h1, h3.size, by rw [← h2]; exact h3.le, ?_, Vcq.contents_run h3, fun i a ha => Vcq.at_run h3 ha⟩
  simp [Vcq.empty, h3.size]

/-- C25: conversely a history that pops an empty queue of managed elements reads a destroyed or never constructed
element: the precondition is needed. -/
theorem C25_pop_empty {n : Nat} (hn : 0 < n) {ops : List (QOp α)} {outs : List α}
    (hf : fifo n ops [] = some ([], outs)) :
    ∃ s, Vcq.runOps .managed ops (Vcq.mk0 n) = .ok outs s ∧ Vcq.popFront .managed s = .ub .deadRead := by
  obtain ⟨s, h1, h2, h3, -, -⟩ := vcq_state hn .managed hf
  refine ⟨s, h1, ?_⟩
  have hraw := (h3.free rfl s.rd h3.rd (by simp)).1
  unfold Vcq.popFront
  apply Cpp.bind_ub
  unfold Vcq.onMem Mem.moveOut
  simp only [hraw]
  rfl

/-- C25: a fifo list never exceeds its capacity and drops exactly one element per push beyond it -/
theorem C25_fifo_drops (n : Nat) (hn : 0 < n) (xs : List α) :
    fifo n (xs.map QOp.push) [] = some (xs.drop (xs.length - n), []) := by
  have : ∀ (ys pre : List α), fifo n (ys.map QOp.push) (pre.drop (pre.length - n)) =
      some ((pre ++ ys).drop ((pre ++ ys).length - n), []) := by
    intro ys
    induction ys with
    | nil => intro pre; simp [fifo]
    | cons y ys ih =>
      intro pre
      have hstep : fifoPush n (pre.drop (pre.length - n)) y = (pre ++ [y]).drop ((pre ++ [y]).length - n) := by
        unfold fifoPush
        simp only [List.length_drop, List.length_append, List.length_cons, List.length_nil]
        split
        · next h =>
          rw [List.tail_drop, List.drop_append_of_le_length (by omega)]
          congr 2; omega
        · next h =>
          rw [show pre.length - n = 0 by omega, show pre.length + (0 + 1) - n = 0 by omega]
          simp
      show fifo n (ys.map QOp.push) (fifoPush n _ y) = _
      rw [hstep, ih]
      simp
  have h := this xs []
  simpa using h

/-- a history on `Vcq<string, 3>` that wraps, drops and pops -/
example : fifo 3 [.push "a", .push "b", .push "c", .push "d", .pop, .push "e", .push "f"] [] =
    some (["d", "e", "f"], ["b"]) := rfl
example : after (Vcq.runOps .managed [.push "a", .push "b", .push "c", .push "d", .pop, .push "e", .push "f"]
    (Vcq.mk0 3)) Vcq.contents = some ["d", "e", "f"] := by decide +kernel

/-! ## C26 -/

/-- C26, partial: a copy has the contents of its source if the number of elements that ever left the source is a
multiple of `n` (in particular for a queue never popped nor overfilled); then it also behaves like it from there on.
The full statement has no such condition and fails without it. -/
theorem C26_copy_partial {n : Nat} (hn : 0 < n) (k : Kind) {ops : List (QOp α)} {q outs : List α}
    (hf : fifo n ops [] = some (q, outs)) (hr : removed n ops [] % n = 0) {ops' : List (QOp α)} {q' outs' : List α}
    (hf' : fifo n ops' q = some (q', outs')) :
    ∃ s t t', Vcq.runOps k ops (Vcq.mk0 n) = .ok outs s ∧ Vcq.copy s = .ok () t ∧ t.size = q.length ∧
      Vcq.contents t = .ok q t ∧ Vcq.runOps k ops' t = .ok outs' t' ∧ Vcq.contents t' = .ok q' t' := by
  obtain ⟨s, h1, h2, h3, h4, -⟩ := vcq_state hn k hf
  have hle := h3.le
  obtain ⟨t, g1, g2, -, htn⟩ := Vcq.copy_rep h3 (m := q) rfl (by
    intro i a ha
    have := h3.lo i a ha
    have hi := (List.getElem?_eq_some_iff.mp ha).1
    rw [h4, hr] at this
    unfold wrap at this
    rw [if_pos (by omega), Nat.zero_add] at this
    exact this) (Vcq.mk0 s.n) rfl (by simp [Vcq.mk0]) (by
      intro _ c hc
      simp [Vcq.mk0] at hc
      exact hc.2) rfl
  obtain ⟨t', e1, e2, e3, -, -⟩ := Vcq.runOps_fifo ops' g2 (by rw [htn, h2]; exact hf')
  exact ⟨s, t, t', h1, g1, g2.size, Vcq.contents_run g2, e1, Vcq.contents_run e3⟩

/-- C26, partial: copy assignment to a queue with any history of its own, under the same condition -/
theorem C26_copy_assign_partial {n : Nat} (hn : 0 < n) (k : Kind) {ops opsT : List (QOp α)} {q outs qT outsT : List α}
    (hf : fifo n ops [] = some (q, outs)) (hr : removed n ops [] % n = 0) (hT : fifo n opsT [] = some (qT, outsT)) :
    ∃ s t t', Vcq.runOps k ops (Vcq.mk0 n) = .ok outs s ∧ Vcq.runOps k opsT (Vcq.mk0 n) = .ok outsT t ∧
      Vcq.copyAssign k s t = .ok () t' ∧ t'.size = q.length ∧ Vcq.contents t' = .ok q t' := by
  obtain ⟨s, h1, h2, h3, h4, -⟩ := vcq_state hn k hf
  obtain ⟨t, e1, e2, e3, -, -⟩ := vcq_state hn k hT
  have hle := h3.le
  obtain ⟨u, d1, d2, d3, d4, -, d6⟩ := Vcq.dtor_run e3
  obtain ⟨t', g1, g2, -, -⟩ := Vcq.copy_rep h3 (m := q) rfl (by
    intro i a ha
    have := h3.lo i a ha
    have hi := (List.getElem?_eq_some_iff.mp ha).1
    rw [h4, hr] at this
    unfold wrap at this
    rw [if_pos (by omega), Nat.zero_add] at this
    exact this) u (by rw [d2, e2, h2]) (by rw [d3, e2, h2]) d6 d4
  refine ⟨s, t, t', h1, e1, ?_, g2.size, Vcq.contents_run g2⟩
  unfold Vcq.copyAssign
  rw [Cpp.bind_ok d1]
  exact g1

/-- C26 is false in general: a full queue is copied with its elements rotated. -/
theorem C26_copy_rotated {n : Nat} (hn : 0 < n) (k : Kind) {ops : List (QOp α)} {q outs : List α}
    (hf : fifo n ops [] = some (q, outs)) (hfull : q.length = n) :
    ∃ s t, Vcq.runOps k ops (Vcq.mk0 n) = .ok outs s ∧ Vcq.copy s = .ok () t ∧
      Vcq.contents t = .ok (q.drop (n - removed n ops [] % n) ++ q.take (n - removed n ops [] % n)) t := by
  obtain ⟨s, h1, h2, h3, h4, -⟩ := vcq_state hn k hf
  have hr : removed n ops [] % n < n := Nat.mod_lt _ hn
  generalize removed n ops [] % n = r at *
  obtain ⟨t, g1, g2, -, -⟩ := Vcq.copy_rep h3 (m := q.drop (n - r) ++ q.take (n - r)) (by simp; omega) (by
    intro i a ha
    have hi := (List.getElem?_eq_some_iff.mp ha).1
    simp at hi
    rw [List.getElem?_append] at ha
    simp only [List.length_drop] at ha
    split at ha
    · rw [List.getElem?_drop] at ha
      have := h3.lo _ a ha
      rw [h4, h2] at this
      unfold wrap at this
      rw [if_neg (by omega), show r + (n - r + i) - n = i by omega] at this
      exact this
    · rw [List.getElem?_take_of_lt (by omega)] at ha
      have := h3.lo _ a ha
      rw [h4, h2] at this
      unfold wrap at this
      rw [if_pos (by omega), show r + (i - (q.length - (n - r))) = i by omega] at this
      exact this) (Vcq.mk0 s.n) rfl (by simp [Vcq.mk0]) (by
      intro _ c hc
      simp [Vcq.mk0] at hc
      exact hc.2) rfl
  exact ⟨s, t, h1, g1, Vcq.contents_run g2⟩

/-- C26 is false in general: whenever the full queue's elements are distinct and the number that left is not a
multiple of `n`, the copy differs from its source. -/
theorem C26_copy_wrong {n : Nat} (hn : 0 < n) (k : Kind) {ops : List (QOp α)} {q outs : List α}
    (hf : fifo n ops [] = some (q, outs)) (hfull : q.length = n) (hd : q.Nodup) (hr : removed n ops [] % n ≠ 0) :
    ∃ s t l, Vcq.runOps k ops (Vcq.mk0 n) = .ok outs s ∧ Vcq.contents s = .ok q s ∧ Vcq.copy s = .ok () t ∧
      Vcq.contents t = .ok l t ∧ l ≠ q := by
  obtain ⟨s, t, h1, h2, h3⟩ := C26_copy_rotated hn k hf hfull
  obtain ⟨s', g1, -, -, -, g2, -⟩ := C25_fifo hn k hf
  rw [g1] at h1
  cases h1
  refine ⟨_, t, _, g1, g2, h2, h3, ?_⟩
  have hlt : removed n ops [] % n < n := Nat.mod_lt _ hn
  generalize removed n ops [] % n = r at *
  intro e
  have h0 := congrArg (fun l => l[0]?) e
  rw [List.getElem?_append_left (by simp; omega), List.getElem?_drop, Nat.add_zero] at h0
  have := (List.getElem?_inj (i := n - r) (j := 0) (by omega) hd).mp h0
  omega

/-- C26 is false in general: copying a partly filled queue of managed elements whose front has moved reads an element
that does not exist. -/
theorem C26_copy_ub {n : Nat} (hn : 0 < n) {ops : List (QOp α)} {q outs : List α}
    (hf : fifo n ops [] = some (q, outs)) (hne : q ≠ []) (hfull : q.length < n) (hr : removed n ops [] % n ≠ 0) :
    ∃ s, Vcq.runOps .managed ops (Vcq.mk0 n) = .ok outs s ∧ Vcq.copy s = .ub .deadRead := by
  obtain ⟨s, h1, h2, h3, h4, -⟩ := vcq_state hn .managed hf
  refine ⟨s, h1, ?_⟩
  have hlt : removed n ops [] % n < n := Nat.mod_lt _ hn
  have hpos : 0 < q.length := List.length_pos_iff.mpr hne
  generalize removed n ops [] % n = r at *
  have hloop := Vcq.copyLoop_ub (src := s) (m := (q.drop (n - r))) (N := s.size) (by omega)
    (by simp; omega) (by rw [h3.size]; simp; omega) (by
      intro i a ha
      have hi := (List.getElem?_eq_some_iff.mp ha).1
      simp at hi
      rw [List.getElem?_drop] at ha
      have := h3.lo _ a ha
      rw [h4, h2] at this
      unfold wrap at this
      rw [if_neg (by omega), show r + (n - r + i) - n = i by omega] at this
      exact this) (by
      refine (h3.free rfl _ (by simp; omega) ?_).1
      intro i hi
      rw [h2, h4]
      unfold wrap
      simp only [List.length_drop]
      split <;> omega) (Vcq.mk0 s.n) rfl (by simp [Vcq.mk0])
  unfold Vcq.copy
  rw [Cpp.bind_ub hloop]

/-- C26 is false in general: moving a non-empty queue of managed elements is undefined behaviour, since each element
is moved from twice (or read where there is none). -/
theorem C26_move_ub {n : Nat} (hn : 0 < n) {ops : List (QOp α)} {q outs : List α}
    (hf : fifo n ops [] = some (q, outs)) (hne : q ≠ []) :
    ∃ s u, Vcq.runOps .managed ops (Vcq.mk0 n) = .ok outs s ∧ Vcq.moveCtor .managed s = .ub u := by
  obtain ⟨s, h1, h2, h3, h4, -⟩ := vcq_state hn .managed hf
  have hpos : 0 < q.length := List.length_pos_iff.mpr hne
  obtain ⟨u, hu⟩ := Vcq.moveBody_managed (src := s) (t := Vcq.mk0 s.n) (i := 0) h3.pos h3.cells h3.rd (by simp [Vcq.mk0])
  refine ⟨s, u, h1, ?_⟩
  obtain ⟨m, hm⟩ : ∃ m, s.size = m + 1 := ⟨s.size - 1, by have := h3.size; omega⟩
  unfold Vcq.moveCtor
  rw [hm, forUp_succ]
  exact Cpp.bind_ub (Cpp.bind_ub hu)

/-- C26, partial: moving a queue of trivially copyable elements is copying it. -/
theorem C26_move_trivial_partial {n : Nat} (hn : 0 < n) {ops : List (QOp α)} {q outs : List α}
    (hf : fifo n ops [] = some (q, outs)) (hr : removed n ops [] % n = 0) :
    ∃ s t, Vcq.runOps .trivial ops (Vcq.mk0 n) = .ok outs s ∧ Vcq.moveCtor .trivial s = .ok () (t, s) ∧
      t.size = q.length ∧ Vcq.contents t = .ok q t := by
  obtain ⟨s, t, -, h1, h2, h3, h4, -, -⟩ := C26_copy_partial hn .trivial hf hr (ops' := []) (q' := q) (outs' := []) rfl
  refine ⟨s, t, h1, ?_, h3, h4⟩
  unfold Vcq.moveCtor
  unfold Vcq.copy at h2
  cases hl : forUp (Vcq.copyBody s) 0 s.size (Vcq.mk0 s.n) with
  | ok x v =>
    rw [Cpp.bind_ok hl] at h2
    have : forUp (Vcq.moveBody .trivial s.n s.rd) 0 s.size (Vcq.mk0 s.n, s) = .ok x (v, s) := by
      rw [Vcq.moveLoop_trivial, hl]; rfl
    rw [Cpp.bind_ok this]
    cases h2
    rfl
  | thrown v => rw [Cpp.bind_thrown hl] at h2; cases h2
  | ub v => rw [Cpp.bind_ub hl] at h2; cases h2

/-- three pushes: copied faithfully; a fourth push rotates the copy -/
example : fifo 3 [.push 1, .push 2, .push 3] [] = some ([1, 2, 3], []) ∧
    removed 3 [.push 1, .push 2, .push 3] [] % 3 = 0 := ⟨rfl, rfl⟩
example : fifo 3 [.push 1, .push 2, .push 3, .push 4] [] = some ([2, 3, 4], []) ∧
    removed 3 [.push 1, .push 2, .push 3, .push 4] [] % 3 = 1 := ⟨rfl, rfl⟩
example : (match Vcq.runOps .trivial [.push 1, .push 2, .push 3, .push 4] (Vcq.mk0 3) with
    | .ok _ s => after (Vcq.copy s) Vcq.contents
    | _ => none) = some [4, 2, 3] := by decide +kernel
/-- one element left after a pop -/
example : fifo 3 [.push "a", .push "b", .pop] [] = some (["b"], ["a"]) ∧
    removed 3 [.push "a", .push "b", .pop] [] % 3 = 1 := ⟨rfl, rfl⟩

/-! ## C27 -/

/-- C27, partial: a range-for loop over a non-empty queue visits its elements, oldest first. -/
theorem C27_iterate_partial {n : Nat} (hn : 0 < n) (k : Kind) {ops : List (QOp α)} {q outs : List α}
    (hf : fifo n ops [] = some (q, outs)) (hne : q ≠ []) :
    ∃ s, Vcq.runOps k ops (Vcq.mk0 n) = .ok outs s ∧ Vcq.endOff s - s.rd = q.length ∧ Vcq.iterate s = .ok q s := by
  obtain ⟨s, h1, h2, h3, -, -⟩ := vcq_state hn k hf
  have hpos : 0 < q.length := List.length_pos_iff.mpr hne
  have hle := h3.le
  have hrd := h3.rd
  have hend : Vcq.endOff s - s.rd = q.length := by
    have hw := h3.wr
    rw [h3.size] at hw
    unfold wrap at hw
    unfold Vcq.endOff
    split at hw <;> split <;> omega
  refine ⟨s, h1, hend, ?_⟩
  unfold Vcq.iterate
  rw [hend, ← h3.size]
  exact Vcq.contents_run h3

/-- C27 is false for an empty queue: `begin()` and `end()` are `n` apart, whatever the history. -/
theorem C27_empty_range {n : Nat} (hn : 0 < n) (k : Kind) {ops : List (QOp α)} {outs : List α}
    (hf : fifo n ops [] = some ([], outs)) :
    ∃ s, Vcq.runOps k ops (Vcq.mk0 n) = .ok outs s ∧ Vcq.empty s = true ∧ Vcq.endOff s = s.rd + n := by
  obtain ⟨s, h1, h2, h3, -, -⟩ := vcq_state hn k hf
  have hrd := h3.rd
  refine ⟨s, h1, by simp [Vcq.empty, h3.size], ?_⟩
  have hw := h3.wr
  rw [h3.size] at hw
  unfold wrap at hw
  simp at hw
  unfold Vcq.endOff
  rw [if_pos hrd] at hw
  rw [if_neg (by omega)]
  omega

/-- C27 is false for an empty queue: with managed elements the loop reads elements that do not exist. -/
theorem C27_empty_ub {n : Nat} (hn : 0 < n) {ops : List (QOp α)} {outs : List α}
    (hf : fifo n ops [] = some ([], outs)) :
    ∃ s, Vcq.runOps .managed ops (Vcq.mk0 n) = .ok outs s ∧ Vcq.iterate s = .ub .deadRead := by
  obtain ⟨s, h1, -, h3⟩ := C27_empty_range hn .managed hf
  obtain ⟨s', g1, g2, g3, -, -⟩ := vcq_state hn .managed hf
  rw [g1] at h1
  cases h1
  refine ⟨_, g1, ?_⟩
  have hraw := (g3.free rfl s.rd g3.rd (by simp)).1
  obtain ⟨m, hm⟩ : ∃ m, n = m + 1 := ⟨n - 1, by omega⟩
  unfold Vcq.iterate
  rw [h3, Nat.add_sub_cancel_left, hm]
  unfold Vcq.readSlots
  apply Cpp.bind_ub
  unfold Vcq.onMem Mem.read
  simp only [hraw]
  rfl

example : fifo 2 [.push 1, .pop] [] = some ([], [1]) := rfl
example : after (Vcq.runOps .trivial [.push 1, .push 2, .pop] (Vcq.mk0 2)) Vcq.iterate = some [2] := by decide +kernel
/-- an empty `Vcq<int, 2>` whose slots were used: the loop visits two stale values -/
example : after (Vcq.runOps .trivial [.push 1, .push 2, .pop, .pop] (Vcq.mk0 2)) Vcq.iterate = some [1, 2] := by
  decide +kernel

/-! ## C28 -/

/-- C28: after any history, destroying the queue destroys every element object exactly once: as many objects were
destroyed as constructed (two per push), and none is left. -/
theorem C28_lifetimes {n : Nat} (hn : 0 < n) (k : Kind) {ops : List (QOp α)} {q outs : List α}
    (hf : fifo n ops [] = some (q, outs)) :
    ∃ s s', Vcq.runOps k ops (Vcq.mk0 n) = .ok outs s ∧ s.mem.led.made = 2 * pushCount ops ∧
      s.mem.led.made - s.mem.led.gone = 2 * q.length ∧ Vcq.dtor k s = .ok () s' ∧
      s'.mem.led.made = 2 * pushCount ops ∧ s'.mem.led.gone = 2 * pushCount ops ∧
      (k = .managed → ∀ c ∈ s'.mem.cells, c = .raw) := by
  obtain ⟨s, h1, h2, h3, -, h5⟩ := vcq_state hn k hf
  obtain ⟨s', d1, -, -, d4, d5, d6⟩ := Vcq.dtor_run h3
  have := h3.led
  exact ⟨s, s', h1, h5, by omega, d1, by rw [d5, h5], by rw [← d4, d5, h5], d6⟩

/-- C28: between operations exactly the queued elements exist: for managed elements a slot holds an object iff it is
one of the two mirrors of a queued element. -/
theorem C28_live_slots {n : Nat} (hn : 0 < n) {ops : List (QOp α)} {q outs : List α}
    (hf : fifo n ops [] = some (q, outs)) :
    ∃ s, Vcq.runOps .managed ops (Vcq.mk0 n) = .ok outs s ∧ ∀ j, j < n →
      ((∃ i a, q[i]? = some a ∧ (removed n ops [] + i) % n = j ∧ s.mem.cells[j]? = some (.live a) ∧
          s.mem.cells[n + j]? = some (.live a)) ∨
        (∀ i, i < q.length → (removed n ops [] + i) % n ≠ j) ∧ s.mem.cells[j]? = some .raw ∧
          s.mem.cells[n + j]? = some .raw) := by
  obtain ⟨s, h1, h2, h3, h4, -⟩ := vcq_state hn .managed hf
  have hle := h3.le
  refine ⟨s, h1, ?_⟩
  intro j hj
  have hlt : removed n ops [] % n < n := Nat.mod_lt _ hn
  have hw : ∀ i, i < q.length → wrap s.n s.rd i = (removed n ops [] + i) % n := by
    intro i hi
    rw [h2, h4, ← Nat.mod_add_mod]
    clear h4
    generalize removed n ops [] % n = r at hlt ⊢
    unfold wrap
    split
    · next h => rw [Nat.mod_eq_of_lt h]
    · next h => rw [Nat.mod_eq_sub_mod (by omega), Nat.mod_eq_of_lt (by omega)]
  by_cases hex : ∃ i, i < q.length ∧ (removed n ops [] + i) % n = j
  · obtain ⟨i, hi, e⟩ := hex
    left
    have ha : q[i]? = some q[i] := by simp [hi]
    have g1 := h3.lo i _ ha
    have g2 := h3.hi i _ ha
    rw [hw i hi, e] at g1 g2
    rw [h2] at g2
    exact ⟨i, _, ha, e, g1, g2⟩
  · right
    have hno : ∀ i, i < q.length → (removed n ops [] + i) % n ≠ j := fun i hi e => hex ⟨i, hi, e⟩
    refine ⟨hno, ?_⟩
    have := h3.free rfl j (by rw [h2]; exact hj) (fun i hi => by rw [hw i hi]; exact hno i hi)
    rw [h2] at this
    exact this

example : fifo 2 [.push "a", .push "b", .push "c", .pop] [] = some (["c"], ["b"]) ∧
    pushCount [.push "a", .push "b", .push "c", (.pop : QOp String)] = 3 := ⟨rfl, rfl⟩

/-! ## C73 -/

/-- C73, partial (`_partial`: self-assignment excluded, see `C73_self_assign_ub`): copies and moves of a `Vcb` show
its window, go on like it, and every object involved is destroyed cleanly. -/
theorem C73_copy_move_partial {n : Nat} (hn : 0 < n) (k : Kind) (d : α) (xs zs ys : List α) :
    ∃ s0 s c, Vcb.mk0 n d = .ok () s0 ∧ Vcb.pushes k xs s0 = .ok () s ∧ Vcb.copy s = .ok () c ∧
      (∃ c' c'', Vcb.pushes k ys c = .ok () c' ∧ Vcb.window c' = .ok (lastN n d (xs ++ ys)) c' ∧
        Vcb.dtor k c' = .ok () c'' ∧ c''.mem.led.made = c''.mem.led.gone ∧
        (k = .managed → ∀ x ∈ c''.mem.cells, x = .raw)) ∧
      (∃ t t', Vcb.pushes k zs s0 = .ok () t ∧ Vcb.copyAssign k s t = .ok () t' ∧
        Vcb.window t' = .ok (lastN n d xs) t' ∧
        ∃ t'', Vcb.dtor k t' = .ok () t'' ∧ t''.mem.led.made = t''.mem.led.gone) ∧
      (∃ m s' m' s'', Vcb.moveCtor k s = .ok () (m, s') ∧ Vcb.window m = .ok (lastN n d xs) m ∧
        Vcb.dtor k m = .ok () m' ∧ m'.mem.led.made = m'.mem.led.gone ∧
        Vcb.dtor k s' = .ok () s'' ∧ s''.mem.led.made = s''.mem.led.gone) ∧
      (∃ t m s' m' s'', Vcb.pushes k zs s0 = .ok () t ∧ Vcb.moveAssign k (t, s) = .ok () (m, s') ∧
        Vcb.window m = .ok (lastN n d xs) m ∧
        Vcb.dtor k m = .ok () m' ∧ m'.mem.led.made = m'.mem.led.gone ∧
        Vcb.dtor k s' = .ok () s'' ∧ s''.mem.led.made = s''.mem.led.gone) := by
  obtain ⟨s0, s, vs, h1, h2, h3, h4, h5⟩ := vcb_state hn k d xs
  obtain ⟨s0', t, vt, e1, e2, e3, e4, e5⟩ := vcb_state hn k d zs
  rw [h1] at e1
  cases e1
  have fin : ∀ {u : VcbS α} {vu lo hi : List α}, Vcb.Rep u vu lo hi → ∃ u', Vcb.dtor k u = .ok () u' ∧
      u'.mem.led.made = u'.mem.led.gone ∧ (k = .managed → ∀ x ∈ u'.mem.cells, x = .raw) := by
    intro u vu lo hi hu
    refine Vcb.dtor_run (by rw [hu.cells, List.length_map, hu.len]) ?_ hu.led
    intro c hc
    rw [hu.cells] at hc
    obtain ⟨a, _, rfl⟩ := List.mem_map.mp hc
    rfl
  obtain ⟨c, c1, c2, c3, c4⟩ := Vcb.copy_run h5
  refine ⟨s0, s, c, h1, h2, c1, ?_, ?_, ?_, ?_⟩
  · obtain ⟨c', vc, p1, p2, p3, p4⟩ := Vcb.pushes_run (k := k) ys c4
    obtain ⟨c'', q1, q2, q3⟩ := fin p4
    have : slide (lastN n d xs) ys = lastN n d (xs ++ ys) := by
      unfold slide lastN
      rw [← List.append_assoc, List.length_append, ← List.drop_drop,
        List.drop_append_of_le_length (i := xs.length) (l₁ := List.replicate n d ++ xs) (by simp)]
    rw [this] at p4
    exact ⟨c', c'', p1, rep_window p4, q1, q2, q3⟩
  · obtain ⟨t', p1, p2, p3, p4⟩ := Vcb.copyAssign_run (k := k) h5 e5 (by rw [e3, h3])
    obtain ⟨t'', q1, q2, -⟩ := fin p4
    exact ⟨t, t', e2, p1, rep_window p4, t'', q1, q2⟩
  · obtain ⟨m, s', p1, p2, p3, p4, p5, p6, p7⟩ := Vcb.moveCtor_run (k := k) h5
    obtain ⟨m', q1, q2, -⟩ := fin p3
    obtain ⟨s'', r1, r2, -⟩ := Vcb.dtor_run (k := k) (s := s') (by rw [p5, p4]) p6 (by rw [p7, p4]; exact h5.led)
    exact ⟨m, s', m', s'', p1, rep_window p3, q1, q2, r1, r2⟩
  · obtain ⟨m, s', p1, p2, p3, p4, p5, p6, p7⟩ := Vcb.moveAssign_run (k := k) h5 e5 (by rw [e3, h3])
    obtain ⟨m', q1, q2, -⟩ := fin p3
    obtain ⟨s'', r1, r2, -⟩ := Vcb.dtor_run (k := k) (s := s') (by rw [p5, p4]) p6 (by rw [p7, p4]; exact h5.led)
    exact ⟨t, m, s', m', s'', e2, p1, rep_window p3, q1, q2, r1, r2⟩

/-- C73 is false for `v = v` with managed elements: each element is destroyed and then read. -/
theorem C73_self_assign_ub {n : Nat} (hn : 0 < n) (d : α) (xs : List α) :
    ∃ s0 s, Vcb.mk0 n d = .ok () s0 ∧ Vcb.pushes .managed xs s0 = .ok () s ∧
      Vcb.selfAssign .managed s = .ub .deadRead := by
  obtain ⟨s0, s, vs, h1, h2, h3, h4, h5⟩ := vcb_state hn .managed d xs
  refine ⟨s0, s, h1, h2, ?_⟩
  have hl := h5.len
  obtain ⟨m, hm⟩ : ∃ m, s.n * 2 = m + 1 := ⟨s.n * 2 - 1, by omega⟩
  obtain ⟨a, ha⟩ : ∃ a, vs[0]? = some a := ⟨vs[0]'(by omega), by simp⟩
  have hc : s.mem.cells[0]? = some (.live a) := by rw [h5.cells]; exact Vcb.getElem?_live ha
  unfold Vcb.selfAssign
  rw [hm, forUp_succ]
  apply Cpp.bind_ub
  unfold Vcb.selfAssignBody
  rw [Cpp.bind_ok (Vcb.onMem_ok (destroy_run (k := .managed) hc (fun _ => rfl)))]
  apply Cpp.bind_ub
  unfold Vcb.onMem Mem.read
  have : (s.mem.cells.set 0 (dead .managed (.live a)))[0]? = some .raw := by
    rw [List.getElem?_set, if_pos rfl, if_pos (List.getElem?_eq_some_iff.mp hc).1]; rfl
  simp only [this]
  rfl

example : (match Vcb.mk0 2 0 with
    | .ok _ s => match Vcb.pushes .trivial [1, 2, 3] s with
      | .ok _ s => after (Vcb.copy s) (do Vcb.pushes .trivial [4]; Vcb.window)
      | _ => none
    | _ => none) = some [3, 4] := by decide +kernel

/-! ## C74 -/

/-- C74, partial: `q[i] = x` replaces element `i` of the queue for the rest of its stay, if the element does not lie
behind the wrap of the buffer.  The full statement has no such condition and fails without it (`C74_write_lost`). -/
theorem C74_write_persists_partial {n : Nat} (hn : 0 < n) (k : Kind) {ops ops' : List (QOp α)} {q outs q' outs' : List α}
    (hf : fifo n ops [] = some (q, outs)) {i : Nat} (hi : i < q.length) (x : α)
    (hc : removed n ops [] % n + i < n) (hf' : fifo n ops' (q.set i x) = some (q', outs')) :
    ∃ s1 s2 s3, Vcq.runOps k ops (Vcq.mk0 n) = .ok outs s1 ∧ Vcq.write k i x s1 = .ok () s2 ∧
      Vcq.contents s2 = .ok (q.set i x) s2 ∧
      Vcq.runOps k ops' s2 = .ok outs' s3 ∧ Vcq.contents s3 = .ok q' s3 := by
  obtain ⟨s1, h1, h2, h3, h4, -⟩ := vcq_state hn k hf
  have ha : q[i]? = some q[i] := by simp [hi]
  obtain ⟨s2, g1, g2, g3, g4, -, -, -⟩ := Vcq.write_run (k := k) (i := i) (p := (q[i], q[i])) x h3 (by simp [ha])
  rw [h4, h2, if_pos hc] at g4
  have hfst : ((q.map (fun a => (a, a))).set i (x, q[i])).map Prod.fst = q.set i x := by
    rw [List.map_set, List.map_map]
    congr 1
    exact List.map_id q
  have hvis : Vcq.Vis s2 ((q.map (fun a => (a, a))).set i (x, q[i])) := by
    intro j p hp
    rw [List.getElem?_set] at hp
    split at hp
    · next e => subst e; right; rw [g2, g3, h2, h4]; exact hc
    · rw [List.getElem?_map] at hp
      cases hq : q[j]? with
      | none => rw [hq] at hp; cases hp
      | some b => rw [hq] at hp; cases hp; exact .inl rfl
  have hp := Vcq.fifo_map Prod.fst n (ops'.map Vcq.dupOp) ((q.map (fun a => (a, a))).set i (x, q[i]))
  rw [Vcq.dupOp_fst, hfst, hf'] at hp
  cases hd : fifo n (ops'.map Vcq.dupOp) ((q.map (fun a => (a, a))).set i (x, q[i])) with
  | none => rw [hd] at hp; cases hp
  | some r =>
    obtain ⟨r1, r2⟩ := r
    rw [hd] at hp
    cases hp
    rw [← h2, ← g2] at hd
    obtain ⟨s3, e1, e2, e3, -, -⟩ := Vcq.runOps_fifo2 ops' g4 hd
    refine ⟨s1, s2, s3, h1, g1, ?_, e1, ?_⟩
    · rw [Vcq.contents_run2 g4 hvis, hfst]
    · exact Vcq.contents_run2 e3 (Vcq.runOps_vis ops' g4 hvis hd e1)

/-- C74 is false in general: a value written behind the wrap of the buffer is shown by `q[i]`, but popping the
queue up to that element returns the old value. -/
theorem C74_write_lost {n : Nat} (hn : 0 < n) (k : Kind) {ops : List (QOp α)} {q outs : List α}
    (hf : fifo n ops [] = some (q, outs)) {i : Nat} (hi : i < q.length) (x : α)
    (hc : n ≤ removed n ops [] % n + i) :
    ∃ s1 s2 s3, Vcq.runOps k ops (Vcq.mk0 n) = .ok outs s1 ∧ Vcq.write k i x s1 = .ok () s2 ∧
      Vcq.contents s2 = .ok (q.set i x) s2 ∧
      Vcq.runOps k (List.replicate (i + 1) .pop) s2 = .ok (q.take (i + 1)) s3 := by
  obtain ⟨s1, h1, h2, h3, h4, -⟩ := vcq_state hn k hf
  have ha : q[i]? = some q[i] := by simp [hi]
  obtain ⟨s2, g1, g2, g3, g4, g5, g6, g7⟩ := Vcq.write_run (k := k) (i := i) (p := (q[i], q[i])) x h3 (by simp [ha])
  rw [h4, h2, if_neg (by omega)] at g4
  have hcont : Vcq.contents s2 = .ok (q.set i x) s2 := by
    unfold Vcq.contents
    rw [g7, h3.size, ← List.length_set (i := i) (a := x)]
    apply Vcq.readSlots_run
    intro j b hb
    rw [g5, g3, List.getElem?_set]
    rw [List.getElem?_set] at hb
    have hlen := h3.cells
    have hrd := h3.rd
    have hle := h3.le
    by_cases e : i = j
    · subst e
      rw [if_pos rfl, if_pos hi] at hb
      cases hb
      rw [if_pos rfl, if_pos (by omega)]
    · rw [if_neg e] at hb
      rw [if_neg (by omega)]
      exact h3.window j b hb
  have hpop : ∀ (m : Nat) (l : List (α × α)), m ≤ l.length →
      fifo n ((List.replicate m (QOp.pop : QOp α)).map Vcq.dupOp) l = some (l.drop m, l.take m) := by
    intro m
    induction m with
    | zero => intro l _; rfl
    | succ m ih =>
      intro l hl
      cases l with
      | nil => simp at hl
      | cons y l =>
        show (fifo n ((List.replicate m QOp.pop).map Vcq.dupOp) l).map _ = _
        rw [ih l (by simpa using hl)]
        rfl
  have hd := hpop (i + 1) ((q.map (fun a => (a, a))).set i (q[i], x)) (by simp; omega)
  rw [← h2, ← g2] at hd
  obtain ⟨s3, e1, -, -, -, -⟩ := Vcq.runOps_fifo2 _ g4 hd
  refine ⟨s1, s2, s3, h1, g1, hcont, ?_⟩
  rw [e1]
  congr 1
  rw [List.map_take, List.map_set, List.map_map]
  congr 1
  have hid : (Prod.fst ∘ fun a : α => (a, a)) = id := rfl
  rw [hid, List.map_id]
  exact List.set_getElem_self hi

/-- `Vcq<int, 3>` holding 2, 3, 4: `q[1] = 9` persists, `q[2] = 9` is popped as 4 -/
example : fifo 3 [.push 1, .push 2, .push 3, .push 4] [] = some ([2, 3, 4], []) ∧
    removed 3 [.push 1, .push 2, .push 3, .push 4] [] % 3 = 1 ∧
    fifo 3 [.push 5, .pop, .pop] [2, 9, 4] = some ([5], [9, 4]) := ⟨rfl, rfl, rfl⟩
example : after (Vcq.runOps .trivial [.push 1, .push 2, .push 3, .push 4] (Vcq.mk0 3)) (do
    Vcq.write .trivial 2 9
    let w ← Vcq.contents
    let p ← Vcq.runOps .trivial [.pop, .pop, .pop]
    pure (w, p)) = some ([2, 3, 9], [2, 3, 4]) := by decide +kernel

/-! ## C75 -/

/-- C75, partial: `q.push_back(q[i])` pushes the value `q[i]` had, unless the queue is full, holds managed elements and
`i` is the front (`C75_push_own_front_ub`). -/
theorem C75_push_own_partial {n : Nat} (hn : 0 < n) (k : Kind) {ops : List (QOp α)} {q outs : List α}
    (hf : fifo n ops [] = some (q, outs)) {i : Nat} {a : α} (ha : q[i]? = some a)
    (hc : k = .trivial ∨ q.length < n ∨ 0 < i) :
    ∃ s s', Vcq.runOps k ops (Vcq.mk0 n) = .ok outs s ∧ Vcq.pushBackOwn k i s = .ok () s' ∧
      Vcq.contents s' = .ok (fifoPush n q a) s' := by
  obtain ⟨s, h1, h2, h3, -, -⟩ := vcq_state hn k hf
  obtain ⟨s', g1, g2, g3, -, -⟩ := Vcq.pushBack_run h3 a
  rw [h2] at g3
  refine ⟨s, s', h1, ?_, Vcq.contents_run g3⟩
  rw [Vcq.pushBackOwn_run h3 ha (by rw [h2]; exact hc), g1]

/-- C75 is false in general: a full queue of managed elements destroys its front before reading it. -/
theorem C75_push_own_front_ub {n : Nat} (hn : 0 < n) {ops : List (QOp α)} {q outs : List α}
    (hf : fifo n ops [] = some (q, outs)) (hfull : q.length = n) :
    ∃ s, Vcq.runOps .managed ops (Vcq.mk0 n) = .ok outs s ∧ Vcq.pushBackOwn .managed 0 s = .ub .deadRead := by
  obtain ⟨s, h1, h2, h3, -, -⟩ := vcq_state hn .managed hf
  exact ⟨s, h1, Vcq.pushBackOwn_front h3 (by rw [h2]; exact hfull)⟩

example : after (Vcq.runOps .managed [.push "a", .push "b", .push "c"] (Vcq.mk0 2)) (do
    Vcq.pushBackOwn .managed 1
    Vcq.contents) = some ["c", "c"] := by decide +kernel

end Props
end Efp
