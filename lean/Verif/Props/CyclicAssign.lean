import Verif.CyclicAssign

/-!
# Move assignment and self-assignment of `Vcq`, the result of assigning to a `Vcb` (C26, C171)

Vocabulary as in `Verif.Props.Cyclic`.
-/

namespace Efp
namespace Props

open Cyclic Spec Cyc

variable {α : Type}

/-- C26, partial: move assignment of a queue of trivially copyable elements to a queue with any history of its own,
if the number of elements that ever left the source is a multiple of `n` -/
theorem C26_move_assign_trivial_partial {n : Nat} (hn : 0 < n) {ops opsT : List (QOp α)} {q outs qT outsT : List α}
    (hf : fifo n ops [] = some (q, outs)) (hr : removed n ops [] % n = 0) (hT : fifo n opsT [] = some (qT, outsT)) :
    ∃ s t t', Vcq.runOps .trivial ops (Vcq.mk0 n) = .ok outs s ∧ Vcq.runOps .trivial opsT (Vcq.mk0 n) = .ok outsT t ∧
      Vcq.moveAssign .trivial (t, s) = .ok () (t', s) ∧ t'.size = q.length ∧ Vcq.contents t' = .ok q t' := by
  obtain ⟨s, t, t', h1, h2, h3, h4, h5⟩ := C26_copy_assign_partial hn .trivial hf hr hT
  refine ⟨s, t, t', h1, h2, ?_, h4, h5⟩
  unfold Vcq.copyAssign at h3
  cases hd : Vcq.dtor .trivial t with
  | ok x u =>
    rw [Cpp.bind_ok hd] at h3
    cases hl : forUp (Vcq.copyBody s) 0 s.size u with
    | ok y v =>
      rw [Cpp.bind_ok hl] at h3
      have e1 : (Vcb.left (Vcq.dtor .trivial) : Cpp (VcqS α × VcqS α) Unit) (t, s) = .ok x (u, s) := by
        unfold Vcb.left; rw [hd]; rfl
      have e2 : forUp (Vcq.moveBody .trivial s.n s.rd) 0 s.size (u, s) = .ok y (v, s) := by
        rw [Vcq.moveLoop_trivial, hl]; rfl
      unfold Vcq.moveAssign
      rw [Cpp.bind_ok e1, Cpp.bind_ok e2]
      have h3 : ({ v with size := s.size, rd := s.rd, wr := s.wr } : VcqS α) = t' := (Out.ok.inj h3).2
      rw [← h3]
      rfl
    | thrown v => rw [Cpp.bind_thrown hl] at h3; exact nomatch h3
    | ub v => rw [Cpp.bind_ub hl] at h3; exact nomatch h3
  | thrown v => rw [Cpp.bind_thrown hd] at h3; exact nomatch h3
  | ub v => rw [Cpp.bind_ub hd] at h3; exact nomatch h3

/-- C26 is false in general: move assignment from a non-empty queue of managed elements is undefined behaviour,
whatever the target holds -/
theorem C26_move_assign_ub {n : Nat} (hn : 0 < n) {ops opsT : List (QOp α)} {q outs qT outsT : List α}
    (hf : fifo n ops [] = some (q, outs)) (hne : q ≠ []) (hT : fifo n opsT [] = some (qT, outsT)) :
    ∃ s t u, Vcq.runOps .managed ops (Vcq.mk0 n) = .ok outs s ∧ Vcq.runOps .managed opsT (Vcq.mk0 n) = .ok outsT t ∧
      Vcq.moveAssign .managed (t, s) = .ub u := by
  obtain ⟨s, h1, h2, h3, h4, -⟩ := vcq_state hn .managed hf
  obtain ⟨t, e1, e2, e3, -, -⟩ := vcq_state hn .managed hT
  obtain ⟨d, d1, d2, d3, -⟩ := Vcq.dtor_run e3
  have hpos : 0 < q.length := List.length_pos_iff.mpr hne
  obtain ⟨u, hu⟩ := Vcq.moveBody_managed (src := s) (t := d) (i := 0) h3.pos h3.cells h3.rd (by rw [d3, e2, h2])
  refine ⟨s, t, u, h1, e1, ?_⟩
  obtain ⟨m, hm⟩ : ∃ m, s.size = m + 1 := ⟨s.size - 1, by have := h3.size; omega⟩
  have hd : (Vcb.left (Vcq.dtor .managed) : Cpp (VcqS α × VcqS α) Unit) (t, s) = .ok () (d, s) := by
    unfold Vcb.left; rw [d1]; rfl
  unfold Vcq.moveAssign
  rw [Cpp.bind_ok hd, hm, forUp_succ]
  exact Cpp.bind_ub (Cpp.bind_ub hu)

/-- C26 is false for `q = q` and `q = move(q)`: with managed elements every non-empty queue destroys its elements
and then reads them. -/
theorem C26_self_assign_ub {n : Nat} (hn : 0 < n) {ops : List (QOp α)} {q outs : List α}
    (hf : fifo n ops [] = some (q, outs)) (hne : q ≠ []) :
    ∃ s, Vcq.runOps .managed ops (Vcq.mk0 n) = .ok outs s ∧ Vcq.selfAssign .managed s = .ub .deadRead ∧
      Vcq.selfMove .managed s = .ub .deadRead := by
  obtain ⟨s, h1, h2, h3, h4, -⟩ := vcq_state hn .managed hf
  obtain ⟨d, d1, d2, d3, -, -, d6⟩ := Vcq.dtor_run h3
  have hpos : 0 < q.length := List.length_pos_iff.mpr hne
  obtain ⟨m, hm⟩ : ∃ m, s.size = m + 1 := ⟨s.size - 1, by have := h3.size; omega⟩
  have hlen : 0 < d.mem.cells.length := by have := h3.pos; omega
  have hraw : d.mem.cells[0]? = some .raw := by
    rw [List.getElem?_eq_getElem hlen, d6 rfl _ (List.getElem_mem hlen)]
  refine ⟨s, h1, ?_, ?_⟩
  · unfold Vcq.selfAssign
    rw [Cpp.bind_ok d1, hm, forUp_succ]
    refine Cpp.bind_ub ?_
    unfold Vcq.selfCopyBody
    exact Cpp.bind_ub (Vcq.onMem_ub (by simp only [Mem.read, hraw]))
  · unfold Vcq.selfMove
    rw [Cpp.bind_ok d1, hm, forUp_succ]
    refine Cpp.bind_ub ?_
    unfold Vcq.selfMoveBody
    exact Cpp.bind_ub (Vcq.onMem_ub (by simp only [Mem.moveOut, hraw]))

/-- C26, partial: `q = q` and `q = move(q)` keep a queue of trivially copyable elements if the number of elements
that ever left it is a multiple of `n` -/
theorem C26_self_assign_partial {n : Nat} (hn : 0 < n) {ops : List (QOp α)} {q outs : List α}
    (hf : fifo n ops [] = some (q, outs)) (hr : removed n ops [] % n = 0) :
    ∃ s t, Vcq.runOps .trivial ops (Vcq.mk0 n) = .ok outs s ∧ Vcq.selfAssign .trivial s = .ok () t ∧
      Vcq.selfMove .trivial s = .ok () t ∧ t.size = q.length ∧ Vcq.contents t = .ok q t := by
  obtain ⟨s, h1, h2, h3, h4, -⟩ := vcq_state hn .trivial hf
  obtain ⟨t, t1, t2, t3, t4, t5, t6, t7⟩ := Vcq.selfAssign_front h3 (h4.trans hr)
  refine ⟨s, t, h1, t1, ?_, t4.trans h3.size, ?_⟩
  · have : (Vcq.selfMoveBody .trivial : Nat → Cpp (VcqS α) Unit) = Vcq.selfCopyBody := by
      funext i x; exact Vcq.selfMoveBody_trivial i x
    unfold Vcq.selfMove
    rw [this]
    exact t1
  · unfold Vcq.contents
    rw [t4, h3.size, t3]
    exact Vcq.readSlots_run q s.rd fun i a ha => by rw [t7]; exact h3.window i a ha

/-- C26 is false for `q = q` also with trivially copyable elements: if the queue is full, its elements are distinct
and the number that left is not a multiple of `n`, the queue afterwards begins with another element. -/
theorem C26_self_assign_wrong {n : Nat} (hn : 0 < n) {ops : List (QOp α)} {q outs : List α}
    (hf : fifo n ops [] = some (q, outs)) (hfull : q.length = n) (hd : q.Nodup) (hr : removed n ops [] % n ≠ 0) :
    ∃ s t l, Vcq.runOps .trivial ops (Vcq.mk0 n) = .ok outs s ∧ Vcq.contents s = .ok q s ∧
      Vcq.selfAssign .trivial s = .ok () t ∧ Vcq.contents t = .ok l t ∧ l.head? ≠ q.head? := by
  obtain ⟨s, h1, h2, h3, h4, -⟩ := vcq_state hn .trivial hf
  have hlt : removed n ops [] % n < n := Nat.mod_lt _ hn
  generalize removed n ops [] % n = r at *
  have hnr : n - r < q.length := by omega
  have ha := h3.lo (n - r) q[n - r] (by simp [hnr])
  rw [h4, h2, show wrap n r (n - r) = 0 by unfold wrap; rw [if_neg (by omega)]; omega] at ha
  obtain ⟨t, t1, t2, t3, t4, t5, t6, t7⟩ := Vcq.selfAssign_full h3 (hfull.trans h2.symm) ha
  have hex : ∃ l : List α, l.length = q.length ∧ ∀ i a, l[i]? = some a → t.mem.cells[t.rd + i]? = some (.live a) := by
    have : ∀ m, m ≤ s.n → ∃ l : List α, l.length = m ∧ ∀ i a, l[i]? = some a → t.mem.cells[t.rd + i]? = some (.live a) := by
      intro m
      induction m with
      | zero => exact fun _ => ⟨[], rfl, fun i a h => by simp at h⟩
      | succ m ih =>
        intro hm
        obtain ⟨l, hl, hg⟩ := ih (by omega)
        obtain ⟨b, hb⟩ := t6 (t.rd + m) (by omega)
        refine ⟨l ++ [b], by simp [hl], fun i a hi => ?_⟩
        rw [List.getElem?_append] at hi
        split at hi
        · exact hg i a hi
        · have hi' := (List.getElem?_eq_some_iff.mp hi).1
          have : i = m := by simp at hi'; omega
          subst this
          rw [hl, Nat.sub_self] at hi
          rw [hb]
          simpa using hi
    exact this q.length (by omega)
  obtain ⟨l, hl, hg⟩ := hex
  refine ⟨s, t, l, h1, Vcq.contents_run h3, t1, ?_, ?_⟩
  · unfold Vcq.contents
    rw [t4, h3.size, ← hl]
    exact Vcq.readSlots_run l t.rd hg
  · obtain ⟨b, hb⟩ : ∃ b, l[0]? = some b := ⟨l[0]'(by omega), by simp⟩
    have e := hg 0 b hb
    rw [Nat.add_zero, t3, t7] at e
    have eb : q[n - r] = b := by simpa using e
    rw [List.head?_eq_getElem?, List.head?_eq_getElem?, hb, ← eb]
    intro hh
    have hh : q[n - r]? = q[0]? := by rw [List.getElem?_eq_getElem hnr]; exact hh
    have := (List.getElem?_inj (i := n - r) (j := 0) hnr hd).mp hh
    omega

/-! ## C171 -/

/-- **C171, the part that holds.**  The object that move assignment to a `Vcb` returns shows the same window as the
object assigned to, and target, source and returned object are destroyed cleanly. -/
theorem C171_result_partial {n : Nat} (hn : 0 < n) (k : Kind) (d : α) (xs zs : List α) :
    ∃ s0 s t m s' c, Vcb.mk0 n d = .ok () s0 ∧ Vcb.pushes k xs s0 = .ok () s ∧ Vcb.pushes k zs s0 = .ok () t ∧
      Vcb.moveAssignResult k (t, s) = .ok c (m, s') ∧ Vcb.window m = .ok (lastN n d xs) m ∧
      Vcb.window c = .ok (lastN n d xs) c ∧
      (∃ c', Vcb.dtor k c = .ok () c' ∧ c'.mem.led.made = c'.mem.led.gone) ∧
      (∃ m', Vcb.dtor k m = .ok () m' ∧ m'.mem.led.made = m'.mem.led.gone) ∧
      (∃ s'', Vcb.dtor k s' = .ok () s'' ∧ s''.mem.led.made = s''.mem.led.gone) := by
  obtain ⟨s0, s, vs, h1, h2, h3, h4, h5⟩ := vcb_state hn k d xs
  obtain ⟨s0', t, vt, e1, e2, e3, e4, e5⟩ := vcb_state hn k d zs
  rw [h1] at e1
  cases e1
  have fin : ∀ {u : VcbS α} {vu lo hi : List α}, Vcb.Rep u vu lo hi → ∃ u', Vcb.dtor k u = .ok () u' ∧
      u'.mem.led.made = u'.mem.led.gone := by
    intro u vu lo hi hu
    obtain ⟨u', q1, q2, -⟩ := Vcb.dtor_run (k := k) (s := u) (by rw [hu.cells, List.length_map, hu.len]) (by
      intro c hc
      rw [hu.cells] at hc
      obtain ⟨a, _, rfl⟩ := List.mem_map.mp hc
      rfl) hu.led
    exact ⟨u', q1, q2⟩
  obtain ⟨m, s', p1, p2, p3, p4, p5, p6, p7⟩ := Vcb.moveAssign_run (k := k) h5 e5 (by rw [e3, h3])
  obtain ⟨c, c1, c2, c3, c4⟩ := Vcb.copy_run p3
  obtain ⟨s'', r1, r2, -⟩ := Vcb.dtor_run (k := k) (s := s') (by rw [p5, p4]) p6 (by rw [p7, p4]; exact h5.led)
  refine ⟨s0, s, t, m, s', c, h1, h2, e2, ?_, rep_window p3, rep_window c4, fin c4, fin p3, s'', r1, r2⟩
  unfold Vcb.moveAssignResult
  rw [p1]
  simp only [c1]

/-- **C171 is false for move assignment to a `Vcb`.**  What is returned is another object: pushing onto it, as in
`(a = move(b)).push_back(x)`, leaves `a` as it was, so that `x` is not in `a` unless it was there before. -/
theorem C171_refuted {n : Nat} (hn : 0 < n) (k : Kind) (d x : α) (xs zs : List α) (hx : x ∉ lastN n d xs) :
    ∃ s0 s t m s' c c' w, Vcb.mk0 n d = .ok () s0 ∧ Vcb.pushes k xs s0 = .ok () s ∧ Vcb.pushes k zs s0 = .ok () t ∧
      Vcb.moveAssignResult k (t, s) = .ok c (m, s') ∧ Vcb.pushBack k x c = .ok () c' ∧
      Vcb.window c' = .ok (lastN n d (xs ++ [x])) c' ∧ Vcb.window m = .ok w m ∧ w = lastN n d xs ∧ x ∉ w := by
  obtain ⟨s0, s, vs, h1, h2, h3, h4, h5⟩ := vcb_state hn k d xs
  obtain ⟨s0', t, vt, e1, e2, e3, e4, e5⟩ := vcb_state hn k d zs
  rw [h1] at e1
  cases e1
  obtain ⟨m, s', p1, p2, p3, p4, p5, p6, p7⟩ := Vcb.moveAssign_run (k := k) h5 e5 (by rw [e3, h3])
  obtain ⟨c, c1, c2, c3, c4⟩ := Vcb.copy_run p3
  obtain ⟨c', vc, q1, q2, q3, q4⟩ := Vcb.pushes_run (k := k) [x] c4
  have hs : slide (lastN n d xs) [x] = lastN n d (xs ++ [x]) := by
    unfold slide lastN
    rw [← List.append_assoc, List.length_append, ← List.drop_drop,
      List.drop_append_of_le_length (i := xs.length) (l₁ := List.replicate n d ++ xs) (by simp)]
  rw [hs] at q4
  refine ⟨s0, s, t, m, s', c, c', _, h1, h2, e2, ?_, ?_, rep_window q4, rep_window p3, rfl, hx⟩
  · unfold Vcb.moveAssignResult
    rw [p1]
    simp only [c1]
  · have : Vcb.pushes k [x] c = Vcb.pushBack k x c := by
      simp only [Vcb.pushes]
      rw [Cpp.bind_run]
      cases Vcb.pushBack k x c <;> rfl
    rw [← this]
    exact q1

/-! ### The hypotheses can be met -/

example : fifo 2 [.push 1, .push 2, .push 3] [] = some ([2, 3], ([] : List Nat)) ∧
    removed 2 [.push 1, .push 2, .push (3 : Nat)] [] % 2 = 1 := ⟨rfl, rfl⟩
example : fifo 2 [.push 1, .push 2, .push 3, .push 4] [] = some ([3, 4], ([] : List Nat)) ∧
    removed 2 [.push 1, .push 2, .push 3, .push (4 : Nat)] [] % 2 = 0 := ⟨rfl, rfl⟩

/-- `q = q` with the elements 2, 3 gives 3, 3 -/
example : (match Vcq.runOps .trivial [.push 1, .push 2, .push (3 : Nat)] (Vcq.mk0 2) with
    | .ok _ s => match Vcq.selfAssign .trivial s with
      | .ok _ t => result (Vcq.contents t)
      | _ => none
    | _ => none) = some [3, 3] := by decide +kernel

example : (7 : Nat) ∉ lastN 2 0 [1, 2, 3] := by decide

end Props
end Efp
