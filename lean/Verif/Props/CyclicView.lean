import Verif.CyclicViewLemmas
import Verif.Props.Cyclic
import Verif.Props.Prelude

/-!
# Views into cyclic containers, and list functions over them (C156, C157)

Vocabulary: `Vcb.peek p i` and `Vcq.peek p i` read element `i` of a view whose pointer is the slot `p`; a view taken of a container
in state `s` has the pointer `s.off` (`Vcb`) or `s.rd` (`Vcq`), which is what `data()` returned.  `Vcb.asArg` and `Vcq.asArg` pass
the container to a list function.  `Spec.lastN`, `Spec.fifo` and `Spec.removed` are the list specifications of C23 and C25.
-/

namespace Efp
namespace Props

open Cyclic Spec Cyc

variable {α β ω : Type}

/-! ## C156 -/

/-- C156, `Vcb`: take a view of the whole window after pushing `xs`, then push `ys`.  Element `i` of the view still shows element `i`
of the old window as long as at most `i` values have been pushed since; after that it shows the most recent push whose number is
`i` modulo `n`. -/
theorem C156_vcb_view_partial {n : Nat} (hn : 0 < n) (k : Kind) (d : α) (xs ys : List α) :
    ∃ s0 s s', Vcb.mk0 n d = .ok () s0 ∧ Vcb.pushes k xs s0 = .ok () s ∧ Vcb.pushes k ys s = .ok () s' ∧
      (∀ i a, (lastN n d xs)[i]? = some a → Vcb.peek s.off i s = .ok a s) ∧
      (∀ i a, (lastN n d xs)[i]? = some a → ys.length ≤ i → Vcb.peek s.off i s' = .ok a s') ∧
      (∀ i j a, ys[j]? = some a → j % n = i → ys.length ≤ j + n → Vcb.peek s.off i s' = .ok a s') := by
  obtain ⟨s0, s, vs, h1, h2, h3, h4, h5⟩ := vcb_state hn k d xs
  obtain ⟨s', vs', g1, g2, g3, g4⟩ := Vcb.pushes_run (k := k) ys h5
  have hoff := h5.off
  have hlen : (lastN n d xs).length = n := by rw [h5.llo, h3]
  rw [h3] at g2 g3 hoff
  have hlt : ∀ (i : Nat) (a : α), (lastN n d xs)[i]? = some a → i < n := fun i a h => by
    rw [← hlen]; exact (List.getElem?_eq_some_iff.1 h).1
  refine ⟨s0, s, s', h1, h2, g1, ?_, ?_, ?_⟩
  · intro i a ha
    have := hlt i a ha
    exact Vcb.slot_run h5 (m := i) (by rw [h3]; omega) (by rw [h3]; omega) rfl ha
  · intro i a ha hi
    have := hlt i a ha
    refine Vcb.slot_run g4 (m := i - ys.length) (by rw [g2]; omega) (by rw [g2]; omega) ?_ ?_
    · rw [g2, g3, Nat.mod_add_mod]; congr 1; omega
    · rw [slide_get, List.getElem?_append_left (by omega)]
      rwa [show ys.length + (i - ys.length) = i by omega]
  · intro i j a ha hj hl
    have hjl := (List.getElem?_eq_some_iff.1 ha).1
    have hi : i < n := by rw [← hj]; exact Nat.mod_lt _ hn
    refine Vcb.slot_run g4 (m := n + j - ys.length) (by rw [g2]; omega) (by rw [g2]; omega) ?_ ?_
    · rw [g2, g3, Nat.mod_add_mod, show s.off + ys.length + (n + j - ys.length) = s.off + j + n by omega, Nat.add_mod_right,
        ← hj, Nat.add_mod_mod]
    · rw [slide_get, show ys.length + (n + j - ys.length) = n + j by omega, List.getElem?_append_right (by omega), hlen]
      rwa [show n + j - n = j by omega]

/-- C156, `Vcq`: take a view after the history `ops`, then run `ops'`.  The slot of the view's element `i` shows the element at
position `j` of the queue as it now is, where `removed + j = i` modulo `n`; for a class that frees something when destroyed, a slot
that no element of the queue has is dead, and reading it is undefined. -/
theorem C156_vcq_view_partial {n : Nat} (hn : 0 < n) (k : Kind) {ops ops' : List (QOp α)} {q outs q' outs' : List α}
    (hf : fifo n ops [] = some (q, outs)) (hf' : fifo n ops' q = some (q', outs')) :
    ∃ s s', Vcq.runOps k ops (Vcq.mk0 n) = .ok outs s ∧ Vcq.runOps k ops' s = .ok outs' s' ∧
      (∀ i a, q[i]? = some a → Vcq.peek s.rd i s = .ok a s) ∧
      ∀ i, i < n →
        (∀ j a, q'[j]? = some a → (removed n ops' q + j) % n = i → Vcq.peek s.rd i s' = .ok a s') ∧
        (k = .managed → (∀ j < q'.length, (removed n ops' q + j) % n ≠ i) → Vcq.peek s.rd i s' = .ub .deadRead) := by
  obtain ⟨s, h1, h2, h3, _, _⟩ := vcq_state hn k hf
  have hrd := h3.rd
  have hle := h3.le
  obtain ⟨s', g1, g2, g3, g4, _⟩ := Vcq.runOps_fifo ops' h3 (by rw [h2]; exact hf')
  rw [h2] at g2 g4 hrd hle
  have hmod : ∀ j i, (removed n ops' q + j) % n = i → (s'.rd + j) % s'.n = (s.rd + i) % s'.n := fun j i e => by
    rw [g2, g4, Nat.mod_add_mod, Nat.add_assoc, ← e, Nat.add_mod_mod]
  refine ⟨s, s', h1, g1, ?_, ?_⟩
  · intro i a ha
    have := (List.getElem?_eq_some_iff.1 ha).1
    exact Vcq.slot_run h3 (by rw [h2]; omega) rfl ha
  · intro i hi
    refine ⟨fun j a ha e => Vcq.slot_run g3 (by rw [g2]; omega) (hmod j i e) ha, ?_⟩
    rintro rfl hf
    refine Vcq.slot_dead g3 (by rw [g2]; omega) ?_
    intro j hj e
    refine hf j hj ?_
    rw [g2, g4, Nat.mod_add_mod, Nat.add_assoc] at e
    have e2 := congrArg (fun t => (n - s.rd + t) % n) e
    simp only [Nat.add_mod_mod] at e2
    rwa [show n - s.rd + (s.rd + (removed n ops' q + j)) = removed n ops' q + j + n by omega,
      show n - s.rd + (s.rd + i) = i + n by omega, Nat.add_mod_right, Nat.add_mod_right, Nat.mod_eq_of_lt hi] at e2

/-- C156: while no element has left the queue, a view of it keeps showing what it showed. -/
theorem C156_vcq_view_kept {n : Nat} (hn : 0 < n) (k : Kind) {ops ops' : List (QOp α)} {q outs q' outs' : List α}
    (hf : fifo n ops [] = some (q, outs)) (hf' : fifo n ops' q = some (q', outs')) (hr : removed n ops' q = 0) :
    ∃ s s', Vcq.runOps k ops (Vcq.mk0 n) = .ok outs s ∧ Vcq.runOps k ops' s = .ok outs' s' ∧
      ∀ i a, q[i]? = some a → Vcq.peek s.rd i s' = .ok a s' := by
  obtain ⟨s, s', h1, h2, _, h4⟩ := C156_vcq_view_partial hn k hf hf'
  obtain ⟨t, t1, t2, t3, _⟩ := vcq_state hn k hf
  have hle := t3.le
  rw [t2] at hle
  refine ⟨s, s', h1, h2, fun i a ha => ?_⟩
  have hi := (List.getElem?_eq_some_iff.1 ha).1
  have key : ∀ (ops' : List (QOp α)) (q q' outs' : List α), fifo n ops' q = some (q', outs') → removed n ops' q = 0 →
      ∀ (i : Nat) (a : α), q[i]? = some a → q'[i]? = some a := by
    intro ops'
    induction ops' with
    | nil =>
      intro q q' outs' h _ i a ha
      simp only [fifo, Option.some.injEq, Prod.mk.injEq] at h
      rw [← h.1]; exact ha
    | cons o ops' ih =>
      intro q q' outs' h hr i a ha
      cases o with
      | push x =>
        simp only [removed] at hr
        have hne : q.length ≠ n := fun e => by rw [if_pos e] at hr; omega
        refine ih _ _ _ h (by omega) i a ?_
        unfold fifoPush
        rw [if_neg hne, List.getElem?_append_left (List.getElem?_eq_some_iff.1 ha).1]
        exact ha
      | pop =>
        cases q with
        | nil => simp [fifo] at h
        | cons x q => simp only [removed] at hr; omega
  refine (h4 i (by omega)).1 i a (key ops' q q' outs' hf' hr i a ha) ?_
  rw [hr, Nat.zero_add, Nat.mod_eq_of_lt (by omega)]

/-- C156 is false of `Vcb`: the first element of a view shows another value after one push, although the old value is read by nobody
else. -/
theorem C156_vcb_view_refuted : ¬ ∀ (n : Nat) (k : Kind) (d y : Nat) (xs : List Nat) (s0 s s' : VcbS Nat) (i a : Nat), 0 < n →
    Vcb.mk0 n d = .ok () s0 → Vcb.pushes k xs s0 = .ok () s → Vcb.pushes k [y] s = .ok () s' →
    (lastN n d xs)[i]? = some a → Vcb.peek s.off i s' = .ok a s' := by
  intro h
  obtain ⟨s0, s, s', h1, h2, h3, _, _, h6⟩ := C156_vcb_view_partial (n := 3) (by omega) .trivial 0 [1, 2, 3] [4]
  have e := h 3 .trivial 0 4 [1, 2, 3] s0 s s' 0 1 (by omega) h1 h2 h3 rfl
  rw [h6 0 0 4 rfl rfl (by simp)] at e
  exact absurd (Out.ok.inj e).1 (by decide)

/-- C156 is false of `Vcq`: after a push onto a full queue the view shows the new element in place of the oldest. -/
theorem C156_vcq_view_refuted : ¬ ∀ (n : Nat) (k : Kind) (ops ops' : List (QOp Nat)) (q outs q' outs' : List Nat)
    (s s' : VcqS Nat) (i a : Nat), 0 < n →
    fifo n ops [] = some (q, outs) → fifo n ops' q = some (q', outs') →
    Vcq.runOps k ops (Vcq.mk0 n) = .ok outs s → Vcq.runOps k ops' s = .ok outs' s' →
    q[i]? = some a → Vcq.peek s.rd i s' = .ok a s' := by
  intro h
  have f1 : fifo 2 [.push 1, .push 2] ([] : List Nat) = some ([1, 2], []) := rfl
  have f2 : fifo 2 [.push 3] [1, 2] = some ([2, 3], []) := rfl
  obtain ⟨s, s', h1, h2, _, h4⟩ := C156_vcq_view_partial (by omega) .trivial f1 f2
  have e := h 2 .trivial _ _ _ _ _ _ s s' 0 1 (by omega) f1 f2 h1 h2 rfl
  rw [(h4 0 (by omega)).1 1 3 rfl rfl] at e
  exact absurd (Out.ok.inj e).1 (by decide)

/-- C156: and after the pop of a `std::string`, say, reading the view's first element is undefined -/
theorem C156_vcq_popped_dead {n : Nat} (hn : 0 < n) {ops : List (QOp α)} {x : α} {q outs : List α}
    (hf : fifo n ops [] = some (x :: q, outs)) :
    ∃ s s', Vcq.runOps .managed ops (Vcq.mk0 n) = .ok outs s ∧ Vcq.popFront .managed s = .ok x s' ∧
      Vcq.peek s.rd 0 s' = .ub .deadRead := by
  obtain ⟨s, h1, h2, h3, _⟩ := vcq_state hn .managed hf
  have hle := h3.le
  rw [List.length_cons, h2] at hle
  obtain ⟨s', g1, g2, _⟩ := Vcq.popFront_run h3
  have f2 : fifo n [.pop] (x :: q) = some (q, [x]) := rfl
  obtain ⟨t, t', e1, e2, _, e4⟩ := C156_vcq_view_partial hn .managed hf f2
  rw [h1] at e1
  obtain rfl := (Out.ok.inj e1).2
  have e2' : Vcq.runOps .managed [QOp.pop] s = .ok [x] s' := by
    show (Vcq.popFront .managed >>= fun y => Vcq.runOps .managed [] >>= fun l => pure (y :: l)) s = _
    rw [Cpp.bind_ok g1]; rfl
  rw [e2] at e2'
  obtain rfl := (Out.ok.inj e2').2
  refine ⟨s, t', h1, g1, (e4 0 hn).2 rfl ?_⟩
  intro j hj
  have : removed n [QOp.pop] (x :: q) = 1 := rfl
  rw [this, Nat.mod_eq_of_lt (by omega)]
  omega

/-- a view of `Vcb<int, 3>` taken after three pushes, read after two more: two elements are new, the third is kept -/
example : after (Vcb.mk0 3 0) (do
    Vcb.pushes .trivial [1, 2, 3, 4]
    let p ← (fun s => .ok s.off s : Cpp (VcbS Nat) Nat)
    Vcb.pushes .trivial [5, 6]
    let a ← Vcb.peek p 0
    let b ← Vcb.peek p 1
    let c ← Vcb.peek p 2
    pure [a, b, c]) = some [5, 6, 4] := by decide +kernel
/-- the hypotheses of the `Vcq` theorems are met by a queue of strings that is neither empty nor full, popped and pushed -/
example : fifo 3 [.push "a", .push "b"] [] = some (["a", "b"], []) ∧
    fifo 3 [.push "c"] ["a", "b"] = some (["a", "b", "c"], []) ∧ removed 3 [.push "c"] ["a", "b"] = 0 ∧
    fifo 3 [.pop, .push "c"] ["a", "b"] = some (["b", "c"], ["a"]) := by decide

/-! ## C157 -/

/-- C157, `Vcb`: the list functions see the last `n` values, in order, as an argument of static size `n`. -/
theorem C157_vcb_argument {n : Nat} (hn : 0 < n) (hd : n < Prelude.dyn) (k : Kind) (d : α) (xs : List α) :
    ∃ s0 s, Vcb.mk0 n d = .ok () s0 ∧ Vcb.pushes k xs s0 = .ok () s ∧
      ∃ as, Vcb.asArg s = .ok as s ∧ as.valid ∧ as.ty = .array n ∧ as.vals = lastN n d xs := by
  obtain ⟨s0, s, vs, h1, h2, h3, h4, h5⟩ := vcb_state hn k d xs
  refine ⟨s0, s, h1, h2, ⟨.array n, lastN n d xs, 0, false⟩, ?_, ?_, rfl, rfl⟩
  · unfold Vcb.asArg
    rw [Cpp.bind_ok (rep_window h5), h3]; rfl
  · exact ⟨⟨by rw [h5.llo, h3], hd⟩, by simp⟩

/-- C157, `Vcq`: the list functions see the queue from oldest to newest, as an argument of static capacity `n`. -/
theorem C157_vcq_argument {n : Nat} (hn : 0 < n) (hd : n < Prelude.dyn) (k : Kind) {ops : List (QOp α)} {q outs : List α}
    (hf : fifo n ops [] = some (q, outs)) :
    ∃ s, Vcq.runOps k ops (Vcq.mk0 n) = .ok outs s ∧
      ∃ as, Vcq.asArg s = .ok as s ∧ as.valid ∧ as.ty = .arrVec n ∧ as.vals = q := by
  obtain ⟨s, h1, h2, h3, _⟩ := vcq_state hn k hf
  refine ⟨s, h1, ⟨.arrVec n, q, 0, false⟩, ?_, ?_, rfl, rfl⟩
  · unfold Vcq.asArg
    rw [Cpp.bind_ok (Vcq.contents_run h3), h2]; rfl
  · exact ⟨⟨by rw [← h2]; exact h3.le, hd⟩, by simp⟩

/-- C157: `foldl` over a `Vcb` after any pushes: a moving sum, maximum or count over the last `n` values -/
theorem C157_vcb_foldl {n : Nat} (hn : 0 < n) (hd : n < Prelude.dyn) (k : Kind) (d : α) (xs : List α) (f : β → α → β) (z : β) :
    ∃ s0 s, Vcb.mk0 n d = .ok () s0 ∧ Vcb.pushes k xs s0 = .ok () s ∧
      (do let as ← Vcb.asArg; Prelude.foldl (fun b a => pure (f b a)) z as : Cpp (VcbS α) β) s =
        .ok ((lastN n d xs).foldl f z) s := by
  obtain ⟨s0, s, h1, h2, as, h3, _, _, h6⟩ := C157_vcb_argument hn hd k d xs
  refine ⟨s0, s, h1, h2, ?_⟩
  rw [Cpp.bind_ok h3, (C44_folds_pure as f (fun _ b => b) z s).1, h6]

/-- C157: `map` over a `Vcb` -/
theorem C157_vcb_map {n : Nat} (hn : 0 < n) (hd : n < Prelude.dyn) (k k' : Kind) (d : α) (xs : List α) (f : α → β) (e : β) :
    ∃ s0 s r, Vcb.mk0 n d = .ok () s0 ∧ Vcb.pushes k xs s0 = .ok () s ∧
      (do let as ← Vcb.asArg; Prelude.map k' e (fun ys => pure (Prelude.unary f ys e)) [as] : Cpp (VcbS α) (Prelude.Res β)) s = .ok r s ∧
      r.contents = .ok ((lastN n d xs).map f) := by
  obtain ⟨s0, s, h1, h2, as, h3, h4, h5, h6⟩ := C157_vcb_argument hn hd k d xs
  have h := C42_map k' e (fun ys => (pure (Prelude.unary f ys e) : Cpp (VcbS α) β)) [as] (by simp) (by simpa using h4)
    (.inr (by simp [h5, Prelude.SeqTy.isStaticSize, Prelude.SeqTy.ctSize]; omega)) s
  rw [mapM_pure] at h
  have e' : (Prelude.rows ([as].map Prelude.Inp.vals)).map (fun ys => Prelude.unary f ys e) = as.vals.map f := by
    rw [List.map_cons, List.map_nil, rows_one, List.map_map]; rfl
  rw [e', h6] at h
  obtain ⟨r, r1, r2⟩ := h
  exact ⟨s0, s, r, h1, h2, by rw [Cpp.bind_ok h3]; exact r1, r2⟩

/-- C157: `filter` over a `Vcq` after any history -/
theorem C157_vcq_filter {n : Nat} (hn : 0 < n) (hd : n < Prelude.dyn) (k k' : Kind) (d : α) (p : α → Bool)
    {ops : List (QOp α)} {q outs : List α} (hf : fifo n ops [] = some (q, outs)) :
    ∃ s r, Vcq.runOps k ops (Vcq.mk0 n) = .ok outs s ∧
      (do let as ← Vcq.asArg; Prelude.filter k' d (fun a => pure (p a)) as : Cpp (VcqS α) (Prelude.Res α)) s = .ok r s ∧
      r.contents = .ok (q.filter p) := by
  obtain ⟨s, h1, as, h3, h4, _, h6⟩ := C157_vcq_argument hn hd k hf
  obtain ⟨r, r1, r2⟩ := C43_filter_pure k' d p as h4 s
  exact ⟨s, r, h1, by rw [Cpp.bind_ok h3]; exact r1, by rw [r2, h6]⟩

/-- a moving sum over the last three of five samples -/
example : after (Vcb.mk0 3 0) (do
    Vcb.pushes .trivial [1, 2, 3, 4, 5]
    let as ← Vcb.asArg
    Prelude.foldl (fun b a => pure (b + a)) 0 as) = some 12 := by decide +kernel
/-- the hypotheses are met by a queue that has wrapped around -/
example : fifo 2 [.push 1, .push 2, .pop, .push 3] ([] : List Nat) = some ([2, 3], [1]) ∧ 2 < Prelude.dyn := by decide

end Props
end Efp
