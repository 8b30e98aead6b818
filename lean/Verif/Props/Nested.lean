import Verif.NestedLemmas

/-!
# Vectors of vectors (C153)

`Nest.runAll k ops {}` runs a program on one `Vector<Vector<A>>`, elements `A` of kind `k`.  `Spec.nestRun` is the same program on a
list of lists, `none` where the program leaves the part of the interface that works.
-/

namespace Efp.Props

open Nest

variable {α : Type}

/-- **C153, partial.** Every program on a `Vector<Vector<A>>` that stays inside the claim - temporaries and copies pushed, elements
made in place, popped, cleared, moved from slot to slot, calls on inner vectors, growth and shrinking of the outer block, copies of
the whole - runs without undefined behaviour and throws where it does on lists of lists.  The client then reads exactly those
lists.  No block is lost or freed twice: there is at most one per inner vector and one more, and at least one per non-empty inner
vector.  The live objects are exactly the elements.  Destroying the vector releases every block and every element.  Missing: copies
of empty vectors (`C153_refuted`), and insertion and removal before the end of inner vectors of resource-owning elements (C04). -/
theorem C153_partial {k : Kind} (ops : List (NOp α)) {ls : List (List α)} {evs : List Bool}
    (h : Spec.nestRun k ops [] = some (ls, evs)) :
    ∃ s, runAll k ops {} = .ok (s, evs) ∧ s.contents = .ok ls ∧ s.size = ls.length ∧
      ((ls.filter fun l => !l.isEmpty).length : Int) ≤ s.led.blocks ∧ s.led.blocks ≤ ls.length + 1 ∧
      (k = .managed → s.led.objs = Spec.total ls) ∧
      ∃ t, dtor k s = .ok () t ∧ t.led.alloc = t.led.freed ∧ (k = .managed → t.led.made = t.led.gone) := by
  obtain ⟨s, h1, h2⟩ := runAll_run ops (nrep_start k) h
  obtain ⟨t, t1, t2, t3, _⟩ := dtor_run h2
  have hb : ((ls.filter fun l => !l.isEmpty).length : Int) ≤ s.led.blocks ∧ s.led.blocks ≤ ls.length + 1 := by
    have hb := h2.blocks
    rcases h2.shape with ⟨hp, hc, _, rfl⟩ | ⟨hp, cs, m, hc, hcap, hm, hf⟩
    · rw [hp, hc] at hb
      simp [VecS.tot] at hb
      simp [hb]
    · have := vblocks_bounds hf
      rw [hc, tot_app, tot_none, hp] at hb
      simp only [if_true] at hb this
      constructor <;> omega
  refine ⟨s, h1, h2.contents, h2.size, hb.1, hb.2, ?_, t, t1, ?_, ?_⟩
  · intro hk
    have := h2.objs hk
    rw [elems_eq] at this
    simpa using this
  · simp only [Ledger.blocks] at t2; omega
  · intro hk
    have := t3 hk
    simp only [Ledger.objs] at this; omega

/-- a program with growth of both kinds of blocks, a throwing call, a move between slots, copies and removals -/
example : Spec.nestRun .managed [.pushTemp (some [1, 2]), .pop, .pop, .pushTemp none, .call 0 (.push 3), .call 0 (.push 4), .emplace,
      .call 1 .pop, .pushCopy (some [5]), .moveTo 1 0, .call 7 .clear, .reserve 9, .call 0 (.push 6), .shrinkToFit, .copyWhole, .moveTo 1 1]
      ([] : List (List Nat)) =
    some ([[6], [3, 4], [5]],
      [false, false, true, false, false, false, false, true, false, false, false, false, false, false, false, false]) := by
  decide +kernel

/-- clearing the outer vector releases what the inner vectors own -/
example : Spec.nestRun .managed [.pushTemp (some [1, 2]), .pushTemp (some [3]), .clear] ([] : List (List Nat)) =
    some ([], [false, false, false]) := by decide +kernel

/-- **C153 is false as stated.** After every program inside the claim, (1) pushing a copy of a default-constructed vector makes the
destruction of the whole undefined (the copy keeps an uninitialised pointer and frees it); (2) after `emplace_back()` copying the
whole and destroying the copy is undefined.  (3) Copying a vector of vectors that never allocated is undefined likewise. -/
theorem C153_refuted {k : Kind} (ops : List (NOp α)) {ls : List (List α)} {evs : List Bool}
    (h : Spec.nestRun k ops [] = some (ls, evs)) :
    (∃ s t, runAll k (ops ++ [.pushCopy none]) {} = .ok (s, t) ∧ dtor k s = .ub .wildPtr) ∧
    runAll k (ops ++ [.emplace, .copyWhole]) {} = .error .wildPtr ∧
    runAll k [.copyWhole] ({} : Nest α) = .error .wildPtr := by
  obtain ⟨s, h1, h2⟩ := runAll_run ops (nrep_start k) h
  have happ : ∀ (ops ops' : List (NOp α)) (s0 s : Nest α) (e : List Bool), runAll k ops s0 = .ok (s, e) →
      runAll k (ops ++ ops') s0 = (runAll k ops' s).map (fun r => (r.1, e ++ r.2)) := by
    intro ops ops'
    induction ops with
    | nil =>
      intro s0 s e he
      simp only [runAll, Except.ok.injEq, Prod.mk.injEq] at he
      obtain ⟨rfl, rfl⟩ := he
      simp only [List.nil_append]
      cases runAll k ops' s0 <;> rfl
    | cons op ops ih =>
      intro s0 s e he
      simp only [runAll, List.cons_append] at he ⊢
      cases ho : op.run k s0 with
      | ub w => rw [ho] at he; cases he
      | ok _ s1 =>
        rw [ho] at he
        simp only at he ⊢
        cases h2 : runAll k ops s1 with
        | error w => rw [h2] at he; cases he
        | ok r =>
          rw [h2] at he
          simp only [Except.map, Except.ok.injEq, Prod.mk.injEq] at he
          obtain ⟨rfl, rfl⟩ := he
          rw [ih s1 r.1 r.2 h2]
          cases runAll k ops' r.1 <;> rfl
      | thrown s1 =>
        rw [ho] at he
        simp only at he ⊢
        cases h2 : runAll k ops s1 with
        | error w => rw [h2] at he; cases he
        | ok r =>
          rw [h2] at he
          simp only [Except.map, Except.ok.injEq, Prod.mk.injEq] at he
          obtain ⟨rfl, rfl⟩ := he
          rw [ih s1 r.1 r.2 h2]
          cases runAll k ops' r.1 <;> rfl
  refine ⟨?_, ?_, rfl⟩
  · obtain ⟨t, t1, t2⟩ := pushCopy_null h2
    refine ⟨t, evs ++ [false], ?_, t2⟩
    rw [happ _ _ _ _ _ h1]
    have : (NOp.pushCopy (α := α) none).run k s = .ok () t := t1
    simp [runAll, this, Except.map]
  · obtain ⟨t, t1, t2, t3⟩ := emplaceBack_null h2
    have e1 : (NOp.emplace (α := α)).run k s = .ok () t := t1
    have e2 : (NOp.copyWhole (α := α)).run k t = .ub .wildPtr := copyWhole_null t2 t3
    rw [happ _ _ _ _ _ h1]
    simp [runAll, e1, e2, Except.map]

/-- the hypothesis is met by the program above and by the empty one -/
example : Spec.nestRun .trivial [] ([] : List (List Nat)) = some ([], []) := rfl

end Efp.Props
