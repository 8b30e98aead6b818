import Verif.VecWorldLemmas

/-!
# Programs over many `Vector`s (C89)

`VecS.runW k ops {}` runs a program over any number of vectors of elements of kind `k`, `Spec.vwRun` is the
same program on variables holding mathematical lists (`Verif.Spec.VecWorld`).
-/

namespace Efp.Props

open VecS

variable {α : Type}

/-- **C89 (programs), partial.** Every program over any number of `Vector`s - constructions, copies, moves,
assignments, member calls and destructions in any order, self-assignments included - that stays inside the
claim (see `Spec.vwStep`: empty sources of copies, copy assignment between different lengths and managed
changes in the middle are excluded, C03-C05 show them to be wrong) has no undefined behaviour; every call
throws or not as on lists; every variable holds its own list; the live objects are exactly the elements of
the live variables; every live block belongs to a live variable; and when all variables are gone nothing is
left. -/
theorem C89_program_partial {k : Kind} (ops : List (VecS.WOp α)) {L : List (Option (List α))} {evs : List Bool}
    (h : Spec.vwRun k ops [] = some (L, evs)) :
    ∃ W, runW k ops {} = .ok (W, evs) ∧ W.contents = L.map (Option.map Except.ok) ∧
      (k = .managed → W.led.objs = Spec.liveElems L) ∧
      0 ≤ W.led.blocks ∧ W.led.blocks ≤ ((L.filter Option.isSome).length : Int) ∧
      ((∀ o ∈ L, o = none) → W.led.alloc = W.led.freed ∧ (k = .managed → W.led.made = W.led.gone)) := by
  obtain ⟨W, hW, hi⟩ := runW_run ops (invW_nil k) h
  have hb := hi.blocks
  have hbd := tot_vblock_bounds W.vars
  have hlv := hi.liveVars
  refine ⟨W, hW, hi.contents, hi.objs, by omega, by omega, fun hn => ⟨?_, fun hk => ?_⟩⟩
  · have : (L.filter Option.isSome).length = 0 := by
      rw [List.length_eq_zero_iff, List.filter_eq_nil_iff]
      intro o ho; simp [hn o ho]
    unfold Ledger.blocks at hb; omega
  · have ho := hi.objs hk
    have h0 : tot velems L = 0 := by
      clear ho hb hbd hlv hi hW h
      induction L with
      | nil => rfl
      | cons o L ih =>
        have h1 := hn o (by simp)
        have h2 := ih (fun x hx => hn x (by simp [hx]))
        subst h1
        simpa [tot, velems] using h2
    unfold Ledger.objs at ho; omega

/-- a program with a copy, a move, self-assignments, a throwing call and destructions -/
example : Spec.vwRun .managed [.makeOf [1, 2], .copy 0, .on 0 (.push 3), .make, .on 2 .pop, .moveAssign 2 0,
      .assign 1 1, .moveAssign 2 2, .destroy 0, .destroy 1] ([] : List (Option (List Nat))) =
    some ([none, none, some [1, 2, 3]],
      [false, false, false, false, true, false, false, false, false, false]) := by
  simp [Spec.vwRun, Spec.vwStep, Spec.valueOf, Spec.vecCall, Spec.vecStep, Spec.endOp]

/-- **C89 (swap).** After any program, `swap` of two live vectors (possibly the same one) exchanges exactly
those two, and no element is constructed or destroyed and no block is allocated or freed (the trailing
`none` is the destroyed temporary). -/
theorem C89_swap {k : Kind} (ops : List (VecS.WOp α)) {L : List (Option (List α))} {evs : List Bool}
    (h : Spec.vwRun k ops [] = some (L, evs)) (v w : Nat) (lv lw : List α)
    (hv : Spec.valueOf L v = some lv) (hw : Spec.valueOf L w = some lw) :
    ∃ W W', runW k ops {} = .ok (W, evs) ∧
      runW k (swapProg L.length v w) W = .ok (W', [false, false, false, false]) ∧
      W'.contents = (((L.set v (some lw)).set w (some lv)).map (Option.map Except.ok)) ++ [none] ∧
      W'.led = W.led := by
  obtain ⟨W, hW, hi⟩ := runW_run ops (invW_nil k) h
  obtain ⟨s, hs, hpv, hrs, _⟩ := hi.value hv
  obtain ⟨o, ho, hpw, hro, _⟩ := hi.value hw
  have hrun := swap_run (k := k) hs ho
  rw [hi.len] at hrun
  refine ⟨W, _, hW, hrun, ?_, rfl⟩
  have hc := hi.contents
  unfold World.contents at hc ⊢
  rw [List.map_append, List.map_set, List.map_set, hc, List.map_set, List.map_set]
  have h1 : VecS.contents { o with led := W.led } = .ok lw :=
    Rep.contents (k := k) (show Rep k { o with led := W.led } lw from ⟨hro.1, hro.2⟩)
  have h2 : VecS.contents { s with led := W.led } = .ok lv :=
    Rep.contents (k := k) (show Rep k { s with led := W.led } lv from ⟨hrs.1, hrs.2⟩)
  simp only [Option.map_some, h1, h2, List.map_cons, List.map_nil, Option.map_none]

example : Spec.valueOf [some [1, 2], none, some [3]] 0 = some [1, 2] ∧
    Spec.valueOf [some [1, 2], none, some [3]] 2 = some [3] := ⟨rfl, rfl⟩

/-- **C89 (copies are independent).** A copy of a non-empty vector keeps its value whatever is done to the
original afterwards - any history of calls and its destruction - and the other way round. -/
theorem C89_copy_independent {k : Kind} (ops : List (VecS.WOp α)) {L : List (Option (List α))} {evs : List Bool}
    (h : Spec.vwRun k ops [] = some (L, evs)) (v : Nat) (l : List α) (hv : Spec.valueOf L v = some l)
    (hne : l ≠ []) (calls : List (Op α)) (hc : k = .managed → Spec.endHistory calls l) :
    (∃ W es, runW k (ops ++ .copy v :: (calls.map (.on v) ++ [.destroy v])) {} = .ok (W, es) ∧
      W.contents = ((L.set v none).map (Option.map Except.ok)) ++ [some (.ok l)]) ∧
    (∃ W es, runW k (ops ++ .copy v :: (calls.map (.on L.length) ++ [.destroy L.length])) {} = .ok (W, es) ∧
      W.contents = L.map (Option.map Except.ok) ++ [none]) := by
  have hv' := valueOf_some.mp hv
  have hlt := (List.getElem?_eq_some_iff.mp hv').1
  have hcopy : ∀ rest, Spec.vwRun k (.copy v :: rest) L =
      (Spec.vwRun k rest (L ++ [some l])).bind fun r => some (r.1, false :: r.2) := by
    intro rest
    simp only [Spec.vwRun, Spec.vwStep, hv, bind, Option.bind, if_neg hne]
  have hdes : ∀ (M : List (Option (List α))) u m, Spec.valueOf M u = some m →
      Spec.vwRun k [.destroy u] M = some (M.set u none, [false]) := by
    intro M u m hm
    simp only [Spec.vwRun, Spec.vwStep, hm, bind, Option.bind]
  have main : ∀ u m, Spec.valueOf (L ++ [some l]) u = some m → m = l →
      ∃ W es, runW k (ops ++ .copy v :: (calls.map (.on u) ++ [.destroy u])) {} = .ok (W, es) ∧
        W.contents = ((L ++ [some l]).set u none).map (Option.map Except.ok) := by
    intro u m hu hm
    subst hm
    have h2 := vwRun_calls u calls (L ++ [some m]) m hu hc
    have hu' := (List.getElem?_eq_some_iff.mp (valueOf_some.mp hu)).1
    have h3 := hdes ((L ++ [some m]).set u (some (Spec.vecRun calls m).1)) u (Spec.vecRun calls m).1
      (valueOf_some.mpr (by rw [List.getElem?_set_self hu']))
    have h4 := vwRun_append _ _ _ _ _ _ _ h2 h3
    have h5 : Spec.vwRun k (.copy v :: (calls.map (.on u) ++ [.destroy u])) L =
        some ((L ++ [some m]).set u none, false :: ((Spec.vecRun calls m).2 ++ [false])) := by
      rw [hcopy, h4]; simp
    obtain ⟨W, hW, hi⟩ := runW_run _ (invW_nil k) (vwRun_append _ _ _ _ _ _ _ h h5)
    exact ⟨W, _, hW, hi.contents⟩
  constructor
  · obtain ⟨W, es, hW, hcW⟩ := main v l
      (valueOf_some.mpr (by rw [List.getElem?_append_left hlt]; exact hv')) rfl
    refine ⟨W, es, hW, ?_⟩
    rw [hcW, List.set_append, if_pos hlt]; simp
  · obtain ⟨W, es, hW, hcW⟩ := main L.length l (valueOf_some.mpr (by simp)) rfl
    refine ⟨W, es, hW, ?_⟩
    rw [hcW, List.set_append]; simp

example : Spec.endHistory [.push 3, .pop, .pop, .clear] [1, 2] := by
  simp [Spec.endHistory, Spec.endOp]

end Efp.Props
