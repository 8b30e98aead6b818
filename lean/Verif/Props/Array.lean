import Verif.ArrayLemmas

/-!
# Properties of `Array` (C14, C15)

Vocabulary: `ArrS.runW k n ops []` runs a program over any number of `Array<A, n>` variables
(`Verif.Array`), `Spec.arrRun n ops []` runs it on variables holding lists of length `n`
(`Verif.Spec.Array`).
-/

namespace Efp.Spec

/-- the variable `s` and the list `l` are the values of one variable at the end of one program -/
def ArrReachable {α : Type} (k : Kind) (n : Nat) (s : ArrS α) (l : List α) : Prop :=
  ∃ (ops : List (ArrS.WOp α)) (W : List (ArrS α)) (flags : List Bool) (v : Nat),
    arrProgramOk n ops [] ∧ ArrS.runW k n ops [] = .ok (W, flags) ∧
    W[v]? = some s ∧ (arrRun n ops []).1[v]? = some (some l)

end Efp.Spec

namespace Efp.Props

open ArrS

variable {α : Type}

theorem arr_rep_of_reachable {k : Kind} {n : Nat} {s : ArrS α} {l : List α} (h : Spec.ArrReachable k n s l) :
    ArrS.Rep n s (some l) := by
  obtain ⟨ops, W, flags, v, hok, hrun, hs, hl⟩ := h
  obtain ⟨W', h', hr⟩ := runW_run (k := k) ops (repW_nil n) hok
  rw [h'] at hrun
  cases hrun
  exact hr.2 v s _ hs hl

/-- **C14.** Every program over `Array<A, n>` variables that does not read a moved-from array is free of
undefined behaviour, throws exactly where the list program says (initializer list of the wrong length,
`resize` to another length, `reserve` beyond `n`), and ends with each variable holding the contents of its
list.  All `n` slots of every variable, moved-from ones included, hold living elements, constructed and not
destroyed exactly once; after the destructors nothing is left. -/
theorem C14_array_fixed_size_value (k : Kind) (n : Nat) (ops : List (WOp α)) (hops : Spec.arrProgramOk n ops []) :
    ∃ W, runW k n ops [] = .ok (W, (Spec.arrRun n ops []).2) ∧
      W.length = (Spec.arrRun n ops []).1.length ∧
      (∀ (i : Nat) (s : ArrS α) (l : List α), W[i]? = some s → (Spec.arrRun n ops []).1[i]? = some (some l) →
        s.contents = .ok l ∧ l.length = n) ∧
      (∀ s ∈ W, s.cells.length = n ∧ (∀ c ∈ s.cells, c.alive = true) ∧ s.led.made = s.led.gone + n) ∧
      ∃ W', destroyVars k W = .ok W' ∧
        ∀ s ∈ W', s.led.made = s.led.gone ∧ (k = .managed → aliveCount s.cells = 0) := by
  obtain ⟨W, h, hlen, hr⟩ := runW_run (k := k) ops (repW_nil (α := α) n) hops
  have hall : ∀ s ∈ W, ∃ l, ArrS.Rep n s l := by
    intro s hs
    obtain ⟨i, hi, rfl⟩ := List.getElem_of_mem hs
    exact ⟨_, hr i W[i] ((Spec.arrRun n ops []).1[i]'(by omega)) (by simp) (by simp)⟩
  obtain ⟨W', hd, _, hz⟩ := destroyVars_run (k := k) W hall
  refine ⟨W, h, hlen, ?_, ?_, W', hd, hz⟩
  · intro i s l h1 h2
    have := hr i s _ h1 h2
    exact ⟨this.contents, this.len_eq⟩
  · intro s hs
    obtain ⟨l, hl⟩ := hall s hs
    exact ⟨hl.len, hl.alive, hl.led⟩

/-- a program with every kind of step meets the hypothesis of C14 -/
example : Spec.arrProgramOk 2 [WOp.make 0, .makeOf [1, 2], .makeOf [1], .copy 1, .setElem 2 0 7, .assign 0 2,
      .assign 0 0, .move 1, .moveAssign 1 3, .resize 0 2, .resize 0 3, .reserve 0 1, .reserve 0 5] ([] : List (Option (List Nat))) ∧
    Spec.arrRun 2 [WOp.make 0, .makeOf [1, 2], .makeOf [1], .copy 1, .setElem 2 0 7, .assign 0 2,
      .assign 0 0, .move 1, .moveAssign 1 3, .resize 0 2, .resize 0 3, .reserve 0 1, .reserve 0 5] ([] : List (Option (List Nat))) =
    ([some [7, 2], some [1, 2], some [7, 2], none],
      [false, false, true, false, false, false, false, false, false, false, true, false, true]) := by
  refine ⟨by simp [Spec.arrProgramOk, Spec.arrOk, Spec.arrStep], by decide⟩

/-- **C14, element access.** Reading index `i < n` gives the `i`-th value; writing it changes exactly that
index. -/
theorem C14_array_element_access {k : Kind} {n : Nat} {s : ArrS α} {l : List α} (hs : Spec.ArrReachable k n s l)
    (i : Nat) (hi : i < n) (a : α) :
    (∃ x, l[i]? = some x ∧ at_ i s = .ok x s) ∧
    ∃ t, setAt k i a s = .ok () t ∧ at_ i t = .ok a t ∧
      ∀ j x, j ≠ i → l[j]? = some x → at_ j t = .ok x t := by
  have hr := arr_rep_of_reachable hs
  have hl := hr.len_eq
  have hi' : i < l.length := by omega
  refine ⟨⟨l[i], by simp [hi'], at_run hr i hi'⟩, ?_⟩
  obtain ⟨t, ht, hrt⟩ := setAt_run (k := k) hr i a hi'
  refine ⟨t, ht, ?_, fun j x hj hx => ?_⟩
  · have := at_run hrt i (by simpa using hi')
    simpa using this
  · have hjl : j < l.length := by
      rcases Nat.lt_or_ge j l.length with h | h
      · exact h
      · rw [List.getElem?_eq_none h] at hx; cases hx
    have := at_run hrt j (by simpa using hjl)
    rw [this]
    congr 1
    rw [List.getElem_set_ne (by omega)]
    simpa [hjl] using hx

example : ∃ s : ArrS Nat, Spec.ArrReachable .managed 2 s [7, 2] := by
  obtain ⟨⟨W, flags⟩, hrun, hf⟩ := exists_of_map
    (x := runW .managed 2 [WOp.makeOf [1, 2], .copy 0, .setElem 1 0 7] [])
    (fun r => r.1.length) 2 (by decide +kernel)
  have h1 : 1 < W.length := by dsimp only at hf; omega
  exact ⟨W[1], _, W, flags, 1, by simp [Spec.arrProgramOk, Spec.arrOk, Spec.arrStep], hrun, by simp [h1],
    by decide⟩

/-! ## C15 (Array part) -/

/-- **C15 (Array).** `a == b` is true exactly when no pair of corresponding elements compares different. -/
theorem C15_array_eq_extensional (ne : α → α → Bool) {k : Kind} {n : Nat} {a b : ArrS α} {la lb : List α}
    (ha : Spec.ArrReachable k n a la) (hb : Spec.ArrReachable k n b lb) :
    ∃ r, eqv ne b a = .ok r a ∧
      (r = true ↔ ∀ i (hi : i < la.length) (hj : i < lb.length), ne la[i] lb[i] = false) := by
  have hra := arr_rep_of_reachable ha
  have hrb := arr_rep_of_reachable hb
  refine ⟨_, by unfold eqv; rw [hra.n_eq]; exact eqLoop_run ne hra hrb n 0 (by omega), by simp⟩

/-- **C15 (Array).** With `!=` the negation of value equality, `==` decides equality of contents. -/
theorem C15_array_eq_iff_contents [DecidableEq α] {k : Kind} {n : Nat} {a b : ArrS α} {la lb : List α}
    (ha : Spec.ArrReachable k n a la) (hb : Spec.ArrReachable k n b lb) :
    eqv (fun x y => decide (x ≠ y)) b a = .ok (decide (la = lb)) a := by
  obtain ⟨r, hr, hiff⟩ := C15_array_eq_extensional (fun x y => decide (x ≠ y)) ha hb
  rw [hr]
  congr 1
  rw [Bool.eq_iff_iff, hiff, decide_eq_true_eq]
  have h1 := (arr_rep_of_reachable ha).len_eq
  have h2 := (arr_rep_of_reachable hb).len_eq
  constructor
  · intro h
    exact List.ext_getElem (by omega) (fun i h1 h2 => by simpa using h i h1 h2)
  · rintro rfl
    simp

end Efp.Props
