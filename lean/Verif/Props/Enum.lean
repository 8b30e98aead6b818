import Verif.EnumLemmas

/-!
# Properties of `Enum` (C56-C60) and `Maybe` (C61)

The specification is `Verif/Spec/Enum.lean`: a program with `Enum<As...>` variables acts on a store of
(alternative, value) pairs.  `Contains kind As dv v i x` says that `v` is a variable of such a program
which, by the specification, contains alternative `i` with value `x`.
-/

namespace Efp.Props

open Efp.Enum Efp.Spec.Enum

variable {τ ν α β σ : Type} [DecidableEq τ]

/-! ## C58: lifetimes -/

/-- **C58.**  For every program over any number of `Enum<As...>` variables (1 to 128 alternatives) in
which no copy or move *inside an assignment* throws (constructors may throw): the program runs without
undefined behaviour, the statements that throw are the ones the specification says, every variable
contains exactly one living object, of the alternative and with the value the specification says, and
every object ever constructed either lives in exactly one variable or was destroyed exactly once. -/
theorem C58_lifetimes (kind : τ → Kind) (As : List τ) (dv : α) (h1 : 1 ≤ As.length)
    (h2 : As.length ≤ 128) (ops : List (Op τ α)) (S : Store α) (thr : List Bool)
    (h : run kind As dv ops [] = some (S, thr)) :
    ∃ w, exec kind As dv ops {} = .ok thr w
      ∧ w.vars.map (Option.map Var.e) = S.map (Option.map (members As))
      ∧ (living w ++ w.gone).Perm (List.range w.next) := by
  obtain ⟨w, hw, hr⟩ := exec_ok kind dv h1 h2 rep_nil h
  exact ⟨w, hw, hr.vars, hr.ids⟩

/-- every variable contains an object of its alternative -/
theorem C58_one_object (kind : τ → Kind) (As : List τ) (dv : α) (h1 : 1 ≤ As.length)
    (h2 : As.length ≤ 128) (v : Var τ α) (i : Nat) (x : Option α) (h : Contains kind As dv v i x) :
    ∃ t, As[i]? = some t ∧ v.e = { index := i, slot := some (t, x) } := by
  obtain ⟨t, ht, -, he⟩ := contains_spec h1 h2 h
  exact ⟨t, ht, he⟩

/-- **C58.**  When all variables of a program have ended, every object ever constructed has been
destroyed exactly once. -/
theorem C58_no_leak (kind : τ → Kind) (As : List τ) (dv : α) (h1 : 1 ≤ As.length)
    (h2 : As.length ≤ 128) (ops : List (Op τ α)) (S : Store α) (thr : List Bool)
    (h : run kind As dv ops [] = some (S, thr)) (hend : ∀ c ∈ S, c = none) :
    ∃ w, exec kind As dv ops {} = .ok thr w ∧ w.gone.Perm (List.range w.next) := by
  obtain ⟨w, hw, hv, hp⟩ := C58_lifetimes kind As dv h1 h2 ops S thr h
  refine ⟨w, hw, ?_⟩
  have : living w = [] := by
    simp only [living, List.filterMap_eq_nil_iff]
    intro o ho
    cases o with
    | none => rfl
    | some v =>
      have : (some v.e) ∈ w.vars.map (Option.map Var.e) := List.mem_map.mpr ⟨some v, ho, rfl⟩
      rw [hv, List.mem_map] at this
      obtain ⟨c, hc, he⟩ := this
      rw [hend c hc] at he
      cases he
  rwa [this, List.nil_append] at hp

/-- a program with copies, moves, self assignment, a throwing constructor and destruction, over
`Enum<0, 1, 2>` where type 0 is trivial -/
def enumProgram : List (Op Nat Nat) :=
  [.dflt false, .ofVal 2 7 false, .copy 1 false, .move 1 false, .assign 0 3 false, .assign 0 0 false,
    .moveAssign 2 0 false, .copy 2 true, .assignVal 2 1 9 false false, .assignVal 2 0 8 true false,
    .kill 1]

def enumKind : Nat → Kind := fun t => if t = 0 then .trivial else .managed

/-- what the specification says about it -/
def enumStore : Store Nat :=
  [some (2, none), none, some (1, some 9), some (2, some 7), none, none, none]

def enumThrows : List Bool :=
  [false, false, false, false, false, false, false, true, false, true, false]

theorem enumProgram_run : run enumKind [0, 1, 2] (0 : Nat) enumProgram [] = some (enumStore, enumThrows) := by
  decide +kernel

example : ∃ w, exec enumKind [0, 1, 2] (0 : Nat) enumProgram {} = .ok enumThrows w :=
  (C58_lifetimes enumKind [0, 1, 2] (0 : Nat) (by decide) (by decide) enumProgram _ _
    enumProgram_run).imp fun _ h => h.1

/-- variables of a program contain what the specification says (used for the examples) -/
theorem contain2_of_run {kind : τ → Kind} {As : List τ} {dv : α} (h1 : 1 ≤ As.length)
    (h2 : As.length ≤ 128) {ops : List (Op τ α)} {S : Store α} {thr : List Bool}
    (h : run kind As dv ops [] = some (S, thr)) {k k' : Nat} {c c' : Nat × Option α}
    (hk : S[k]? = some (some c)) (hk' : S[k']? = some (some c')) :
    ∃ v v', Contain2 kind As dv v v' c c' := by
  obtain ⟨w, hw, hr⟩ := exec_ok kind dv h1 h2 rep_nil h
  obtain ⟨v, _, hv, -⟩ := hr.get hk
  obtain ⟨v', _, hv', -⟩ := hr.get hk'
  exact ⟨v, v', ops, S, thr, w, k, k', h, hw, hv, hk, hv', hk'⟩

theorem enumProgram_contains : ∃ v, Contains enumKind [0, 1, 2] (0 : Nat) v 1 (some 9) := by
  obtain ⟨v, _, ops, S, thr, w, k, k', h, hw, hv, hk, -⟩ := contain2_of_run (by decide) (by decide)
    enumProgram_run (k := 2) (k' := 2) (c := (1, some 9)) rfl rfl
  exact ⟨v, ops, S, thr, w, k, h, hw, hv, hk⟩

example : ∃ S thr, run enumKind [0, 1] (0 : Nat) [.ofVal 1 4 false, .move 0 false, .kill 0, .kill 1] []
    = some (S, thr) ∧ ∀ c ∈ S, c = none :=
  ⟨[none, none], [false, false, false, false], by decide +kernel, by decide⟩

/-! ## C59: throwing copies -/

/-- **C59 is false.**  Whatever program led here: if the copy of the stored value throws while
variable `i` is assigned from variable `j ≠ i`, then the variable is left without an object: reading
it as the alternative it reports and destroying it are both undefined behaviour. -/
theorem C59_throwing_assignment_unsafe (kind : τ → Kind) (As : List τ) (dv : α) (h1 : 1 ≤ As.length)
    (h2 : As.length ≤ 128) (ops : List (Op τ α)) (S : Store α) (l : List Bool)
    (h : run kind As dv ops [] = some (S, l)) (i j : Nat) (hij : i ≠ j) (ci c : Nat × Option α)
    (hi : S[i]? = some (some ci)) (hj : S[j]? = some (some c)) :
    ∃ w w' v, exec kind As dv ops {} = .ok l w
      ∧ Op.run kind As dv (.assign i j true) w = .thrown w'
      ∧ w'.vars[i]? = some (some v) ∧ indexOf v.e = c.1
      ∧ getI As c.1 v.e w' = .ub .deadRead
      ∧ Op.run kind As dv (.kill i) w' = .ub .deadDestroy := by
  obtain ⟨w, hw, hr⟩ := exec_ok kind dv h1 h2 rep_nil h
  obtain ⟨v, hv, hvi, hd⟩ := assign_mid hr h1 h2 hi
  obtain ⟨o, t, ho, ht, hoi, hos, hoe, hf⟩ := hr.get hj
  have hl := vars_lt hv
  have hc : Fits As c.1 := ⟨t, ht, hf⟩
  refine ⟨w,
    { vars := w.vars.set i (some { v with e := { index := c.1, slot := none } }),
      next := w.next, gone := w.gone ++ [v.oid] },
    { v with e := { index := c.1, slot := none } }, hw, ?_, ?_, rfl, ?_, ?_⟩
  · simp only [Op.run, assignCopy, ne_eq, hij, not_false_eq_true, if_true]
    rw [Cpp.bind_ok (useVar_ok hv), Cpp.bind_ok hd,
      Cpp.bind_ok (useVar_ok (v := o) (by simp [List.getElem?_set, hij, ho])),
      Cpp.bind_ok (setIndex_ok (v := { v with e := { v.e with slot := none } })
        (by simp [List.getElem?_set, hl]) _),
      hoi, enumSwitch_run h1 h2 (fits_lt hc),
      copyCase_eq (o := o) (x := c.2) (t := t) (by simp [List.getElem?_set, hij, ho]) ht hos,
      construct_thr (v := { v with e := { index := c.1, slot := none } })
        (by simp [List.getElem?_set, hl])]
    simp
  · simp [List.getElem?_set, hl]
  · simp [getI, packAt_eq, ht, readAs]
  · simp only [Op.run, dtor]
    rw [Cpp.bind_ok (useVar_ok (v := { v with e := { index := c.1, slot := none } })
      (by simp [List.getElem?_set, hl]))]
    rw [enumSwitch_run h1 h2 (fits_lt hc)]
    apply Cpp.bind_ub
    simp only [destroyCase]
    rw [Cpp.bind_ok (useVar_ok (v := { v with e := { index := c.1, slot := none } })
      (by simp [List.getElem?_set, hl]))]
    simp [packAt_eq, ht]

example : ∃ w w', exec enumKind [0, 1] (0 : Nat) [.ofVal 0 5 false, .ofVal 1 7 false] {}
      = .ok [false, false] w
    ∧ Op.run enumKind [0, 1] (0 : Nat) (.assign 0 1 true) w = .thrown w'
    ∧ Op.run enumKind [0, 1] (0 : Nat) (.kill 0) w' = .ub .deadDestroy := by
  obtain ⟨w, w', v, h1, h2, -, -, -, h3⟩ := C59_throwing_assignment_unsafe enumKind [0, 1] (0 : Nat)
    (by decide) (by decide)
    [.ofVal 0 5 false, .ofVal 1 7 false] [some (0, some 5), some (1, some 7)] [false, false]
    (by decide +kernel) 0 1 (by decide) (0, some 5) (1, some 7) rfl rfl
  exact ⟨w, w', h1, h2, h3⟩

/-- **C59, the part that holds.**  In every program state, if a constructor of a new variable throws,
or the conversion of the value on the right of `e = x` throws, then every existing variable keeps its
alternative and value, and the program can go on (the state is again one that C58 describes). -/
theorem C59_other_throws_partial (kind : τ → Kind) (As : List τ) (dv : α) (h1 : 1 ≤ As.length)
    (h2 : As.length ≤ 128) (ops : List (Op τ α)) (S : Store α) (l : List Bool)
    (h : run kind As dv ops [] = some (S, l)) (op : Op τ α)
    (hop : (∃ t x, t ∈ As ∧ op = .ofVal t x true) ∨ op = .dflt true
      ∨ (∃ j c, S[j]? = some (some c) ∧ (op = .copy j true ∨ op = .move j true))
      ∨ ∃ i c t x thr', S[i]? = some (some c) ∧ t ∈ As ∧ op = .assignVal i t x true thr') :
    ∃ w w', exec kind As dv ops {} = .ok l w ∧ Op.run kind As dv op w = .thrown w'
      ∧ w'.vars.map (Option.map Var.e) = w.vars.map (Option.map Var.e) ++ [none]
      ∧ run kind As dv (ops ++ [op]) [] = some (S ++ [none], l ++ [true]) := by
  have hs : step kind As dv S op = some (S ++ [none], true) := by
    rcases hop with ⟨t, x, ht, rfl⟩ | rfl | ⟨j, c, hj, rfl | rfl⟩ | ⟨i, c, t, x, thr', hi, ht, rfl⟩
    · simp [step, ht]
    · simp [step]
    · simp [step, hj]
    · simp [step, hj]
    · simp [step, hi, ht]
  obtain ⟨w, hw, hr⟩ := exec_ok kind dv h1 h2 rep_nil h
  obtain ⟨w', hw', hr'⟩ := step_ok hr kind dv h1 h2 hs
  refine ⟨w, w', hw, hw', by rw [hr'.vars, hr.vars]; simp, ?_⟩
  have key : ∀ (ops : List (Op τ α)) (S₀ : Store α) (l : List Bool), run kind As dv ops S₀ = some (S, l) →
      run kind As dv (ops ++ [op]) S₀ = some (S ++ [none], l ++ [true]) := by
    intro ops
    induction ops with
    | nil =>
      intro S₀ l h
      simp only [run, Option.some.injEq, Prod.mk.injEq] at h
      obtain ⟨rfl, rfl⟩ := h
      simp [run, hs]
    | cons o ops ih =>
      intro S₀ l h
      simp only [run, List.cons_append] at h ⊢
      split at h
      · cases h
      · rename_i S₁ b hb
        cases hrun : run kind As dv ops S₁ with
        | none => simp [hrun] at h
        | some p =>
          obtain ⟨S₂, l₂⟩ := p
          simp only [hrun, Option.map_some, Option.some.injEq, Prod.mk.injEq] at h
          obtain ⟨rfl, rfl⟩ := h
          rw [ih S₁ l₂ hrun]
          rfl
  exact key ops [] l h

example : ∃ w w', exec enumKind [0, 1] (0 : Nat) [.ofVal 1 5 false] {} = .ok [false] w
    ∧ Op.run enumKind [0, 1] (0 : Nat) (.assignVal 0 1 6 true false) w = .thrown w'
    ∧ w'.vars.map (Option.map Var.e) = w.vars.map (Option.map Var.e) ++ [none] := by
  obtain ⟨w, w', a, b, c, -⟩ := C59_other_throws_partial enumKind [0, 1] (0 : Nat) (by decide)
    (by decide) [.ofVal 1 5 false] [some (1, some 5)] [false] (by decide +kernel)
    (.assignVal 0 1 6 true false) (.inr (.inr (.inr ⟨0, (1, some 5), 1, 6, false, rfl, by decide, rfl⟩)))
  exact ⟨w, w', a, b, c⟩

/-! ## C57: get and move -/

/-- **C57.**  `get<j>()` and `move<j>()` return the stored value when alternative `j` is stored and
throw otherwise. -/
theorem C57_get_index (kind : τ → Kind) (As : List τ) (dv : α) (h1 : 1 ≤ As.length)
    (h2 : As.length ≤ 128) (v : Var τ α) (i : Nat) (x : Option α) (h : Contains kind As dv v i x)
    (j : Nat) (s : σ) :
    getI As j v.e s = (if j = i then .ok x s else .thrown s)
    ∧ moveI As j v.e s = (if j = i then .ok x s else .thrown s)
    ∧ indexOf v.e = i := by
  obtain ⟨t, ht, hi, he⟩ := contains_spec h1 h2 h
  have := getI_eq (j := j) he ht s
  exact ⟨this, this, by rw [he]; rfl⟩

/-- **C57.**  For every alternative type `u`: `get<u>()` and `move<u>()` return the stored value when
the stored alternative has type `u` and throw otherwise. -/
theorem C57_get_type (kind : τ → Kind) (As : List τ) (dv : α) (h1 : 1 ≤ As.length)
    (h2 : As.length ≤ 128) (v : Var τ α) (i : Nat) (x : Option α) (h : Contains kind As dv v i x)
    (u : τ) (hu : u ∈ As) (s : σ) :
    getT As u v.e s = (if As[i]? = some u then .ok x s else .thrown s)
    ∧ moveT As u v.e s = (if As[i]? = some u then .ok x s else .thrown s) := by
  obtain ⟨t, ht, hi, he⟩ := contains_spec h1 h2 h
  have := getT_eq he ht hi hu s
  have e : (u = t) = (As[i]? = some u) := by
    rw [ht]; exact propext ⟨fun h => by rw [h], fun h => by cases h; rfl⟩
  simp only [e] at this
  exact ⟨this, this⟩

example : ∃ v, getT [0, 1, 2] 1 (v : Var Nat Nat).e () = .ok (some 9) ()
    ∧ getT [0, 1, 2] 2 v.e () = .thrown () ∧ getI [0, 1, 2] 1 v.e () = .ok (some 9) () := by
  obtain ⟨v, hv⟩ := enumProgram_contains
  refine ⟨v, ?_, ?_, ?_⟩
  · rw [(C57_get_type _ _ _ (by decide) (by decide) v 1 _ hv 1 (by decide) ()).1]; simp
  · rw [(C57_get_type _ _ _ (by decide) (by decide) v 1 _ hv 2 (by decide) ()).1]; simp
  · rw [(C57_get_index _ _ _ (by decide) (by decide) v 1 _ hv 1 ()).1]; simp

/-! ## C60: equality -/

/-- **C60.**  For any two variables of a program, `==` holds exactly when both contain the same
alternative and the stored values are equal by that alternative's own `==`; `!=` is its negation. -/
theorem C60_equality (kind : τ → Kind) (As : List τ) (dv : α) (h1 : 1 ≤ As.length)
    (h2 : As.length ≤ 128) (eq : τ → Option α → Option α → Bool) (v v' : Var τ α)
    (c c' : Nat × Option α) (h : Contain2 kind As dv v v' c c') (s : σ) :
    ∃ t, As[c.1]? = some t
      ∧ eqOp As eq v.e v'.e s = .ok (decide (c.1 = c'.1) && eq t c.2 c'.2) s
      ∧ neOp As eq v.e v'.e s = .ok (!(decide (c.1 = c'.1) && eq t c.2 c'.2)) s := by
  obtain ⟨ops, S, l, w, k, k', hr, he, hv, hS, hv', hS'⟩ := h
  obtain ⟨t, ht, hi, hve⟩ := contains_spec h1 h2 ⟨ops, S, l, w, k, hr, he, hv, hS⟩
  obtain ⟨t', ht', hi', hve'⟩ := contains_spec h1 h2 ⟨ops, S, l, w, k', hr, he, hv', hS'⟩
  have key : eqOp As eq v.e v'.e s = .ok (decide (c.1 = c'.1) && eq t c.2 c'.2) s := by
    rw [hve, hve']
    simp only [eqOp]
    by_cases hc : c.1 = c'.1
    · have hlt : c.1 < As.length := (List.getElem?_eq_some_iff.mp ht).1
      have htt : t' = t := by rw [← hc, ht] at ht'; cases ht'; rfl
      subst htt
      simp only [hc, ne_eq, not_true_eq_false, if_false, decide_true, Bool.true_and]
      rw [← hc, enumSwitch_run h1 h2 hlt]
      simp only [eqCase, packAt_eq, ht]
      rw [Cpp.bind_ok (readAs_slot rfl s), Cpp.bind_ok (readAs_slot rfl s)]
      rfl
    · simp [hc]
  refine ⟨t, ht, key, ?_⟩
  simp only [neOp]
  rw [Cpp.bind_ok key]
  rfl

/-- non-vacuity: two variables of one program -/
example : ∃ v v', Contain2 enumKind [0, 1, 2] (0 : Nat) v v' (1, some 9) (2, some 7) :=
  contain2_of_run (by decide) (by decide) enumProgram_run (k := 2) (k' := 3) rfl rfl

/-! ## C56: match -/

/-- **C56 (up to 128 alternatives).**  If the program compiles, `match` on a variable containing
alternative `i` with value `x` calls exactly one branch, once, with `x`, and returns its result.  The
branch is the one the user expects for the type of alternative `i` (`Selected`): its own branch,
otherwise the wild card, otherwise the best conversion; and there is only one such branch. -/
theorem C56_match_partial (kind : τ → Kind) (As : List τ) (dv : α) (h1 : 1 ≤ As.length)
    (h2 : As.length ≤ 128) (rank : τ → τ → Option Nat) (hr : Ranks rank) (bs : List (Branch τ))
    (hc : matchCompiles rank As bs = true) (v : Var τ α) (i : Nat) (x : Option α)
    (h : Contains kind As dv v i x) (fns : Nat → Option α → β) (log : List (Nat × Option α)) :
    ∃ t b, As[i]? = some t ∧ Selected rank bs t b ∧ (∀ b', Selected rank bs t b' → b' = b)
      ∧ matchOp rank As bs fns v.e log = .ok (fns b x) (log ++ [(b, x)]) := by
  obtain ⟨t, ht, hi, he⟩ := contains_spec h1 h2 h
  have hlt : i < As.length := (List.getElem?_eq_some_iff.mp ht).1
  have hmem := List.mem_of_getElem? ht
  have hc' := hc
  simp only [matchCompiles, Bool.and_eq_true, List.all_eq_true] at hc'
  have hres := hc'.2 t hmem
  cases hb : resolve rank bs t with
  | none => simp [hb] at hres
  | some b =>
    obtain ⟨hs, hu⟩ := resolve_selected hr hb
    refine ⟨t, b, ht, hs, hu, ?_⟩
    have hidx : v.e.index = i := by rw [he]
    simp only [matchOp, hc, if_true, hidx]
    rw [enumSwitch_run h1 h2 hlt]
    simp only [matchCase, packAt_eq, ht]
    have hg := getT_eq he ht hi hmem log
    rw [if_pos rfl] at hg
    rw [Cpp.bind_ok hg]
    simp only [hb]
    rfl

/-- **C56.**  Every well-written `match` (one branch per chosen alternative, a last wild card unless
all are covered) on an `Enum` of 1 to 128 alternatives compiles. -/
theorem C56_well_written_compiles (As ps : List τ) (w : Bool) (h1 : 1 ≤ As.length)
    (h2 : As.length ≤ 128) (rank : τ → τ → Option Nat) (hr : Ranks rank) (h : WellWritten As ps w) :
    matchCompiles rank As (branches ps w) = true := by
  have hm : altNum As = As.length := Nat.mod_eq_of_lt (by omega)
  obtain ⟨l, hl, -⟩ := switchLabels_small h1 h2
  simp only [matchCompiles, hm, hl, Option.isSome_some, Bool.and_true, Bool.and_eq_true,
    List.all_eq_true]
  exact ⟨patternCheck_branches hr h.sub h.some, fun t ht => resolve_branches hr h ht⟩

/-- **C56 is false beyond 128 alternatives**, although the documentation promises 256: an `Enum` with
129 to 256 alternatives can be neither matched nor copied nor even destroyed, because the switch it
needs cannot be instantiated. -/
theorem C56_limit (As : List τ) (h1 : 129 ≤ As.length) (h2 : As.length ≤ 256)
    (rank : τ → τ → Option Nat) (bs : List (Branch τ)) :
    matchCompiles rank As bs = false
    ∧ ∀ (σ β : Type) (i : Nat) (case : Nat → Cpp σ β), enumSwitch As i case = Cpp.ub .diverge := by
  have : switchLabels (altNum As) = none := by
    by_cases h : As.length = 256
    · simp [altNum, h, switchLabels_zero]
    · have : altNum As = As.length := Nat.mod_eq_of_lt (by omega)
      rw [this]
      exact switchLabels_large h1
  exact ⟨by simp [matchCompiles, this], fun σ β i case => by simp [enumSwitch, this]⟩

/-- exact match, or an implicit conversion from smaller to larger numbered types -/
def sampleRank : Nat → Nat → Option Nat := fun p t => if p < t then none else some (p - t)

theorem sampleRank_ranks : Ranks sampleRank := by
  intro p t
  simp only [sampleRank]
  split <;> simp <;> omega

example : WellWritten [0, 1, 2] [2, 0] true := ⟨by decide, by decide, by simp, by simp⟩

example : ∃ v, matchOp sampleRank [0, 1, 2] (branches [2, 0] true) (fun b x => (b, x))
    (v : Var Nat Nat).e [] = .ok (2, some 9) [(2, some 9)] := by
  obtain ⟨v, hv⟩ := enumProgram_contains
  obtain ⟨t, b, ht, hs, hu, hm⟩ := C56_match_partial enumKind [0, 1, 2] (0 : Nat) (by decide)
    (by decide) sampleRank sampleRank_ranks (branches [2, 0] true)
    (C56_well_written_compiles _ _ _ (by decide) (by decide) _ sampleRank_ranks
      ⟨by decide, by decide, by simp, by simp⟩) v 1 (some 9) hv (fun b x => (b, x)) []
  have ht' : t = 1 := by simpa using ht.symm
  subst ht'
  have : b = 2 := (hu 2 (.inr (.inl ⟨by decide, by decide⟩))).symm
  subst this
  exact ⟨v, hm⟩

example : (List.range 200).length ≥ 129 ∧ (List.range 200).length ≤ 256 := by simp

/-! ## C61: Maybe -/

/-- **C61.**  Every variable of type `Maybe<A>` (`A` not `Nothing` itself) of any program is either
nothing or holds a value of type `A`, and `is_nothing`, `has_value`, `value` and `move` tell which. -/
theorem C61_value (kind : τ → Kind) (tN tA : τ) (hne : tA ≠ tN) (dv : α) (v : Var τ α) (i : Nat)
    (x : Option α) (h : Contains kind [tN, tA] dv v i x) (s : σ) :
    ∃ m nv, v.e = maybe tN tA nv m
      ∧ isNothing v.e = m.isNone ∧ hasValue v.e = m.isSome
      ∧ value tN tA v.e s = (match m with | some y => .ok y s | none => .thrown s)
      ∧ moveM tN tA v.e s = (match m with | some y => .ok y s | none => .thrown s) := by
  obtain ⟨t, ht, hi, he⟩ := contains_spec (by simp) (by simp) h
  have hlt : i < 2 := (List.getElem?_eq_some_iff.mp ht).1
  have hg := getT_eq (u := tA) he ht hi (by simp) s
  have hcase : i = 0 ∨ i = 1 := by omega
  rcases hcase with rfl | rfl
  · refine ⟨none, x, ?_, ?_, ?_, ?_, ?_⟩
    · simp at ht; subst ht; exact he
    · rw [he]; rfl
    · rw [he]; rfl
    · simp at ht; subst ht; rw [if_neg hne] at hg; exact hg
    · simp at ht; subst ht; rw [if_neg hne] at hg; exact hg
  · refine ⟨some x, x, ?_, ?_, ?_, ?_, ?_⟩
    · simp at ht; subst ht; exact he
    · rw [he]; rfl
    · rw [he]; rfl
    · simp at ht; subst ht; rw [if_pos rfl] at hg; exact hg
    · simp at ht; subst ht; rw [if_pos rfl] at hg; exact hg

theorem toMaybe_value {tN tA : τ} (hne : tA ≠ tN) (nv x : ν) (s : σ) :
    toMaybe tN tA tA x s = .ok (maybe tN tA nv (some x)) s := by
  simp [toMaybe, ofVal, maybeAlts, altIndex, findImpl, hne, maybe]

theorem toMaybe_nothing (tN tA : τ) (nv : ν) (s : σ) :
    toMaybe tN tA tN nv s = .ok (maybe tN tA nv none) s := by
  simp [toMaybe, ofVal, maybeAlts, altIndex, findImpl, maybe]

theorem value_maybe {tN tA : τ} (hne : tA ≠ tN) (nv x : ν) (s : σ) :
    value tN tA (maybe tN tA nv (some x)) s = .ok x s := by
  simp [value, getT, maybeAlts, altIndex, findImpl, hne, maybe, readAs]

theorem hasValue_some (tN tA : τ) (nv x : ν) : hasValue (maybe tN tA nv (some x)) = true := rfl

/-- **C61.**  `fmap` applies the function under the value and keeps nothing. -/
theorem C61_fmap (tN tA tB : τ) (hA : tA ≠ tN) (hB : tB ≠ tN) (nv : ν) (f : ν → ν) (m : Option ν)
    (s : σ) :
    fmap tN tA tB nv f (maybe tN tA nv m) s = .ok (maybe tN tB nv (m.map f)) s := by
  cases m with
  | none => simp [fmap, hasValue, maybe, toMaybe_nothing]
  | some x =>
    simp only [fmap, hasValue_some, ↓reduceIte]
    rw [Cpp.bind_ok (value_maybe hA nv x s), toMaybe_value hB nv]
    rfl

/-- **C61, functor laws.**  `fmap id = id` and `fmap (g . f) = fmap g . fmap f`. -/
theorem C61_functor (tN tA tB tC : τ) (hA : tA ≠ tN) (hB : tB ≠ tN) (hC : tC ≠ tN) (nv : ν)
    (f g : ν → ν) (m : Option ν) (s : σ) :
    fmap tN tA tA nv id (maybe tN tA nv m) s = .ok (maybe tN tA nv m) s
    ∧ fmap tN tA tC nv (g ∘ f) (maybe tN tA nv m) s
      = (fmap tN tA tB nv f (maybe tN tA nv m) >>= fmap tN tB tC nv g) s := by
  refine ⟨by rw [C61_fmap tN tA tA hA hA]; simp, ?_⟩
  rw [Cpp.bind_ok (C61_fmap tN tA tB hA hB nv f m s), C61_fmap tN tB tC hB hC, C61_fmap tN tA tC hA hC]
  simp

/-- **C61, monad laws.**  Left identity, right identity and associativity of `bind`, for every
function (which may itself throw); and nothing is absorbing. -/
theorem C61_monad (tN tA tB tC : τ) (hA : tA ≠ tN) (nv : ν)
    (f : ν → Cpp σ (Raw τ ν)) (g : ν → Cpp σ (Raw τ ν))
    (a : ν) (m : Option ν) (s : σ) :
    (pureM tN tA a >>= fun r => bindM tN tA tB nv r f) s = f a s
    ∧ bindM tN tA tA nv (maybe tN tA nv m) (pureM tN tA) s = .ok (maybe tN tA nv m) s
    ∧ (bindM tN tA tB nv (maybe tN tA nv m) f >>= fun r => bindM tN tB tC nv r g) s
      = bindM tN tA tC nv (maybe tN tA nv m) (fun x => f x >>= fun r => bindM tN tB tC nv r g) s
    ∧ bindM tN tA tB nv (maybe tN tA nv none) f s = .ok (maybe tN tB nv none) s := by
  have hn : ∀ (tA' tB' : τ) (f : ν → Cpp σ (Raw τ ν)), bindM tN tA' tB' nv (maybe tN tA' nv none) f s
      = .ok (maybe tN tB' nv none) s := by
    intro tA' tB' f
    simp [bindM, hasValue, maybe, toMaybe_nothing]
  have hs : ∀ (tA' tB' : τ), tA' ≠ tN → ∀ (x : ν) (f : ν → Cpp σ (Raw τ ν)) (s : σ),
      bindM tN tA' tB' nv (maybe tN tA' nv (some x)) f s = f x s := by
    intro tA' tB' h x f s
    simp only [bindM, hasValue_some, ↓reduceIte]
    rw [Cpp.bind_ok (value_maybe h nv x s)]
  refine ⟨?_, ?_, ?_, hn tA tB f⟩
  · rw [pureM, Cpp.bind_ok (toMaybe_value hA nv a s), hs tA tB hA]
  · cases m with
    | none => exact hn tA tA _
    | some x => rw [hs tA tA hA, pureM, toMaybe_value hA nv]
  · cases m with
    | none => rw [Cpp.bind_ok (hn tA tB f), hn, hn]
    | some x =>
      rw [hs tA tC hA, Cpp.bind_run, Cpp.bind_run, hs tA tB hA]

/-- **C61, applicative laws.**  Identity, homomorphism, interchange, composition and `fmap` as
`pure`/`ap`, where a stored function value `u` acts as `app u`. -/
theorem C61_applicative (tN tF tA tB : τ) (hF : tF ≠ tN) (hA : tA ≠ tN) (hB : tB ≠ tN) (nv : ν)
    (app : ν → ν → ν) (mf ma : Option ν) (s : σ) :
    ap tN tF tA tB nv app (maybe tN tF nv mf) (maybe tN tA nv ma) s
      = .ok (maybe tN tB nv (mf.bind fun g => ma.map (app g))) s
    ∧ (∀ i, (∀ x, app i x = x) →
        (pureM tN tF i >>= fun u => ap tN tF tA tA nv app u (maybe tN tA nv ma)) s
          = .ok (maybe tN tA nv ma) s)
    ∧ (∀ g x, (pureM tN tF g >>= fun u => pureM tN tA x >>= fun v => ap tN tF tA tB nv app u v) s
          = pureM tN tB (app g x) s)
    ∧ (∀ g, (pureM tN tF g >>= fun u => ap tN tF tA tB nv app u (maybe tN tA nv ma)) s
          = fmap tN tA tB nv (app g) (maybe tN tA nv ma) s) := by
  have key : ∀ (tF tA tB : τ), tF ≠ tN → tA ≠ tN → tB ≠ tN → ∀ (mf ma : Option ν) (s : σ),
      ap tN tF tA tB nv app (maybe tN tF nv mf) (maybe tN tA nv ma) s
      = .ok (maybe tN tB nv (mf.bind fun g => ma.map (app g))) s := by
    intro tF tA tB hF hA hB mf ma s
    cases mf with
    | none => simp [ap, hasValue, maybe, toMaybe_nothing]
    | some g =>
      cases ma with
      | none => simp [ap, hasValue, maybe, toMaybe_nothing]
      | some x =>
        simp only [ap, hasValue_some, Bool.and_self, ↓reduceIte]
        rw [Cpp.bind_ok (value_maybe hF nv g s), Cpp.bind_ok (value_maybe hA nv x s),
          toMaybe_value hB nv]
        rfl
  refine ⟨key tF tA tB hF hA hB mf ma s, ?_, ?_, ?_⟩
  · intro i hi
    rw [pureM, Cpp.bind_ok (toMaybe_value hF nv i s), key tF tA tA hF hA hA]
    have : app i = id := funext hi
    simp [this]
  · intro g x
    rw [pureM, Cpp.bind_ok (toMaybe_value hF nv g s), pureM, Cpp.bind_ok (toMaybe_value hA nv x s),
      key tF tA tB hF hA hB, pureM, toMaybe_value hB nv]
    rfl
  · intro g
    rw [pureM, Cpp.bind_ok (toMaybe_value hF nv g s), key tF tA tB hF hA hB, C61_fmap tN tA tB hA hB]
    rfl

/-- **C61 is false for `Maybe<Nothing>`.**  There `pure` builds nothing, so `bind` never calls its
function: left identity fails for every function that can be told from nothing, and `has_value` never
holds. -/
theorem C61_maybe_nothing (tN tB : τ) (nv a : ν) (f : ν → Cpp σ (Raw τ ν)) (s : σ) :
    (pureM tN tN a >>= fun r => bindM tN tN tB nv r f) s = .ok (maybe tN tB nv none) s
    ∧ ∃ r, pureM tN tN a s = .ok r s ∧ hasValue r = false := by
  have h : pureM tN tN a s = .ok (maybe tN tN a none) s := toMaybe_nothing tN tN a s
  refine ⟨?_, _, h, rfl⟩
  rw [Cpp.bind_ok h]
  simp [bindM, hasValue, maybe, toMaybe_nothing]

example : (pureM 0 1 (5 : Nat) >>= fun r => bindM 0 1 1 0 r fun x => pureM 0 1 (x + 1)) ()
    = .ok (maybe 0 1 0 (some 6)) () := by
  have := (C61_monad 0 1 1 1 (by decide) 0 (fun x => pureM 0 1 (x + 1))
    (fun x => pureM 0 1 (x + 1))
    5 none ()).1
  rw [this, pureM, toMaybe_value (by decide) 0]

example : (pureM 0 0 (5 : Nat) >>= fun r => bindM 0 0 1 0 r fun x => pureM 0 1 (x + 1)) ()
    ≠ pureM 0 1 6 () := by
  rw [(C61_maybe_nothing 0 1 0 5 _ ()).1, pureM, toMaybe_value (by decide) 0]
  simp [maybe]

end Efp.Props
