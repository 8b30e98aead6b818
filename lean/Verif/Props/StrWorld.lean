import Verif.StrWorldSim

/-!
# Programs over many `String`s (C139)

`StrWorld.run ops {}` runs a program over any number of strings, with the counters of blocks, and with the allocation
function every block came from (`Verif.StrWorld`).  `Spec.swRun` is the same program on plain texts and `Spec.fills`
counts its uses of `String(n, c)` (`Verif.Spec.StrWorld`).
-/

namespace Efp.Props

open StrWorld

/-- does the variable hold a block that came from `::operator new[]`? -/
def holdsArray : Option (Str × Form) → Bool
  | some (s, f) => decide (s.ptr = .block ∧ f = .array)
  | none => false

/-- does the variable hold a block? -/
def holdsBlock : Option (Str × Form) → Bool
  | some (s, _) => decide (s.ptr = .block)
  | none => false

private theorem tot_countP {γ : Type} (f : γ → Int) (q : γ → Bool) (l : List γ) (h : ∀ a, f a = if q a then 1 else 0) :
    VecS.tot f l = l.countP q := by
  induction l with
  | nil => rfl
  | cons a l ih =>
    simp only [VecS.tot, List.map_cons, List.sum_cons] at ih ⊢
    rw [ih, h a, List.countP_cons]
    split <;> simp <;> omega

/-- **C139 (which function releases a block).** In every program over any number of strings that runs without undefined
behaviour - whatever it calls, in whatever order, exceptions included - every use of `String(n, c)` makes a block with
`::operator new[]` that is still held by some string or has been given to `::operator delete`; no other block is ever
released by the wrong function. -/
theorem C139_release (ops : List Step) {W : StrWorld} {evs : List Bool} (h : run ops {} = .ok (W, evs)) :
    W.wrong + W.vars.countP holdsArray = Spec.fills ops := by
  have h1 := run_many h
  have h2 : VecS.tot arr W.vars = W.vars.countP holdsArray := tot_countP _ _ _ fun o => by
    cases o with
    | none => rfl
    | some x => obtain ⟨s, f⟩ := x; simp [arr, holdsArray]
  have h3 : ({} : StrWorld).many = 0 := rfl
  rw [h3] at h1
  simp only [many, h2] at h1
  omega

/-- **C139 (refuted).** Once all its strings are gone, a program has given exactly one block from `::operator new[]` to
`::operator delete` for every use of `String(n, c)`: no program can use that constructor and release all its memory
correctly. -/
theorem C139_every_fill_wrong (ops : List Step) {W : StrWorld} {evs : List Bool} (h : run ops {} = .ok (W, evs))
    (hn : ∀ o ∈ W.vars, o = none) : W.wrong = Spec.fills ops := by
  have h1 := C139_release ops h
  have h2 : W.vars.countP holdsArray = 0 := by
    rw [List.countP_eq_zero]
    intro o ho
    rw [hn o ho]; simp [holdsArray]
  omega

/-- **C139 (true part).** A program that never uses `String(n, c)` releases every block by the matching function. -/
theorem C139_release_partial (ops : List Step) {W : StrWorld} {evs : List Bool} (h : run ops {} = .ok (W, evs))
    (hf : Spec.fills ops = 0) : W.wrong = 0 := by
  have := C139_release ops h
  omega

/-- one string made by `String(3, 'a')`, moved, appended to (which reallocates) and destroyed -/
example : (match run [.make (.fill 3 97), .move 0, .on 1 (.appendN 2 98), .destroy 1, .destroy 0] {} with
    | .ok (W, evs) => decide (evs = [false, false, false, false, false] ∧ W.wrong = 1 ∧ W.vars.all Option.isNone = true)
    | .error _ => false) = true := by decide +kernel

/-- **C139 (no leak).** In every program that runs without undefined behaviour the live blocks are exactly the blocks
held by the live strings, so nothing is left when all strings are gone. -/
theorem C139_no_leak (ops : List Step) {W : StrWorld} {evs : List Bool} (h : run ops {} = .ok (W, evs)) :
    W.led.blocks = W.vars.countP holdsBlock ∧ ((∀ o ∈ W.vars, o = none) → W.led.alloc = W.led.freed) := by
  have h1 := run_lost h
  have h2 : VecS.tot blk W.vars = W.vars.countP holdsBlock := tot_countP _ _ _ fun o => by
    cases o with
    | none => rfl
    | some x => obtain ⟨s, f⟩ := x; by_cases hp : s.ptr = .block <;> simp [blk, holdsBlock, VecS.hadBlock, hp]
  have h3 : ({} : StrWorld).lost = 0 := rfl
  rw [h3] at h1
  simp only [lost, h2] at h1
  refine ⟨by omega, fun hn => ?_⟩
  have h4 : W.vars.countP holdsBlock = 0 := by
    rw [List.countP_eq_zero]
    intro o ho
    rw [hn o ho]; simp [holdsBlock]
  simp only [Ledger.blocks] at h1
  omega

/-- a string, a copy of it, a concatenation, a `substr` out of range; one of the two strings is gone -/
example : (match run [.make (.cstr [97, 98, 0]), .copy 0, .plus 0 1, .substr 0 9 1, .destroy 1] {} with
    | .ok (W, evs) => decide (evs = [false, false, false, true, false] ∧ W.led.blocks = 1)
    | .error _ => false) = true := by decide +kernel

/-- **C139 (texts), partial.** Every program over any number of strings that stays inside the claim (see `Spec.swStep`:
copies of empty strings, copy assignment between different lengths and `v += v` are excluded, C04, C05 and C21 show them
to be wrong) has no undefined behaviour apart from the mismatched releases, every step throws or not as on texts, and
every variable holds its own text. -/
theorem C139_texts_partial (ops : List Step) {L : List (Option (List Nat))} {evs : List Bool}
    (h : Spec.swRun ops [] = some (L, evs)) :
    ∃ W, run ops {} = .ok (W, evs) ∧ W.contents = L.map (Option.map Except.ok) := by
  obtain ⟨W, hW, hi⟩ := run_text (W := {}) ⟨rfl, by simp⟩ h
  exact ⟨W, hW, hi.contents⟩

/-- a string filled, copied, joined, cut out of range, assigned and moved -/
example : Spec.swRun [.make (.fill 2 97), .copy 0, .plus 0 1, .substr 0 5 1, .substr 0 1 2, .assign 2 1, .moveAssign 1 0,
      .on 0 (.appendN 1 98), .destroy 2] [] =
    some ([some [98], some [97, 97, 97, 97], none],
      [false, false, false, true, false, false, false, false, false]) := by
  simp [Spec.swRun, Spec.swStep, Spec.valueOf, Spec.initOk, Spec.strInit, Spec.sopOk, Spec.strStep, List.replicate]

end Efp.Props
