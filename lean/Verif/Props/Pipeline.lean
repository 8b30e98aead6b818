import Verif.PipelineLemmas

/-!
# Properties of nested list functions and of names for their results (C152)

`Named env ts ls`: the names `0, 1, ..` stand for containers (or views of them) with types `ts` that hold the lists `ls`.
-/

namespace Efp
namespace Props

open Prelude
open Spec (pipeList pipeTy pipeOk sizesFit viewed isName letLists letsOk Named)

variable {α ω : Type}

/-- C152, inside one expression: nested calls compute the list that the expression stands for.  No call throws, nothing is
undefined, and the result has the static type of the expression. -/
theorem C152_expression (d : α) (env : List (Option (Inp α))) (ts : List SeqTy) (ls : List (List α)) (hE : Named env ts ls)
    (e : Pipe α) (he : pipeOk ts ls e) (w : ω) :
    ∃ as n, e.eval d env env.length w = .ok (as, n) w ∧ as.vals = pipeList ls e ∧ as.ty = pipeTy ts e ∧ as.valid := by
  obtain ⟨as, n', h1, h2, h3, h4, _, _⟩ := eval_all d hE e he env.length w
  exact ⟨as, n', h1, h3, h4, h2⟩

/-- C152, for names: after any sequence of definitions `auto x = e;` every name holds its list, provided every view that gets a
name looks at a container that has one.  What is missing without the proviso is `C152_refuted`. -/
theorem C152_names_partial (d : α) (env : List (Option (Inp α))) (ts : List SeqTy) (ls : List (List α)) (hE : Named env ts ls)
    (es : List (Pipe α)) (hes : letsOk ts ls es) (w : ω) :
    ∃ env', Pipe.runAll d es env w = .ok env' w ∧
      ∀ (i : Nat) (l : List α), (letLists ls es)[i]? = some l → Pipe.readName env' i w = .ok l w := by
  obtain ⟨env', ts', h1, h2⟩ := runAll_run d es hE hes w
  exact ⟨env', h1, fun i l hi => readName_run h2 hi w⟩

/-- C152 fails for views of temporaries: whatever the expression, if it is a view that is not empty and the container below the
views has no name, then a name given to it is undefined to read in the next statement. -/
theorem C152_refuted (d : α) (env : List (Option (Inp α))) (ts : List SeqTy) (ls : List (List α)) (hE : Named env ts ls)
    (e : Pipe α) (he : pipeOk ts ls e) (hview : e.owns = false) (htemp : isName (viewed e) = false)
    (hne : pipeList ls e ≠ []) (w : ω) :
    ∃ env', Pipe.runAll d [e] env w = .ok env' w ∧ Pipe.readName env' env.length w = .ub .wildPtr := by
  have h := (bindTo_run d hE e he w).2 hview htemp hne
  refine ⟨env ++ [none], ?_, ?_⟩
  · simp only [Pipe.runAll]
    rw [bindOk h]; rfl
  · unfold Pipe.readName
    simp

/-! a vector, an array and an array vector; `take(3, map(+1, append(x0, x1)))`, used at once and named -/

private def env0 : List (Option (Inp Nat)) :=
  [some ⟨.vector, [3, 4, 5], 0, false⟩, some ⟨.array 2, [10, 20], 1, false⟩, some ⟨.arrVec 9, [7], 2, false⟩]
private def ts0 : List SeqTy := [.vector, .array 2, .arrVec 9]
private def ls0 : List (List Nat) := [[3, 4, 5], [10, 20], [7]]

private theorem named0 : Named env0 ts0 ls0 := by
  refine ⟨rfl, rfl, fun i hi => ?_⟩
  match i, hi with
  | 0, _ => exact ⟨_, rfl, by decide, fun _ => by decide, rfl, rfl⟩
  | 1, _ => exact ⟨_, rfl, by decide, fun _ => by decide, rfl, rfl⟩
  | 2, _ => exact ⟨_, rfl, by decide, fun _ => by decide, rfl, rfl⟩

private def e0 : Pipe Nat := .take (.rt 3) (.map (· + 1) (.append (.var 0) (.var 1)))
private def e1 : Pipe Nat := .filter (· > 8) (.zip (· + ·) (.tail (.append (.var 0) (.var 2))) (.drop (.ct 1) (.var 0)))

example : pipeOk ts0 ls0 e0 ∧ pipeList ls0 e0 = [4, 5, 6] ∧ pipeTy ts0 e0 = .vector := by decide +kernel
example : pipeOk ts0 ls0 e1 ∧ pipeList ls0 e1 = [10] ∧ pipeTy ts0 e1 = .vector := by decide +kernel
example : ∃ as n, e1.eval 0 env0 3 () = .ok (as, n) () ∧ as.vals = [10] := by
  obtain ⟨as, n, h1, h2, _⟩ := C152_expression 0 env0 ts0 ls0 named0 e1 (by decide +kernel) ()
  exact ⟨as, n, h1, h2.trans (by decide +kernel)⟩
/-- the first of these is `auto v = take(3, map(f, append(x0, x1)));` -/
example : e0.owns = false ∧ isName (viewed e0) = false ∧ pipeList ls0 e0 ≠ [] := by decide +kernel
example : ∃ env', Pipe.runAll 0 [e0] env0 () = .ok env' () ∧ Pipe.readName env' 3 () = .ub .wildPtr :=
  C152_refuted 0 env0 ts0 ls0 named0 e0 (by decide +kernel) rfl rfl (by decide +kernel) ()
/-- `auto y = map(f, append(x0, x1)); auto v = take(3, y); auto z = append(v, tail(v));` -/
private def es0 : List (Pipe Nat) :=
  [.map (· + 1) (.append (.var 0) (.var 1)), .take (.rt 3) (.var 3), .append (.var 4) (.tail (.var 4))]
example : letsOk ts0 ls0 es0 ∧ letLists ls0 es0 = ls0 ++ [[4, 5, 6, 11, 21], [4, 5, 6], [4, 5, 6, 5, 6]] := by decide +kernel

end Props
end Efp
