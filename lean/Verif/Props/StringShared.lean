import Verif.StringSharedLemmas

/-!
# C150: one `const` string, many threads

`Traced v progs s tr`: the threads, each making its calls of `const` members on the string `v`, can under some schedule be in
state `s` after the accesses `tr`.  `RaceFree tr`: of any two conflicting accesses one happens before the other.
-/

namespace Efp
namespace Props

open Spec StrShared

/-- C150 is false of the code: `c_str()` writes the NUL.  Whatever the string, two threads that call it race. -/
theorem C150_refuted {v : Str} {l : List Nat} (hv : StrReachable v l) (hsp : v.size < v.cap) :
    ∃ s tr, Traced v [[.cStr], [.cStr]] s tr ∧ ¬ RaceFree tr := by
  have hr := Str.rep_of_reachable hv
  obtain ⟨_, ⟨_, _, h2, _⟩ | ⟨_, hcap, _⟩⟩ := hr
  · omega
  have hlt : v.size < v.cells.length := by omega
  have h0 : Traced v [[.cStr], [.cStr]] _ _ := .start
  have h1 := h0.step 0 (s' := _) (es := [(0, .access .size false)]) rfl
  have h2 := h1.step 1 (s' := _) (es := [(1, .access .size false)]) rfl
  have h3 := h2.step 0 (es := [(0, .access (.cell v.size) true)]) (by
    simp only [step, init, List.map_cons, List.map_nil, List.set_cons_zero, List.set_cons_succ, List.getElem?_cons_zero]
    rw [if_pos hlt])
  have h4 := h3.step 1 (es := [(1, .access (.cell v.size) true)]) (by
    simp only [step, List.set_cons_zero, List.set_cons_succ, List.getElem?_cons_zero, List.getElem?_cons_succ]
    rw [if_pos (by simpa using hlt)])
  refine ⟨_, _, h4, fun hf => ?_⟩
  have hb := hf 2 3 0 1 (.cell v.size) true true (by omega) rfl rfl (by omega) (.inl rfl)
  obtain ⟨t, a, b, e1, e2⟩ := hb_same (by
    intro i t o hi
    match i with
    | 0 | 1 | 2 | 3 => cases hi; rfl
    | i + 4 => simp at hi) hb
  cases e1
  cases e2

/-- C150 as far as it holds: if at most one thread (`owner`) calls `c_str()`, then under every schedule no two accesses race, no
call is undefined, no thread is ever held up, and each has in the end got what its calls return on that string. -/
theorem C150_one_caller_partial {v : Str} {l : List Nat} (hv : StrReachable v l) {progs : List (List Call)}
    (hok : ∀ cs ∈ progs, ∀ c ∈ cs, constOk l c) (hsp : (∃ cs ∈ progs, .cStr ∈ cs) → v.size < v.cap) {owner : Nat}
    (ho : ∀ (t : Nat) (cs : List Call), progs[t]? = some cs → .cStr ∈ cs → t = owner)
    {s : State} {tr : Trace Loc} (h : Traced v progs s tr) :
    RaceFree tr ∧ ∀ (t : Nat) (cs : List Call) (J : Job (List Res)), progs[t]? = some cs → s.jobs[t]? = some J →
      J = .ret (cs.map (constRes l)) ∨ (J ≠ .ub ∧ (∀ rs, J ≠ .ret rs) ∧ (step s t).isSome = true) := by
  by_cases hc : ∃ cs ∈ progs, Call.cStr ∈ cs
  · have hI := traced_inv (Str.rep_of_reachable hv) (fun _ => hsp hc) hok ho h
    exact ⟨hI.raceFree, fun t cs J hcs hJ => hI.progress hcs hJ⟩
  · have hI := traced_inv (owner := progs.length) (Str.rep_of_reachable hv) (fun h => absurd h (Nat.lt_irrefl _)) hok
      (fun t cs hcs hm => absurd ⟨cs, List.mem_of_getElem? hcs, hm⟩ hc) h
    exact ⟨hI.raceFree, fun t cs J hcs hJ => hI.progress hcs hJ⟩

/-! ### concrete cases -/

/-- a string with a spare cell: the hypotheses of `C150_refuted` hold -/
example : ∃ v, StrReachable v [65, 66] ∧ v.size < v.cap := by
  obtain ⟨r, h, hr⟩ := exists_of_map (x := Str.session (.cstr [65, 66, 0]) []) (fun r => (r.1.contents.toOption, decide (r.1.size < r.1.cap)))
    (some [65, 66], true) (by decide +kernel)
  simp only [Prod.mk.injEq, decide_eq_true_eq] at hr
  refine ⟨r.1, ⟨.cstr [65, 66, 0], [], r.2, ?_, by simp, h, ?_⟩, hr.2⟩
  · exact List.mem_cons_of_mem _ (List.mem_cons_of_mem _ (List.mem_cons_self ..))
  · cases hc : r.1.contents with
    | error e => rw [hc] at hr; cases hr.1
    | ok x => rw [hc] at hr; cases hr.1; rfl

/-- run a schedule -/
def runShared : List Nat → State → Trace Loc → Option (State × Trace Loc)
  | [], s, tr => some (s, tr)
  | t :: ts, s, tr => match step s t with
    | some (s', es) => runShared ts s' (tr ++ es)
    | none => none

theorem runShared_traced {v : Str} {progs : List (List Call)} (ts : List Nat) {s s' : State} {tr tr' : Trace Loc}
    (h : Traced v progs s tr) (hr : runShared ts s tr = some (s', tr')) : Traced v progs s' tr' := by
  induction ts generalizing s tr with
  | nil => cases hr; exact h
  | cons t ts ih =>
    unfold runShared at hr
    split at hr
    · rename_i s1 es hs
      exact ih (h.step t hs) hr
    · cases hr

/-- what a thread has returned -/
def returned (s : State) (t : Nat) : Option (List Res) := match s.jobs[t]? with
  | some (.ret rs) => some rs
  | _ => none

/-- one thread calls `c_str()` while two others read: all return, between each other's accesses -/
example : ∃ v s tr, StrReachable v [65, 66] ∧ Traced v [[.cStr, .size], [.back, .at_ 7], [.substr 1 9, .eqC [65, 66]]] s tr ∧
    returned s 0 = some [.chars [65, 66], .num 2] ∧ returned s 1 = some [.num 66, .threw] ∧
    returned s 2 = some [.chars [66], .bool true] := by
  obtain ⟨r, h, hr⟩ := exists_of_map (x := Str.session (.cstr [65, 66, 0]) []) (fun r => (r.1.contents.toOption, r.1.size, r.1.cells))
    (some [65, 66], 2, [.live 65, .live 66, .raw]) (by decide +kernel)
  simp only [Prod.mk.injEq] at hr
  obtain ⟨hr1, hr2, hr3⟩ := hr
  have hk : ∃ s tr, runShared [0, 1, 2, 0, 2, 1, 0, 0, 1, 2, 0, 0, 2, 2] (init r.1 [[.cStr, .size], [.back, .at_ 7], [.substr 1 9, .eqC [65, 66]]]) [] =
      some (s, tr) ∧ returned s 0 = some [.chars [65, 66], .num 2] ∧ returned s 1 = some [.num 66, .threw] ∧
    returned s 2 = some [.chars [66], .bool true] := by
    unfold init
    rw [hr2, hr3]
    exact ⟨_, _, rfl, rfl, rfl, rfl⟩
  obtain ⟨s, tr, h1, h2⟩ := hk
  refine ⟨r.1, s, tr, ⟨.cstr [65, 66, 0], [], r.2, ?_, by simp, h, ?_⟩, runShared_traced _ .start h1, h2⟩
  · exact List.mem_cons_of_mem _ (List.mem_cons_of_mem _ (List.mem_cons_self ..))
  · cases hc : r.1.contents with
    | error e => rw [hc] at hr1; cases hr1
    | ok x => rw [hc] at hr1; cases hr1; rfl

end Props
end Efp
