import Verif.Spec.StringShared
import Verif.StringLemmas
import Verif.HappensBeforeLemmas

/-!
# One `const` string and many threads: every schedule, at most one caller of `c_str`
-/

namespace Efp
namespace StrShared

open Spec (Op Trace HB RaceFree constRes constOk cChars)

/-- without operations on a lock only the order within a thread is left -/
theorem hb_same {ξ : Type} {tr : Trace ξ} (hl : ∀ (i t : Nat) (o : Op ξ), tr[i]? = some (t, o) → o.onLock = false) {i j : Nat} (h : HB tr i j) :
    ∃ t a b, tr[i]? = some (t, a) ∧ tr[j]? = some (t, b) := by
  induction h with
  | thread _ h1 h2 => exact ⟨_, _, _, h1, h2⟩
  | sync _ h1 _ _ => exact absurd (hl _ _ _ h1) (by simp [Op.onLock])
  | trans _ _ ih1 ih2 =>
    obtain ⟨t, a, b, h1, h2⟩ := ih1
    obtain ⟨t', a', b', h3, h4⟩ := ih2
    rw [h2] at h3
    cases h3
    exact ⟨_, _, _, h1, h4⟩

/-- run from any moment on a string with the characters `l`, the job returns `rs`; it reads the NUL only after writing it
(`z`), and only if it may (`own`) -/
inductive Sound (l : List Nat) (own : Bool) : Bool → Job (List Res) → List Res → Prop where
  | ret {z rs} : Sound l own z (.ret rs) rs
  | size {z k rs} : Sound l own z (k l.length) rs → Sound l own z (.load .size k) rs
  | cell {z i c k rs} : l[i]? = some c → Sound l own z (k c) rs → Sound l own z (.load (.cell i) k) rs
  | nul {k rs} : own = true → Sound l own true (k 0) rs → Sound l own true (.load (.cell l.length) k) rs
  | store {z k rs} : own = true → Sound l own true k rs → Sound l own z (.store (.cell l.length) 0 k) rs

variable {l : List Nat} {own : Bool}

theorem Sound.readCells {z : Bool} {rs : List Res} (n i : Nat) (k : List Nat → Job (List Res)) (h : i + n ≤ l.length)
    (hk : Sound l own z (k ((l.drop i).take n)) rs) : Sound l own z (StrShared.readCells i n k) rs := by
  induction n generalizing i k with
  | zero => simpa [StrShared.readCells] using hk
  | succ n ih =>
    have hi : i < l.length := by omega
    refine .cell (List.getElem?_eq_getElem hi) (ih (i + 1) _ (by omega) ?_)
    rwa [List.drop_eq_getElem_cons hi, List.take_succ_cons] at hk

theorem Sound.untilNul {rs : List Res} (ho : own = true) (f i : Nat) (k : List Nat → Job (List Res)) (hi : i + f = l.length + 1)
    (hf : 0 < f) (hk : Sound l own true (k (cChars (l.drop i))) rs) : Sound l own true (StrShared.untilNul f i k) rs := by
  induction f generalizing i k with
  | zero => omega
  | succ f ih =>
    by_cases he : i = l.length
    · subst he
      refine .nul ho ?_
      rw [if_pos rfl]
      simpa [cChars] using hk
    · have hl : i < l.length := by omega
      refine .cell (List.getElem?_eq_getElem hl) ?_
      rw [List.drop_eq_getElem_cons hl] at hk
      by_cases hc : l[i] = 0
      · rw [if_pos hc]
        simpa [cChars, hc] using hk
      · rw [if_neg hc]
        refine ih (i + 1) _ (by omega) (by omega) ?_
        rwa [cChars, List.takeWhile_cons_of_pos (by simpa using hc)] at hk

theorem Sound.call {z : Bool} {rs : List Res} {c : Call} {k : Res → Job (List Res)} (hok : constOk l c) (ho : c = .cStr → own = true)
    (hk : ∀ z', Sound l own z' (k (constRes l c)) rs) : Sound l own z (StrShared.call c k) rs := by
  cases c with
  | size => exact .size (hk _)
  | get i =>
    have hi : i < l.length := hok
    refine .cell (List.getElem?_eq_getElem hi) ?_
    have := hk z
    simpa [constRes, List.getD_eq_getElem?_getD, List.getElem?_eq_getElem hi] using this
  | at_ i =>
    refine .size ?_
    by_cases hi : i < l.length
    · rw [if_neg (by omega)]
      refine .cell (List.getElem?_eq_getElem hi) ?_
      have := hk z
      simpa [constRes, List.getElem?_eq_getElem hi] using this
    · rw [if_pos (by omega)]
      have := hk z
      simpa [constRes, List.getElem?_eq_none (Nat.le_of_not_lt hi)] using this
  | front =>
    cases l with
    | nil => exact absurd rfl hok
    | cons a as => exact .cell rfl (hk z)
  | back =>
    refine .size ?_
    have hn : l ≠ [] := hok
    have hp : 0 < l.length := List.length_pos_iff.2 hn
    rw [if_neg (by omega)]
    refine .cell (List.getElem?_eq_getElem (by omega)) ?_
    have := hk z
    simpa [constRes, List.getLastD_eq_getLast?, List.getLast?_eq_getElem?, List.getElem?_eq_getElem (show l.length - 1 < l.length by omega)]
      using this
  | eqC w =>
    refine .size ?_
    have := hk z
    by_cases hw : l.length ≠ w.length
    · rw [if_pos hw]
      have : l ≠ w := fun e => hw (congrArg _ e)
      simpa [constRes, beq_eq_false_iff_ne.2 this] using hk z
    · rw [if_neg hw]
      refine .readCells _ _ _ (by omega) ?_
      simpa [constRes] using hk z
  | substr pos len =>
    refine .size ?_
    have := hk z
    by_cases hp : pos > l.length
    · rw [if_pos hp]; simpa [constRes, hp] using this
    · rw [if_neg hp]
      simp only [constRes, if_neg hp] at this
      by_cases hl : len > l.length - pos
      · rw [if_pos hl]
        refine .readCells _ _ _ (by omega) ?_
        rwa [List.take_of_length_le (by simp only [List.length_drop]; omega)] at this ⊢
      · rw [if_neg hl]
        exact .readCells _ _ _ (by omega) this
  | copy len pos =>
    refine .size ?_
    have := hk z
    by_cases hp : pos > l.length
    · rw [if_pos hp]; simpa [constRes, hp] using this
    · rw [if_neg hp]
      simp only [constRes, if_neg hp] at this
      by_cases hl : len > l.length - pos
      · rw [if_pos hl]
        refine .readCells _ _ _ (by omega) ?_
        rwa [List.take_of_length_le (by simp only [List.length_drop]; omega)] at this ⊢
      · rw [if_neg hl]
        exact .readCells _ _ _ (by omega) this
  | all =>
    refine .size (.readCells _ _ _ (by omega) ?_)
    simpa [constRes] using hk z
  | cStr => exact .size (.store (ho rfl) (.untilNul (ho rfl) _ _ _ (by omega) (by omega) (hk true)))

theorem Sound.thread {z : Bool} (cs : List Call) (acc : List Res) (hok : ∀ c ∈ cs, constOk l c) (ho : .cStr ∈ cs → own = true) :
    Sound l own z (StrShared.thread cs acc) (acc ++ cs.map (constRes l)) := by
  induction cs generalizing z acc with
  | nil => simpa [StrShared.thread] using Sound.ret
  | cons c cs ih =>
    refine .call (hok c (by simp)) (fun e => ho (by simp [e])) fun z' => ?_
    have := ih (z := z') (acc ++ [constRes l c]) (fun c h => hok c (by simp [h])) (fun h => ho (by simp [h]))
    simpa using this

/-- what holds at every moment -/
structure Inv (l : List Nat) (owner : Nat) (progs : List (List Call)) (s : State) (tr : Trace Loc) : Prop where
  size : s.size = l.length
  spare : owner < progs.length → l.length < s.cells.length
  cells : ∀ (i c : Nat), l[i]? = some c → s.cells[i]? = some (.live c)
  jobs : ∃ z : Bool, (z = true → s.cells[l.length]? = some (.live 0)) ∧ ∀ (t : Nat) (J : Job (List Res)), s.jobs[t]? = some J →
    ∃ cs zt, progs[t]? = some cs ∧ (zt = true → z = true) ∧ Sound l (decide (t = owner)) zt J (cs.map (constRes l))
  trace : ∀ (i t : Nat) (o : Op Loc), tr[i]? = some (t, o) → ∃ x w, o = .access x w ∧ (t ≠ owner → w = false ∧ x ≠ .cell l.length) ∧
    (w = true → x = .cell l.length)

theorem Inv.raceFree {owner : Nat} {progs : List (List Call)} {s : State} {tr : Trace Loc} (h : Inv l owner progs s tr) : RaceFree tr := by
  intro i j t u x w w' _ hi hj htu hw
  exfalso
  obtain ⟨x1, w1, e1, h1, h2⟩ := h.trace _ _ _ hi
  obtain ⟨x2, w2, e2, h3, h4⟩ := h.trace _ _ _ hj
  cases e1
  cases e2
  rcases hw with hw | hw
  · have hx := h2 hw
    by_cases ht : t = owner
    · exact (h3 fun hu => htu (ht.trans hu.symm)).2 hx
    · have := (h1 ht).1; rw [hw] at this; cases this
  · have hx := h4 hw
    by_cases hu : u = owner
    · exact (h1 fun ht => htu (ht.trans hu.symm)).2 hx
    · have := (h3 hu).1; rw [hw] at this; cases this

theorem trace_snoc {owner : Nat} {tr : Trace Loc} {t : Nat} {x : Loc} {w : Bool}
    (h : ∀ (i t : Nat) (o : Op Loc), tr[i]? = some (t, o) → ∃ x w, o = .access x w ∧ (t ≠ owner → w = false ∧ x ≠ .cell l.length) ∧
      (w = true → x = .cell l.length))
    (h1 : t ≠ owner → w = false ∧ x ≠ .cell l.length) (h2 : w = true → x = .cell l.length) :
    ∀ (i u : Nat) (o : Op Loc), (tr ++ [(t, .access x w)])[i]? = some (u, o) → ∃ x w, o = .access x w ∧ (u ≠ owner → w = false ∧ x ≠ .cell l.length) ∧
      (w = true → x = .cell l.length) := by
  intro i u o hi
  by_cases hl : i < tr.length
  · rw [List.getElem?_append_left hl] at hi
    exact h i u o hi
  · rw [List.getElem?_append_right (by omega)] at hi
    cases hm : i - tr.length with
    | zero => rw [hm] at hi; cases hi; exact ⟨x, w, rfl, h1, h2⟩
    | succ m => rw [hm] at hi; simp at hi

theorem jobs_set {jobs : List (Job (List Res))} {progs : List (List Call)} {owner t : Nat} {J J' : Job (List Res)} {z z' : Bool}
    (hz : z = true → z' = true) (ht : jobs[t]? = some J)
    (h : ∀ (t : Nat) (J : Job (List Res)), jobs[t]? = some J →
      ∃ cs zt, progs[t]? = some cs ∧ (zt = true → z = true) ∧ Sound l (decide (t = owner)) zt J (cs.map (constRes l)))
    (hJ : ∃ cs zt, progs[t]? = some cs ∧ (zt = true → z' = true) ∧ Sound l (decide (t = owner)) zt J' (cs.map (constRes l))) :
    ∀ (u : Nat) (K : Job (List Res)), (jobs.set t J')[u]? = some K →
      ∃ cs zt, progs[u]? = some cs ∧ (zt = true → z' = true) ∧ Sound l (decide (u = owner)) zt K (cs.map (constRes l)) := by
  intro u K hu
  by_cases e : t = u
  · subst e
    have hlt : t < jobs.length := (List.getElem?_eq_some_iff.1 ht).1
    rw [List.getElem?_set_self hlt] at hu
    cases hu
    exact hJ
  · rw [List.getElem?_set_ne e] at hu
    obtain ⟨cs, zt, h1, h2, h3⟩ := h u K hu
    exact ⟨cs, zt, h1, fun h => hz (h2 h), h3⟩

theorem inv_step {owner : Nat} {progs : List (List Call)} {s s' : State} {tr es : Trace Loc} (h : Inv l owner progs s tr) {t : Nat}
    (hs : step s t = some (s', es)) : Inv l owner progs s' (tr ++ es) := by
  obtain ⟨z, hz, hj⟩ := h.jobs
  cases hJ : s.jobs[t]? with
  | none => rw [step, hJ] at hs; cases hs
  | some J =>
    obtain ⟨cs, zt, hcs, hzt, hS⟩ := hj t J hJ
    cases hS with
    | ret => rw [step, hJ] at hs; cases hs
    | @size _ k _ hk =>
      rw [step, hJ] at hs
      simp only [State.load, Option.some.injEq, Prod.mk.injEq] at hs
      obtain ⟨rfl, rfl⟩ := hs
      rw [h.size]
      exact ⟨rfl, h.spare, h.cells, ⟨z, hz, jobs_set id hJ hj ⟨cs, zt, hcs, hzt, hk⟩⟩,
        trace_snoc h.trace (fun _ => ⟨rfl, fun e => by cases e⟩) (fun e => by cases e)⟩
    | @cell _ i c k _ hc hk =>
      rw [step, hJ] at hs
      simp only [State.load, h.cells i c hc, Option.some.injEq, Prod.mk.injEq] at hs
      obtain ⟨rfl, rfl⟩ := hs
      have hi : i < l.length := (List.getElem?_eq_some_iff.1 hc).1
      exact ⟨h.size, h.spare, h.cells, ⟨z, hz, jobs_set id hJ hj ⟨cs, zt, hcs, hzt, hk⟩⟩,
        trace_snoc h.trace (fun _ => ⟨rfl, fun e => by cases e; omega⟩) (fun e => by cases e)⟩
    | @nul k _ ho hk =>
      rw [step, hJ] at hs
      simp only [State.load, hz (hzt rfl), Option.some.injEq, Prod.mk.injEq] at hs
      obtain ⟨rfl, rfl⟩ := hs
      have ht : t = owner := by simpa using ho
      exact ⟨h.size, h.spare, h.cells, ⟨z, hz, jobs_set id hJ hj ⟨cs, true, hcs, hzt, hk⟩⟩,
        trace_snoc h.trace (fun e => absurd ht e) (fun e => by cases e)⟩
    | @store _ k _ ho hk =>
      have ht : t = owner := by simpa using ho
      have hsp := h.spare (ht ▸ (List.getElem?_eq_some_iff.1 hcs).1)
      rw [step, hJ] at hs
      simp only [if_pos hsp, Option.some.injEq, Prod.mk.injEq] at hs
      obtain ⟨rfl, rfl⟩ := hs
      refine ⟨h.size, fun _ => by simpa using hsp, ?_, ⟨true, fun _ => List.getElem?_set_self hsp,
        jobs_set (fun _ => rfl) hJ hj ⟨cs, true, hcs, fun _ => rfl, hk⟩⟩,
        trace_snoc h.trace (fun e => absurd ht e) (fun _ => rfl)⟩
      intro i c hc
      have hi : i < l.length := (List.getElem?_eq_some_iff.1 hc).1
      show (s.cells.set l.length (.live 0))[i]? = _
      rw [List.getElem?_set_ne (by omega)]
      exact h.cells i c hc

theorem inv_init {v : Str} (hv : VecS.Rep .trivial v l) {owner : Nat} {progs : List (List Call)} (hsp : owner < progs.length → v.size < v.cap)
    (hok : ∀ cs ∈ progs, ∀ c ∈ cs, constOk l c) (ho : ∀ (t : Nat) (cs : List Call), progs[t]? = some cs → .cStr ∈ cs → t = owner) :
    Inv l owner progs (init v progs) [] := by
  have hj : ∀ (t : Nat) (J : Job (List Res)), (init v progs).jobs[t]? = some J →
      ∃ cs zt, progs[t]? = some cs ∧ (zt = true → false = true) ∧ Sound l (decide (t = owner)) zt J (cs.map (constRes l)) := by
    intro t J hJ
    simp only [init, List.getElem?_map, Option.map_eq_some_iff] at hJ
    obtain ⟨cs, hcs, rfl⟩ := hJ
    refine ⟨cs, false, hcs, by simp, ?_⟩
    have := Sound.thread (l := l) (own := decide (t = owner)) (z := false) cs []
      (hok cs (List.mem_of_getElem? hcs)) (fun hm => by simpa using ho t cs hcs hm)
    simpa using this
  obtain ⟨h1, ⟨_, hc, h2, hl⟩ | ⟨_, hcap, rest, hc, _⟩⟩ := hv
  · refine ⟨h1, fun h => ?_, by simp [hl], ⟨false, by simp, hj⟩, by simp⟩
    have := hsp h
    omega
  · refine ⟨h1, fun h => ?_, ?_, ⟨false, by simp, hj⟩, by simp⟩
    · show l.length < v.cells.length
      have := hsp h
      omega
    · intro i c hi
      show v.cells[i]? = _
      have hl : i < (l.map Cell.live).length := by simpa using (List.getElem?_eq_some_iff.1 hi).1
      rw [hc, List.getElem?_append_left hl, List.getElem?_map, hi]
      rfl

theorem traced_inv {v : Str} (hv : VecS.Rep .trivial v l) {owner : Nat} {progs : List (List Call)} (hsp : owner < progs.length → v.size < v.cap)
    (hok : ∀ cs ∈ progs, ∀ c ∈ cs, constOk l c) (ho : ∀ (t : Nat) (cs : List Call), progs[t]? = some cs → .cStr ∈ cs → t = owner)
    {s : State} {tr : Trace Loc} (h : Traced v progs s tr) : Inv l owner progs s tr := by
  induction h with
  | start => exact inv_init hv hsp hok ho
  | step t _ hs ih => exact inv_step ih hs

/-- a thread that has not returned can go on, and nothing undefined has happened to it -/
theorem Inv.progress {owner : Nat} {progs : List (List Call)} {s : State} {tr : Trace Loc} (h : Inv l owner progs s tr) {t : Nat}
    {cs : List Call} (hcs : progs[t]? = some cs) {J : Job (List Res)} (hJ : s.jobs[t]? = some J) :
    J = .ret (cs.map (constRes l)) ∨ (J ≠ .ub ∧ (∀ rs, J ≠ .ret rs) ∧ (step s t).isSome = true) := by
  obtain ⟨z, hz, hj⟩ := h.jobs
  obtain ⟨cs', zt, hcs', hzt, hS⟩ := hj t J hJ
  rw [hcs] at hcs'
  cases hcs'
  cases hS with
  | ret => exact .inl rfl
  | size hk => exact .inr ⟨by simp, by simp, by simp [step, hJ, State.load]⟩
  | cell hc hk => exact .inr ⟨by simp, by simp, by simp [step, hJ, State.load, h.cells _ _ hc]⟩
  | nul ho hk => exact .inr ⟨by simp, by simp, by simp [step, hJ, State.load, hz (hzt rfl)]⟩
  | store ho hk =>
    have ht : t = owner := by simpa using ho
    have hsp := h.spare (ht ▸ (List.getElem?_eq_some_iff.1 hcs).1)
    exact .inr ⟨by simp, by simp, by simp [step, hJ, hsp]⟩

end StrShared
end Efp
