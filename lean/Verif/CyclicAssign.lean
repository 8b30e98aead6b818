import Verif.Props.Cyclic

/-!
# Assignments of the cyclic containers: self-assignment of a `Vcq`, what assigning to a `Vcb` returns

Definitions modelling cyclic.hpp 33-58 and 195-256.
-/

namespace Efp
namespace Cyclic

variable {α : Type}

namespace Vcq

/-- loop body of `operator=(const Vcq&)` (cyclic.hpp 206-210), `*this` assigned to itself -/
def selfCopyBody (i : Nat) : Cpp (VcqS α) Unit := fun s =>
  (do let a ← onMem (Mem.read i)
      onMem (Mem.construct (wrap s.n s.rd i) a)
      let b ← onMem (Mem.read i)
      onMem (Mem.construct (s.n + wrap s.n s.rd i) b)) s

/-- `operator=(const Vcq&)` (cyclic.hpp 195-217), `*this` assigned to itself: the members are assigned their own
values -/
def selfAssign (k : Kind) : Cpp (VcqS α) Unit := fun s =>
  (do dtor k
      forUp selfCopyBody 0 s.size) s

/-- loop body of `operator=(Vcq&&)` (cyclic.hpp 245-249), `*this` assigned to itself -/
def selfMoveBody (k : Kind) (i : Nat) : Cpp (VcqS α) Unit := fun s =>
  (do let a ← onMem (Mem.moveOut k i)
      onMem (Mem.construct (wrap s.n s.rd i) a)
      let b ← onMem (Mem.moveOut k i)
      onMem (Mem.construct (s.n + wrap s.n s.rd i) b)) s

/-- `operator=(Vcq&&)` (cyclic.hpp 234-256), `*this` assigned to itself -/
def selfMove (k : Kind) : Cpp (VcqS α) Unit := fun s =>
  (do dtor k
      forUp (selfMoveBody k) 0 s.size) s

end Vcq

namespace Vcb

/-- the value of `a = move(b)` (cyclic.hpp 50-58): the return type is `Vcb`, so the object returned is a copy of
`a`, made by the copy constructor (cyclic.hpp 26-31) -/
def moveAssignResult (k : Kind) : Cpp (VcbS α × VcbS α) (VcbS α) := fun s =>
  match moveAssign k s with
  | .ok _ s' =>
    match copy s'.1 with
    | .ok _ c => .ok c s'
    | .thrown _ => .thrown s'
    | .ub u => .ub u
  | .thrown s' => .thrown s'
  | .ub u => .ub u

end Vcb

/-! ### Lemmas -/

namespace Vcq

theorem selfMoveBody_trivial (i : Nat) (s : VcqS α) : selfMoveBody .trivial i s = selfCopyBody i s := by
  have hr : ∀ m : Mem α, Mem.moveOut .trivial i m = Mem.read i m := by
    intro m
    unfold Mem.moveOut Mem.read
    rcases m.cells[i]? with _ | (_ | _ | a) <;> rfl
  have : (onMem (Mem.moveOut .trivial i) : Cpp (VcqS α) α) = onMem (Mem.read i) := by
    funext t; unfold onMem; rw [hr]
  unfold selfMoveBody selfCopyBody
  rw [this]

/-- one turn of the loop: the value of slot `i` goes to both mirrors of its target -/
theorem selfCopyBody_run {s : VcqS α} {i : Nat} {a : α} (hc : s.mem.cells[i]? = some (.live a))
    (hl : s.mem.cells.length = 2 * s.n) (hw : wrap s.n s.rd i < s.n) :
    ∃ t, selfCopyBody i s = .ok () t ∧ t.n = s.n ∧ t.rd = s.rd ∧ t.size = s.size ∧ t.wr = s.wr ∧
      t.mem.cells = (s.mem.cells.set (wrap s.n s.rd i) (.live a)).set (s.n + wrap s.n s.rd i) (.live a) := by
  have hi : i < s.mem.cells.length := (List.getElem?_eq_some_iff.mp hc).1
  have h1 : Mem.read i s.mem = .ok a s.mem := by simp only [Mem.read, hc]
  have h2 := construct_run (i := wrap s.n s.rd i) (m := s.mem) a (by omega)
  unfold selfCopyBody
  rw [Cpp.bind_ok (onMem_ok h1), Cpp.bind_ok (onMem_ok h2)]
  have hc' : (s.mem.cells.set (wrap s.n s.rd i) (.live a))[i]? = some (.live a) := by
    rw [List.getElem?_set]
    split
    · rename_i h; rw [if_pos (by omega)]
    · exact hc
  have h3 : ∀ led, Mem.read i ⟨s.mem.cells.set (wrap s.n s.rd i) (.live a), led⟩
      = .ok a ⟨s.mem.cells.set (wrap s.n s.rd i) (.live a), led⟩ := fun led => by simp only [Mem.read, hc']
  rw [Cpp.bind_ok (onMem_ok (h3 _))]
  rw [onMem_ok (construct_run (i := s.n + wrap s.n s.rd i) a (by simp; omega))]
  exact ⟨_, rfl, rfl, rfl, rfl, rfl, rfl⟩

theorem onMem_ub {β : Type} {m : Cpp (Mem α) β} {s : VcqS α} {u : UB} (h : m s.mem = .ub u) : onMem m s = .ub u := by
  unfold onMem; rw [h]; rfl

/-- destroying trivial elements leaves the bytes where they are -/
theorem dtor_trivial {s : VcqS α} (hl : s.mem.cells.length = 2 * s.n) (hrd : s.rd < s.n) (hs : s.size ≤ s.n) :
    ∃ t, dtor .trivial s = .ok () t ∧ t.n = s.n ∧ t.rd = s.rd ∧ t.size = s.size ∧ t.wr = s.wr ∧
      t.mem.cells = s.mem.cells := by
  obtain ⟨t, h1, h2⟩ := forUp_inv (body := destroyBody .trivial s.n s.rd)
    (fun _ (t : VcqS α) => t.n = s.n ∧ t.rd = s.rd ∧ t.size = s.size ∧ t.wr = s.wr ∧ t.mem.cells = s.mem.cells)
    0 s.size s ⟨rfl, rfl, rfl, rfl, rfl⟩ (by
      rintro i t - hi ⟨p1, p2, p3, p4, p5⟩
      have hw := wrap_lt (i := i) hrd (by omega)
      have hd : ∀ (j : Nat) (m : Mem α), j < m.cells.length →
          Mem.destroy .trivial j m = .ok () { m with led := { m.led with gone := m.led.gone + 1 } } := by
        intro j m hj
        simp only [Mem.destroy, List.getElem?_eq_getElem hj]
      unfold destroyBody
      rw [Cpp.bind_ok (onMem_ok (hd _ _ (by rw [p5]; omega))), onMem_ok (hd _ _ (by simp only [p5]; omega))]
      exact ⟨_, rfl, p1, p2, p3, p4, p5⟩)
  exact ⟨t, h1, h2⟩

theorem set2_at {cells : List (Cell α)} {n j : Nat} {c : Cell α} (hl : cells.length = 2 * n) (hj : j < n) (i : Nat) :
    ((cells.set j c).set (n + j) c)[i]? = if i = n + j then some c else if i = j then some c else cells[i]? := by
  by_cases h1 : i = n + j
  · rw [if_pos h1, h1, List.getElem?_set_self (by simp; omega)]
  · rw [if_neg h1, List.getElem?_set_ne (fun e => h1 e.symm)]
    by_cases h2 : i = j
    · rw [if_pos h2, h2, List.getElem?_set_self (by omega)]
    · rw [if_neg h2, List.getElem?_set_ne (fun e => h2 e.symm)]

/-- self-assignment of a queue of trivial elements whose front is at slot 0 changes no slot in use -/
theorem selfAssign_front {s : VcqS α} {q : List α} (h : Rep .trivial s q) (h0 : s.rd = 0) :
    ∃ t, selfAssign .trivial s = .ok () t ∧ t.n = s.n ∧ t.rd = s.rd ∧ t.size = s.size ∧ t.wr = s.wr ∧
      t.mem.cells.length = 2 * s.n ∧ ∀ j : Nat, t.mem.cells[j]? = s.mem.cells[j]? := by
  have hle := h.le
  obtain ⟨d, d1, d2, d3, d4, d5, d6⟩ := dtor_trivial h.cells h.rd (by rw [h.size]; exact hle)
  unfold selfAssign
  rw [Cpp.bind_ok d1]
  obtain ⟨t, h1, h2, h3, h4, h5, h6, h7⟩ := forUp_inv (body := selfCopyBody)
    (fun _ (t : VcqS α) => t.n = s.n ∧ t.rd = s.rd ∧ t.size = s.size ∧ t.wr = s.wr ∧ t.mem.cells.length = 2 * s.n ∧
      ∀ j : Nat, t.mem.cells[j]? = s.mem.cells[j]?)
    0 s.size d ⟨d2, d3, d4, d5, by rw [d6]; exact h.cells, by rw [d6]; exact fun _ => rfl⟩ (by
      rintro i t - hi ⟨p1, p2, p3, p4, p5, p6⟩
      have hil : i < q.length := by have := h.size; omega
      have hw : wrap s.n s.rd i = i := by unfold wrap; rw [if_pos (by omega)]; omega
      have ha := h.lo i q[i] (by simp [hil])
      have hb := h.hi i q[i] (by simp [hil])
      rw [hw] at ha hb
      obtain ⟨t', e1, e2, e3, e4, e5, e6⟩ := selfCopyBody_run (s := t) (i := i) (a := q[i]) (by rw [p6]; exact ha)
        (by rw [p1]; exact p5) (by rw [p1, p2, hw]; omega)
      rw [p1, p2, hw] at e6
      refine ⟨t', e1, e2.trans p1, e3.trans p2, e4.trans p3, e5.trans p4, by rw [e6]; simp [p5], fun j => ?_⟩
      rw [e6, set2_at p5 (by omega)]
      split
      · rename_i hj; rw [hj, hb]
      · split
        · rename_i hj; rw [hj, ha]
        · exact p6 j)
  exact ⟨t, h1, h2, h3, h4, h5, h6, h7⟩

/-- self-assignment of a full queue of trivial elements: the front slot gets the value of slot 0 and keeps it -/
theorem selfAssign_full {s : VcqS α} {q : List α} (h : Rep .trivial s q) (hfull : q.length = s.n) {a : α}
    (ha : s.mem.cells[0]? = some (.live a)) :
    ∃ t, selfAssign .trivial s = .ok () t ∧ t.n = s.n ∧ t.rd = s.rd ∧ t.size = s.size ∧
      t.mem.cells.length = 2 * s.n ∧ (∀ j : Nat, j < 2 * s.n → ∃ b, t.mem.cells[j]? = some (.live b)) ∧
      t.mem.cells[s.rd]? = some (.live a) := by
  have hpos := h.pos
  have hrd := h.rd
  obtain ⟨d, d1, d2, d3, d4, d5, d6⟩ := dtor_trivial h.cells h.rd (by rw [h.size]; omega)
  unfold selfAssign
  rw [Cpp.bind_ok d1]
  have hlive : ∀ j : Nat, j < 2 * s.n → ∃ b, s.mem.cells[j]? = some (.live b) := by
    have hinv : ∀ j, j < s.n → ∃ i, i < s.n ∧ wrap s.n s.rd i = j := by
      intro j hj
      unfold wrap
      by_cases hc : s.rd ≤ j
      · exact ⟨j - s.rd, by omega, by rw [if_pos (by omega)]; omega⟩
      · exact ⟨j + s.n - s.rd, by omega, by rw [if_neg (by omega)]; omega⟩
    intro j hj
    by_cases hc : j < s.n
    · obtain ⟨i, hi, rfl⟩ := hinv j hc
      exact ⟨_, h.lo i q[i] (by simp [hfull, hi])⟩
    · obtain ⟨i, hi, e⟩ := hinv (j - s.n) (by omega)
      have := h.hi i q[i] (by simp [hfull, hi])
      rw [e, show s.n + (j - s.n) = j by omega] at this
      exact ⟨_, this⟩
  obtain ⟨t, h1, h2, h3, h4, h5, h6, h7⟩ := forUp_inv (body := selfCopyBody)
    (fun i (t : VcqS α) => t.n = s.n ∧ t.rd = s.rd ∧ t.size = s.size ∧ t.mem.cells.length = 2 * s.n ∧
      (∀ j : Nat, j < 2 * s.n → ∃ b, t.mem.cells[j]? = some (.live b)) ∧
      t.mem.cells[if i = 0 then 0 else s.rd]? = some (.live a))
    0 s.size d ⟨d2, d3, d4, by rw [d6]; exact h.cells, by rw [d6]; exact hlive, by rw [d6, if_pos rfl]; exact ha⟩ (by
      rintro i t - hi ⟨p1, p2, p3, p4, p5, p6⟩
      have hin : i < s.n := by have := h.size; omega
      have hw := wrap_lt (i := i) hrd (by omega)
      obtain ⟨b, hb⟩ := p5 i (by omega)
      obtain ⟨t', e1, e2, e3, e4, e5, e6⟩ := selfCopyBody_run (s := t) (i := i) (a := b) hb
        (by rw [p1]; exact p4) (by rw [p1, p2]; exact hw)
      rw [p1, p2] at e6
      refine ⟨t', e1, e2.trans p1, e3.trans p2, e4.trans p3, by rw [e6]; simp [p4], fun j hj => ?_, ?_⟩
      · rw [e6, set2_at p4 hw]
        split
        · exact ⟨b, rfl⟩
        · split
          · exact ⟨b, rfl⟩
          · exact p5 j hj
      · rw [if_neg (by omega), e6, set2_at p4 hw, if_neg (by omega)]
        by_cases hi0 : i = 0
        · subst hi0
          rw [if_pos rfl] at p6
          rw [hb] at p6
          rw [if_pos (by unfold wrap; rw [if_pos (by omega)]; rfl)]
          exact p6
        · rw [if_neg (by unfold wrap; split <;> omega)]
          rw [if_neg hi0] at p6
          exact p6)
  refine ⟨t, h1, h2, h3, h4, h5, h6, ?_⟩
  rw [if_neg (by have := h.size; omega)] at h7
  exact h7

end Vcq
end Cyclic
end Efp
