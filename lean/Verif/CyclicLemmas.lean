import Verif.Cyclic
import Verif.Spec.Cyclic

/-! Lemmas about the cyclic containers. -/

namespace Efp
namespace Cyclic

open Spec

variable {α β : Type}

theorem advance_eq {n p : Nat} (h : p < n) : advance n p = if p + 1 = n then 0 else p + 1 := by
  unfold advance
  split <;> omega

theorem wrap_lt {n off i : Nat} (ho : off < n) (hi : i ≤ n) : wrap n off i < n := by
  unfold wrap; split <;> omega

/-! ### index-level facts about storage -/

theorem construct_run {i : Nat} {m : Mem α} (a : α) (h : i < m.cells.length) :
    Mem.construct i a m = .ok () ⟨m.cells.set i (.live a), { m.led with made := m.led.made + 1 }⟩ := by
  simp only [Mem.construct, h, if_true]

theorem destroy_run {k : Kind} {i : Nat} {m : Mem α} {c : Cell α} (h : m.cells[i]? = some c)
    (hc : k = .managed → c.alive = true) :
    Mem.destroy k i m = .ok () ⟨m.cells.set i (dead k c), { m.led with gone := m.led.gone + 1 }⟩ := by
  cases k with
  | trivial =>
    simp only [Mem.destroy, h, dead]
    have : m.cells.set i c = m.cells := by
      apply List.ext_getElem?
      intro j
      rw [List.getElem?_set]
      split
      · next e => subst e; split <;> simp_all
      · rfl
    rw [this]
  | managed => simp only [Mem.destroy, h, hc rfl, if_true, dead]

theorem read_run {i : Nat} {m : Mem α} {a : α} (h : m.cells[i]? = some (.live a)) :
    Mem.read i m = .ok a m := by simp only [Mem.read, h]

theorem moveOut_run {k : Kind} {i : Nat} {m : Mem α} {a : α} (h : m.cells[i]? = some (.live a)) :
    Mem.moveOut k i m = .ok a ⟨m.cells.set i (husk k a), m.led⟩ := by
  cases k with
  | trivial =>
    simp only [Mem.moveOut, h, husk]
    have : m.cells.set i (.live a) = m.cells := by
      apply List.ext_getElem?
      intro j
      rw [List.getElem?_set]
      split
      · next e => subst e; split <;> simp_all
      · rfl
    rw [this]
  | managed => simp only [Mem.moveOut, h, husk]

theorem assign_run {k : Kind} {i : Nat} {m : Mem α} {c : Cell α} (a : α) (h : m.cells[i]? = some c)
    (hc : c.alive = true) : Mem.assign k i a m = .ok () ⟨m.cells.set i (.live a), m.led⟩ := by
  have : ¬ (k = .managed ∧ c.alive = false) := by simp [hc]
  simp only [Mem.assign, h, this, if_false]

theorem readOf_run {σ : Type} {i : Nat} {m : Mem α} {a : α} (h : m.cells[i]? = some (.live a)) :
    (readOf m i : Cpp σ α) = pure a := by
  simp only [readOf, read_run h]

/-! ### Vcq -/

namespace Vcq

/-- The queue as it lies in the buffer: element `i` in both mirrors of slot `(rd + i) mod n`, as the pair of the two
stored values; for managed elements every other slot is empty. -/
structure Rep2 (k : Kind) (s : VcqS α) (l : List (α × α)) : Prop where
  pos : 0 < s.n
  cells : s.mem.cells.length = 2 * s.n
  size : s.size = l.length
  le : l.length ≤ s.n
  rd : s.rd < s.n
  wr : s.wr = wrap s.n s.rd s.size
  lo : ∀ i a, l[i]? = some a → s.mem.cells[wrap s.n s.rd i]? = some (.live a.1)
  hi : ∀ i a, l[i]? = some a → s.mem.cells[s.n + wrap s.n s.rd i]? = some (.live a.2)
  free : k = .managed → ∀ j, j < s.n → (∀ i, i < l.length → wrap s.n s.rd i ≠ j) →
    s.mem.cells[j]? = some .raw ∧ s.mem.cells[s.n + j]? = some .raw
  led : s.mem.led.made = s.mem.led.gone + 2 * l.length

theorem mk0_rep2 (k : Kind) (n : Nat) (h : 0 < n) : Rep2 k (mk0 n : VcqS α) [] where
  pos := h
  cells := by simp [mk0]
  size := rfl
  le := by simp
  rd := h
  wr := by simp [mk0, wrap, h]
  lo := by simp
  hi := by simp
  free := by
    intro _ j hj _
    have hj : j < n := hj
    simp only [mk0, List.getElem?_replicate]
    refine ⟨?_, ?_⟩ <;> rw [if_pos (by omega)]
  led := rfl

theorem Rep2.wr_lt {k : Kind} {s : VcqS α} {l : List (α × α)} (h : Rep2 k s l) : s.wr < s.n := by
  rw [h.wr]
  exact wrap_lt h.rd (by rw [h.size]; exact h.le)

theorem onMem_ok {m : Cpp (Mem α) β} {s : VcqS α} {b : β} {m' : Mem α} (h : m s.mem = .ok b m') :
    onMem m s = .ok b { s with mem := m' } := by
  unfold onMem; rw [h]; rfl

/-- destroying both mirrors of slot `j` -/
theorem destroy2 {γ : Type} {k : Kind} {s : VcqS α} {c c' : Cell α} {j e : Nat} (f : Unit → Cpp (VcqS α) γ)
    (he : e = s.n + j) (hj : j < s.n) (h1 : s.mem.cells[j]? = some c) (h2 : s.mem.cells[s.n + j]? = some c')
    (hc : c.alive = true) (hc' : c'.alive = true) :
    (onMem (Mem.destroy k j) >>= fun _ => onMem (Mem.destroy k e) >>= f) s =
      f () { s with mem := ⟨(s.mem.cells.set j (dead k c)).set (s.n + j) (dead k c'),
        { s.mem.led with gone := s.mem.led.gone + 2 }⟩ } := by
  subst he
  rw [Cpp.bind_ok (onMem_ok (destroy_run h1 (fun _ => hc)))]
  rw [Cpp.bind_ok (onMem_ok (destroy_run (c := c') (by
    rw [List.getElem?_set]
    rw [if_neg (by omega)]
    exact h2) (fun _ => hc')))]

/-- constructing both mirrors of slot `j` -/
theorem construct2 {γ : Type} {s : VcqS α} {j e : Nat} (f : Unit → Cpp (VcqS α) γ) (a : α) (he : e = s.n + j)
    (hl : s.mem.cells.length = 2 * s.n) (hj : j < s.n) :
    (onMem (Mem.construct j a) >>= fun _ => onMem (Mem.construct e a) >>= f) s =
      f () { s with mem := ⟨(s.mem.cells.set j (.live a)).set (s.n + j) (.live a),
        { s.mem.led with made := s.mem.led.made + 2 }⟩ } := by
  subst he
  rw [Cpp.bind_ok (onMem_ok (construct_run a (by omega)))]
  rw [Cpp.bind_ok (onMem_ok (construct_run a (by simp; omega)))]

theorem bind_unit (m : Cpp (VcqS α) Unit) : (m >>= fun _ => pure ()) = m := by
  funext s
  simp only [Cpp.bind_run]
  cases m s <;> rfl

theorem set2_get {cs : List (Cell α)} {n j : Nat} {x y : Cell α} (hl : cs.length = 2 * n) (hj : j < n) (i : Nat) :
    ((cs.set j x).set (n + j) y)[i]? = if i = n + j then some y else if i = j then some x else cs[i]? := by
  rw [List.getElem?_set, List.getElem?_set]
  by_cases h1 : i = n + j
  · subst h1
    simp; omega
  · rw [if_neg (fun h => h1 h.symm), if_neg h1]
    by_cases h2 : i = j
    · subst h2
      simp; omega
    · rw [if_neg (fun h => h2 h.symm), if_neg h2]

theorem dropOldest_run {k : Kind} {s : VcqS α} {l : List (α × α)} (h : Rep2 k s l) :
    ∃ cs, dropOldest k s = .ok () { s with mem := ⟨cs,
        { s.mem.led with gone := s.mem.led.gone + (if l.length = s.n then 2 else 0) }⟩ } ∧
      cs.length = 2 * s.n ∧ (∀ i, i ≠ s.wr → i ≠ s.n + s.wr → cs[i]? = s.mem.cells[i]?) ∧
      (l.length = s.n → cs[s.wr]? = some (dead k (s.mem.cells[s.wr]?.getD .raw))) := by
  unfold dropOldest
  by_cases hf : l.length = s.n
  · have hw : s.wr = wrap s.n s.rd 0 := by
      rw [h.wr, h.size, hf]
      have := h.rd
      unfold wrap
      rw [if_neg (by omega), if_pos (by omega)]
      omega
    obtain ⟨a, ha⟩ : ∃ a : α × α, l[0]? = some a := by
      have hp : 0 < l.length := by rw [hf]; exact h.pos
      exact ⟨l[0], by simp [hp]⟩
    have h1 := h.lo 0 a ha
    have h2 := h.hi 0 a ha
    rw [← hw] at h1 h2
    rw [if_pos (by rw [h.size, hf]), ← bind_unit (onMem (Mem.destroy k (s.wr + s.n))),
      destroy2 _ (Nat.add_comm _ _) h.wr_lt h1 h2 rfl rfl, if_pos hf]
    refine ⟨_, rfl, by simp [h.cells], ?_, ?_⟩
    · intro i i1 i2
      rw [set2_get h.cells h.wr_lt, if_neg i2, if_neg i1]
    · intro _
      rw [set2_get h.cells h.wr_lt, if_neg (by have := h.wr_lt; omega), if_pos rfl, h1]
      rfl
  · rw [if_neg (by rw [h.size]; exact hf), if_neg hf]
    exact ⟨_, rfl, h.cells, fun _ _ _ => rfl, fun hh => absurd hh hf⟩

theorem pushed_n (t : VcqS α) : (pushed t).n = t.n := by unfold pushed; split <;> rfl
theorem pushed_mem (t : VcqS α) : (pushed t).mem = t.mem := by unfold pushed; split <;> rfl
theorem pushed_rd (t : VcqS α) : (pushed t).rd = if t.size < t.n then t.rd else advance t.n t.rd := by
  unfold pushed; split <;> rfl

/-- the buffer after a push, whatever the source of the value -/
theorem pushed_rep {k : Kind} {s t : VcqS α} {l : List (α × α)} {a : α} (h : Rep2 k s l) (hn : t.n = s.n) (hs : t.size = s.size)
    (hr : t.rd = s.rd) (hw : t.wr = s.wr) (hl : t.mem.cells.length = 2 * s.n)
    (h1 : t.mem.cells[s.wr]? = some (.live a)) (h2 : t.mem.cells[s.n + s.wr]? = some (.live a))
    (h3 : ∀ i, i ≠ s.wr → i ≠ s.n + s.wr → t.mem.cells[i]? = s.mem.cells[i]?)
    (hm : t.mem.led.made = s.mem.led.made + 2)
    (hg : t.mem.led.gone = s.mem.led.gone + (if l.length = s.n then 2 else 0)) :
    Rep2 k (pushed t) (fifoPush s.n l (a, a)) := by
  have hrd := h.rd
  have hwl := h.wr_lt
  have hle := h.le
  have hsz := h.size
  have hwr := h.wr
  have hld := h.led
  have hpos := h.pos
  by_cases hf : l.length = s.n
  · -- full: the oldest element is dropped
    have hwr' : s.wr = s.rd := by
      rw [hwr, hsz, hf]; unfold wrap; rw [if_neg (by omega)]; omega
    have hp : pushed t = { t with wr := advance s.n s.wr, rd := advance s.n s.rd } := by
      unfold pushed; rw [hs, hsz, hf, hn, if_neg (by omega), hw, hr]
    have hlen : (fifoPush s.n l (a, a)).length = s.n := by
      unfold fifoPush; rw [if_pos hf]; simp; omega
    have hget : ∀ i, i + 1 < s.n → (fifoPush s.n l (a, a))[i]? = l[i + 1]? := by
      intro i hi
      unfold fifoPush
      rw [if_pos hf, List.getElem?_append_left (by simp; omega), List.getElem?_tail]
    have hlast : (fifoPush s.n l (a, a))[s.n - 1]? = some (a, a) := by
      unfold fifoPush
      rw [if_pos hf, List.getElem?_append_right (by simp; omega)]
      rw [List.length_tail, hf, Nat.sub_self]
      rfl
    have hadv := advance_eq hrd
    have hwrap : ∀ i, i + 1 < s.n → wrap s.n (advance s.n s.rd) i = wrap s.n s.rd (i + 1) := by
      intro i hi
      rw [hadv]; unfold wrap
      repeat' split
      all_goals omega
    have hwlast : wrap s.n (advance s.n s.rd) (s.n - 1) = s.wr := by
      rw [hadv, hwr']; unfold wrap
      repeat' split
      all_goals omega
    have hne : ∀ i, i + 1 < s.n → wrap s.n s.rd (i + 1) ≠ s.wr := by
      intro i hi
      rw [hwr']; unfold wrap; split <;> omega
    rw [hp]
    have hcase : ∀ i x, (fifoPush s.n l (a, a))[i]? = some x →
        (i + 1 < s.n ∧ l[i + 1]? = some x) ∨ (i = s.n - 1 ∧ x = (a, a)) := by
      intro i x hx
      have hi : i < s.n := by
        rw [← hlen]; exact (List.getElem?_eq_some_iff.mp hx).1
      by_cases hi' : i + 1 < s.n
      · exact .inl ⟨hi', by rw [← hget i hi']; exact hx⟩
      · have : i = s.n - 1 := by omega
        subst this
        rw [hlast] at hx
        exact .inr ⟨rfl, by cases hx; rfl⟩
    refine ⟨by rw [hn]; exact hpos, by rw [hn]; exact hl, by simp only [hs, hsz, hlen, hf],
      by rw [hn, hlen]; exact Nat.le_refl _, by simp only [hn]; rw [hadv]; split <;> omega, ?_, ?_, ?_, ?_, ?_⟩
    · simp only [hn, hs, hsz, hf, hwr']
      rw [hadv]; unfold wrap
      repeat' split
      all_goals omega
    · intro i x hx
      simp only [hn]
      rcases hcase i x hx with ⟨hi, hx'⟩ | ⟨rfl, rfl⟩
      · rw [hwrap i hi, h3 _ (hne i hi) (by have := wrap_lt (i := i + 1) hrd (by omega); omega)]
        exact h.lo _ _ hx'
      · rw [hwlast]; exact h1
    · intro i x hx
      simp only [hn]
      rcases hcase i x hx with ⟨hi, hx'⟩ | ⟨rfl, rfl⟩
      · rw [hwrap i hi, h3 _ (by omega) (by have := hne i hi; omega)]
        exact h.hi _ _ hx'
      · rw [hwlast]; exact h2
    · intro hk j hj hfree
      simp only [hn] at hj hfree ⊢
      exfalso
      rw [hlen, hadv] at hfree
      have hr' : (if s.rd + 1 = s.n then 0 else s.rd + 1) < s.n := by split <;> omega
      generalize (if s.rd + 1 = s.n then 0 else s.rd + 1) = r at hfree hr'
      by_cases hjr : j < r
      · refine hfree (s.n + j - r) (by omega) ?_
        unfold wrap; rw [if_neg (by omega)]
        omega
      · refine hfree (j - r) (by omega) ?_
        unfold wrap; rw [if_pos (by omega)]
        omega
    · simp only [hm, hg, hf, hlen, if_true, hld]; omega
  · -- room left
    have hlt : l.length < s.n := by omega
    have hp : pushed t = { t with wr := advance s.n s.wr, size := s.size + 1 } := by
      unfold pushed; rw [hs, hsz, hn, if_pos hlt, hw]
    have hq : fifoPush s.n l (a, a) = l ++ [(a, a)] := by unfold fifoPush; rw [if_neg hf]
    have hwr' : s.wr = wrap s.n s.rd l.length := by rw [hwr, hsz]
    have hne : ∀ i, i < l.length → wrap s.n s.rd i ≠ s.wr := by
      intro i hi
      rw [hwr']; unfold wrap
      repeat' split
      all_goals omega
    have hcase : ∀ i x, (l ++ [(a, a)])[i]? = some x → (i < l.length ∧ l[i]? = some x) ∨ (i = l.length ∧ x = (a, a)) := by
      intro i x hx
      rcases Nat.lt_or_ge i l.length with hi | hi
      · rw [List.getElem?_append_left hi] at hx
        exact .inl ⟨hi, hx⟩
      · have hlt2 := (List.getElem?_eq_some_iff.mp hx).1
        simp at hlt2
        have : i = l.length := by omega
        subst this
        simp at hx
        exact .inr ⟨rfl, hx.symm⟩
    rw [hp, hq]
    refine ⟨by rw [hn]; exact hpos, by rw [hn]; exact hl, by simp [hsz], (by
      simp only [hn, List.length_append, List.length_cons, List.length_nil]
      omega), by simp only [hn, hr]; exact hrd, ?_, ?_, ?_, ?_, ?_⟩
    · simp only [hn, hsz, hr]
      rw [advance_eq hwl, hwr']; unfold wrap
      repeat' split
      all_goals omega
    · intro i x hx
      simp only [hn, hr]
      rcases hcase i x hx with ⟨hi, hx'⟩ | ⟨rfl, rfl⟩
      · rw [h3 _ (hne i hi) (by have := wrap_lt (i := i) hrd (by omega); omega)]
        exact h.lo _ _ hx'
      · rw [← hwr']; exact h1
    · intro i x hx
      simp only [hn, hr]
      rcases hcase i x hx with ⟨hi, hx'⟩ | ⟨rfl, rfl⟩
      · rw [h3 _ (by omega) (by have := hne i hi; omega)]
        exact h.hi _ _ hx'
      · rw [← hwr']; exact h2
    · intro hk j hj hfree
      simp only [hn, hr] at hj hfree ⊢
      have hj1 : wrap s.n s.rd l.length ≠ j := hfree l.length (by simp)
      obtain ⟨f1, f2⟩ := h.free hk j hj (fun i hi => hfree i (by simp; omega))
      rw [h3 j (by rw [hwr']; exact fun e => hj1 e.symm) (by omega), h3 (s.n + j) (by omega)
        (by rw [hwr']; omega)]
      exact ⟨f1, f2⟩
    · simp only [hm, hg, if_neg hf, hld, List.length_append, List.length_cons, List.length_nil]; omega

/-- `push_back` -/
theorem pushBack_run2 {k : Kind} {s : VcqS α} {l : List (α × α)} (h : Rep2 k s l) (a : α) :
    ∃ s', pushBack k a s = .ok () s' ∧ s'.n = s.n ∧ Rep2 k s' (fifoPush s.n l (a, a)) ∧
      s'.rd = (if l.length = s.n then advance s.n s.rd else s.rd) ∧ s'.mem.led.made = s.mem.led.made + 2 := by
  obtain ⟨cs, hd, hl, h3, _⟩ := dropOldest_run h
  unfold pushBack
  simp only [Cpp.bind_ok hd]
  rw [construct2 (s := { s with mem := ⟨cs, { s.mem.led with gone := s.mem.led.gone +
    (if l.length = s.n then 2 else 0) }⟩ }) _ a (Nat.add_comm _ _) hl h.wr_lt]
  simp only [Cpp.modify_run]
  refine ⟨_, rfl, ?_, pushed_rep (a := a) h rfl rfl rfl rfl (by simp [hl]) ?_ ?_ ?_ rfl rfl, ?_, ?_⟩
  · rw [pushed_n]
  · rw [set2_get hl h.wr_lt, if_neg (by have := h.wr_lt; omega), if_pos rfl]
  · rw [set2_get hl h.wr_lt, if_pos rfl]
  · intro i i1 i2
    rw [set2_get hl h.wr_lt, if_neg i2, if_neg i1]
    exact h3 i i1 i2
  · rw [pushed_rd]
    simp only [h.size]
    have := h.le
    by_cases hf : l.length = s.n
    · rw [if_neg (by omega), if_pos hf]
    · rw [if_pos (by omega), if_neg hf]
  · rw [pushed_mem]

/-- `pop_front` of a non-empty queue -/
theorem popFront_run2 {k : Kind} {s : VcqS α} {x : α × α} {l : List (α × α)} (h : Rep2 k s (x :: l)) :
    ∃ s', popFront k s = .ok x.1 s' ∧ s'.n = s.n ∧ Rep2 k s' l ∧ s'.rd = advance s.n s.rd ∧
      s'.mem.led.made = s.mem.led.made := by
  have hrd := h.rd
  have hle := h.le
  simp only [List.length_cons] at hle
  have hsz := h.size
  simp only [List.length_cons] at hsz
  have w0 : wrap s.n s.rd 0 = s.rd := by unfold wrap; rw [if_pos (by omega)]; rfl
  have h1 := h.lo 0 x rfl
  have h2 := h.hi 0 x rfl
  rw [w0] at h1 h2
  unfold popFront
  simp only [Cpp.bind_ok (onMem_ok (moveOut_run h1))]
  rw [destroy2 (s := { s with mem := ⟨s.mem.cells.set s.rd (husk k x.1), s.mem.led⟩ }) (c := husk k x.1) (c' := .live x.2) _ (Nat.add_comm _ _) hrd (by
      have := (List.getElem?_eq_some_iff.mp h1).1
      simp [List.getElem?_set, this]) (by
      simp only [List.getElem?_set]
      rw [if_neg (by omega)]
      exact h2) (husk_alive k x.1) rfl]
  simp only [Cpp.bind_ok (Cpp.modify_run _ _), Cpp.pure_run]
  refine ⟨_, rfl, rfl, ?_, rfl, rfl⟩
  rw [if_neg (by omega)]
  have hadv := advance_eq hrd
  have hlen : (s.mem.cells.set s.rd (husk k x.1)).length = 2 * s.n := by simp [h.cells]
  have hwrap : ∀ i, i + 1 ≤ s.n → wrap s.n (advance s.n s.rd) i = wrap s.n s.rd (i + 1) := by
    intro i hi
    rw [hadv]; unfold wrap
    repeat' split
    all_goals omega
  have hne : ∀ i, i + 1 < s.n → wrap s.n s.rd (i + 1) ≠ s.rd := by
    intro i hi
    unfold wrap; split <;> omega
  have hget : ∀ i, i ≠ s.rd → i ≠ s.n + s.rd →
      (((s.mem.cells.set s.rd (husk k x.1)).set s.rd (dead k (husk k x.1))).set (s.n + s.rd) (dead k (.live x.2)))[i]? =
        s.mem.cells[i]? := by
    intro i i1 i2
    rw [set2_get hlen hrd, if_neg i2, if_neg i1, List.getElem?_set, if_neg (fun e => i1 e.symm)]
  refine ⟨h.pos, by simp [h.cells], by simp [hsz], by simp only; omega, ?_, ?_, ?_, ?_, ?_, ?_⟩
  · show advance s.n s.rd < s.n
    rw [hadv]; split <;> omega
  · show s.wr = wrap s.n (advance s.n s.rd) (s.size - 1)
    rw [h.wr, hwrap _ (by omega)]
    congr 1; omega
  · intro i y hy
    have hi := (List.getElem?_eq_some_iff.mp hy).1
    simp only
    rw [hwrap i (by omega), hget _ (hne i (by omega)) (by have := wrap_lt (i := i + 1) hrd (by omega); omega)]
    exact h.lo (i + 1) y (by simpa using hy)
  · intro i y hy
    have hi := (List.getElem?_eq_some_iff.mp hy).1
    simp only
    rw [hwrap i (by omega), hget _ (by omega) (by have := hne i (by omega); omega)]
    exact h.hi (i + 1) y (by simpa using hy)
  · intro hk j hj hfree
    simp only at hj hfree ⊢
    by_cases hjr : j = s.rd
    · subst hjr
      rw [set2_get hlen hrd, set2_get hlen hrd, if_neg (by omega), if_pos rfl, if_pos rfl, hk]
      exact ⟨rfl, rfl⟩
    · rw [hget j hjr (by omega), hget (s.n + j) (by omega) (by omega)]
      refine h.free hk j hj (fun i hi => ?_)
      cases i with
      | zero => rw [w0]; exact fun e => hjr e.symm
      | succ i =>
        simp only [List.length_cons] at hi
        rw [← hwrap i (by omega)]
        exact hfree i (by omega)
  · have := h.led
    simp only [List.length_cons] at this ⊢
    omega

/-- The queue `l`, with equal mirrors. -/
def Rep (k : Kind) (s : VcqS α) (l : List α) : Prop := Rep2 k s (l.map (fun a => (a, a)))

theorem mk0_rep (k : Kind) (n : Nat) (h : 0 < n) : Rep k (mk0 n : VcqS α) [] := mk0_rep2 k n h

theorem Rep.pos {k : Kind} {s : VcqS α} {l : List α} (h : Rep k s l) : 0 < s.n := Rep2.pos h
theorem Rep.cells {k : Kind} {s : VcqS α} {l : List α} (h : Rep k s l) : s.mem.cells.length = 2 * s.n := Rep2.cells h
theorem Rep.size {k : Kind} {s : VcqS α} {l : List α} (h : Rep k s l) : s.size = l.length := by
  rw [Rep2.size h, List.length_map]
theorem Rep.le {k : Kind} {s : VcqS α} {l : List α} (h : Rep k s l) : l.length ≤ s.n := by
  have := Rep2.le h; rwa [List.length_map] at this
theorem Rep.rd {k : Kind} {s : VcqS α} {l : List α} (h : Rep k s l) : s.rd < s.n := Rep2.rd h
theorem Rep.wr {k : Kind} {s : VcqS α} {l : List α} (h : Rep k s l) : s.wr = wrap s.n s.rd s.size := Rep2.wr h
theorem Rep.wr_lt {k : Kind} {s : VcqS α} {l : List α} (h : Rep k s l) : s.wr < s.n := Rep2.wr_lt h
theorem Rep.lo {k : Kind} {s : VcqS α} {l : List α} (h : Rep k s l) (i : Nat) (a : α) (ha : l[i]? = some a) :
    s.mem.cells[wrap s.n s.rd i]? = some (.live a) := Rep2.lo h i (a, a) (by simp [ha])
theorem Rep.hi {k : Kind} {s : VcqS α} {l : List α} (h : Rep k s l) (i : Nat) (a : α) (ha : l[i]? = some a) :
    s.mem.cells[s.n + wrap s.n s.rd i]? = some (.live a) := Rep2.hi h i (a, a) (by simp [ha])
theorem Rep.free {k : Kind} {s : VcqS α} {l : List α} (h : Rep k s l) (hk : k = .managed) (j : Nat) (hj : j < s.n)
    (hf : ∀ i, i < l.length → wrap s.n s.rd i ≠ j) :
    s.mem.cells[j]? = some .raw ∧ s.mem.cells[s.n + j]? = some .raw :=
  Rep2.free h hk j hj (by rw [List.length_map]; exact hf)
theorem Rep.led {k : Kind} {s : VcqS α} {l : List α} (h : Rep k s l) :
    s.mem.led.made = s.mem.led.gone + 2 * l.length := by
  have := Rep2.led h; rwa [List.length_map] at this

theorem Rep.mk {k : Kind} {s : VcqS α} {l : List α} (pos : 0 < s.n) (cells : s.mem.cells.length = 2 * s.n)
    (size : s.size = l.length) (le : l.length ≤ s.n) (rd : s.rd < s.n) (wr : s.wr = wrap s.n s.rd s.size)
    (lo : ∀ (i : Nat) (a : α), l[i]? = some a → s.mem.cells[wrap s.n s.rd i]? = some (.live a))
    (hi : ∀ (i : Nat) (a : α), l[i]? = some a → s.mem.cells[s.n + wrap s.n s.rd i]? = some (.live a))
    (free : k = .managed → ∀ j, j < s.n → (∀ i, i < l.length → wrap s.n s.rd i ≠ j) →
      s.mem.cells[j]? = some .raw ∧ s.mem.cells[s.n + j]? = some .raw)
    (led : s.mem.led.made = s.mem.led.gone + 2 * l.length) : Rep k s l := by
  have key : ∀ (i : Nat) (p : α × α), (l.map (fun a => (a, a)))[i]? = some p → ∃ a, l[i]? = some a ∧ p = (a, a) := by
    intro i p hp
    rw [List.getElem?_map] at hp
    cases hl : l[i]? with
    | none => rw [hl] at hp; cases hp
    | some a => rw [hl] at hp; cases hp; exact ⟨a, rfl, rfl⟩
  refine ⟨pos, cells, by rw [List.length_map]; exact size, by rw [List.length_map]; exact le, rd, wr, ?_, ?_,
    by rw [List.length_map]; exact free, by rw [List.length_map]; exact led⟩
  · intro i p hp
    obtain ⟨a, ha, rfl⟩ := key i p hp
    exact lo i a ha
  · intro i p hp
    obtain ⟨a, ha, rfl⟩ := key i p hp
    exact hi i a ha

theorem fifoPush_map {γ : Type} (f : α → γ) (n : Nat) (l : List α) (a : α) :
    fifoPush n (l.map f) (f a) = (fifoPush n l a).map f := by
  unfold fifoPush
  rw [List.length_map]
  split <;> simp

theorem pushBack_run {k : Kind} {s : VcqS α} {l : List α} (h : Rep k s l) (a : α) :
    ∃ s', pushBack k a s = .ok () s' ∧ s'.n = s.n ∧ Rep k s' (fifoPush s.n l a) ∧
      s'.rd = (if l.length = s.n then advance s.n s.rd else s.rd) ∧ s'.mem.led.made = s.mem.led.made + 2 := by
  obtain ⟨s', h1, h2, h3, h4, h5⟩ := pushBack_run2 h a
  rw [List.length_map] at h4
  refine ⟨s', h1, h2, ?_, h4, h5⟩
  unfold Rep
  rw [← fifoPush_map]
  exact h3

theorem popFront_run {k : Kind} {s : VcqS α} {x : α} {l : List α} (h : Rep k s (x :: l)) :
    ∃ s', popFront k s = .ok x s' ∧ s'.n = s.n ∧ Rep k s' l ∧ s'.rd = advance s.n s.rd ∧
      s'.mem.led.made = s.mem.led.made := popFront_run2 (x := (x, x)) h

/-- reading slots that hold a list -/
theorem readSlots_run {s : VcqS α} (l : List α) (p : Nat) (h : ∀ i a, l[i]? = some a → s.mem.cells[p + i]? = some (.live a)) :
    readSlots p l.length s = .ok l s := by
  induction l generalizing p with
  | nil => rfl
  | cons x l ih =>
    have h0 : s.mem.cells[p]? = some (.live x) := h 0 x rfl
    have h1 := ih (p + 1) (fun i a ha => by
      have := h (i + 1) a (by simpa using ha)
      rw [show p + 1 + i = p + (i + 1) by omega]; exact this)
    simp only [List.length_cons, readSlots]
    rw [Cpp.bind_ok (onMem_ok (read_run h0))]
    show (readSlots (p + 1) l.length >>= fun r => pure (x :: r)) s = _
    rw [Cpp.bind_ok h1]
    rfl

theorem Rep.window {k : Kind} {s : VcqS α} {l : List α} (h : Rep k s l) (i : Nat) (a : α) (ha : l[i]? = some a) :
    s.mem.cells[s.rd + i]? = some (.live a) := by
  have hi := (List.getElem?_eq_some_iff.mp ha).1
  have hle := h.le
  have hrd := h.rd
  by_cases hc : s.rd + i < s.n
  · have := h.lo i a ha
    unfold wrap at this
    rw [if_pos hc] at this
    exact this
  · have := h.hi i a ha
    unfold wrap at this
    rw [if_neg hc, show s.n + (s.rd + i - s.n) = s.rd + i by omega] at this
    exact this

theorem contents_run {k : Kind} {s : VcqS α} {l : List α} (h : Rep k s l) : contents s = .ok l s := by
  unfold contents
  rw [h.size]
  exact readSlots_run l s.rd h.window

theorem at_run {k : Kind} {s : VcqS α} {l : List α} (h : Rep k s l) {i : Nat} {a : α} (ha : l[i]? = some a) :
    at_ i s = .ok a s := by
  unfold at_
  rw [onMem_ok (read_run (h.window i a ha))]

/-- the destructor destroys every element in both mirrors -/
theorem dtor_run {k : Kind} {s : VcqS α} {l : List α} (h : Rep k s l) :
    ∃ s', dtor k s = .ok () s' ∧ s'.n = s.n ∧ s'.mem.cells.length = 2 * s.n ∧ s'.mem.led.made = s'.mem.led.gone ∧
      s'.mem.led.made = s.mem.led.made ∧ (k = .managed → ∀ c ∈ s'.mem.cells, c = .raw) := by
  have hrd := h.rd
  have hle := h.le
  let P : Nat → VcqS α → Prop := fun i t => t.n = s.n ∧ t.mem.cells.length = 2 * s.n ∧
    t.mem.led.made = s.mem.led.made ∧ t.mem.led.gone = s.mem.led.gone + 2 * i ∧
    (∀ j a, i ≤ j → l[j]? = some a → t.mem.cells[wrap s.n s.rd j]? = some (.live a) ∧
      t.mem.cells[s.n + wrap s.n s.rd j]? = some (.live a)) ∧
    (k = .managed → ∀ j, j < s.n → (∀ m, i ≤ m → m < l.length → wrap s.n s.rd m ≠ j) →
      t.mem.cells[j]? = some .raw ∧ t.mem.cells[s.n + j]? = some .raw)
  have hinj : ∀ i j, i < s.n → j < s.n → wrap s.n s.rd i = wrap s.n s.rd j → i = j := by
    intro i j hi hj
    unfold wrap
    repeat' split
    all_goals omega
  obtain ⟨s', hs', hP⟩ := forUp_inv (body := destroyBody k s.n s.rd) P 0 s.size s
    ⟨rfl, h.cells, rfl, by simp, fun j a _ ha => ⟨h.lo j a ha, h.hi j a ha⟩,
      fun hk j hj hfree => h.free hk j hj (fun m hm => hfree m (Nat.zero_le _) hm)⟩
    (by
      rintro i t - hi ⟨p1, p2, p3, p4, p5, p6⟩
      rw [h.size, Nat.zero_add] at hi
      obtain ⟨a, ha⟩ : ∃ a, l[i]? = some a := ⟨l[i], by simp [hi]⟩
      obtain ⟨q1, q2⟩ := p5 i a (Nat.le_refl _) ha
      have hw := wrap_lt (i := i) hrd (by omega)
      have hd := destroy2 (k := k) (s := t) (j := wrap s.n s.rd i) (fun _ => pure ()) (by rw [p1]) (by rw [p1]; exact hw)
        q1 (by rw [p1]; exact q2) rfl rfl
      rw [bind_unit, p1, Cpp.pure_run] at hd
      refine ⟨_, hd, rfl, by simp [p2], p3, by simp only [p4]; omega, ?_, ?_⟩
      · intro j b hj hb
        have hj' := (List.getElem?_eq_some_iff.mp hb).1
        have hne : wrap s.n s.rd j ≠ wrap s.n s.rd i := fun e => by
          have := hinj j i (by omega) (by omega) e; omega
        have hwj := wrap_lt (i := j) hrd (by omega)
        obtain ⟨r1, r2⟩ := p5 j b (by omega) hb
        simp only
        rw [set2_get p2 hw, set2_get p2 hw, if_neg (by omega), if_neg hne, if_neg (by omega), if_neg (by omega)]
        exact ⟨r1, r2⟩
      · intro hk j hj hfree
        simp only
        rw [set2_get p2 hw, set2_get p2 hw]
        by_cases hji : j = wrap s.n s.rd i
        · subst hji
          rw [if_neg (by omega), if_pos rfl, if_pos rfl, hk]
          exact ⟨rfl, rfl⟩
        · rw [if_neg (by omega), if_neg hji, if_neg (by omega), if_neg (by omega)]
          refine p6 hk j hj (fun m hm hml => ?_)
          rcases Nat.eq_or_lt_of_le hm with e | e
          · rw [← e]; exact fun e => hji e.symm
          · exact hfree m e hml)
  obtain ⟨p1, p2, p3, p4, _, p6⟩ := hP
  refine ⟨s', hs', p1, p2, ?_, p3, ?_⟩
  · have := h.led
    have := h.size
    omega
  · intro hk c hc
    obtain ⟨i, hi, rfl⟩ := List.mem_iff_getElem.mp hc
    have hall : ∀ j, j < s.n → s'.mem.cells[j]? = some .raw ∧ s'.mem.cells[s.n + j]? = some .raw := fun j hj =>
      p6 hk j hj (fun m hm hml => by have := h.size; omega)
    by_cases hin : i < s.n
    · have := (hall i hin).1
      rw [List.getElem?_eq_getElem hi] at this
      exact Option.some.inj this
    · have := (hall (i - s.n) (by omega)).2
      rw [show s.n + (i - s.n) = i by omega, List.getElem?_eq_getElem hi] at this
      exact Option.some.inj this

/-! copying and moving a queue -/

/-- the slots the copying loop reads are `0 .. size-1`, whatever the read position -/
theorem copyLoop_run {src : VcqS α} {m : List α} (hn : 0 < src.n) (hrd : src.rd < src.n) (hm : m.length ≤ src.n)
    (hsrc : ∀ (i : Nat) (a : α), m[i]? = some a → src.mem.cells[i]? = some (.live a)) (t : VcqS α) (htn : t.n = src.n)
    (htc : t.mem.cells.length = 2 * src.n) :
    ∃ t', forUp (copyBody src) 0 m.length t = .ok () t' ∧ t'.n = t.n ∧ t'.mem.cells.length = 2 * src.n ∧
      t'.mem.led.made = t.mem.led.made + 2 * m.length ∧ t'.mem.led.gone = t.mem.led.gone ∧
      (∀ i a, m[i]? = some a → t'.mem.cells[wrap src.n src.rd i]? = some (.live a) ∧
        t'.mem.cells[src.n + wrap src.n src.rd i]? = some (.live a)) ∧
      (∀ j, j < src.n → (∀ i, i < m.length → wrap src.n src.rd i ≠ j) →
        t'.mem.cells[j]? = t.mem.cells[j]? ∧ t'.mem.cells[src.n + j]? = t.mem.cells[src.n + j]?) := by
  let P : Nat → VcqS α → Prop := fun i u => u.n = t.n ∧ u.mem.cells.length = 2 * src.n ∧
    u.mem.led.made = t.mem.led.made + 2 * i ∧ u.mem.led.gone = t.mem.led.gone ∧
    (∀ j a, j < i → m[j]? = some a → u.mem.cells[wrap src.n src.rd j]? = some (.live a) ∧
      u.mem.cells[src.n + wrap src.n src.rd j]? = some (.live a)) ∧
    (∀ j, j < src.n → (∀ l, l < i → wrap src.n src.rd l ≠ j) →
      u.mem.cells[j]? = t.mem.cells[j]? ∧ u.mem.cells[src.n + j]? = t.mem.cells[src.n + j]?)
  have hinj : ∀ i j, i < src.n → j < src.n → wrap src.n src.rd i = wrap src.n src.rd j → i = j := by
    intro i j hi hj
    unfold wrap
    repeat' split
    all_goals omega
  obtain ⟨t', ht', p1, p2, p3, p4, p5, p6⟩ := forUp_inv (body := copyBody src) P 0 m.length t
    ⟨rfl, htc, by simp, rfl, fun j a hj => by omega, fun j _ _ => ⟨rfl, rfl⟩⟩
    (by
      rintro i u - hi ⟨p1, p2, p3, p4, p5, p6⟩
      rw [Nat.zero_add] at hi
      obtain ⟨a, ha⟩ : ∃ a, m[i]? = some a := ⟨m[i], by simp [hi]⟩
      have hw := wrap_lt (i := i) hrd (by omega)
      have hun : u.n = src.n := p1.trans htn
      have hc := construct2 (s := u) (j := wrap src.n src.rd i) (e := src.n + wrap src.n src.rd i) (fun _ => pure ()) a
        (by rw [hun]) (by rw [hun]; exact p2) (by rw [hun]; exact hw)
      rw [bind_unit, hun, Cpp.pure_run] at hc
      have hbd : copyBody src i = (onMem (Mem.construct (wrap src.n src.rd i) a) >>= fun _ =>
          onMem (Mem.construct (src.n + wrap src.n src.rd i) a)) := by
        unfold copyBody
        rw [readOf_run (hsrc i a ha)]
        rfl
      · refine ⟨_, (congrFun hbd u).trans hc, htn.symm, by simp [p2], by simp only [p3]; omega, p4, ?_, ?_⟩
        · intro j b hj hb
          simp only
          rw [set2_get p2 hw, set2_get p2 hw]
          by_cases hji : j = i
          · subst hji
            rw [ha] at hb
            cases hb
            rw [if_neg (by omega), if_pos rfl, if_pos rfl]
            exact ⟨rfl, rfl⟩
          · have hne : wrap src.n src.rd j ≠ wrap src.n src.rd i := fun e =>
              hji (hinj j i (by omega) (by omega) e)
            have hwj := wrap_lt (i := j) hrd (by omega)
            rw [if_neg (by omega), if_neg hne, if_neg (by omega), if_neg (by omega)]
            exact p5 j b (by omega) hb
        · intro j hj hfree
          have hne := hfree i (by omega)
          simp only
          rw [set2_get p2 hw, set2_get p2 hw, if_neg (by omega), if_neg (fun e => hne e.symm), if_neg (by omega),
            if_neg (by omega)]
          exact p6 j hj (fun l hl => hfree l (by omega)))
  refine ⟨t', ht', p1, p2, by simpa using p3, p4, fun i a ha => ?_, fun j hj hfree => ?_⟩
  · have := (List.getElem?_eq_some_iff.mp ha).1
    exact p5 i a (by omega) ha
  · exact p6 j hj (fun l hl => hfree l (by omega))

/-- what the copy shows: the elements of the slots `0 .. size-1` -/
theorem copy_rep {k : Kind} {src : VcqS α} {l m : List α} (h : Rep k src l) (hlen : m.length = l.length)
    (hsrc : ∀ (i : Nat) (a : α), m[i]? = some a → src.mem.cells[i]? = some (.live a)) (t : VcqS α) (htn : t.n = src.n)
    (htc : t.mem.cells.length = 2 * src.n) (htr : k = .managed → ∀ c ∈ t.mem.cells, c = .raw)
    (htl : t.mem.led.made = t.mem.led.gone) :
    ∃ t', (do forUp (copyBody src) 0 src.size
              Cpp.modify (fun s : VcqS α => { s with size := src.size, rd := src.rd, wr := src.wr }) :
            Cpp (VcqS α) Unit) t = .ok () t' ∧ Rep k t' m ∧ t'.mem.led.made = t.mem.led.made + 2 * l.length ∧ t'.n = src.n := by
  obtain ⟨t', ht', q1, q2, q3, q4, q5, q6⟩ :=
    copyLoop_run h.pos h.rd (by rw [hlen]; exact h.le) hsrc t htn htc
  rw [h.size, ← hlen, Cpp.bind_ok ht', Cpp.modify_run]
  have hn : t'.n = src.n := q1.trans htn
  refine ⟨_, rfl, Rep.mk (by simp only [hn]; exact h.pos) (by simp only [hn]; exact q2) rfl (by simp only [hn, hlen]; exact h.le)
    (by simp only [hn]; exact h.rd) (by simp only [hn]; rw [h.wr, h.size, hlen]) ?_ ?_ ?_ ?_, q3, hn⟩
  · intro i a ha; simp only [hn]; exact (q5 i a ha).1
  · intro i a ha; simp only [hn]; exact (q5 i a ha).2
  · intro hk j hj hfree
    simp only [hn] at hj hfree ⊢
    obtain ⟨r1, r2⟩ := q6 j hj hfree
    have hraw : ∀ p, p < 2 * src.n → t.mem.cells[p]? = some .raw := by
      intro p hp
      rw [List.getElem?_eq_getElem (by omega)]
      exact congrArg some (htr hk _ (List.getElem_mem _))
    rw [r1, r2]
    exact ⟨hraw _ (by omega), hraw _ (by omega)⟩
  · simp only [q3, q4, htl]

/-- the copying loop meets an empty slot -/
theorem copyLoop_ub {src : VcqS α} {m : List α} {N : Nat} (hrd : src.rd < src.n) (hm : m.length < src.n)
    (hN : m.length < N)
    (hsrc : ∀ (i : Nat) (a : α), m[i]? = some a → src.mem.cells[i]? = some (.live a))
    (hraw : src.mem.cells[m.length]? = some .raw) (t : VcqS α) (htn : t.n = src.n)
    (htc : t.mem.cells.length = 2 * src.n) : forUp (copyBody src) 0 N t = .ub .deadRead := by
  obtain ⟨t', ht', _⟩ := copyLoop_run (by omega) hrd (by omega) hsrc t htn htc
  have hsplit : ∀ (b : Nat → Cpp (VcqS α) Unit) (lo m p : Nat) (u : VcqS α),
      forUp b lo (m + p) u = (forUp b lo m >>= fun _ => forUp b (lo + m) p) u := by
    intro b lo m p
    induction m generalizing lo with
    | zero => intro u; simp
    | succ m ih =>
      intro u
      rw [show m + 1 + p = (m + p) + 1 by omega, forUp_succ, forUp_succ]
      simp only [Cpp.bind_run]
      cases b lo u with
      | ok x v =>
        simp only
        rw [ih (lo + 1) v]
        simp only [Cpp.bind_run]
        rw [show lo + 1 + m = lo + (m + 1) by omega]
      | thrown v => rfl
      | ub v => rfl
  rw [show N = m.length + ((N - m.length - 1) + 1) by omega, hsplit, Cpp.bind_ok ht', forUp_succ]
  refine Cpp.bind_ub ?_
  unfold copyBody
  refine Cpp.bind_ub ?_
  simp only [readOf, Mem.read, Nat.zero_add, hraw, Cpp.ub_run]

/-- moving trivially copyable elements is copying them -/
theorem moveLoop_trivial (src : VcqS α) (lo m : Nat) (t : VcqS α) :
    forUp (moveBody .trivial src.n src.rd) lo m (t, src) =
      (forUp (copyBody src) lo m t).mapState (fun x => (x, src)) := by
  induction m generalizing lo t with
  | zero => rfl
  | succ m ih =>
    have hb : moveBody .trivial src.n src.rd lo (t, src) = (copyBody src lo t).mapState (fun x => (x, src)) := by
      cases hc : src.mem.cells[lo]? with
      | none => simp [moveBody, copyBody, Cpp.bind_run, readOf, Mem.read, Mem.moveOut, hc, Vcb.right, onMem]
      | some c =>
        cases c with
        | raw => simp [moveBody, copyBody, Cpp.bind_run, readOf, Mem.read, Mem.moveOut, hc, Vcb.right, onMem]
        | moved => simp [moveBody, copyBody, Cpp.bind_run, readOf, Mem.read, Mem.moveOut, hc, Vcb.right, onMem]
        | live a =>
          simp only [moveBody, copyBody, Cpp.bind_run, readOf, Mem.read, Mem.moveOut, hc, Vcb.right, Vcb.left, onMem,
            Out.mapState_ok, Cpp.pure_run]
          cases Mem.construct (wrap src.n src.rd lo) a t.mem with
          | ok x m1 =>
            simp only [Out.mapState_ok, hc]
          | thrown m1 => rfl
          | ub u => rfl
    rw [forUp_succ, forUp_succ]
    simp only [Cpp.bind_run, hb]
    cases copyBody src lo t with
    | ok x v => exact ih (lo + 1) v
    | thrown v => rfl
    | ub u => rfl

/-- moving a managed element into both mirrors moves from it twice -/
theorem moveBody_managed {src t : VcqS α} {i : Nat} (hi : i < src.n) (hl : src.mem.cells.length = 2 * src.n)
    (hrd : src.rd < src.n) (htc : t.mem.cells.length = 2 * src.n) :
    ∃ u, moveBody .managed src.n src.rd i (t, src) = .ub u := by
  have hlt : i < src.mem.cells.length := by omega
  have hw := wrap_lt (i := i) hrd (by omega)
  have hg : src.mem.cells[i]? = some src.mem.cells[i] := List.getElem?_eq_getElem hlt
  cases hc : src.mem.cells[i] with
  | raw => exact ⟨.deadRead, by simp [moveBody, Cpp.bind_run, Mem.moveOut, hg, hc, Vcb.right, onMem]⟩
  | moved => exact ⟨.movedRead, by simp [moveBody, Cpp.bind_run, Mem.moveOut, hg, hc, Vcb.right, onMem]⟩
  | live a =>
    refine ⟨.movedRead, ?_⟩
    rw [hc] at hg
    have hcon := construct_run (i := wrap src.n src.rd i) (m := t.mem) a (by omega)
    have h1 : Mem.moveOut .managed i src.mem = .ok a ⟨src.mem.cells.set i .moved, src.mem.led⟩ := by
      simp only [Mem.moveOut, hg]
    have h2 : Mem.moveOut (α := α) .managed i ⟨src.mem.cells.set i .moved, src.mem.led⟩ = .ub .movedRead := by
      simp only [Mem.moveOut, List.getElem?_set, hlt, if_true]
    simp only [moveBody, Cpp.bind_run, Vcb.right, Vcb.left, onMem, h1, hcon, h2, Out.mapState_ok, Out.mapState_ub]

theorem advance_mod {n x : Nat} (h : 0 < n) : advance n (x % n) = (x + 1) % n := by
  have hx := Nat.mod_lt x h
  rw [advance_eq hx, ← Nat.mod_add_mod x n 1]
  split
  · next e => rw [e, Nat.mod_self]
  · next e => exact (Nat.mod_eq_of_lt (by omega)).symm

/-- an operation with its value stored twice -/
def dupOp : QOp α → QOp (α × α)
  | .push a => .push (a, a)
  | .pop => .pop

/-- an operation on the image of its value -/
def mapOp {γ : Type} (f : α → γ) : QOp α → QOp γ
  | .push a => .push (f a)
  | .pop => .pop

theorem fifo_map {γ : Type} (f : α → γ) (n : Nat) (ops : List (QOp α)) (q : List α) :
    fifo n (ops.map (mapOp f)) (q.map f) = (fifo n ops q).map (fun r => (r.1.map f, r.2.map f)) := by
  induction ops generalizing q with
  | nil => rfl
  | cons op ops ih =>
    cases op with
    | push a =>
      show fifo n (ops.map (mapOp f)) (fifoPush n (q.map f) (f a)) = _
      rw [fifoPush_map, ih]
      rfl
    | pop =>
      cases q with
      | nil => rfl
      | cons x q =>
        show (fifo n (ops.map (mapOp f)) (q.map f)).map _ = _
        rw [ih]
        simp only [fifo]
        cases fifo n ops q <;> rfl

theorem removed_map {γ : Type} (f : α → γ) (n : Nat) (ops : List (QOp α)) (q : List α) :
    removed n (ops.map (mapOp f)) (q.map f) = removed n ops q := by
  induction ops generalizing q with
  | nil => rfl
  | cons op ops ih =>
    cases op with
    | push a =>
      show _ + removed n (ops.map (mapOp f)) (fifoPush n (q.map f) (f a)) = _
      rw [fifoPush_map, ih, List.length_map]
      rfl
    | pop =>
      cases q with
      | nil => rfl
      | cons x q =>
        show 1 + removed n (ops.map (mapOp f)) (q.map f) = _
        rw [ih]
        rfl

theorem dupOp_eq (ops : List (QOp α)) : ops.map dupOp = ops.map (mapOp (fun a => (a, a))) := by
  congr 1

theorem dupOp_fst (ops : List (QOp α)) : (ops.map dupOp).map (mapOp Prod.fst) = ops := by
  rw [List.map_map]
  conv => rhs; rw [← List.map_id ops]
  congr 1; funext o; cases o <;> rfl

theorem runOps_fifo2 {k : Kind} (ops : List (QOp α)) {s : VcqS α} {q q' outs : List (α × α)} (h : Rep2 k s q)
    (hf : fifo s.n (ops.map dupOp) q = some (q', outs)) :
    ∃ s', runOps k ops s = .ok (outs.map Prod.fst) s' ∧ s'.n = s.n ∧ Rep2 k s' q' ∧ s'.rd = (s.rd + removed s.n (ops.map dupOp) q) % s.n ∧
      s'.mem.led.made = s.mem.led.made + 2 * pushCount ops := by
  induction ops generalizing s q outs with
  | nil =>
    cases hf
    exact ⟨s, rfl, rfl, h, by simp [removed, Nat.mod_eq_of_lt h.rd], rfl⟩
  | cons op ops ih =>
    have hrd : s.rd % s.n = s.rd := Nat.mod_eq_of_lt h.rd
    cases op with
    | push a =>
      obtain ⟨t, h1, h2, h3, h4, h5⟩ := pushBack_run2 h a
      obtain ⟨s', g1, g2, g3, g4, g5⟩ := ih h3 (by rw [h2]; exact hf)
      refine ⟨s', ?_, g2.trans h2, g3, ?_, by rw [g5, h5]; simp only [pushCount]; omega⟩
      · show (pushBack k a >>= fun _ => runOps k ops) s = _
        rw [Cpp.bind_ok h1, g1]
      · rw [g4, h2, h4]
        simp only [List.map_cons, dupOp, removed]
        by_cases hfull : q.length = s.n
        · rw [if_pos hfull, if_pos hfull, ← hrd, advance_mod h.pos, Nat.mod_add_mod, hrd, Nat.add_assoc]
        · rw [if_neg hfull, if_neg hfull, Nat.zero_add]
    | pop =>
      cases q with
      | nil => simp [fifo, dupOp] at hf
      | cons x q =>
        obtain ⟨t, h1, h2, h3, h4, h5⟩ := popFront_run2 h
        simp only [List.map_cons, dupOp, fifo] at hf
        cases hr : fifo s.n (ops.map dupOp) q with
        | none => rw [hr] at hf; cases hf
        | some r =>
          rw [hr] at hf
          cases hf
          obtain ⟨s', g1, g2, g3, g4, g5⟩ := ih h3 (by rw [h2]; exact hr)
          refine ⟨s', ?_, g2.trans h2, g3, ?_, by rw [g5, h5]; rfl⟩
          · show (popFront k >>= fun x => runOps k ops >>= fun l => pure (x :: l)) s = _
            rw [Cpp.bind_ok h1, Cpp.bind_ok g1]
            rfl
          · rw [g4, h2, h4]
            simp only [List.map_cons, dupOp, removed]
            rw [← hrd, advance_mod h.pos, Nat.mod_add_mod, hrd, Nat.add_assoc]

theorem runOps_fifo {k : Kind} (ops : List (QOp α)) {s : VcqS α} {q q' outs : List α} (h : Rep k s q)
    (hf : fifo s.n ops q = some (q', outs)) :
    ∃ s', runOps k ops s = .ok outs s' ∧ s'.n = s.n ∧ Rep k s' q' ∧ s'.rd = (s.rd + removed s.n ops q) % s.n ∧
      s'.mem.led.made = s.mem.led.made + 2 * pushCount ops := by
  have hd : fifo s.n (ops.map dupOp) (q.map (fun a => (a, a))) =
      some (q'.map (fun a => (a, a)), outs.map (fun a => (a, a))) := by
    rw [dupOp_eq, fifo_map, hf]; rfl
  obtain ⟨s', h1, h2, h3, h4, h5⟩ := runOps_fifo2 ops h hd
  refine ⟨s', ?_, h2, h3, ?_, h5⟩
  · rw [h1, List.map_map]
    congr 1
    exact List.map_id outs
  · rw [h4, dupOp_eq, removed_map]

/-- differing mirrors occur only where the client reads the first one -/
def Vis (s : VcqS α) (q : List (α × α)) : Prop := ∀ i p, q[i]? = some p → p.1 = p.2 ∨ s.rd + i < s.n

theorem vis_pop {s s' : VcqS α} {x : α × α} {q : List (α × α)} (hrd : s.rd < s.n) (hn : s'.n = s.n)
    (hr : s'.rd = advance s.n s.rd) (h : Vis s (x :: q)) : Vis s' q := by
  intro i p hp
  rcases h (i + 1) p (by simpa using hp) with h1 | h1
  · exact .inl h1
  · right
    rw [hn, hr, advance_eq hrd]
    split <;> omega

theorem vis_push {s s' : VcqS α} {a : α} {q : List (α × α)} (hrd : s.rd < s.n) (hn : s'.n = s.n)
    (hq : q.length ≤ s.n)
    (hr : s'.rd = if q.length = s.n then advance s.n s.rd else s.rd) (h : Vis s q) :
    Vis s' (fifoPush s.n q (a, a)) := by
  unfold fifoPush
  by_cases hf : q.length = s.n
  · rw [if_pos hf] at hr ⊢
    cases q with
    | nil => simp at hf; omega
    | cons x q =>
      have h' := vis_pop hrd hn hr h
      intro i p hp
      rw [List.tail_cons, List.getElem?_append] at hp
      split at hp
      · exact h' i p hp
      · left
        have := List.mem_of_getElem? hp
        simp at this
        subst this; rfl
  · rw [if_neg hf] at hr ⊢
    intro i p hp
    rw [List.getElem?_append] at hp
    split at hp
    · rw [hr, hn]; exact h i p hp
    · left
      have := List.mem_of_getElem? hp
      simp at this
      subst this; rfl

theorem runOps_vis {k : Kind} (ops : List (QOp α)) {s s' : VcqS α} {q q' outs : List (α × α)} {l : List α}
    (h : Rep2 k s q) (hv : Vis s q) (hf : fifo s.n (ops.map dupOp) q = some (q', outs))
    (hr : runOps k ops s = .ok l s') : Vis s' q' := by
  induction ops generalizing s q outs l with
  | nil => cases hf; cases hr; exact hv
  | cons op ops ih =>
    cases op with
    | push a =>
      obtain ⟨t, h1, h2, h3, h4, h5⟩ := pushBack_run2 h a
      have hr' : (pushBack k a >>= fun _ => runOps k ops) s = _ := hr
      rw [Cpp.bind_ok h1] at hr'
      exact ih h3 (vis_push h.rd h2 h.le h4 hv) (by rw [h2]; exact hf) hr'
    | pop =>
      cases q with
      | nil => simp [fifo, dupOp] at hf
      | cons x q =>
        obtain ⟨t, h1, h2, h3, h4, h5⟩ := popFront_run2 h
        simp only [List.map_cons, dupOp, fifo] at hf
        cases hc : fifo s.n (ops.map dupOp) q with
        | none => rw [hc] at hf; cases hf
        | some r =>
          rw [hc] at hf
          cases hf
          have hr' : (popFront k >>= fun x => runOps k ops >>= fun l => pure (x :: l)) s = _ := hr
          rw [Cpp.bind_ok h1] at hr'
          obtain ⟨s2, g1, -, -, -, -⟩ := runOps_fifo2 ops h3 (by rw [h2]; exact hc)
          rw [Cpp.bind_ok g1] at hr'
          cases hr'
          exact ih h3 (vis_pop h.rd h2 h4 hv) (by rw [h2]; exact hc) g1

theorem contents_run2 {k : Kind} {s : VcqS α} {q : List (α × α)} (h : Rep2 k s q) (hv : Vis s q) :
    contents s = .ok (q.map Prod.fst) s := by
  unfold contents
  rw [h.size, ← List.length_map (f := Prod.fst)]
  apply readSlots_run
  intro i a ha
  rw [List.getElem?_map] at ha
  cases hq : q[i]? with
  | none => rw [hq] at ha; cases ha
  | some p =>
    rw [hq] at ha; cases ha
    have hi := (List.getElem?_eq_some_iff.mp hq).1
    have hle := h.le
    have hrd := h.rd
    by_cases hc : s.rd + i < s.n
    · have := h.lo i p hq
      unfold wrap at this
      rwa [if_pos hc] at this
    · have := h.hi i p hq
      unfold wrap at this
      rw [if_neg hc, show s.n + (s.rd + i - s.n) = s.rd + i by omega] at this
      rcases hv i p hq with h1 | h1
      · rw [h1]; exact this
      · omega

/-- `q[i] = x` changes only the mirror the client reads -/
theorem write_run {k : Kind} {s : VcqS α} {q : List (α × α)} {i : Nat} {p : α × α} (x : α) (h : Rep2 k s q)
    (hp : q[i]? = some p) :
    ∃ s', write k i x s = .ok () s' ∧ s'.n = s.n ∧ s'.rd = s.rd ∧
      Rep2 k s' (q.set i (if s.rd + i < s.n then (x, p.2) else (p.1, x))) ∧
      s'.mem.cells = s.mem.cells.set (s.rd + i) (.live x) ∧ s'.mem.led = s.mem.led ∧ s'.size = s.size := by
  have hi := (List.getElem?_eq_some_iff.mp hp).1
  have hle := h.le
  have hrd := h.rd
  have hcl := h.cells
  have hlo := h.lo i p hp
  have hhi := h.hi i p hp
  have hcell : ∃ a, s.mem.cells[s.rd + i]? = some (.live a) := by
    unfold wrap at hlo hhi
    by_cases hc : s.rd + i < s.n
    · rw [if_pos hc] at hlo; exact ⟨_, hlo⟩
    · rw [if_neg hc, show s.n + (s.rd + i - s.n) = s.rd + i by omega] at hhi; exact ⟨_, hhi⟩
  obtain ⟨a, hcell⟩ := hcell
  refine ⟨{ s with mem := { s.mem with cells := s.mem.cells.set (s.rd + i) (.live x) } }, ?_, rfl, rfl, ?_, rfl, rfl, rfl⟩
  · unfold write onMem
    rw [assign_run (k := k) x hcell rfl]
    rfl
  · have ex : ∀ (j : Nat) (b : α × α), (q.set i (if s.rd + i < s.n then (x, p.2) else (p.1, x)))[j]? = some b →
        (j = i ∧ b = (if s.rd + i < s.n then (x, p.2) else (p.1, x))) ∨ (j ≠ i ∧ q[j]? = some b) := by
      intro j b hb
      rw [List.getElem?_set] at hb
      by_cases hji : i = j
      · subst hji
        simp [hi] at hb
        exact .inl ⟨rfl, hb.symm⟩
      · rw [if_neg hji] at hb
        exact .inr ⟨fun e => hji e.symm, hb⟩
    refine ⟨h.pos, by simp [h.cells], by simp [h.size], by simp [h.le], h.rd, h.wr, ?_, ?_, ?_, by simp [h.led]⟩
    · intro j b hb
      show (s.mem.cells.set (s.rd + i) (.live x))[wrap s.n s.rd j]? = _
      have hjl : j < q.length := by have := (List.getElem?_eq_some_iff.mp hb).1; simpa using this
      rcases ex j b hb with ⟨rfl, rfl⟩ | ⟨hne, hb'⟩
      · by_cases hc : s.rd + j < s.n
        · have : wrap s.n s.rd j = s.rd + j := by unfold wrap; rw [if_pos hc]
          rw [this, List.getElem?_set, if_pos rfl, if_pos (by omega), if_pos hc]
        · have hw : wrap s.n s.rd j = s.rd + j - s.n := by unfold wrap; rw [if_neg hc]
          rw [List.getElem?_set, if_neg (by omega), hlo, if_neg hc]
      · rw [List.getElem?_set, if_neg ?_, h.lo j b hb']
        unfold wrap; split <;> omega
    · intro j b hb
      show (s.mem.cells.set (s.rd + i) (.live x))[s.n + wrap s.n s.rd j]? = _
      have hjl : j < q.length := by have := (List.getElem?_eq_some_iff.mp hb).1; simpa using this
      rcases ex j b hb with ⟨rfl, rfl⟩ | ⟨hne, hb'⟩
      · by_cases hc : s.rd + j < s.n
        · have : wrap s.n s.rd j = s.rd + j := by unfold wrap; rw [if_pos hc]
          rw [List.getElem?_set, if_neg (by omega), hhi, if_pos hc]
        · have hw : wrap s.n s.rd j = s.rd + j - s.n := by unfold wrap; rw [if_neg hc]
          rw [hw, show s.n + (s.rd + j - s.n) = s.rd + j by omega, List.getElem?_set, if_pos rfl, if_pos (by omega),
            if_neg hc]
      · rw [List.getElem?_set, if_neg ?_, h.hi j b hb']
        unfold wrap; split <;> omega
    · intro hk j hj hfree
      rw [List.length_set] at hfree
      obtain ⟨g1, g2⟩ := h.free hk j hj hfree
      have : wrap s.n s.rd i ≠ j := hfree i hi
      have hj' : j < s.n := hj
      show (s.mem.cells.set (s.rd + i) (.live x))[j]? = _ ∧ (s.mem.cells.set (s.rd + i) (.live x))[s.n + j]? = _
      unfold wrap at this
      rw [List.getElem?_set, List.getElem?_set, if_neg (by intro e; split at this <;> omega),
        if_neg (by intro e; split at this <;> omega)]
      exact ⟨g1, g2⟩

/-- `push_back(q[i])` where the referenced slot is not destroyed first -/
theorem pushBackOwn_run {k : Kind} {s : VcqS α} {l : List α} {i : Nat} {a : α} (h : Rep k s l) (ha : l[i]? = some a)
    (hc : k = .trivial ∨ l.length < s.n ∨ 0 < i) : pushBackOwn k i s = pushBack k a s := by
  have hi := (List.getElem?_eq_some_iff.mp ha).1
  have hle := h.le
  have hrd := h.rd
  have hwl := h.wr_lt
  have hwin := h.window i a ha
  have hwr := h.wr
  rw [h.size] at hwr
  obtain ⟨cs, hd, hl, h3, h4⟩ := dropOldest_run (k := k) (s := s) h
  rw [List.length_map] at hd h4
  have hne : s.rd + i ≠ s.n + s.wr := by
    unfold wrap at hwr
    split at hwr <;> omega
  have hlive : cs[s.rd + i]? = some (.live a) := by
    by_cases e : s.rd + i = s.wr
    · have hfull : l.length = s.n := by unfold wrap at hwr; split at hwr <;> omega
      have hk : k = .trivial := by
        rcases hc with hc | hc | hc
        · exact hc
        · omega
        · unfold wrap at hwr; split at hwr <;> omega
      subst hk
      rw [e, h4 hfull, ← e, hwin]
      rfl
    · rw [h3 _ e hne, hwin]
  unfold pushBackOwn pushBack
  simp only [Cpp.bind_ok hd]
  rw [Cpp.bind_ok (onMem_ok (s := { s with mem := ⟨cs, { s.mem.led with gone := s.mem.led.gone +
    (if l.length = s.n then 2 else 0) }⟩ }) (read_run hlive)),
    Cpp.bind_ok (onMem_ok (construct_run a (by simp only; omega))),
    Cpp.bind_ok (onMem_ok (construct_run a (by simp only; omega)))]
  rw [Cpp.bind_ok (onMem_ok (read_run (a := a) ?_))]
  simp only
  rw [List.getElem?_set]
  split
  · rw [if_pos (by omega)]
  · exact hlive

/-- a full queue of managed elements pushing its own front: the front is destroyed, then read -/
theorem pushBackOwn_front {s : VcqS α} {l : List α} (h : Rep .managed s l) (hf : l.length = s.n) :
    pushBackOwn .managed 0 s = .ub .deadRead := by
  have hpos := h.pos
  have hrd := h.rd
  have hwr : s.wr = s.rd := by
    rw [h.wr, h.size, hf]; unfold wrap; rw [if_neg (by omega)]; omega
  obtain ⟨a, ha⟩ : ∃ a : α, l[0]? = some a := ⟨l[0], by simp⟩
  have hlo := h.lo 0 a ha
  obtain ⟨cs, hd, hl, h3, h4⟩ := dropOldest_run (k := .managed) (s := s) h
  rw [List.length_map] at hd h4
  have hraw : cs[s.rd]? = some .raw := by
    have := h4 hf
    rw [hwr] at this
    rw [this]; rfl
  unfold pushBackOwn
  simp only [Cpp.bind_ok hd]
  apply Cpp.bind_ub
  unfold onMem
  simp only [Nat.add_zero]
  unfold Mem.read
  simp only [hraw]
  rfl

end Vcq

/-! ### Vcb -/

namespace Vcb

/-- All `2 n` slots hold values `vs`; `lo` and `hi` are the windows stored in the first and in the second mirror. -/
structure Rep (s : VcbS α) (vs lo hi : List α) : Prop where
  pos : 0 < s.n
  cells : s.mem.cells = vs.map .live
  len : vs.length = 2 * s.n
  off : s.off < s.n
  llo : lo.length = s.n
  lhi : hi.length = s.n
  lo : ∀ i, i < s.n → vs[wrap s.n s.off i]? = lo[i]?
  hi : ∀ i, i < s.n → vs[s.n + wrap s.n s.off i]? = hi[i]?
  led : s.mem.led.made = s.mem.led.gone + 2 * s.n

theorem onMem_ok {m : Cpp (Mem α) β} {s : VcbS α} {b : β} {m' : Mem α} (h : m s.mem = .ok b m') :
    onMem m s = .ok b { s with mem := m' } := by
  unfold onMem; rw [h]; rfl

theorem forUp_onMem (f : Nat → Cpp (Mem α) Unit) (lo n : Nat) (s : VcbS α) :
    forUp (fun i => onMem (f i)) lo n s = onMem (forUp f lo n) s := by
  induction n generalizing lo s with
  | zero => rfl
  | succ n ih =>
    rw [forUp_succ, forUp_succ]
    simp only [Cpp.bind_run, onMem]
    cases h : f lo s.mem with
    | ok x v =>
      simp only [Out.mapState_ok]
      rw [ih (lo + 1)]
      simp only [onMem]
    | thrown v => rfl
    | ub u => rfl

/-- constructing the slots of a raw range one after another -/
theorem construct_loop (vs : List α) (pre post : List (Cell α)) (mid : List (Cell α)) (hm : mid.length = vs.length)
    (led : Ledger) :
    ∀ f : Nat → α, (∀ i a, vs[i]? = some a → f (pre.length + i) = a) →
    forUp (fun i => Mem.construct i (f i)) pre.length vs.length ⟨pre ++ mid ++ post, led⟩ =
      .ok () ⟨pre ++ vs.map .live ++ post, { led with made := led.made + vs.length }⟩ := by
  intro f hf
  induction vs generalizing pre mid led with
  | nil =>
    have : mid = [] := List.length_eq_zero_iff.mp hm
    subst this; simp
  | cons v vs ih =>
    cases mid with
    | nil => simp at hm
    | cons c mid =>
      have h1 := Mem.construct_mid (pre := pre) (post := mid ++ post) (c := c) (led := led) (i := pre.length) v rfl
      have h0 : f pre.length = v := hf 0 v rfl
      have h2 := ih (pre ++ [.live v]) mid (by simpa using hm) { led with made := led.made + 1 } (by
        intro i a ha
        rw [List.length_append]
        simp only [List.length_cons, List.length_nil]
        have := hf (i + 1) a (by simpa using ha)
        rw [show pre.length + (0 + 1) + i = pre.length + (i + 1) by omega]
        exact this)
      simp only [List.append_assoc, List.cons_append, List.nil_append, List.length_append,
        List.length_cons, List.length_nil, Nat.zero_add] at h1 h2
      simp only [List.append_assoc, List.cons_append, List.length_cons, forUp_succ, h0]
      rw [Cpp.bind_ok h1, h2]
      simp [Nat.add_assoc, Nat.add_comm 1]

theorem mk0_run (n : Nat) (d : α) (h : 0 < n) :
    ∃ s, mk0 n d = .ok () s ∧ s.n = n ∧ s.off = 0 ∧
      Rep s (List.replicate (2 * n) d) (List.replicate n d) (List.replicate n d) := by
  have hc := construct_loop (List.replicate (n * 2) d) [] [] (List.replicate (2 * n) (.raw : Cell α)) (by simp; omega) {}
    (fun _ => d) (by
      intro i a ha
      rw [List.getElem?_replicate] at ha
      split at ha
      · cases ha; rfl
      · cases ha)
  simp only [List.length_nil, List.nil_append, List.append_nil, List.length_replicate] at hc
  unfold mk0
  have hl := (forUp_onMem (fun i => Mem.construct i d) 0 (n * 2) (blank n 0)).trans (onMem_ok hc)
  rw [Cpp.bind_ok hl]
  refine ⟨_, rfl, rfl, rfl, ⟨h, by simp [Nat.mul_comm], by simp [blank], h, by simp [blank], by simp [blank], ?_, ?_, ?_⟩⟩
  · intro i hi
    have hi : i < n := hi
    have := wrap_lt (n := n) (off := 0) (i := i) h (by omega)
    simp only [blank, List.getElem?_replicate]
    rw [if_pos (by omega), if_pos hi]
  · intro i hi
    have hi : i < n := hi
    have := wrap_lt (n := n) (off := 0) (i := i) h (by omega)
    simp only [blank, List.getElem?_replicate]
    rw [if_pos (by omega), if_pos hi]
  · simp [blank, Nat.mul_comm]

theorem getElem?_live {vs : List α} {i : Nat} {a : α} (h : vs[i]? = some a) :
    (vs.map Cell.live)[i]? = some (.live a) := by simp [h]

theorem set_live (vs : List α) (i : Nat) (a : α) : (vs.map Cell.live).set i (.live a) = (vs.set i a).map .live := by
  rw [List.map_set]

/-- `push_back` slides both mirror windows -/
theorem pushBack_run {k : Kind} {s : VcbS α} {vs lo hi : List α} (h : Rep s vs lo hi) (a : α) :
    ∃ s' vs', pushBack k a s = .ok () s' ∧ s'.n = s.n ∧ s'.off = advance s.n s.off ∧
      Rep s' vs' (lo.tail ++ [a]) (hi.tail ++ [a]) := by
  have hoff := h.off
  have hlen := h.len
  have hlo := h.llo
  have hhi := h.lhi
  have hpos := h.pos
  obtain ⟨x, hx⟩ : ∃ x, vs[s.off]? = some x := ⟨vs[s.off], by simp⟩
  obtain ⟨y, hy⟩ : ∃ y, vs[s.off + s.n]? = some y := ⟨vs[s.off + s.n], by simp⟩
  have h1 : s.mem.cells[s.off]? = some (.live x) := by rw [h.cells]; exact getElem?_live hx
  have h2 : s.mem.cells[s.off + s.n]? = some (.live y) := by rw [h.cells]; exact getElem?_live hy
  have hcl : s.mem.cells.length = 2 * s.n := by rw [h.cells, List.length_map, hlen]
  have hset : (((s.mem.cells.set s.off (dead k (.live x))).set (s.off + s.n) (dead k (.live y))).set s.off
      (.live a)).set (s.off + s.n) (.live a) = ((vs.set s.off a).set (s.off + s.n) a).map Cell.live := by
    rw [← set_live, ← set_live, ← h.cells]
    apply List.ext_getElem?
    intro i
    simp only [List.getElem?_set, List.length_set]
    repeat' split
    all_goals first | rfl | omega
  refine ⟨⟨s.n, ⟨((vs.set s.off a).set (s.off + s.n) a).map Cell.live,
    { s.mem.led with gone := s.mem.led.gone + 2, made := s.mem.led.made + 2 }⟩, advance s.n s.off⟩, _, ?_, rfl, rfl,
    ⟨hpos, rfl, by simp [hlen], ?_, by simp; omega, by simp; omega, ?_, ?_, ?_⟩⟩
  · unfold pushBack
    rw [Cpp.bind_ok (onMem_ok (destroy_run (k := k) h1 (fun _ => rfl)))]
    rw [Cpp.bind_ok (onMem_ok (destroy_run (k := k) (c := .live y) (by
      simp only [List.getElem?_set]; rw [if_neg (by omega)]; exact h2) (fun _ => rfl)))]
    rw [Cpp.bind_ok (onMem_ok (construct_run a (by simp; omega)))]
    rw [Cpp.bind_ok (onMem_ok (construct_run a (by simp; omega)))]
    simp only [Cpp.modify_run, hset]
  · show advance s.n s.off < s.n
    rw [advance_eq hoff]; split <;> omega
  · intro i hi'
    have hi' : i < s.n := hi'
    have hadv := advance_eq hoff
    show ((vs.set s.off a).set (s.off + s.n) a)[wrap s.n (advance s.n s.off) i]? = _
    have hw := wrap_lt (n := s.n) (off := advance s.n s.off) (i := i) (by rw [hadv]; split <;> omega) (by omega)
    rw [List.getElem?_set, if_neg (by omega), List.getElem?_set]
    by_cases hlast : i = s.n - 1
    · have : wrap s.n (advance s.n s.off) i = s.off := by
        rw [hadv]; unfold wrap
        repeat' split
        all_goals omega
      rw [if_pos this.symm, if_pos (by omega), List.getElem?_append_right (by simp; omega)]
      rw [List.length_tail, show i - (_ - 1) = 0 by omega]
      rfl
    · have : wrap s.n (advance s.n s.off) i = wrap s.n s.off (i + 1) := by
        rw [hadv]; unfold wrap
        repeat' split
        all_goals omega
      have hne : wrap s.n s.off (i + 1) ≠ s.off := by unfold wrap; split <;> omega
      rw [this, if_neg (fun e => hne e.symm), List.getElem?_append_left (by simp; omega), List.getElem?_tail]
      exact h.lo (i + 1) (by omega)
  · intro i hi'
    have hi' : i < s.n := hi'
    have hadv := advance_eq hoff
    show ((vs.set s.off a).set (s.off + s.n) a)[s.n + wrap s.n (advance s.n s.off) i]? = _
    have hw := wrap_lt (n := s.n) (off := advance s.n s.off) (i := i) (by rw [hadv]; split <;> omega) (by omega)
    rw [List.getElem?_set]
    by_cases hlast : i = s.n - 1
    · have : wrap s.n (advance s.n s.off) i = s.off := by
        rw [hadv]; unfold wrap
        repeat' split
        all_goals omega
      rw [if_pos (by omega), if_pos (by simp; omega), List.getElem?_append_right (by simp; omega)]
      rw [List.length_tail, show i - (_ - 1) = 0 by omega]
      rfl
    · have : wrap s.n (advance s.n s.off) i = wrap s.n s.off (i + 1) := by
        rw [hadv]; unfold wrap
        repeat' split
        all_goals omega
      have hne : wrap s.n s.off (i + 1) ≠ s.off := by unfold wrap; split <;> omega
      rw [this, if_neg (by omega), List.getElem?_set, if_neg (by omega), List.getElem?_append_left (by simp; omega),
        List.getElem?_tail]
      exact h.hi (i + 1) (by omega)
  · show s.mem.led.made + 2 = s.mem.led.gone + 2 + 2 * s.n
    have := h.led; omega

theorem slide_cons {w ys : List α} {a : α} (h : 0 < w.length) : slide w (a :: ys) = slide (w.tail ++ [a]) ys := by
  cases w with
  | nil => simp at h
  | cons x w => simp [slide]

theorem slide_length (w ys : List α) : (slide w ys).length = w.length := by simp [slide]

theorem pushes_run {k : Kind} (ys : List α) {s : VcbS α} {vs lo hi : List α} (h : Rep s vs lo hi) :
    ∃ s' vs', pushes k ys s = .ok () s' ∧ s'.n = s.n ∧ s'.off = (s.off + ys.length) % s.n ∧
      Rep s' vs' (slide lo ys) (slide hi ys) := by
  induction ys generalizing s vs lo hi with
  | nil => exact ⟨s, vs, rfl, rfl, by simp [Nat.mod_eq_of_lt h.off], by simpa [slide] using h⟩
  | cons y ys ih =>
    obtain ⟨t, vt, h1, h2, h3, h4⟩ := pushBack_run (k := k) h y
    obtain ⟨s', vs', g1, g2, g3, g4⟩ := ih h4
    refine ⟨s', vs', ?_, g2.trans h2, ?_, ?_⟩
    · show (pushBack k y >>= fun _ => pushes k ys) s = _
      rw [Cpp.bind_ok h1, g1]
    · rw [g3, h2, h3]
      have hm : s.off = s.off % s.n := (Nat.mod_eq_of_lt h.off).symm
      rw [hm, Vcq.advance_mod h.pos, Nat.mod_add_mod, ← hm, List.length_cons]
      congr 1; omega
    · rw [slide_cons (by rw [h.llo]; exact h.pos), slide_cons (by rw [h.lhi]; exact h.pos)]
      exact g4

theorem readFrom_run {s : VcbS α} (l : List α) (p : Nat)
    (h : ∀ (i : Nat) (a : α), l[i]? = some a → s.mem.cells[s.off + (p + i)]? = some (.live a)) :
    readFrom p l.length s = .ok l s := by
  induction l generalizing p with
  | nil => rfl
  | cons x l ih =>
    have h0 : s.mem.cells[s.off + p]? = some (.live x) := h 0 x rfl
    have h1 := ih (p + 1) (fun i a ha => by
      have := h (i + 1) a (by simpa using ha)
      rw [show p + 1 + i = p + (i + 1) by omega]; exact this)
    have ha : at_ p s = .ok x s := by
      unfold at_
      rw [onMem_ok (read_run h0)]
    simp only [List.length_cons, readFrom]
    rw [Cpp.bind_ok ha, Cpp.bind_ok h1]
    rfl

/-- the window a client sees: mirror 1 up to the end of the first half, mirror 2 from there on -/
theorem window_run {s : VcbS α} {vs lo hi w : List α} (h : Rep s vs lo hi) (hw : w.length = s.n)
    (hl : ∀ i, s.off + i < s.n → w[i]? = lo[i]?) (hh : ∀ i, i < s.n → s.n ≤ s.off + i → w[i]? = hi[i]?) :
    window s = .ok w s := by
  unfold window size
  rw [← hw]
  refine readFrom_run w 0 (fun i a ha => ?_)
  have hi' := (List.getElem?_eq_some_iff.mp ha).1
  have hoff := h.off
  rw [h.cells, Nat.zero_add]
  refine getElem?_live ?_
  by_cases hc : s.off + i < s.n
  · rw [← ha, hl i hc, ← h.lo i (by omega)]
    unfold wrap; rw [if_pos hc]
  · rw [← ha, hh i (by omega) (by omega), ← h.hi i (by omega)]
    unfold wrap; rw [if_neg hc]
    congr 1; omega

/-- assignment through `operator[]` reaches one mirror only -/
theorem write_run {k : Kind} {s : VcbS α} {vs lo hi : List α} (h : Rep s vs lo hi) {i : Nat} (hi' : i < s.n) (a : α) :
    ∃ s' vs', write k i a s = .ok () s' ∧ s'.n = s.n ∧ s'.off = s.off ∧
      Rep s' vs' (if s.off + i < s.n then lo.set i a else lo) (if s.off + i < s.n then hi else hi.set i a) := by
  have hoff := h.off
  have hlen := h.len
  have hlo := h.llo
  have hhi := h.lhi
  obtain ⟨x, hx⟩ : ∃ x, vs[s.off + i]? = some x := ⟨vs[s.off + i]'(by omega), by simp⟩
  have h1 : s.mem.cells[s.off + i]? = some (.live x) := by rw [h.cells]; exact getElem?_live hx
  refine ⟨⟨s.n, ⟨(vs.set (s.off + i) a).map .live, s.mem.led⟩, s.off⟩, vs.set (s.off + i) a, ?_, rfl, rfl,
    ⟨h.pos, rfl, by simp [hlen], hoff, by split <;> simp [hlo], by split <;> simp [hhi], ?_, ?_, h.led⟩⟩
  · unfold write
    rw [onMem_ok (assign_run a h1 rfl), ← set_live, ← h.cells]
  · intro j hj
    have hj : j < s.n := hj
    show (vs.set (s.off + i) a)[wrap s.n s.off j]? = _
    rw [List.getElem?_set]
    by_cases hc : s.off + i < s.n
    · rw [if_pos hc, List.getElem?_set]
      by_cases hij : i = j
      · subst hij
        have : wrap s.n s.off i = s.off + i := by unfold wrap; rw [if_pos hc]
        rw [if_pos this.symm, if_pos (by omega), if_pos rfl, if_pos (by omega)]
      · have : s.off + i ≠ wrap s.n s.off j := by unfold wrap; split <;> omega
        rw [if_neg this, if_neg hij]; exact h.lo j hj
    · have : s.off + i ≠ wrap s.n s.off j := by
        have := wrap_lt (n := s.n) (off := s.off) (i := j) hoff (by omega); omega
      rw [if_neg this, if_neg hc]; exact h.lo j hj
  · intro j hj
    have hj : j < s.n := hj
    show (vs.set (s.off + i) a)[s.n + wrap s.n s.off j]? = _
    rw [List.getElem?_set]
    by_cases hc : s.off + i < s.n
    · rw [if_pos hc, if_neg (by omega)]; exact h.hi j hj
    · rw [if_neg hc, List.getElem?_set]
      by_cases hij : i = j
      · subst hij
        have : s.n + wrap s.n s.off i = s.off + i := by unfold wrap; rw [if_neg hc]; omega
        rw [if_pos this.symm, if_pos (by omega), if_pos rfl, if_pos (by omega)]
      · have : s.off + i ≠ s.n + wrap s.n s.off j := by unfold wrap; split <;> omega
        rw [if_neg this, if_neg hij]; exact h.hi j hj

/-- a loop that replaces slot `i` of the target by `vs[i]`, for every slot -/
theorem replace_loop {σ : Type} (body : Nat → Cpp σ Unit) (get : σ → List (Cell α)) (vs : List α) (J : Nat → σ → Prop)
    (s : σ) (hlen : (get s).length = vs.length) (h0 : J 0 s)
    (hstep : ∀ i t a, vs[i]? = some a → J i t → (get t).length = vs.length →
      ∃ t', body i t = .ok () t' ∧ get t' = (get t).set i (.live a) ∧ J (i + 1) t') :
    ∃ s', forUp body 0 vs.length s = .ok () s' ∧ get s' = vs.map .live ∧ J vs.length s' := by
  obtain ⟨s', h1, h2, h3, h4⟩ := forUp_inv (body := body)
    (fun i t => (get t).length = vs.length ∧ J i t ∧ ∀ j a, j < i → vs[j]? = some a → (get t)[j]? = some (.live a))
    0 vs.length s ⟨hlen, h0, fun j a hj => by omega⟩ (by
      rintro i t - hi ⟨p1, p2, p3⟩
      rw [Nat.zero_add] at hi
      obtain ⟨a, ha⟩ : ∃ a, vs[i]? = some a := ⟨vs[i], by simp [hi]⟩
      obtain ⟨t', q1, q2, q3⟩ := hstep i t a ha p2 p1
      refine ⟨t', q1, by rw [q2, List.length_set, p1], q3, ?_⟩
      intro j b hj hb
      rw [q2, List.getElem?_set]
      by_cases hij : i = j
      · subst hij
        rw [ha] at hb
        cases hb
        rw [if_pos rfl, if_pos (by omega)]
      · rw [if_neg hij]
        exact p3 j b (by omega) hb)
  rw [Nat.zero_add] at h3 h4
  refine ⟨s', h1, ?_, h3⟩
  apply List.ext_getElem?
  intro i
  rcases Nat.lt_or_ge i vs.length with hi | hi
  · obtain ⟨a, ha⟩ : ∃ a, vs[i]? = some a := ⟨vs[i], by simp [hi]⟩
    rw [h4 i a hi ha, getElem?_live ha]
  · rw [List.getElem?_eq_none (by omega), List.getElem?_eq_none (by simpa using hi)]

theorem Rep.congr {s t : VcbS α} {vs lo hi : List α} (h : Rep s vs lo hi) (hn : t.n = s.n) (ho : t.off = s.off)
    (hc : t.mem.cells = vs.map .live) (hl : t.mem.led.made = t.mem.led.gone + 2 * s.n) : Rep t vs lo hi :=
  ⟨by rw [hn]; exact h.pos, hc, by rw [hn]; exact h.len, by rw [hn, ho]; exact h.off, by rw [hn]; exact h.llo,
    by rw [hn]; exact h.lhi, by rw [hn, ho]; exact h.lo, by rw [hn, ho]; exact h.hi, by rw [hn]; exact hl⟩

/-- the copy holds the same `2 n` values at the same offset -/
theorem copy_run {s : VcbS α} {vs lo hi : List α} (h : Rep s vs lo hi) :
    ∃ t, copy s = .ok () t ∧ t.n = s.n ∧ t.off = s.off ∧ Rep t vs lo hi := by
  obtain ⟨t, h1, h2, h3, h4, h5⟩ := replace_loop
    (fun i => do let a ← readOf s.mem i; onMem (Mem.construct i a) : Nat → Cpp (VcbS α) Unit)
    (fun t => t.mem.cells) vs (fun i t => t.n = s.n ∧ t.mem.led.made = i ∧ t.mem.led.gone = 0) (blank s.n 0)
    (by simp [blank, h.len]) ⟨rfl, rfl, rfl⟩ (by
      rintro i t a ha ⟨p1, p2, p3⟩ hl
      refine ⟨{ t with mem := ⟨t.mem.cells.set i (.live a), { t.mem.led with made := t.mem.led.made + 1 }⟩ }, ?_, rfl,
        p1, by simp only [p2], p3⟩
      simp only
      rw [readOf_run (by rw [h.cells]; exact getElem?_live ha)]
      show onMem (Mem.construct i a) t = _
      rw [onMem_ok (construct_run a (by rw [hl]; exact (List.getElem?_eq_some_iff.mp ha).1))])
  rw [h.len, Nat.mul_comm] at h1
  unfold copy
  rw [Cpp.bind_ok h1]
  exact ⟨_, rfl, h3, rfl, h.congr h3 rfl h2 (by simp only [h4, h5, h.len]; omega)⟩

/-- copy assignment from another object -/
theorem copyAssign_run {k : Kind} {s t : VcbS α} {vs lo hi vt lt ht : List α} (h : Rep s vs lo hi) (g : Rep t vt lt ht)
    (hn : t.n = s.n) :
    ∃ t', copyAssign k s t = .ok () t' ∧ t'.n = s.n ∧ t'.off = s.off ∧ Rep t' vs lo hi := by
  obtain ⟨t', h1, h2, h3, h4, _⟩ := replace_loop (copyAssignBody k s) (fun t => t.mem.cells) vs
    (fun i u => u.n = s.n ∧ u.mem.led.made = u.mem.led.gone + 2 * s.n ∧
      ∀ j, i ≤ j → j < 2 * s.n → ∃ c, u.mem.cells[j]? = some c ∧ c.alive = true) t
    (by simp [g.cells, g.len, h.len, hn]) ⟨hn, by rw [g.led, hn], by
      intro j _ hj
      obtain ⟨a, ha⟩ : ∃ a, vt[j]? = some a := ⟨vt[j]'(by rw [g.len, hn]; exact hj), by simp⟩
      exact ⟨.live a, by rw [g.cells]; exact getElem?_live ha, rfl⟩⟩ (by
      rintro i u a ha ⟨p1, p2, p3⟩ hl
      have hi' := (List.getElem?_eq_some_iff.mp ha).1
      obtain ⟨c, hc, hca⟩ := p3 i (Nat.le_refl _) (by rw [← h.len]; exact hi')
      refine ⟨{ u with mem := ⟨u.mem.cells.set i (.live a),
        { u.mem.led with gone := u.mem.led.gone + 1, made := u.mem.led.made + 1 }⟩ }, ?_, rfl, p1,
        by simp only [p2]; omega, ?_⟩
      · unfold copyAssignBody
        rw [Cpp.bind_ok (onMem_ok (destroy_run (k := k) hc (fun _ => hca)))]
        rw [readOf_run (by rw [h.cells]; exact getElem?_live ha)]
        show onMem (Mem.construct i a) _ = _
        rw [onMem_ok (construct_run a (by simp only [List.length_set]; rw [hl]; exact hi'))]
        simp
      · intro j hj hj2
        simp only
        rw [List.getElem?_set, if_neg (by omega)]
        exact p3 j (by omega) hj2)
  rw [h.len, Nat.mul_comm] at h1
  unfold copyAssign
  rw [Cpp.bind_ok h1]
  exact ⟨_, rfl, h3, rfl, h.congr h3 rfl h2 h4⟩

/-- move construction: the new object has the values; the source keeps `2 n` living objects to destroy -/
theorem moveCtor_run {k : Kind} {s : VcbS α} {vs lo hi : List α} (h : Rep s vs lo hi) :
    ∃ t s', moveCtor k s = .ok () (t, s') ∧ t.off = s.off ∧ Rep t vs lo hi ∧ s'.n = s.n ∧
      s'.mem.cells.length = 2 * s.n ∧ (∀ c ∈ s'.mem.cells, c.alive = true) ∧ s'.mem.led = s.mem.led := by
  obtain ⟨⟨t, s'⟩, h1, h2, h3, h4, h5, h6, h7, h8, h9⟩ := replace_loop (moveBody k) (fun t => t.1.mem.cells) vs
    (fun i u => u.1.n = s.n ∧ u.1.mem.led.made = i ∧ u.1.mem.led.gone = 0 ∧ u.2.n = s.n ∧ u.2.off = s.off ∧
      u.2.mem.led = s.mem.led ∧ (u.2.mem.cells.length = vs.length ∧ (∀ j b, i ≤ j → vs[j]? = some b → u.2.mem.cells[j]? = some (.live b)) ∧
      ∀ c ∈ u.2.mem.cells, c.alive = true)) (blank s.n 0, s)
    (by simp [blank, h.len]) ⟨rfl, rfl, rfl, rfl, rfl, rfl, by rw [h.cells]; simp, fun j b _ hb => by
      rw [h.cells]; exact getElem?_live hb, by
      intro c hc
      rw [h.cells] at hc
      obtain ⟨a, _, rfl⟩ := List.mem_map.mp hc
      rfl⟩ (by
      rintro i ⟨t, u⟩ a ha ⟨p1, p2, p3, p4, p5, p6, p7, p8, p9⟩ hl
      have hi' := (List.getElem?_eq_some_iff.mp ha).1
      refine ⟨({ t with mem := ⟨t.mem.cells.set i (.live a), { t.mem.led with made := t.mem.led.made + 1 }⟩ },
        { u with mem := ⟨u.mem.cells.set i (husk k a), u.mem.led⟩ }), ?_, rfl, p1, by simp only at p2 ⊢; rw [p2],
        p3, p4, p5, p6, by simpa using p7, ?_, ?_⟩
      · unfold moveBody
        have e1 : right (τ := VcbS α) (onMem (Mem.moveOut k i)) (t, u) =
            .ok a (t, { u with mem := ⟨u.mem.cells.set i (husk k a), u.mem.led⟩ }) := by
          unfold right
          rw [onMem_ok (moveOut_run (p8 i a (Nat.le_refl _) ha))]
          rfl
        rw [Cpp.bind_ok e1]
        unfold left
        rw [onMem_ok (construct_run a (by rw [hl]; exact hi'))]
        rfl
      · intro j b hj hb
        simp only
        rw [List.getElem?_set, if_neg (by omega)]
        exact p8 j b (by omega) hb
      · intro c hc
        rcases List.mem_or_eq_of_mem_set hc with hc | rfl
        · exact p9 c hc
        · exact husk_alive k a)
  rw [h.len, Nat.mul_comm] at h1
  simp only at h2 h3 h4 h5 h6 h7 h8 h9
  unfold moveCtor
  rw [Cpp.bind_ok h1]
  exact ⟨_, _, rfl, h7, h.congr h3 h7 h2 (by simp only [h4, h5, h.len]; omega), h6, by rw [h9.1, h.len], h9.2.2, h8⟩

/-- move assignment from another object -/
theorem moveAssign_run {k : Kind} {s t : VcbS α} {vs lo hi vt lt ht : List α} (h : Rep s vs lo hi) (g : Rep t vt lt ht)
    (hn : t.n = s.n) :
    ∃ t' s', moveAssign k (t, s) = .ok () (t', s') ∧ t'.off = s.off ∧ Rep t' vs lo hi ∧ s'.n = s.n ∧
      s'.mem.cells.length = 2 * s.n ∧ (∀ c ∈ s'.mem.cells, c.alive = true) ∧ s'.mem.led = s.mem.led := by
  obtain ⟨⟨t', s'⟩, h1, h2, h3, h4, h5, h6, h7, h8, h9⟩ := replace_loop (moveAssignBody k) (fun t => t.1.mem.cells) vs
    (fun i u => u.1.n = s.n ∧ u.1.mem.led.made = u.1.mem.led.gone + 2 * s.n ∧
      (∀ j, i ≤ j → j < 2 * s.n → ∃ c, u.1.mem.cells[j]? = some c ∧ c.alive = true) ∧ u.2.n = s.n ∧ u.2.off = s.off ∧
      u.2.mem.led = s.mem.led ∧ (u.2.mem.cells.length = vs.length ∧
      (∀ j b, i ≤ j → vs[j]? = some b → u.2.mem.cells[j]? = some (.live b)) ∧
      ∀ c ∈ u.2.mem.cells, c.alive = true)) (t, s)
    (by simp [g.cells, g.len, h.len, hn]) ⟨hn, by simp only; rw [g.led, hn], by
      intro j _ hj
      obtain ⟨a, ha⟩ : ∃ a, vt[j]? = some a := ⟨vt[j]'(by rw [g.len, hn]; exact hj), by simp⟩
      exact ⟨.live a, by rw [g.cells]; exact getElem?_live ha, rfl⟩, rfl, rfl, rfl, by rw [h.cells]; simp, fun j b _ hb => by
      rw [h.cells]; exact getElem?_live hb, by
      intro c hc
      rw [h.cells] at hc
      obtain ⟨a, _, rfl⟩ := List.mem_map.mp hc
      rfl⟩ (by
      rintro i ⟨t, u⟩ a ha ⟨p1, p2, p3, p4, p5, p6, p7, p8, p9⟩ hl
      have hi' := (List.getElem?_eq_some_iff.mp ha).1
      obtain ⟨c, hc, hca⟩ := p3 i (Nat.le_refl _) (by rw [← h.len]; exact hi')
      refine ⟨({ t with mem := ⟨t.mem.cells.set i (.live a),
          { t.mem.led with gone := t.mem.led.gone + 1, made := t.mem.led.made + 1 }⟩ },
        { u with mem := ⟨u.mem.cells.set i (husk k a), u.mem.led⟩ }), ?_, rfl, p1,
        by simp only at p2 ⊢; rw [p2]; omega, ?_, p4, p5, p6, by simpa using p7, ?_, ?_⟩
      · unfold moveAssignBody
        have e0 : left (τ := VcbS α) (onMem (Mem.destroy k i)) (t, u) =
            .ok () ({ t with mem := ⟨t.mem.cells.set i (dead k c), { t.mem.led with gone := t.mem.led.gone + 1 }⟩ }, u) := by
          unfold left
          rw [onMem_ok (destroy_run (k := k) hc (fun _ => hca))]
          rfl
        have e1 : right (σ := VcbS α) (onMem (Mem.moveOut k i))
            ({ t with mem := ⟨t.mem.cells.set i (dead k c), { t.mem.led with gone := t.mem.led.gone + 1 }⟩ }, u) =
            .ok a ({ t with mem := ⟨t.mem.cells.set i (dead k c), { t.mem.led with gone := t.mem.led.gone + 1 }⟩ },
              { u with mem := ⟨u.mem.cells.set i (husk k a), u.mem.led⟩ }) := by
          unfold right
          rw [onMem_ok (moveOut_run (p8 i a (Nat.le_refl _) ha))]
          rfl
        rw [Cpp.bind_ok e0, Cpp.bind_ok e1]
        unfold left
        rw [onMem_ok (construct_run a (by simp only [List.length_set]; rw [hl]; exact hi'))]
        simp
      · intro j hj hj2
        simp only
        rw [List.getElem?_set, if_neg (by omega)]
        exact p3 j (by omega) hj2
      · intro j b hj hb
        simp only
        rw [List.getElem?_set, if_neg (by omega)]
        exact p8 j b (by omega) hb
      · intro c hc
        rcases List.mem_or_eq_of_mem_set hc with hc | rfl
        · exact p9 c hc
        · exact husk_alive k a)
  rw [h.len, Nat.mul_comm, ← hn] at h1
  simp only at h2 h3 h4 h5 h6 h7 h8 h9
  unfold moveAssign
  simp only [Cpp.bind_ok h1]
  exact ⟨_, _, rfl, h7, h.congr h3 h7 h2 h4, h6, by rw [h9.1, h.len], h9.2.2, h8⟩

/-- the destructor -/
theorem dtor_run {k : Kind} {s : VcbS α} (hl : s.mem.cells.length = 2 * s.n) (ha : ∀ c ∈ s.mem.cells, c.alive = true)
    (hled : s.mem.led.made = s.mem.led.gone + 2 * s.n) :
    ∃ s', dtor k s = .ok () s' ∧ s'.mem.led.made = s'.mem.led.gone ∧ (k = .managed → ∀ c ∈ s'.mem.cells, c = .raw) := by
  have hd := Mem.destroy_range (k := k) s.mem.cells [] [] s.mem.led (fun _ => ha)
  simp only [List.length_nil, List.nil_append, List.append_nil, hl] at hd
  have h1 := (forUp_onMem (fun i => Mem.destroy k i) 0 (2 * s.n) s).trans (onMem_ok hd)
  unfold dtor
  rw [Nat.mul_comm, h1]
  refine ⟨_, rfl, hled, ?_⟩
  intro hk c hc
  subst hk
  simp only [List.mem_map] at hc
  obtain ⟨_, _, rfl⟩ := hc
  rfl

end Vcb
end Cyclic
end Efp
