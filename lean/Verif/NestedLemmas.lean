import Verif.Spec.Nested
import Verif.VecWorldLemmas
import Mathlib.Data.List.Forall2

/-! Lemmas about vectors of vectors. -/

namespace Efp
namespace Nest

open VecS (Rep Spare hadBlock vblock tot movedFrom)

variable {α : Type}

/-- a slot and the list its vector stands for -/
def Slot (k : Kind) (c : Option (VecS α)) (l : List α) : Prop := ∃ v, c = some v ∧ Rep k v l ∧ Spare v

/-- elements of lists -/
def elems (ls : List (List α)) : Int := tot (fun l => (l.length : Int)) ls

theorem tot_app {γ : Type} (f : γ → Int) (a b : List γ) : tot f (a ++ b) = tot f a + tot f b := by
  simp [tot]

theorem tot_cons {γ : Type} (f : γ → Int) (a : γ) (b : List γ) : tot f (a :: b) = f a + tot f b := by
  simp [tot]

theorem tot_none (m : Nat) : tot vblock (List.replicate m (none : Option (VecS α))) = 0 := by
  induction m with
  | zero => rfl
  | succ m ih => rw [List.replicate_succ, tot_cons, ih]; rfl

theorem elems_nils (ls : List (List α)) : elems (ls.map fun _ => ([] : List α)) = 0 := by
  induction ls with
  | nil => rfl
  | cons l ls ih => rw [elems, List.map_cons, tot_cons]; simpa [elems] using ih

theorem Slot.len {k : Kind} {cs : List (Option (VecS α))} {ls : List (List α)} (h : List.Forall₂ (Slot k) cs ls) :
    cs.length = ls.length := h.length_eq

theorem rep_led {k : Kind} {v : VecS α} {l : List α} (h : Rep k v l) (L : Ledger) : Rep k { v with led := L } l := ⟨h.1, h.2⟩

theorem slot_at {s : Nest α} (hp : s.ptr = .block) {pre rest : List (Option (VecS α))} {v : VecS α}
    (hc : s.cells = pre ++ some v :: rest) : slot pre.length s = .ok { v with led := s.led } s := by
  unfold slot
  simp only [hp, hc]
  simp

theorem destroy_at {k : Kind} {s : Nest α} (hp : s.ptr = .block) {pre rest : List (Option (VecS α))} {v : VecS α} {l : List α}
    (hc : s.cells = pre ++ some v :: rest) (hr : Rep k v l) :
    ∃ led, destroy k pre.length s = .ok () { s with led := led, cells := pre ++ none :: rest } ∧
      led.blocks = s.led.blocks - hadBlock v ∧ led.objs = s.led.objs - l.length := by
  obtain ⟨t, h1, h2⟩ := VecS.dtor_run (rep_led hr s.led)
  refine ⟨t.led, ?_, ?_, ?_⟩
  · unfold destroy
    rw [slot_at hp hc]
    simp only [h1]
    rw [hc]
    simp
  · rw [h2]; simp only [Ledger.blocks, hadBlock]; omega
  · rw [h2]; simp only [Ledger.objs]; omega

theorem destroyLoop {k : Kind} {cs : List (Option (VecS α))} {ls : List (List α)} (h : List.Forall₂ (Slot k) cs ls)
    (pre rest : List (Option (VecS α))) (s : Nest α) (hp : s.ptr = .block) (hc : s.cells = pre ++ cs ++ rest) :
    ∃ led, forUp (destroy k) pre.length cs.length s =
        .ok () { s with led := led, cells := pre ++ List.replicate cs.length none ++ rest } ∧
      led.blocks = s.led.blocks - tot vblock cs ∧ led.objs = s.led.objs - elems ls := by
  induction h generalizing pre s with
  | nil =>
    refine ⟨s.led, ?_, by simp [tot], by simp [elems, tot]⟩
    simp only [List.length_nil, forUp]
    simp only [List.append_nil] at hc
    simp [← hc]
  | @cons c l cs ls h1 h2 ih =>
    obtain ⟨v, rfl, hr, hsp⟩ := h1
    obtain ⟨led1, d1, d2, d3⟩ := destroy_at (k := k) (pre := pre) (rest := cs ++ rest) hp (by rw [hc]; simp) hr
    obtain ⟨led2, e1, e2, e3⟩ := ih (pre ++ [none]) { s with led := led1, cells := pre ++ none :: (cs ++ rest) } hp (by simp)
    refine ⟨led2, ?_, ?_, ?_⟩
    · simp only [List.length_cons, forUp]
      rw [Cpp.bind_ok d1]
      simp only [List.length_append, List.length_cons, List.length_nil, Nat.zero_add] at e1
      rw [e1]
      simp [List.replicate_succ]
    · rw [e2, tot_cons]; simp only [vblock]; omega
    · rw [e3]; simp only [elems, tot_cons] at *; omega

theorem relocateLoop {k : Kind} {cs : List (Option (VecS α))} {ls : List (List α)} (h : List.Forall₂ (Slot k) cs ls)
    (pre rest npre : List (Option (VecS α))) (m : Nat) (s : Nest α) (hp : s.ptr = .block) (hc : s.cells = pre ++ cs ++ rest)
    (hl : npre.length = pre.length) (hm : cs.length ≤ m) :
    ∃ ncs ocs, relocate cs.length pre.length (npre ++ List.replicate m none) s =
        .ok (npre ++ ncs ++ List.replicate (m - cs.length) none) { s with cells := pre ++ ocs ++ rest } ∧
      List.Forall₂ (Slot k) ncs ls ∧ tot vblock ncs = tot vblock cs ∧
      List.Forall₂ (Slot k) ocs (ls.map fun _ => []) ∧ tot vblock ocs = 0 := by
  induction h generalizing pre npre m s with
  | nil =>
    refine ⟨[], [], ?_, .nil, rfl, .nil, rfl⟩
    simp only [List.append_nil] at hc
    simp [relocate, ← hc]
  | @cons c l cs ls h1 h2 ih =>
    obtain ⟨v, rfl, hr, hsp⟩ := h1
    obtain ⟨m, rfl⟩ : ∃ m', m = m' + 1 := ⟨m - 1, by simp at hm; omega⟩
    obtain ⟨ncs, ocs, e1, e2, e3, e4, e5⟩ := ih (pre ++ [some (movedFrom { v with led := s.led })])
      (npre ++ [some { v with led := s.led }]) m
      { s with cells := pre ++ some (movedFrom { v with led := s.led }) :: (cs ++ rest) } hp (by simp) (by simp [hl])
      (by simpa using hm)
    refine ⟨some { v with led := s.led } :: ncs, some (movedFrom { v with led := s.led }) :: ocs, ?_, ?_, ?_, ?_, ?_⟩
    · simp only [List.length_cons, relocate]
      rw [slot_at hp (v := v) (rest := cs ++ rest) (by rw [hc]; simp)]
      simp only []
      rw [if_pos (by simp; omega)]
      simp only [List.length_append, List.length_cons, List.length_nil, Nat.zero_add] at e1
      have e : (npre ++ List.replicate (m + 1) none).set pre.length (some (VecS.moveCtor { v with led := s.led }).1) =
          npre ++ [some { v with led := s.led }] ++ List.replicate m none := by
        rw [← hl, List.replicate_succ]; simp [VecS.moveCtor]
      have e' : s.cells.set pre.length (some (VecS.moveCtor { v with led := s.led }).2) =
          pre ++ some (movedFrom { v with led := s.led }) :: (cs ++ rest) := by
        rw [hc]; simp [VecS.moveCtor]
      rw [e, e', e1]
      simp
    · exact .cons ⟨_, rfl, rep_led hr _, hsp⟩ e2
    · rw [tot_cons, tot_cons, e3]; rfl
    · exact .cons ⟨_, rfl, VecS.rep_mk0 k _, VecS.spare_mk0 _⟩ e4
    · rw [tot_cons, e5]; rfl

/-- a vector of vectors and the lists it stands for; `B` blocks and `O` objects belong to others -/
structure NRep (k : Kind) (B O : Int) (s : Nest α) (ls : List (List α)) : Prop where
  size : s.size = ls.length
  shape : (s.ptr = .null ∧ s.cells = [] ∧ s.cap = 0 ∧ ls = []) ∨
    (s.ptr = .block ∧ ∃ cs m, s.cells = cs ++ List.replicate m none ∧ s.cap = cs.length + m ∧ 0 < m ∧ List.Forall₂ (Slot k) cs ls)
  blocks : s.led.blocks = B + (if s.ptr = .block then 1 else 0) + tot vblock s.cells
  objs : k = .managed → s.led.objs = O + elems ls

theorem nrep_start (k : Kind) : NRep k 0 0 ({} : Nest α) [] :=
  ⟨rfl, .inl ⟨rfl, rfl, rfl, rfl⟩, by simp [Ledger.blocks, tot], fun _ => by simp [Ledger.objs, elems, tot]⟩

theorem reallocate_run {k : Kind} {B O : Int} {s : Nest α} {ls : List (List α)} (h : NRep k B O s ls) (n : Nat)
    (hn : ls.length < n) :
    ∃ t, reallocate k n s = .ok () t ∧ NRep k B O t ls ∧ t.cap = n ∧ t.ptr = .block := by
  have hsz := h.size
  rcases h.shape with ⟨hp, hc, hcap, rfl⟩ | ⟨hp, cs, m, hc, hcap, hm, hf⟩
  · refine ⟨{ s with led := { s.led with alloc := s.led.alloc + 1 }, ptr := .block, cells := List.replicate n none, cap := n },
      ?_, ⟨hsz, .inr ⟨rfl, [], n, by simp, by simp, by simpa using hn, .nil⟩, ?_, ?_⟩, rfl, rfl⟩
    · unfold reallocate
      simp only [List.length_nil] at hsz
      simp [Cpp.bind_run, hsz, relocate, destroyAll, forUp, dealloc, hp]
    · have := h.blocks
      simp only [hp, hc, tot_none] at this ⊢
      simp [Ledger.blocks, tot] at this ⊢; omega
    · intro hk; have := h.objs hk; simpa [Ledger.objs] using this
  · have hlen := hf.length_eq
    let s1 : Nest α := { s with led := { s.led with alloc := s.led.alloc + 1 } }
    obtain ⟨ncs, ocs, e1, e2, e3, e4, e5⟩ := relocateLoop hf [] (List.replicate m none) [] n s1 hp (by simpa using hc) rfl (by omega)
    simp only [List.nil_append, List.length_nil] at e1
    have ho := e4.length_eq
    simp only [List.length_map] at ho
    obtain ⟨led, d1, d2, d3⟩ := destroyLoop e4 [] (List.replicate m none)
      { s1 with cells := ocs ++ List.replicate m none } hp (by simp)
    simp only [List.nil_append, List.length_nil] at d1
    refine ⟨{ s with led := { led with freed := led.freed + 1 }, ptr := .block, cap := n, cells := ncs ++ List.replicate (n - cs.length) none },
      ?_, ⟨hsz, .inr ⟨rfl, ncs, n - cs.length, rfl, ?_, by omega, e2⟩, ?_, ?_⟩, rfl, rfl⟩
    · unfold reallocate
      have e1' : relocate s1.size 0 (List.replicate n none) s1 = .ok (ncs ++ List.replicate (n - cs.length) none)
          { s1 with cells := ocs ++ List.replicate m none } := by
        have : cs.length = s1.size := hlen.trans hsz.symm
        rw [this] at e1 ⊢; exact e1
      have d1' : destroyAll k { s1 with cells := ocs ++ List.replicate m none } =
          .ok () { s1 with led := led, cells := List.replicate ocs.length none ++ List.replicate m none } := by
        have : ocs.length = s1.size := ho.trans hsz.symm
        unfold destroyAll
        show forUp (destroy k) 0 s1.size _ = _
        rw [this] at d1 ⊢; exact d1
      let s2 : Nest α := { s1 with led := led, cells := List.replicate ocs.length none ++ List.replicate m none }
      have f1 : dealloc s2 = .ok () { s2 with led := { s2.led with freed := s2.led.freed + 1 } } := by
        simp [dealloc, s2, s1, hp]
      refine (Cpp.bind_ok (Cpp.modify_run _ _)).trans ((Cpp.bind_ok (Cpp.get_run s1)).trans ((Cpp.bind_ok e1').trans
        ((Cpp.bind_ok d1').trans ((Cpp.bind_ok f1).trans rfl))))
    · have := e2.length_eq; show n = _; omega
    · have hb := h.blocks
      simp only [hp, hc, if_true, tot_app, tot_none] at hb
      show Ledger.blocks _ = _
      simp only [if_true, tot_app, tot_none, e3]
      simp only [s1, Ledger.blocks, e5] at d2 hb ⊢
      omega
    · intro hk
      have hb := h.objs hk
      rw [elems_nils] at d3
      show Ledger.objs _ = _
      simp only [s1, Ledger.objs] at d3 hb ⊢
      omega

theorem reserve_run {k : Kind} {B O : Int} {s : Nest α} {ls : List (List α)} (h : NRep k B O s ls) (n : Nat) :
    ∃ t, reserve k n s = .ok () t ∧ NRep k B O t ls := by
  by_cases hn : n > s.cap
  · have : ls.length < n := by
      rcases h.shape with ⟨_, _, hcap, rfl⟩ | ⟨_, cs, m, _, hcap, hm, hf⟩
      · simp; omega
      · have := hf.length_eq; omega
    obtain ⟨t, h1, h2, _⟩ := reallocate_run h n this
    exact ⟨t, by unfold reserve; rw [if_pos hn]; exact h1, h2⟩
  · exact ⟨s, by unfold reserve; rw [if_neg hn], h⟩

theorem shrinkToFit_run {k : Kind} {B O : Int} {s : Nest α} {ls : List (List α)} (h : NRep k B O s ls) :
    ∃ t, shrinkToFit k s = .ok () t ∧ NRep k B O t ls := by
  have hsz := h.size
  by_cases hn : s.size < s.cap + 1
  · obtain ⟨t, h1, h2, _⟩ := reallocate_run h (s.size + 1) (by omega)
    exact ⟨t, by unfold shrinkToFit; rw [if_pos hn]; exact h1, h2⟩
  · exact ⟨s, by unfold shrinkToFit; rw [if_neg hn], h⟩

/-- after the growth step there is room for one element and a spare slot -/
theorem growPush_run {k : Kind} {B O : Int} {s : Nest α} {ls : List (List α)} (h : NRep k B O s ls) :
    ∃ t, growPush k s = .ok () t ∧ NRep k B O t ls ∧ t.ptr = .block ∧
      ∃ cs m, t.cells = cs ++ none :: List.replicate m none ∧ t.cap = cs.length + (m + 1) ∧ 0 < m ∧ List.Forall₂ (Slot k) cs ls := by
  have hsz := h.size
  have fin : ∀ t, NRep k B O t ls → t.ptr = .block → ls.length + 1 < t.cap →
      ∃ cs m, t.cells = cs ++ none :: List.replicate m none ∧ t.cap = cs.length + (m + 1) ∧ 0 < m ∧ List.Forall₂ (Slot k) cs ls := by
    intro t ht hp hlt
    rcases ht.shape with ⟨hp', _⟩ | ⟨_, cs, m, hc, hcap, hm, hf⟩
    · rw [hp] at hp'; cases hp'
    · have hl := hf.length_eq
      obtain ⟨m, rfl⟩ : ∃ m', m = m' + 1 := ⟨m - 1, by omega⟩
      exact ⟨cs, m, by rw [hc, List.replicate_succ], hcap, by omega, hf⟩
  by_cases hn : s.size + 1 ≥ s.cap
  · have hgt : (if s.size = 0 then 2 else 2 * s.size + 1) > s.cap ∧ ls.length + 1 < (if s.size = 0 then 2 else 2 * s.size + 1) := by
      split <;> omega
    obtain ⟨t, h1, h2, h3, h4⟩ := reallocate_run h (if s.size = 0 then 2 else 2 * s.size + 1) (by omega)
    refine ⟨t, ?_, h2, h4, fin t h2 h4 (by omega)⟩
    unfold growPush reserve
    rw [if_pos hn, if_pos hgt.1]
    exact h1
  · have hp : s.ptr = .block := by
      rcases h.shape with ⟨_, _, hcap, rfl⟩ | ⟨hp, _⟩
      · omega
      · exact hp
    exact ⟨s, by unfold growPush; rw [if_neg hn], h, hp, fin s h hp (by omega)⟩

/-- adding the last element -/
theorem addLast_run {k : Kind} {B O B' O' : Int} {s : Nest α} {ls : List (List α)} (h : NRep k B O s ls) (hp : s.ptr = .block)
    {cs : List (Option (VecS α))} {m : Nat} (hc : s.cells = cs ++ none :: List.replicate m none)
    (hcap : s.cap = cs.length + (m + 1)) (hm : 0 < m) (hf : List.Forall₂ (Slot k) cs ls) {v : VecS α} {l : List α}
    (hr : Rep k v l) (hsp : Spare v) (hB : v.led.blocks - hadBlock v - B' = s.led.blocks - B)
    (hO : k = .managed → v.led.objs - l.length - O' = s.led.objs - O) :
    ∃ t, addLast v s = .ok () t ∧ NRep k B' O' t (ls ++ [l]) ∧ t.led = v.led ∧ t.ptr = .block := by
  have hsz := h.size
  have hl := hf.length_eq
  refine ⟨{ s with led := v.led, cells := cs ++ some v :: List.replicate m none, size := s.size + 1 }, ?_,
    ⟨by simp [hsz], .inr ⟨hp, cs ++ [some v], m, by simp, by simp [hcap]; omega, hm, ?_⟩, ?_, ?_⟩, rfl, hp⟩
  · unfold addLast construct
    have : s.size < s.cells.length := by rw [hc]; simp; omega
    have hset : s.cells.set s.size (some v) = cs ++ some v :: List.replicate m none := by
      rw [hc, hsz, ← hl]; simp
    refine (Cpp.bind_ok (Cpp.get_run s)).trans
      (Eq.trans (Cpp.bind_ok (b := ()) (s' := { s with led := v.led, cells := cs ++ some v :: List.replicate m none }) ?_) rfl)
    simp only [hp, if_pos this, hset]
  · exact List.rel_append hf (.cons ⟨v, rfl, hr, hsp⟩ .nil)
  · have hb := h.blocks
    simp only [hp, hc, if_true, tot_app, tot_cons, tot_none, vblock] at hb ⊢
    omega
  · intro hk
    have hb := h.objs hk
    have := hO hk
    simp only [elems, tot_app, tot_cons] at hb ⊢
    simp [tot] at hb ⊢
    omega

theorem local_run (k : Kind) (init : Option (List α)) (led : Ledger) :
    ∃ x, local_ init led = .ok () x ∧ Rep k x (init.getD []) ∧ Spare x ∧ x.led.blocks = led.blocks + hadBlock x ∧
      x.led.objs = led.objs + (init.getD []).length ∧ (init ≠ none → x.ptr = .block) ∧ (init = none → x.ptr = .null) := by
  cases init with
  | none => exact ⟨_, rfl, VecS.rep_mk0 k led, VecS.spare_mk0 led, by simp [VecS.mk0, hadBlock], by simp [VecS.mk0], by simp,
      fun _ => rfl⟩
  | some l =>
    obtain ⟨t, h1, h2, h3, h4, h5⟩ := VecS.ofList_run k l led
    refine ⟨t, h1, h2, .inr ?_, ?_, ?_, fun _ => h3, by simp⟩
    · have := h2.1; omega
    · rw [h5]; simp only [Ledger.blocks, hadBlock, h3, if_true]; omega
    · rw [h5]; simp only [Ledger.objs, Option.getD_some]; omega

theorem nrep_led {k : Kind} {B O : Int} {s : Nest α} {ls : List (List α)} (h : NRep k B O s ls) (led : Ledger) {B' O' : Int}
    (hB : led.blocks - B' = s.led.blocks - B) (hO : k = .managed → led.objs - O' = s.led.objs - O) :
    NRep k B' O' { s with led := led } ls :=
  ⟨h.size, h.shape, by have := h.blocks; simp only at this ⊢; omega,
    fun hk => by have := h.objs hk; have := hO hk; simp only at this ⊢; omega⟩

/-- a step: the outcome and the lists after it -/
def Good (k : Kind) (B O : Int) (r : Out (Nest α) Unit) (ls : List (List α)) (thr : Bool) : Prop :=
  ∃ t, NRep k B O t ls ∧ r = if thr then .thrown t else .ok () t

theorem pushTemp_run {k : Kind} {B O : Int} {s : Nest α} {ls : List (List α)} (h : NRep k B O s ls) (init : Option (List α)) :
    Good k B O (pushTemp k init s) (ls ++ [init.getD []]) false := by
  obtain ⟨x, x1, x2, x3, x4, x5, _⟩ := local_run k init s.led
  have h1 : NRep k (B + hadBlock x) (O + (init.getD []).length) { s with led := x.led } ls :=
    nrep_led h x.led (by omega) (fun _ => by omega)
  obtain ⟨t, t1, t2, t3, cs, m, t4, t5, t6, t7⟩ := growPush_run h1
  obtain ⟨u, u1, u2, u3, u4⟩ := addLast_run (B' := B) (O' := O) t2 t3 t4 t5 t6 t7 (v := { x with led := t.led })
    (rep_led x2 _) x3 (by simp only [hadBlock]; omega) (fun _ => by simp only; omega)
  obtain ⟨w, w1, w2⟩ := VecS.dtor_run (VecS.rep_mk0 (α := α) k u.led)
  have hw : w.led = u.led := by rw [w2]; simp [VecS.mk0, hadBlock]
  refine ⟨u, u2, ?_⟩
  unfold pushTemp
  rw [x1]
  refine (Cpp.bind_ok t1).trans ((Cpp.bind_ok (Cpp.get_run t)).trans ((Cpp.bind_ok u1).trans
    ((Cpp.bind_ok (Cpp.get_run u)).trans ?_)))
  have e : ({ (VecS.moveCtor x).2 with led := u.led } : VecS α) = VecS.mk0 u.led := rfl
  rw [e, w1]
  simp [hw]

theorem pushCopy_run {k : Kind} {B O : Int} {s : Nest α} {ls : List (List α)} (h : NRep k B O s ls) (l : List α) :
    Good k B O (pushCopy k (some l) s) (ls ++ [l]) false := by
  obtain ⟨x, x1, x2, x3, x4, x5, x6, _⟩ := local_run k (some l) s.led
  simp only [Option.getD_some] at x2 x5
  have x6 := x6 (by simp)
  have hb : hadBlock x = 1 := by simp [hadBlock, x6]
  have h1 : NRep k (B + 1) (O + l.length) { s with led := x.led } ls :=
    nrep_led h x.led (by omega) (fun _ => by omega)
  obtain ⟨t, t1, t2, t3, cs, m, t4, t5, t6, t7⟩ := growPush_run h1
  obtain ⟨v, v1, v2, v3, v4, v5⟩ := VecS.copyCtor_run x2 x6 t.led
  have hbv : hadBlock v = 1 := by simp [hadBlock, v3]
  obtain ⟨u, u1, u2, u3, u4⟩ := addLast_run (B' := B + 1) (O' := O + l.length) t2 t3 t4 t5 t6 t7 v2
    (by
      rcases x3 with x3 | x3
      · rw [x3.2] at x6; cases x6
      · right; have := v2.1; have := x2.1; omega)
    (by rw [hbv, v5]; simp only [Ledger.blocks]; omega) (fun _ => by rw [v5]; simp only [Ledger.objs]; omega)
  obtain ⟨w, w1, w2⟩ := VecS.dtor_run (rep_led x2 u.led)
  refine ⟨{ u with led := w.led }, nrep_led u2 w.led ?_ ?_, ?_⟩
  · rw [w2]; simp only [Ledger.blocks, hadBlock, x6, if_true]; omega
  · intro _; rw [w2]; simp only [Ledger.objs]; omega
  unfold pushCopy
  rw [x1]
  refine (Cpp.bind_ok t1).trans ((Cpp.bind_ok (Cpp.get_run t)).trans ?_)
  rw [v1]
  refine (Cpp.bind_ok u1).trans ((Cpp.bind_ok (Cpp.get_run u)).trans ?_)
  rw [w1]
  rfl

theorem emplaceBack_run {k : Kind} {B O : Int} {s : Nest α} {ls : List (List α)} (h : NRep k B O s ls) :
    Good k B O (emplaceBack k s) (ls ++ [[]]) false := by
  obtain ⟨t, t1, t2, t3, cs, m, t4, t5, t6, t7⟩ := growPush_run h
  obtain ⟨u, u1, u2, u3, u4⟩ := addLast_run (B' := B) (O' := O) t2 t3 t4 t5 t6 t7 (v := VecS.mk0 t.led)
    (VecS.rep_mk0 k _) (VecS.spare_mk0 _) (by simp [VecS.mk0, hadBlock]) (fun _ => by simp [VecS.mk0])
  exact ⟨u, u2, (Cpp.bind_ok t1).trans ((Cpp.bind_ok (Cpp.get_run t)).trans u1)⟩

theorem forall₂_snoc {γ δ : Type} {R : γ → δ → Prop} {a : List γ} {b : List δ} {y : δ} (h : List.Forall₂ R a (b ++ [y])) :
    ∃ a' x, List.Forall₂ R a' b ∧ R x y ∧ a = a' ++ [x] := by
  induction b generalizing a with
  | nil =>
    cases h with
    | cons h1 h2 => cases h2; exact ⟨[], _, .nil, h1, rfl⟩
  | cons z b ih =>
    cases h with
    | cons h1 h2 =>
      obtain ⟨a', x, h3, h4, rfl⟩ := ih h2
      exact ⟨_ :: a', x, .cons h1 h3, h4, rfl⟩

theorem popBack_run {k : Kind} {B O : Int} {s : Nest α} {ls : List (List α)} (h : NRep k B O s ls) :
    Good k B O (popBack k s) ls.dropLast ls.isEmpty := by
  have hsz := h.size
  rcases List.eq_nil_or_concat ls with rfl | ⟨init, l, rfl⟩
  · refine ⟨s, h, ?_⟩
    unfold popBack
    refine (Cpp.bind_ok (Cpp.get_run s)).trans ?_
    rw [if_pos (by simpa using hsz)]; rfl
  · rw [List.concat_eq_append] at *
    rcases h.shape with ⟨_, _, _, h0⟩ | ⟨hp, cs, m, hc, hcap, hm, hf⟩
    · simp at h0
    obtain ⟨cs', c, hf', hcl, rfl⟩ : ∃ cs' c, List.Forall₂ (Slot k) cs' init ∧ Slot k c l ∧ cs = cs' ++ [c] := by
      exact forall₂_snoc hf
    obtain ⟨v, rfl, hr, hsp⟩ := hcl
    have hl := hf'.length_eq
    obtain ⟨led, d1, d2, d3⟩ := destroy_at (k := k) (pre := cs') (rest := List.replicate m none) hp (by rw [hc]; simp) hr
    refine ⟨{ s with led := led, size := s.size - 1, cells := cs' ++ none :: List.replicate m none }, ⟨?_, .inr ⟨hp, cs', m + 1, ?_, ?_, ?_, ?_⟩, ?_, ?_⟩, ?_⟩
    · simp only [List.dropLast_concat]; rw [hsz]; simp
    · simp [List.replicate_succ]
    · simp only [hcap]; simp; omega
    · omega
    · simpa using hf'
    · have hb := h.blocks
      simp only [hp, hc, if_true, tot_app, tot_cons, tot_none, vblock] at hb ⊢
      simp [tot] at hb ⊢
      omega
    · intro hk
      have hb := h.objs hk
      simp only [elems, tot_app, tot_cons, List.dropLast_concat] at hb ⊢
      simp [tot] at hb ⊢
      omega
    · unfold popBack
      refine (Cpp.bind_ok (Cpp.get_run s)).trans ?_
      have hs1 : s.size = cs'.length + 1 := by rw [hsz, hl]; simp
      rw [if_neg (by omega)]
      have : s.size - 1 = cs'.length := by omega
      rw [this]
      refine (Cpp.bind_ok d1).trans ?_
      simp [hs1]

theorem destroyAll_run {k : Kind} {B O : Int} {s : Nest α} {ls : List (List α)} (h : NRep k B O s ls) :
    ∃ led cells, destroyAll k s = .ok () { s with led := led, cells := cells } ∧ cells = List.replicate s.cells.length none ∧
      led.blocks = B + (if s.ptr = .block then 1 else 0) ∧ (k = .managed → led.objs = O) := by
  have hsz := h.size
  rcases h.shape with ⟨hp, hc, hcap, rfl⟩ | ⟨hp, cs, m, hc, hcap, hm, hf⟩
  · refine ⟨s.led, [], ?_, by simp [hc], ?_, ?_⟩
    · unfold destroyAll
      have e : s.size = 0 := hsz
      refine Eq.trans (b := forUp (destroy k) 0 0 s) (by rw [e]) ?_
      rw [← hc]
      rfl
    · have := h.blocks; rw [hc] at this; simpa [tot] using this
    · intro hk; have := h.objs hk; simpa [elems, tot] using this
  · have hl := hf.length_eq
    obtain ⟨led, d1, d2, d3⟩ := destroyLoop hf [] (List.replicate m none) s hp (by simpa using hc)
    simp only [List.nil_append, List.length_nil] at d1
    refine ⟨led, List.replicate cs.length none ++ List.replicate m none, ?_, ?_, ?_, ?_⟩
    · unfold destroyAll
      refine Eq.trans (b := forUp (destroy k) 0 cs.length s) (by rw [hsz, hl]) d1
    · rw [hc, List.length_append, List.length_replicate, List.replicate_add]
    · have := h.blocks; rw [hc, tot_app, tot_none] at this; omega
    · intro hk; have := h.objs hk; omega

theorem clear_run {k : Kind} {B O : Int} {s : Nest α} {ls : List (List α)} (h : NRep k B O s ls) :
    Good k B O (clear k s) [] false := by
  obtain ⟨led, cells, d1, d2, d3, d4⟩ := destroyAll_run h
  refine ⟨{ s with led := led, cells := cells, size := 0 }, ⟨rfl, ?_, ?_, ?_⟩, (Cpp.bind_ok d1).trans rfl⟩
  · rcases h.shape with ⟨hp, hc, hcap, rfl⟩ | ⟨hp, cs, m, hc, hcap, hm, hf⟩
    · left; exact ⟨hp, by simp [d2, hc], hcap, rfl⟩
    · right
      refine ⟨hp, [], cs.length + m, ?_, by simp [hcap], by omega, .nil⟩
      simp [d2, hc]
  · simp only [d3, d2, tot_none]; omega
  · intro hk; simp [d4 hk, elems, tot]

theorem dtor_run {k : Kind} {B O : Int} {s : Nest α} {ls : List (List α)} (h : NRep k B O s ls) :
    ∃ t, dtor k s = .ok () t ∧ t.led.blocks = B ∧ (k = .managed → t.led.objs = O) ∧ t.ptr = .null := by
  obtain ⟨led, cells, d1, d2, d3, d4⟩ := destroyAll_run h
  rcases h.shape with ⟨hp, hc, hcap, rfl⟩ | ⟨hp, cs, m, hc, hcap, hm, hf⟩
  · refine ⟨s, by unfold dtor; simp only [hp], ?_, ?_, hp⟩
    · have := h.blocks; rw [hp, hc] at this; simpa [tot] using this
    · intro hk; have := h.objs hk; simpa [elems, tot] using this
  · refine ⟨{ s with led := { led with freed := led.freed + 1 }, ptr := .null, cells := [] }, ?_, ?_, ?_, rfl⟩
    · unfold dtor
      simp only [hp]
      refine (Cpp.bind_ok d1).trans ((Cpp.bind_ok (b := ()) (s' := { s with led := { led with freed := led.freed + 1 }, cells := cells }) ?_).trans rfl)
      simp [dealloc, hp]
    · simp only [hp, if_true] at d3; simp only [Ledger.blocks] at d3 ⊢; omega
    · intro hk; have := d4 hk; simpa [Ledger.objs] using this

theorem forall₂_get {γ δ : Type} {R : γ → δ → Prop} {a : List γ} {b : List δ} (h : List.Forall₂ R a b) {i : Nat} {y : δ}
    (hy : b[i]? = some y) : ∃ x, a[i]? = some x ∧ R x y := by
  induction h generalizing i with
  | nil => simp at hy
  | cons h1 h2 ih =>
    cases i with
    | zero => simp only [List.getElem?_cons_zero, Option.some.injEq] at hy; subst hy; exact ⟨_, rfl, h1⟩
    | succ i => exact ih (by simpa using hy)

theorem forall₂_set {γ δ : Type} {R : γ → δ → Prop} {a : List γ} {b : List δ} (h : List.Forall₂ R a b) (i : Nat) {x : γ} {y : δ}
    (hxy : R x y) : List.Forall₂ R (a.set i x) (b.set i y) := by
  induction h generalizing i with
  | nil => exact .nil
  | cons h1 h2 ih =>
    cases i with
    | zero => exact .cons hxy h2
    | succ i => exact .cons h1 (ih i)

/-- replacing the object in a slot -/
theorem nrep_set {k : Kind} {B O : Int} {s : Nest α} {ls : List (List α)} (h : NRep k B O s ls) {i : Nat} {v v' : VecS α}
    {l l' : List α} (hv : s.cells[i]? = some (some v)) (hl : ls[i]? = some l) (hr : Rep k v' l') (hsp : Spare v') (led : Ledger)
    {B' O' : Int} (hB : led.blocks - hadBlock v' - B' = s.led.blocks - hadBlock v - B)
    (hO : k = .managed → led.objs - l'.length - O' = s.led.objs - l.length - O) :
    NRep k B' O' { s with led := led, cells := s.cells.set i (some v') } (ls.set i l') := by
  rcases h.shape with ⟨hp, hc, hcap, rfl⟩ | ⟨hp, cs, m, hc, hcap, hm, hf⟩
  · simp at hl
  have hi : i < cs.length := by
    have := (List.getElem?_eq_some_iff.1 hl).1
    have := hf.length_eq; omega
  refine ⟨by simpa using h.size, .inr ⟨hp, cs.set i (some v'), m, ?_, by simpa using hcap, hm, forall₂_set hf i ⟨v', rfl, hr, hsp⟩⟩,
    ?_, ?_⟩
  · simp only [hc]; rw [List.set_append_left _ _ hi]
  · have hb := h.blocks
    simp only [VecS.tot_set vblock s.cells i _ (some v') hv, vblock, hp, if_true] at hb ⊢
    omega
  · intro hk
    have hb := h.objs hk
    have := hO hk
    simp only [elems, VecS.tot_set _ ls i _ l' hl] at hb ⊢
    omega

theorem slot_of {k : Kind} {B O : Int} {s : Nest α} {ls : List (List α)} (h : NRep k B O s ls) {i : Nat} {l : List α}
    (hl : ls[i]? = some l) : ∃ v, s.cells[i]? = some (some v) ∧ slot i s = .ok { v with led := s.led } s ∧ Rep k v l ∧ Spare v := by
  rcases h.shape with ⟨hp, hc, hcap, rfl⟩ | ⟨hp, cs, m, hc, hcap, hm, hf⟩
  · simp at hl
  obtain ⟨c, hx, v, rfl, hr, hsp⟩ := forall₂_get hf hl
  have hcc : s.cells[i]? = some (some v) := by
    rw [hc, List.getElem?_append_left (List.getElem?_eq_some_iff.1 hx).1]; exact hx
  refine ⟨v, hcc, ?_, hr, hsp⟩
  unfold slot
  simp only [hp, hcc]

theorem call_run {k : Kind} {B O : Int} {s : Nest α} {ls : List (List α)} (h : NRep k B O s ls) {i : Nat} {l : List α}
    (hl : ls[i]? = some l) (op : VecS.Op α) (hop : k = .managed → Spec.endOp op l) :
    Good k B O ((NOp.call i op).run k s) (ls.set i (Spec.vecCall op l).1) (Spec.vecCall op l).2 := by
  obtain ⟨v, hv, hs, hr, hsp⟩ := slot_of h hl
  have hi : i < s.size := by rw [h.size]; exact (List.getElem?_eq_some_iff.1 hl).1
  have st := VecS.step_run (rep_led hr s.led) hsp op hop
  have e : (NOp.call i op).run k s = store i s (op.run k { v with led := s.led }) := by
    show (if i < s.size then onSlot i (op.run k) s else .ok () s) = _
    rw [if_pos hi]
    unfold onSlot
    rw [hs]
  rw [e]
  cases hvs : Spec.vecStep op l with
  | none =>
    rw [hvs] at st
    simp only [Spec.vecCall, hvs]
    refine ⟨_, nrep_set (B' := B) (O' := O) (v' := { v with led := s.led }) h hv hl (rep_led hr s.led) hsp s.led ?_ ?_, ?_⟩
    · simp only [hadBlock]
    · intro _; rfl
    · simp only [st]; rfl
  | some l' =>
    rw [hvs] at st
    obtain ⟨t, t1, t2, t3, t4⟩ := st
    simp only [Spec.vecCall, hvs]
    refine ⟨_, nrep_set (B' := B) (O' := O) h hv hl t2 t3 t.led ?_ ?_, ?_⟩
    · have := t4.blocks; simp only [hadBlock] at this ⊢; omega
    · intro hk; have := t4.objs hk; simp only at this; omega
    · rw [t1]; rfl

theorem moveAssign_src {k : Kind} {o t v w : VecS α} (h : VecS.moveAssign k w v = .ok o t) : o.ptr = .null ∧ o.cap = 0 := by
  unfold VecS.moveAssign at h
  rw [Cpp.bind_run] at h
  cases h1 : VecS.destroyAll k v with
  | ok _ v1 =>
    rw [h1] at h
    simp only [Cpp.bind_run] at h
    cases h2 : (VecS.dealloc v1) with
    | ok _ v2 =>
      rw [h2] at h
      simp only [Cpp.pure_run, Out.ok.injEq] at h
      rw [← h.1]; exact ⟨rfl, rfl⟩
    | thrown _ => rw [h2] at h; cases h
    | ub _ => rw [h2] at h; cases h
  | thrown _ => rw [h1] at h; cases h
  | ub _ => rw [h1] at h; cases h

theorem moveTo_run {k : Kind} {B O : Int} {s : Nest α} {ls : List (List α)} (h : NRep k B O s ls) {i j : Nat} {l lo : List α}
    (hl : ls[i]? = some l) (hlo : ls[j]? = some lo) (hij : i ≠ j) :
    Good k B O (moveTo k i j s) ((ls.set i lo).set j []) false := by
  obtain ⟨v, hv, hs, hr, hsp⟩ := slot_of h hl
  obtain ⟨w, hw, hsw, hrw, hspw⟩ := slot_of h hlo
  obtain ⟨t, o, m1, m2, m3, m4, m5, m6⟩ := VecS.moveAssign_run (rep_led hr s.led) (rep_led hrw s.led)
  have hsrc := moveAssign_src m1
  have ho : hadBlock o = 0 := by simp [hadBlock, hsrc.1]
  have hspt : Spare t := by
    rcases hspw with hw' | hw'
    · exact .inl ⟨m4.trans hw'.1, m5.trans hw'.2⟩
    · right; have := m2.1; have := hrw.1; simp only at m4; omega
  have hbt : hadBlock t = hadBlock w := by simp only [hadBlock, m5]
  -- the target first, with the block of the source counted twice
  have h1 : NRep k (B - hadBlock w) (O - lo.length) { s with led := t.led, cells := s.cells.set i (some t) } (ls.set i lo) := by
    refine nrep_set h hv hl m2 hspt t.led ?_ ?_
    · rw [m6, hbt]; simp only [Ledger.blocks, hadBlock]; omega
    · intro _; rw [m6]; simp only [Ledger.objs]; omega
  have h2 := nrep_set (B' := B) (O' := O) (v' := o) (l' := []) (i := j) (v := w) (l := lo) h1
    (by simp only [List.getElem?_set_ne hij, hw]) (by rw [List.getElem?_set_ne hij, hlo]) m3 (.inl ⟨hsrc.2, hsrc.1⟩) t.led
    (by simp only [ho]; omega) (fun _ => by simp; omega)
  refine ⟨_, h2, ?_⟩
  unfold moveTo
  rw [if_neg hij, hs, hsw]
  simp only [m1]
  rfl

/-- the slots of a copy -/
theorem copyLoop_run {k : Kind} {other : Nest α} (hp : other.ptr = .block) {cs : List (Option (VecS α))} {ls : List (List α)}
    (hf : List.Forall₂ (Slot k) cs ls) (hne : ∀ l ∈ ls, l ≠ []) (pre rest npre : List (Option (VecS α))) (m : Nat) (s : Nest α)
    (hc : other.cells = pre ++ cs ++ rest) (hs : s.ptr = .block) (hsc : s.cells = npre ++ List.replicate m none)
    (hl : npre.length = pre.length) (hm : cs.length ≤ m) :
    ∃ ncs led, copyLoop other cs.length pre.length s =
        .ok () { s with led := led, cells := npre ++ ncs ++ List.replicate (m - cs.length) none } ∧
      List.Forall₂ (Slot k) ncs ls ∧ led.blocks = s.led.blocks + tot vblock ncs ∧ led.objs = s.led.objs + elems ls := by
  induction hf generalizing pre npre m s with
  | nil =>
    refine ⟨[], s.led, ?_, .nil, by simp [tot], by simp [elems, tot]⟩
    simp only [List.length_nil, copyLoop]
    simp [← hsc]
  | @cons c l cs ls h1 h2 ih =>
    obtain ⟨v, rfl, hr, hsp⟩ := h1
    obtain ⟨m, rfl⟩ : ∃ m', m = m' + 1 := ⟨m - 1, by simp at hm; omega⟩
    have hne1 := hne l (by simp)
    have hpb : v.ptr = .block := by
      obtain ⟨_, h | h⟩ := hr
      · exact absurd h.2.2.2 hne1
      · exact h.1
    obtain ⟨t, t1, t2, t3, t4, t5⟩ := VecS.copyCtor_run (rep_led hr other.led) hpb s.led
    have hspt : Spare t := by
      rcases hsp with hw' | hw'
      · rw [hw'.2] at hpb; cases hpb
      · right; have := t2.1; have := hr.1; simp only at t4; omega
    have hbt : hadBlock t = 1 := by simp [hadBlock, t3]
    obtain ⟨ncs, led, e1, e2, e3, e4⟩ := ih (fun l hl => hne l (by simp [hl])) (pre ++ [some v]) (npre ++ [some t]) m
      { s with led := t.led, cells := npre ++ some t :: List.replicate m none } (by rw [hc]; simp) hs (by simp) (by simp [hl])
      (by simpa using hm)
    refine ⟨some t :: ncs, led, ?_, .cons ⟨t, rfl, t2, hspt⟩ e2, ?_, ?_⟩
    · simp only [List.length_cons, copyLoop]
      rw [slot_at hp (v := v) (rest := cs ++ rest) (by rw [hc]; simp)]
      simp only [t1]
      have c1 : construct pre.length t s = .ok () { s with led := t.led, cells := npre ++ some t :: List.replicate m none } := by
        unfold construct
        have : pre.length < s.cells.length := by rw [hsc]; simp; omega
        simp only [hs, if_pos this]
        rw [hsc, ← hl, List.replicate_succ]
        simp
      refine (Cpp.bind_ok c1).trans ?_
      simp only [List.length_append, List.length_cons, List.length_nil, Nat.zero_add] at e1
      rw [e1]
      simp
    · rw [e3, t5, tot_cons]; simp only [vblock, hbt, Ledger.blocks]; omega
    · rw [e4, t5]; simp only [elems, tot_cons, Ledger.objs]; omega

theorem copyWhole_run {k : Kind} {B O : Int} {s : Nest α} {ls : List (List α)} (h : NRep k B O s ls) (h0 : ls ≠ [])
    (hne : ∀ l ∈ ls, l ≠ []) : Good k B O (copyWhole k s) ls false := by
  have hsz := h.size
  rcases h.shape with ⟨_, _, _, rfl⟩ | ⟨hp, cs, m, hc, hcap, hm, hf⟩
  · exact absurd rfl h0
  have hlen := hf.length_eq
  obtain ⟨ncs, led, e1, e2, e3, e4⟩ := copyLoop_run hp hf hne [] (List.replicate m none) [] s.cap
    { led := { s.led with alloc := s.led.alloc + 1 }, ptr := .block, size := s.size, cap := s.cap,
      cells := List.replicate s.cap none } (by simpa using hc) rfl (by simp) rfl (by omega)
  simp only [List.nil_append, List.length_nil] at e1
  have hnl := e2.length_eq
  have hw : NRep k s.led.blocks s.led.objs
      { led := led, ptr := .block, size := s.size, cap := s.cap, cells := ncs ++ List.replicate (s.cap - cs.length) none } ls := by
    refine ⟨hsz, .inr ⟨rfl, ncs, _, rfl, by show s.cap = _; omega, by omega, e2⟩, ?_, fun _ => ?_⟩
    · simp only [if_true, tot_app, tot_none]; rw [e3]; simp only [Ledger.blocks]; omega
    · rw [e4]; simp [Ledger.objs]
  obtain ⟨t, t1, t2, t3, _⟩ := dtor_run hw
  refine ⟨{ s with led := t.led }, nrep_led h t.led (by omega) (fun hk => by rw [t3 hk]), ?_⟩
  unfold copyWhole copyCtor
  simp only [hp]
  rw [hsz, ← hlen] at *
  rw [e1]
  simp only [t1]
  rfl

theorem step_run {k : Kind} {B O : Int} {s : Nest α} {ls : List (List α)} (h : NRep k B O s ls) (op : NOp α)
    {r : List (List α) × Bool} (hr : Spec.nestStep k op ls = some r) : Good k B O (op.run k s) r.1 r.2 := by
  cases op with
  | pushTemp init => simp only [Spec.nestStep, Option.some.injEq] at hr; subst hr; exact pushTemp_run h init
  | pushCopy init =>
    cases init with
    | none => simp [Spec.nestStep] at hr
    | some l => simp only [Spec.nestStep, Option.some.injEq] at hr; subst hr; exact pushCopy_run h l
  | emplace => simp only [Spec.nestStep, Option.some.injEq] at hr; subst hr; exact emplaceBack_run h
  | pop => simp only [Spec.nestStep, Option.some.injEq] at hr; subst hr; exact popBack_run h
  | clear => simp only [Spec.nestStep, Option.some.injEq] at hr; subst hr; exact clear_run h
  | reserve n =>
    simp only [Spec.nestStep, Option.some.injEq] at hr; subst hr
    obtain ⟨t, h1, h2⟩ := reserve_run h n
    exact ⟨t, h2, h1⟩
  | shrinkToFit =>
    simp only [Spec.nestStep, Option.some.injEq] at hr; subst hr
    obtain ⟨t, h1, h2⟩ := shrinkToFit_run h
    exact ⟨t, h2, h1⟩
  | call i op =>
    simp only [Spec.nestStep] at hr
    cases hl : ls[i]? with
    | none =>
      rw [hl] at hr
      simp only [Option.some.injEq] at hr; subst hr
      refine ⟨s, h, ?_⟩
      have := List.getElem?_eq_none_iff.1 hl
      show (if i < s.size then onSlot i (op.run k) s else .ok () s) = _
      rw [if_neg (by rw [h.size]; omega)]; rfl
    | some l =>
      rw [hl] at hr
      simp only [] at hr
      split at hr
      · next hk =>
        simp only [Option.some.injEq] at hr; subst hr
        exact call_run h hl op (fun hm => hk.resolve_left (by rw [hm]; simp))
      · cases hr
  | moveTo i j =>
    simp only [Spec.nestStep] at hr
    have hidle : (¬ (i < s.size ∧ j < s.size)) → some (ls, false) = some r → Good k B O ((NOp.moveTo i j).run k s) r.1 r.2 := by
      intro hn hr
      simp only [Option.some.injEq] at hr; subst hr
      refine ⟨s, h, ?_⟩
      show (if i < s.size ∧ j < s.size then moveTo k i j s else .ok () s) = _
      rw [if_neg hn]; rfl
    cases hl : ls[i]? with
    | none =>
      rw [hl] at hr
      have := List.getElem?_eq_none_iff.1 hl
      exact hidle (by rw [h.size]; omega) (by simpa using hr)
    | some l =>
      cases hlo : ls[j]? with
      | none =>
        rw [hl, hlo] at hr
        have := List.getElem?_eq_none_iff.1 hlo
        exact hidle (by rw [h.size]; omega) (by simpa using hr)
      | some lo =>
        rw [hl, hlo] at hr
        have hi := (List.getElem?_eq_some_iff.1 hl).1
        have hj := (List.getElem?_eq_some_iff.1 hlo).1
        have e : (NOp.moveTo i j).run k s = moveTo k i j s := by
          show (if i < s.size ∧ j < s.size then moveTo k i j s else .ok () s) = _
          rw [if_pos (by rw [h.size]; exact ⟨hi, hj⟩)]
        simp only [] at hr
        rw [e]
        split at hr
        · next hij =>
          simp only [Option.some.injEq] at hr; subst hr
          exact ⟨s, h, by unfold moveTo; rw [if_pos hij]; rfl⟩
        · next hij =>
          simp only [Option.some.injEq] at hr; subst hr
          exact moveTo_run h hl hlo hij
  | copyWhole =>
    simp only [Spec.nestStep] at hr
    split at hr
    · cases hr
    · next hn =>
      simp only [Option.some.injEq] at hr; subst hr
      simp only [Bool.or_eq_true, List.isEmpty_iff, List.any_eq_true, not_or, not_exists, not_and] at hn
      exact copyWhole_run h hn.1 (fun l hl => hn.2 l hl)

theorem runAll_run {k : Kind} {B O : Int} (ops : List (NOp α)) {s : Nest α} {ls : List (List α)} (h : NRep k B O s ls)
    {r : List (List α) × List Bool} (hr : Spec.nestRun k ops ls = some r) :
    ∃ t, runAll k ops s = .ok (t, r.2) ∧ NRep k B O t r.1 := by
  induction ops generalizing s ls r with
  | nil => simp only [Spec.nestRun, Option.some.injEq] at hr; subst hr; exact ⟨s, rfl, h⟩
  | cons op ops ih =>
    simp only [Spec.nestRun] at hr
    cases h1 : Spec.nestStep k op ls with
    | none => rw [h1] at hr; cases hr
    | some q =>
      rw [h1] at hr
      simp only [Option.map_eq_some_iff] at hr
      obtain ⟨r', hr', rfl⟩ := hr
      obtain ⟨t, ht, e⟩ := step_run h op h1
      obtain ⟨u, hu, hu'⟩ := ih ht hr'
      refine ⟨u, ?_, hu'⟩
      simp only [runAll, e]
      cases q.2 <;> simp [hu, Except.map]

theorem readFrom_run {k : Kind} {s : Nest α} (hp : s.ptr = .block) {cs : List (Option (VecS α))} {ls : List (List α)}
    (hf : List.Forall₂ (Slot k) cs ls) (pre rest : List (Option (VecS α))) (hc : s.cells = pre ++ cs ++ rest) :
    readFrom s pre.length cs.length = .ok ls := by
  induction hf generalizing pre with
  | nil => rfl
  | @cons c l cs ls h1 h2 ih =>
    obtain ⟨v, rfl, hr, hsp⟩ := h1
    have := ih (pre ++ [some v]) (by rw [hc]; simp)
    simp only [List.length_append, List.length_cons, List.length_nil, Nat.zero_add] at this
    simp only [List.length_cons, readFrom]
    rw [slot_at hp (v := v) (rest := cs ++ rest) (by rw [hc]; simp)]
    simp only []
    rw [(rep_led hr s.led).contents, this]
    rfl

theorem NRep.contents {k : Kind} {B O : Int} {s : Nest α} {ls : List (List α)} (h : NRep k B O s ls) : contents s = .ok ls := by
  have hsz := h.size
  unfold Nest.contents
  rcases h.shape with ⟨_, _, _, rfl⟩ | ⟨hp, cs, m, hc, hcap, hm, hf⟩
  · rw [hsz]; rfl
  · rw [hsz, ← hf.length_eq]
    exact readFrom_run hp hf [] (List.replicate m none) (by simpa using hc)

theorem elems_eq (ls : List (List α)) : elems ls = Spec.total ls := by
  induction ls with
  | nil => rfl
  | cons l ls ih =>
    rw [elems, tot_cons]
    simp only [Spec.total, List.map_cons, List.sum_cons] at ih ⊢
    rw [elems] at ih
    omega

theorem vblocks_bounds {k : Kind} {cs : List (Option (VecS α))} {ls : List (List α)} (hf : List.Forall₂ (Slot k) cs ls) :
    ((ls.filter fun l => !l.isEmpty).length : Int) ≤ tot vblock cs ∧ tot vblock cs ≤ ls.length := by
  induction hf with
  | nil => simp [tot]
  | @cons c l cs ls h1 h2 ih =>
    obtain ⟨v, rfl, hr, hsp⟩ := h1
    rw [tot_cons]
    have hb : hadBlock v ≤ 1 := by unfold hadBlock; split <;> omega
    cases l with
    | nil => simp only [vblock, List.filter_cons, List.length_cons]; simp; omega
    | cons a l =>
      have : hadBlock v = 1 := by
        obtain ⟨_, h | h⟩ := hr
        · exact absurd h.2.2.2 (by simp)
        · simp [hadBlock, h.1]
      simp only [vblock, this, List.filter_cons, List.length_cons]; simp; omega

/-- a slot that may hold a vector with a wild pointer -/
def SlotW (k : Kind) (c : Option (VecS α)) (l : List α) : Prop := Slot k c l ∨ ∃ v, c = some v ∧ v.ptr = .wild

theorem destroy_wild {k : Kind} {s : Nest α} (hp : s.ptr = .block) {pre rest : List (Option (VecS α))} {v : VecS α}
    (hc : s.cells = pre ++ some v :: rest) (hv : v.ptr = .wild) : destroy k pre.length s = .ub .wildPtr := by
  unfold destroy
  rw [slot_at hp hc]
  simp only [VecS.dtor, hv]

theorem destroyLoop_wild {k : Kind} {cs : List (Option (VecS α))} {ls : List (List α)} (h : List.Forall₂ (SlotW k) cs ls)
    (hw : ∃ v, some v ∈ cs ∧ v.ptr = .wild)
    (pre rest : List (Option (VecS α))) (s : Nest α) (hp : s.ptr = .block) (hc : s.cells = pre ++ cs ++ rest) :
    forUp (destroy k) pre.length cs.length s = .ub .wildPtr := by
  induction h generalizing pre s with
  | nil => obtain ⟨v, hv, _⟩ := hw; simp at hv
  | @cons c l cs ls h1 h2 ih =>
    simp only [List.length_cons, forUp]
    by_cases hcw : ∃ v, c = some v ∧ v.ptr = .wild
    · obtain ⟨v, rfl, hv⟩ := hcw
      rw [Cpp.bind_run, destroy_wild (v := v) (pre := pre) (rest := cs ++ rest) hp (by rw [hc]; simp) hv]
    · rcases h1 with ⟨v, rfl, hr, hsp⟩ | h1
      · obtain ⟨led1, d1, d2, d3⟩ := destroy_at (k := k) (pre := pre) (rest := cs ++ rest) hp (by rw [hc]; simp) hr
        rw [Cpp.bind_ok d1]
        have hw' : ∃ v, some v ∈ cs ∧ v.ptr = .wild := by
          obtain ⟨w, hw1, hw2⟩ := hw
          rcases List.mem_cons.1 hw1 with e | e
          · exact absurd ⟨w, e.symm, hw2⟩ hcw
          · exact ⟨w, e, hw2⟩
        have := ih hw' (pre ++ [none]) { s with led := led1, cells := pre ++ none :: (cs ++ rest) } hp (by simp)
        simpa using this
      · exact absurd h1 hcw

theorem dtor_wild {k : Kind} {cs : List (Option (VecS α))} {ls : List (List α)} (h : List.Forall₂ (SlotW k) cs ls)
    (hw : ∃ v, some v ∈ cs ∧ v.ptr = .wild) (rest : List (Option (VecS α))) (s : Nest α) (hp : s.ptr = .block)
    (hc : s.cells = cs ++ rest) (hsz : s.size = cs.length) : dtor k s = .ub .wildPtr := by
  have e := destroyLoop_wild h hw [] rest s hp (by simpa using hc)
  unfold dtor
  simp only [hp]
  rw [Cpp.bind_run]
  unfold destroyAll
  rw [hsz]
  simp only [List.length_nil] at e
  rw [e]

/-- a copy of a vector that never allocated is pushed: the destructor frees a wild pointer -/
theorem pushCopy_null {k : Kind} {B O : Int} {s : Nest α} {ls : List (List α)} (h : NRep k B O s ls) :
    ∃ t, pushCopy k none s = .ok () t ∧ dtor k t = .ub .wildPtr := by
  obtain ⟨t, t1, t2, t3, cs, m, t4, t5, t6, t7⟩ := growPush_run h
  have hl := t7.length_eq
  have hsz := t2.size
  let w : VecS α := { cells := [], led := t.led, ptr := .wild, size := 0, cap := 0 }
  let u : Nest α := { t with size := t.size + 1, cells := cs ++ some w :: List.replicate m none }
  have v1 : VecS.copyCtor (VecS.mk0 s.led : VecS α) t.led = .ok () w := VecS.copyCtor_null (VecS.rep_mk0 k s.led) rfl t.led
  have u1 : addLast w t = .ok () u := by
    unfold addLast construct
    have : t.size < t.cells.length := by rw [t4]; simp; omega
    have hset : t.cells.set t.size (some w) = cs ++ some w :: List.replicate m none := by
      rw [t4, hsz, ← hl]; simp
    refine (Cpp.bind_ok (Cpp.get_run t)).trans
      (Eq.trans (Cpp.bind_ok (b := ()) (s' := { t with led := w.led, cells := cs ++ some w :: List.replicate m none }) ?_) rfl)
    simp only [t3, if_pos this, hset]
  refine ⟨u, ?_, ?_⟩
  · unfold pushCopy local_
    simp only []
    refine (Cpp.bind_ok t1).trans ((Cpp.bind_ok (Cpp.get_run t)).trans ?_)
    rw [v1]
    exact (Cpp.bind_ok u1).trans ((Cpp.bind_ok (Cpp.get_run u)).trans rfl)
  · refine dtor_wild (ls := ls ++ [[]]) (cs := cs ++ [some w]) (List.rel_append ?_ (.cons (.inr ⟨w, rfl, rfl⟩) .nil))
      ⟨w, by simp, rfl⟩ (List.replicate m none) u t3 (by simp [u]) (by simp [u, hsz, hl])
    exact t7.imp fun _ _ => Or.inl

theorem copyLoop_null {k : Kind} {other : Nest α} (hp : other.ptr = .block) {cs : List (Option (VecS α))} {ls : List (List α)}
    (hf : List.Forall₂ (Slot k) cs ls) (pre rest npre : List (Option (VecS α))) (m : Nat) (s : Nest α)
    (hc : other.cells = pre ++ cs ++ rest) (hs : s.ptr = .block) (hsc : s.cells = npre ++ List.replicate m none)
    (hl : npre.length = pre.length) (hm : cs.length ≤ m) :
    ∃ ncs led, copyLoop other cs.length pre.length s =
        .ok () { s with led := led, cells := npre ++ ncs ++ List.replicate (m - cs.length) none } ∧
      List.Forall₂ (SlotW k) ncs ls ∧ ((∃ v, some v ∈ cs ∧ v.ptr = .null) → ∃ v, some v ∈ ncs ∧ v.ptr = .wild) := by
  induction hf generalizing pre npre m s with
  | nil =>
    refine ⟨[], s.led, ?_, .nil, by simp⟩
    simp only [List.length_nil, copyLoop]
    simp [← hsc]
  | @cons c l cs ls h1 h2 ih =>
    obtain ⟨v, rfl, hr, hsp⟩ := h1
    obtain ⟨m, rfl⟩ : ∃ m', m = m' + 1 := ⟨m - 1, by simp at hm; omega⟩
    obtain ⟨t, t1, t2, t3⟩ : ∃ t, VecS.copyCtor { v with led := other.led } s.led = .ok () t ∧ SlotW k (some t) l ∧
        (v.ptr = .null → t.ptr = .wild) := by
      by_cases hpb : v.ptr = .block
      · obtain ⟨t, t1, t2, t3, t4, t5⟩ := VecS.copyCtor_run (rep_led hr other.led) hpb s.led
        refine ⟨t, t1, .inl ⟨t, rfl, t2, ?_⟩, fun e => by rw [e] at hpb; cases hpb⟩
        rcases hsp with hw' | hw'
        · rw [hw'.2] at hpb; cases hpb
        · right; have := t2.1; have := hr.1; simp only at t4; omega
      · have hn : v.ptr = .null := by
          obtain ⟨_, h | h⟩ := hr
          · exact h.1
          · exact absurd h.1 hpb
        exact ⟨_, VecS.copyCtor_null (rep_led hr other.led) hn s.led, .inr ⟨_, rfl, rfl⟩, fun _ => rfl⟩
    obtain ⟨ncs, led, e1, e2, e3⟩ := ih (pre ++ [some v]) (npre ++ [some t]) m
      { s with led := t.led, cells := npre ++ some t :: List.replicate m none } (by rw [hc]; simp) hs (by simp) (by simp [hl])
      (by simpa using hm)
    refine ⟨some t :: ncs, led, ?_, .cons t2 e2, ?_⟩
    · simp only [List.length_cons, copyLoop]
      rw [slot_at hp (v := v) (rest := cs ++ rest) (by rw [hc]; simp)]
      simp only [t1]
      have c1 : construct pre.length t s = .ok () { s with led := t.led, cells := npre ++ some t :: List.replicate m none } := by
        unfold construct
        have : pre.length < s.cells.length := by rw [hsc]; simp; omega
        simp only [hs, if_pos this]
        rw [hsc, ← hl, List.replicate_succ]
        simp
      refine (Cpp.bind_ok c1).trans ?_
      simp only [List.length_append, List.length_cons, List.length_nil, Nat.zero_add] at e1
      rw [e1]
      simp
    · rintro ⟨w, hw1, hw2⟩
      rcases List.mem_cons.1 hw1 with e | e
      · injection e with e; subst e; exact ⟨t, by simp, t3 hw2⟩
      · obtain ⟨x, hx1, hx2⟩ := e3 ⟨w, e, hw2⟩
        exact ⟨x, by simp [hx1], hx2⟩

theorem copyWhole_null {k : Kind} {B O : Int} {s : Nest α} {ls : List (List α)} (h : NRep k B O s ls)
    (hn : ∃ v : VecS α, some v ∈ s.cells ∧ v.ptr = .null) : copyWhole k s = .ub .wildPtr := by
  have hsz := h.size
  obtain ⟨v, hv, hvn⟩ := hn
  rcases h.shape with ⟨_, hc, _, _⟩ | ⟨hp, cs, m, hc, hcap, hm, hf⟩
  · rw [hc] at hv; simp at hv
  have hlen := hf.length_eq
  have hvc : some v ∈ cs := by
    rw [hc] at hv
    rcases List.mem_append.1 hv with e | e
    · exact e
    · cases (List.mem_replicate.1 e).2
  obtain ⟨ncs, led, e1, e2, e3⟩ := copyLoop_null hp hf [] (List.replicate m none) [] s.cap
    { led := { s.led with alloc := s.led.alloc + 1 }, ptr := .block, size := s.size, cap := s.cap,
      cells := List.replicate s.cap none } (by simpa using hc) rfl (by simp) rfl (by omega)
  simp only [List.nil_append, List.length_nil] at e1
  have hd := dtor_wild e2 (e3 ⟨v, hvc, hvn⟩) (List.replicate (s.cap - cs.length) none)
    { led := led, ptr := .block, size := s.size, cap := s.cap, cells := ncs ++ List.replicate (s.cap - cs.length) none } rfl rfl
    (by have := e2.length_eq; show s.size = _; omega)
  unfold copyWhole copyCtor
  simp only [hp]
  have e1' : copyLoop s s.size 0
      { led := { s.led with alloc := s.led.alloc + 1 }, ptr := .block, size := s.size, cap := s.cap,
        cells := List.replicate s.cap none } = .ok ()
      { led := led, ptr := .block, size := s.size, cap := s.cap, cells := ncs ++ List.replicate (s.cap - cs.length) none } := by
    have : cs.length = s.size := by omega
    rw [this] at e1 ⊢; exact e1
  rw [e1']
  simp only [hd]

/-- after `emplace_back()` the last element never allocated -/
theorem emplaceBack_null {k : Kind} {B O : Int} {s : Nest α} {ls : List (List α)} (h : NRep k B O s ls) :
    ∃ t, emplaceBack k s = .ok () t ∧ NRep k B O t (ls ++ [[]]) ∧ ∃ v : VecS α, some v ∈ t.cells ∧ v.ptr = .null := by
  obtain ⟨t, t1, t2, t3, cs, m, t4, t5, t6, t7⟩ := growPush_run h
  have hl := t7.length_eq
  have hsz := t2.size
  obtain ⟨u, u1, u2, u3, u4⟩ := addLast_run (B' := B) (O' := O) t2 t3 t4 t5 t6 t7 (v := VecS.mk0 t.led)
    (VecS.rep_mk0 k _) (VecS.spare_mk0 _) (by simp [VecS.mk0, hadBlock]) (fun _ => by simp [VecS.mk0])
  refine ⟨u, (Cpp.bind_ok t1).trans ((Cpp.bind_ok (Cpp.get_run t)).trans u1), u2, VecS.mk0 t.led, ?_, rfl⟩
  have : addLast (VecS.mk0 t.led) t = .ok () { t with size := t.size + 1, cells := cs ++ some (VecS.mk0 t.led) :: List.replicate m none } := by
    unfold addLast construct
    have : t.size < t.cells.length := by rw [t4]; simp; omega
    have hset : t.cells.set t.size (some (VecS.mk0 t.led)) = cs ++ some (VecS.mk0 t.led) :: List.replicate m none := by
      rw [t4, hsz, ← hl]; simp
    refine (Cpp.bind_ok (Cpp.get_run t)).trans
      (Eq.trans (Cpp.bind_ok (b := ()) (s' := { t with cells := cs ++ some (VecS.mk0 t.led) :: List.replicate m none }) ?_) rfl)
    simp only [t3, if_pos this, hset]
    rfl
  rw [u1] at this
  injection this with _ this
  rw [this]
  simp

end Nest
end Efp
