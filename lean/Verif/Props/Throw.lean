import Verif.ThrowLemmas2
import Verif.Props.ArrVec
import Verif.Props.Cyclic

/-!
# Exceptions thrown by an allocation or by an element's constructor (C90, C91)

Vocabulary (`Verif.Throw`): in a call with crash point `b` the first `b` allocations and copies of resource-owning
elements succeed and the next one throws.  `Thr.Vec.runOps mt k calls s` runs a history of calls, each with its own
crash point; the client catches every exception and carries on; the answer lists for each call whether it threw.
`mt` says whether element moves may throw as well.  Trivial elements never throw.
-/

namespace Efp
namespace Props

open Thr Cyclic

variable {α : Type}

/-! ## C90: Vector -/

/-- the calls of a history that did not throw -/
def completed {β : Type} (calls : List (VecS.Op β × Nat)) (threw : List Bool) : List (VecS.Op β) :=
  ((calls.zip threw).filter (fun p => !p.2)).map (fun p => p.1.1)

/-- **C90, partial.** A client that catches every exception and carries on: whatever the crash points, no call is
undefined, the vector holds exactly the list that the calls that did not throw produce on a plain list (each of which
is a call that does not throw there), and destroying it releases every block and, for resource-owning elements,
every element.  Missing from the full property: throwing moves, the constructors and the assignment (all refuted
below), and for resource-owning elements the positional calls, which are undefined even without exceptions (C04). -/
theorem C90_history_partial {k : Kind} (calls : List (VecS.Op α × Nat))
    (hm : k = .managed → ∀ p ∈ calls, ∀ m, Spec.endOp p.1 m) :
    ∃ s threw, Vec.runOps false k calls (VecS.mk0 {}) = .ok (s, threw) ∧ threw.length = calls.length ∧
      s.contents = .ok (Spec.vecRun (completed calls threw) []).1 ∧
      (∀ e ∈ (Spec.vecRun (completed calls threw) []).2, e = false) ∧
      ∃ t, VecS.dtor k s = .ok () t ∧ t.led.alloc = t.led.freed ∧ (k = .managed → t.led.made = t.led.gone) := by
  obtain ⟨s, evs, l, h1, h2, h3, h4, h5, h6⟩ := Vec.runOps_run calls (VecS.rep_mk0 k {}) (VecS.spare_mk0 {}) hm
  refine ⟨s, evs, h1, h2, ?_, ?_, ?_⟩
  · unfold completed; rw [h3]; exact h4.contents
  · unfold completed; rw [h3]
    intro e he
    have := (List.mem_filter.mp he).2
    simpa using this
  · obtain ⟨u, hu, hul⟩ := VecS.dtor_run h4
    refine ⟨u, hu, ?_, fun hk => ?_⟩
    · have := h6.blocks
      rw [hul]; simp [Ledger.blocks, VecS.mk0, VecS.hadBlock] at this ⊢; omega
    · have := h6.objs hk
      rw [hul]; simp [Ledger.objs, VecS.mk0] at this ⊢; omega

/-- the same for a client whose `reserve` fails, whose second push fails twice and who carries on -/
example : (Vec.runOps false .managed [(.push 1, 5), (.reserve 9, 0), (.push 2, 0), (.push 2, 1), (.push 2, 2), (.pop, 0), (.pop, 0),
    (.pop, 0), (.push 7, 9)] (VecS.mk0 {} : VecS Nat)).map (fun r => (r.2, r.1.led.made, r.1.led.gone)) =
    .ok ([false, true, true, true, false, false, false, true, false], 4, 3) := by decide +kernel

example : ∀ p ∈ [(VecS.Op.push 1, 5), (.reserve 9, 0), (.pop, 0), (.clear, 1), (.shrinkToFit, 0), (.setElem 0 4, 0)],
    ∀ m : List Nat, Spec.endOp p.1 m := by simp [Spec.endOp]

/-- **C90.** One call on any reachable vector, any crash point: it is the ordinary call, or it throws and leaves the
elements as they were and nothing lost (the strong guarantee); two successful steps are always enough. -/
theorem C90_call_strong {k : Kind} {s : VecS α} {l : List α} (hs : Spec.VecReachable k s l) (op : VecS.Op α)
    (hop : k = .managed → Spec.endOp op l) (b : Nat) :
    ((∃ u, op.run k s = .ok () u ∧ ∃ b', Vec.run false k op (s, b) = .ok () (u, b')) ∨
      ∃ t b', Vec.run false k op (s, b) = .thrown (t, b') ∧ t.contents = .ok l ∧
        (k = .managed → t.led.made + s.led.gone = s.led.made + t.led.gone) ∧
        t.led.alloc + s.led.freed + (if t.cap = 0 then 1 else 0) =
          s.led.alloc + t.led.freed + (if s.cap = 0 then 1 else 0)) ∧
      (2 ≤ b → ∃ b', Vec.run false k op (s, b) = (op.run k s).mapState (fun u => (u, b'))) := by
  obtain ⟨h, hsp⟩ := VecS.rep_of_reachable hs
  obtain ⟨h1, h2⟩ := Vec.run_outcome h hsp op hop b
  refine ⟨?_, h2⟩
  rcases h1 with ⟨b', hr⟩ | ⟨t, b', hr, ht, htsp, hb⟩
  · have hst := VecS.step_run h hsp op hop
    cases hv : Spec.vecStep op l with
    | none =>
      rw [hv] at hst
      exact .inr ⟨s, b', by rw [hr, lift_thrown hst], h.contents, fun _ => rfl, rfl⟩
    | some l1 =>
      rw [hv] at hst
      obtain ⟨u, hu, _⟩ := hst
      exact .inl ⟨u, hu, b', by rw [hr, lift_ok hu]⟩
  · have had : ∀ {v : VecS α}, VecS.Rep k v l → VecS.Spare v → (VecS.hadBlock v : Int) = 1 - if v.cap = 0 then 1 else 0 := by
      intro v hv hvs
      rcases hvs with ⟨hc, hp⟩ | hlt
      · simp [VecS.hadBlock, hp, hc]
      · have hc : v.cap ≠ 0 := by omega
        simp [hv.hadBlock_of_pos hc, hc]
    refine .inr ⟨t, b', hr, ht.contents, fun hk => ?_, ?_⟩
    · have := hb.objs hk; simp only [Ledger.objs] at this; omega
    · have := hb.blocks
      have := had h hsp
      have := had ht htsp
      simp only [Ledger.blocks] at *
      split <;> split <;> simp_all <;> omega

example : ∃ s : VecS Nat, Spec.VecReachable .managed s [1, 2, 3] := by
  obtain ⟨s, h, _⟩ := VecS.reachable_example (k := .managed) (some [1, 2]) [.push 3] [1, 2, 3] (fun _ => true)
    (by simp [Spec.endHistory, Spec.endOp, Spec.vecStep]) (by decide +kernel)
  exact ⟨s, h⟩

/-- **C90, refuted for the copy constructor.** If copying element `b` throws, the new block and the `b` elements
already copied into it are lost: no object exists whose destructor could release them. -/
theorem C90_copy_ctor_leaks {s : VecS α} {l : List α} (hs : Spec.VecReachable .managed s l) (led : Ledger) (b : Nat)
    (hb : b < l.length) :
    ∃ t, Vec.copyCtor .managed s led (b + 1) = .thrown (t, 0) ∧
      t.led = { led with alloc := led.alloc + 1, made := led.made + b } := by
  obtain ⟨h, _⟩ := VecS.rep_of_reachable hs
  have hne : l ≠ [] := by intro e; subst e; simp at hb
  obtain ⟨hp, hcap, _⟩ := h.block_of_pos hne
  have hsz := h.1
  have hle := h.size_le_cap
  refine ⟨{ cells := (l.take b).map .live ++ List.replicate (s.cap - b) .raw,
            led := { led with alloc := led.alloc + 1, made := led.made + b },
            ptr := .block, size := s.size, cap := s.cap }, ?_, rfl⟩
  unfold Vec.copyCtor
  simp only [hp]
  rw [Cpp.bind_ok (Vec.allocate_succ _ b)]
  exact Vec.copyLoop_crash h (cs := List.replicate b .raw) (rest := List.replicate (s.cap - b) .raw) hb rfl (by
    show List.replicate s.cap Cell.raw = _
    rw [List.replicate_append_replicate]; congr 1; omega) (by simp)

/-- **C90, refuted for initializer lists.** The same for `Vector<A> v {a, b, c}`. -/
theorem C90_initializer_list_leaks (l : List α) (led : Ledger) (b : Nat) (hb : b < l.length) :
    ∃ t, Vec.ofList .managed l led (b + 1) = .thrown (t, 0) ∧
      t.led = { led with alloc := led.alloc + 1, made := led.made + b } := by
  have hbl : (l.take b).length = b := by simp; omega
  have h2 := VecS.fillLoop_run (l.take b) [] (List.replicate b .raw) (List.replicate (l.length + 1 - b) .raw)
    { cells := List.replicate (l.length + 1) .raw, led := { led with alloc := led.alloc + 1 },
      ptr := .block, size := l.length, cap := l.length + 1 } rfl (by
      show List.replicate (l.length + 1) Cell.raw = _
      rw [List.nil_append, List.replicate_append_replicate]; congr 1; omega) (by simp [hbl])
  unfold Vec.ofList
  rw [Cpp.bind_ok (Vec.allocate_succ _ b)]
  exact ⟨_, Vec.fillLoop_crash b l 0 _ _ hb h2, by simp [hbl]⟩

example : ∃ t, Vec.ofList .managed [1, 2, 3] {} 3 = .thrown (t, 0) ∧ t.led = { alloc := 1, made := 2 } :=
  C90_initializer_list_leaks [1, 2, 3] {} 2 (by decide)

/-- **C90, refuted for assignment.** Copy assignment is declared `noexcept`: if the allocation or a copy throws, the
program is terminated, whatever the client catches. -/
theorem C90_assignment_terminates {s o : VecS α} {l lo : List α} (hs : Spec.VecReachable .managed s l)
    (ho : Spec.VecReachable .managed o lo) (mt : Bool) (b : Nat) (hb : if s.cap ≤ lo.length then b = 0 else b < lo.length) :
    Vec.copyAssign mt .managed o s b = .terminates := by
  obtain ⟨h, _⟩ := VecS.rep_of_reachable hs
  obtain ⟨h', _⟩ := VecS.rep_of_reachable ho
  have hsz := h.1
  have hosz := h'.1
  have hle := h.size_le_cap
  unfold Vec.copyAssign
  suffices hx : ∃ t, Vec.copyAssignBody mt .managed o (s, b) = .thrown t by
    obtain ⟨t, ht⟩ := hx; rw [ht]; rfl
  -- destroying the old elements succeeds
  obtain ⟨u, hu, hucap, husz, hucells, hup⟩ : ∃ u, VecS.destroyAll .managed s = .ok () u ∧ u.cap = s.cap ∧ u.size = s.size ∧
      u.cells.length = s.cells.length ∧ u.ptr = s.ptr := by
    rcases l with _ | ⟨x, l⟩
    · refine ⟨s, ?_, rfl, rfl, rfl, rfl⟩
      unfold VecS.destroyAll; rw [hsz]; rfl
    · obtain ⟨hp, hc, rest, hcells, _⟩ := h.block_of_pos (by simp)
      exact ⟨_, VecS.destroyAll_block (k := .managed) ((x :: l).map .live) rest hp hcells (by simp [hsz]) (by simp), rfl, rfl,
        by simp [hcells], rfl⟩
  unfold Vec.copyAssignBody
  rw [Cpp.bind_ok (lift_ok hu b), Cpp.bind_ok (lift_ok (Cpp.get_run u) b)]
  by_cases hc : s.cap ≤ lo.length
  · rw [if_pos hc] at hb
    subst hb
    rw [if_pos (by omega)]
    refine ⟨(u, 0), Cpp.bind_thrown ?_⟩
    unfold Vec.resize
    rw [Cpp.bind_ok (lift_ok (Cpp.get_run u) 0), if_pos (by omega)]
    exact Cpp.bind_thrown (Vec.reserve_zero _ _ _ _ (by omega))
  · rw [if_neg hc] at hb
    rw [if_neg (by omega)]
    have hpb : s.ptr = .block ∧ s.cap = s.cells.length := by
      obtain ⟨_, h | ⟨hp, hcap, _⟩⟩ := h
      · have := h.2.2.1; omega
      · exact ⟨hp, hcap⟩
    exact ⟨_, Vec.copyLoop_crash h' (cs := u.cells.take b) (rest := u.cells.drop b) hb (hup.trans hpb.1)
      (List.take_append_drop ..).symm (by rw [List.length_take]; omega)⟩

example : Vec.copyAssign false .managed ⟨⟨[.live 1, .live 2, .raw], {}⟩, .block, 2, 3⟩
    ⟨⟨[.live 5, .raw, .raw, .raw], {}⟩, .block, 1, 4⟩ 1 = (.terminates : Call (VecS Nat × Nat) Unit) := by decide +kernel

/-- **C90, refuted for throwing moves.** If move number `b` of a reallocation throws, the new block and the `b`
elements moved into it are lost and the first `b` elements of the vector are moved-from: compared with destroying the
vector before the call, one more block was allocated and `b` more elements were made, and not one more released. -/
theorem C90_throwing_move_leaks {s : VecS α} {l : List α} (hs : Spec.VecReachable .managed s l) (n b : Nat)
    (hn : n > s.cap) (hb : b < l.length) :
    ∃ t, Vec.reserve true .managed n (s, b + 1) = .thrown (t, 0) ∧
      (∀ i, i < b → VecS.at_ i t = .ub .movedRead) ∧
      ∃ u v, VecS.dtor .managed t = .ok () u ∧ VecS.dtor .managed s = .ok () v ∧
        u.led.alloc = v.led.alloc + 1 ∧ u.led.freed = v.led.freed ∧
        u.led.made = v.led.made + b ∧ u.led.gone = v.led.gone := by
  obtain ⟨h, _⟩ := VecS.rep_of_reachable hs
  have hsz := h.1
  obtain ⟨t, h1, h2, h3, h4, rest, h5⟩ := Vec.reserve_crash h hn hb
  have hd := VecS.destroyAll_block (k := .managed) (s := t) (List.replicate b .moved ++ (l.drop b).map .live) rest h4 h5
    (by rw [h3, hsz]; simp; omega) (by
      intro _ c hc
      rcases List.mem_append.mp hc with hc | hc
      · rw [List.eq_of_mem_replicate hc]; rfl
      · obtain ⟨a, _, rfl⟩ := List.mem_map.mp hc; rfl)
  refine ⟨t, h1, ?_, ?_⟩
  · intro i hi
    unfold VecS.at_
    rw [VecS.onMem_block h4]
    unfold Mem.read
    have : t.cells[i]? = some .moved := by
      rw [h5, List.append_assoc, List.getElem?_append_left (by simpa using hi)]
      simp [List.getElem?_replicate, hi]
    rw [show t.toMem.cells[i]? = some .moved from this]
    rfl
  · obtain ⟨v, hv, hvl⟩ := VecS.dtor_run h
    have hne : l ≠ [] := by intro e; subst e; simp at hb
    have hp := (h.block_of_pos hne).1
    refine ⟨{ t with cells := [], ptr := .null, led := { t.led with gone := t.led.gone + l.length, freed := t.led.freed + 1 } },
      v, ?_, hv, ?_⟩
    · unfold VecS.dtor
      simp only [h4]
      rw [Cpp.bind_ok hd]
      have hbl : b + (l.length - b) = l.length := by omega
      simp [Cpp.bind_run, VecS.dealloc, h4, hbl]
    · rw [hvl, h2]
      simp [VecS.hadBlock, hp]

/-! ## C91: ArrVec, Vcb, Vcq -/

/-- **C91, refuted for `ArrVec::push_back`.** If the copy throws, `size()` has already grown: the container claims an
element that was never constructed, and its destructor is undefined. -/
theorem C91_arrvec_push_broken {n : Nat} {s : AvS α} {l : List α} (hs : Spec.AvReachable .managed n s l) (a : α)
    (hl : l.length < n) :
    ∃ t, Av.pushBack .managed a (s, 0) = .thrown (t, 0) ∧ t.size = l.length + 1 ∧
      AvS.at_ l.length t = .ub .deadRead ∧ AvS.dtor .managed t = .ub .deadDestroy := by
  have h := av_rep_of_reachable hs
  have hsz := h.size
  have hcap := h.cap
  obtain ⟨rest, hcells, hlen, hraw⟩ := h.cells
  have hlen' : l.length + rest.length = n := by simpa using hlen
  have hc : s.cells[l.length]? = some .raw := by
    rw [hcells, List.getElem?_append_right (by simp)]
    simp only [List.length_map, Nat.sub_self]
    obtain ⟨c, rest, rfl⟩ : ∃ c r, rest = c :: r := by
      cases rest with
      | nil => simp at hlen'; omega
      | cons c r => exact ⟨c, r, rfl⟩
    simp [hraw rfl c (by simp)]
  refine ⟨{ s with size := s.size + 1 }, ?_, by simp [hsz], ?_, ?_⟩
  · unfold Av.pushBack
    rw [Cpp.bind_ok (lift_ok (Cpp.get_run s) 0), if_neg (by omega), Cpp.bind_ok (lift_ok (Cpp.modify_run _ s) 0)]
    rfl
  · unfold AvS.at_ AvS.onM Mem.read
    simp only [hc]; rfl
  · exact Av.dtor_dead (s := { s with size := s.size + 1 }) (i := l.length)
      (by show s.size + 1 ≤ s.cells.length; rw [hcells, hlen]; omega) (by show l.length < s.size + 1; omega) hc

example : ∃ s : AvS Nat, Spec.AvReachable .managed 4 s [1, 2, 3] := by
  obtain ⟨s, h, _⟩ := av_reachable_example (k := .managed) (n := 4) [.makeOf [1, 2], .on 0 (.push 3)] 0 [1, 2, 3]
    (fun _ => true) (by simp [Spec.avManagedOk]) (by decide +kernel) (by decide +kernel)
  exact ⟨s, h⟩

/-- **C91.** `ArrVec::insert` at the end grows `size()` last: if the copy throws, nothing has changed at all. -/
theorem C91_arrvec_insert_end_strong {n : Nat} {s : AvS α} {l : List α} (hs : Spec.AvReachable .managed n s l) (a : α) :
    Av.insert .managed l.length a (s, 0) = .thrown (s, 0) := by
  have h := av_rep_of_reachable hs
  have hsz := h.size
  unfold Av.insert
  rw [Cpp.bind_ok (lift_ok (Cpp.get_run s) 0)]
  split
  · rfl
  · rw [show s.size - l.length = 0 by omega]
    rfl

/-- **C91, refuted for `ArrVec::insert` before an element.** If the copy throws, the shifted elements leave a hole
and the destructor is undefined. -/
theorem C91_arrvec_insert_middle_broken {n : Nat} {s : AvS α} {l : List α} (hs : Spec.AvReachable .managed n s l)
    (i : Nat) (a : α) (hi : i < l.length) (hl : l.length < n) :
    ∃ t, Av.insert .managed i a (s, 0) = .thrown (t, 0) ∧ AvS.dtor .managed t = .ub .deadDestroy := by
  have h := av_rep_of_reachable hs
  have hsz := h.size
  have hcap := h.cap
  obtain ⟨rest, hcells, hlen, hraw⟩ := h.cells
  have hlen' : l.length + rest.length = n := by simpa using hlen
  obtain ⟨c, rest, rfl⟩ : ∃ c r, rest = c :: r := by
    cases rest with
    | nil => simp at hlen'; omega
    | cons c r => exact ⟨c, r, rfl⟩
  obtain ⟨x, hx, hsh⟩ := AvS.shiftUp_run .managed (l.length - i) (l.drop i) (by simp) ((l.take i).map .live) rest c s.led
    (fun hk => hraw hk c (by simp))
  have hti : ((l.take i).map (Cell.live : α → Cell α)).length = i := by simp; omega
  rw [hti, ← List.map_append, List.take_append_drop, show i + (l.length - i) = l.length by omega,
    ← AvS.toMem_eq hcells, ← hsz] at hsh
  have e := AvS.onM_ok hsh
  refine ⟨{ s with
    cells := (l.take i).map .live ++ x :: (l.drop i).map .live ++ rest
    led := { s.led with made := s.led.made + (s.size - i), gone := s.led.gone + (s.size - i) } }, ?_, ?_⟩
  · unfold Av.insert
    rw [Cpp.bind_ok (lift_ok (Cpp.get_run s) 0), if_neg (by omega), Cpp.bind_ok (lift_ok e 0)]
    rfl
  · refine Av.dtor_dead (i := i) ?_ (by show i < s.size; omega) ?_
    · show s.size ≤ (List.map Cell.live (l.take i) ++ x :: List.map Cell.live (l.drop i) ++ rest).length
      simp; omega
    · show (List.map Cell.live (l.take i) ++ x :: List.map Cell.live (l.drop i) ++ rest)[i]? = _
      rw [List.append_assoc, List.getElem?_append_right (by rw [hti]; omega), hti, hx rfl]
      simp

/-- **C91, refuted for the copy constructor of `ArrVec`.** If copying element `b` throws, the `b` elements already
copied are never destroyed: the object does not exist. -/
theorem C91_arrvec_copy_ctor_leaks {n : Nat} {s : AvS α} {l : List α} (hs : Spec.AvReachable .managed n s l) (b : Nat)
    (hb : b < l.length) :
    ∃ t, Av.copyCtor .managed s b = .thrown (t, 0) ∧ t.led = { made := b } ∧ aliveCount t.cells = b := by
  have h := av_rep_of_reachable hs
  have hle := h.le
  have hcap := h.cap
  refine ⟨_, Av.copyLoop_crash h (cs := List.replicate b .raw) (rest := List.replicate (s.cap - b) .raw) hb (by
    show List.replicate s.cap Cell.raw = _
    rw [List.replicate_append_replicate]; congr 1; omega) (by simp), by simp, ?_⟩
  simp only [aliveCount_append, aliveCount_map_live]
  rw [aliveCount_all_raw (fun c hc => List.eq_of_mem_replicate hc)]
  simp; omega

/-- **C91, refuted for copy assignment of `ArrVec`.** `size()` is set before the copies: if copying element `b`
throws, the destructor (and every later call that destroys the elements) is undefined. -/
theorem C91_arrvec_assignment_broken {n : Nat} {s o : AvS α} {l lo : List α} (hs : Spec.AvReachable .managed n s l)
    (ho : Spec.AvReachable .managed n o lo) (b : Nat) (hb : b < lo.length) :
    ∃ t, Av.copyAssign .managed o (s, b) = .thrown (t, 0) ∧ t.size = lo.length ∧
      AvS.dtor .managed t = .ub .deadDestroy := by
  have h := av_rep_of_reachable hs
  have h' := av_rep_of_reachable ho
  have hle := h'.le
  obtain ⟨u, hu, _, hucap, hulen, huraw, _, _⟩ := AvS.destroyAll_run h
  refine ⟨{ u with
    size := o.size, cells := (lo.take b).map .live ++ u.cells.drop b
    led := { u.led with made := u.led.made + b } }, ?_, ?_, ?_⟩
  · unfold Av.copyAssign
    rw [Cpp.bind_ok (lift_ok hu b), Cpp.bind_ok (lift_ok (Cpp.modify_run _ u) b)]
    exact Av.copyLoop_crash h' (s := { u with size := o.size }) (cs := u.cells.take b) (rest := u.cells.drop b) hb
      (List.take_append_drop ..).symm (by rw [List.length_take]; omega)
  · exact h'.size
  · have hsz := h'.size
    refine Av.dtor_dead (i := b) ?_ (by show b < o.size; omega) ?_
    · show o.size ≤ (List.map Cell.live (lo.take b) ++ u.cells.drop b).length
      simp; omega
    · show (List.map Cell.live (lo.take b) ++ u.cells.drop b)[b]? = _
      have htb : ((lo.take b).map (Cell.live : α → Cell α)).length = b := by simp; omega
      rw [List.getElem?_append_right (by omega), htb, Nat.sub_self, List.getElem?_drop, Nat.add_zero]
      have hlt : b < u.cells.length := by omega
      rw [List.getElem?_eq_getElem hlt]
      exact congrArg some (huraw rfl _ (List.getElem_mem hlt))

/-- **C91.** With enough successful steps the calls are the ordinary ones (C10-C13): one for `push_back` and `insert`,
one per element for copies. -/
theorem C91_arrvec_enough {n : Nat} {s o : AvS α} {l lo : List α} (hs : Spec.AvReachable .managed n s l)
    (ho : Spec.AvReachable .managed n o lo) (a : α) (i b : Nat) :
    (∃ b', Av.pushBack .managed a (s, b + 1) = (AvS.pushBack a s).mapState (fun t => (t, b'))) ∧
    (∃ b', Av.insert .managed i a (s, b + 1) = (AvS.insert .managed i a s).mapState (fun t => (t, b'))) ∧
    (lo.length ≤ b → ∃ b', Av.copyCtor .managed o b = (AvS.copyCtor o).mapState (fun t => (t, b'))) ∧
    (lo.length ≤ b → ∃ b', Av.copyAssign .managed o (s, b) = (AvS.copyAssign .managed o s).mapState (fun t => (t, b'))) := by
  have h := av_rep_of_reachable hs
  have h' := av_rep_of_reachable ho
  have hsz := h.size
  have hosz := h'.size
  have hcap := h.cap
  refine ⟨?_, ?_, fun hb => ?_, fun hb => ?_⟩
  · unfold Av.pushBack AvS.pushBack
    rw [Cpp.bind_ok (lift_ok (Cpp.get_run s) (b + 1)), Cpp.bind_ok (Cpp.get_run s)]
    by_cases hl : s.size ≥ s.cap
    · rw [if_pos hl, if_pos hl]; exact ⟨b + 1, rfl⟩
    · rw [if_neg hl, if_neg hl]
      refine ⟨b, ?_⟩
      rw [Cpp.bind_ok (lift_ok (Cpp.modify_run _ s) (b + 1)),
        Cpp.bind_ok (show tickE .managed (({ s with size := s.size + 1 } : AvS α), b + 1) = .ok () (_, b) from rfl)]
      simp only [lift, Cpp.bind_run, AvS.onM, Mem.construct]
      have hlt : s.size < s.cells.length := by
        obtain ⟨rest, hc, hcl, _⟩ := h.cells
        rw [hc, hcl]; omega
      rw [if_pos hlt]
      rfl
  · unfold Av.insert AvS.insert
    rw [Cpp.bind_ok (lift_ok (Cpp.get_run s) (b + 1)), Cpp.bind_ok (Cpp.get_run s)]
    by_cases hl : i > s.size ∨ s.size = s.cap
    · rw [if_pos hl, if_pos hl]; exact ⟨b + 1, rfl⟩
    · rw [if_neg hl, if_neg hl]
      have key : ∀ m r : Cpp (AvS α) Unit, ∃ b',
          ((lift m >>= fun _ => tickE Kind.managed >>= fun _ => lift r) : Cpp (AvS α × Nat) Unit) (s, b + 1) =
            ((m >>= fun _ => r) s).mapState (fun t => (t, b')) := by
        intro m r
        rw [Cpp.bind_run, Cpp.bind_run]
        simp only [lift]
        cases m s with
        | ok u t => exact ⟨b, rfl⟩
        | thrown t => exact ⟨b + 1, rfl⟩
        | ub w => exact ⟨0, rfl⟩
      obtain ⟨b', e⟩ := key (AvS.onM (forDown (AvS.shiftUpOne .managed) s.size (s.size - i))) (do
        AvS.onM (Mem.construct i a)
        Cpp.modify (fun s => { s with size := s.size + 1 }))
      exact ⟨b', by rw [lift_bind] at e; exact e⟩
  · obtain ⟨u, hu, _⟩ := AvS.copyCtor_run h'
    refine ⟨b - o.size, ?_⟩
    rw [hu]
    exact loop_enough (AvS.copyOne o) o.size 0 b _ (by omega) u hu
  · obtain ⟨u, hu, _⟩ := AvS.copyAssign_run h h'
    refine ⟨b - o.size, ?_⟩
    rw [hu]
    obtain ⟨v, hv, _⟩ := AvS.destroyAll_run h
    unfold AvS.copyAssign at hu
    rw [Cpp.bind_ok hv, Cpp.bind_ok (Cpp.modify_run _ _)] at hu
    unfold Av.copyAssign
    rw [Cpp.bind_ok (lift_ok hv b), Cpp.bind_ok (lift_ok (Cpp.modify_run _ v) b)]
    exact loop_enough (AvS.copyOne o) o.size 0 b _ (by omega) u hu

/-! Vcb and Vcq -/

/-- **C91, refuted for `Vcb::push_back`.** The old element is destroyed before the new value is copied, twice: if
either copy throws, the buffer keeps a slot without an element and its destructor is undefined. -/
theorem C91_vcb_push_broken {n : Nat} (hn : 0 < n) (d : α) (xs : List α) (a : α) (b : Nat) (hb : b < 2) :
    ∃ s0 s t, Vcb.mk0 n d = .ok () s0 ∧ Vcb.pushes .managed xs s0 = .ok () s ∧
      Thr.Cyc.vcbPush .managed a (s, b) = .thrown (t, 0) ∧ Vcb.dtor .managed t = .ub .deadDestroy := by
  obtain ⟨s0, s, vs, h1, h2, h3, h4, h⟩ := Props.Cyc.vcb_state hn .managed d xs
  obtain ⟨t, h5, h6⟩ := Thr.Cyc.vcbPush_crash h a hb
  exact ⟨s0, s, t, h1, h2, h5, h6⟩

example : (Thr.Cyc.vcbPush .managed 9 (⟨2, { cells := [.live 1, .live 2, .live 1, .live 2] }, 1⟩, 1) :
    Out (VcbS Nat × Nat) Unit) =
    .thrown (⟨2, { cells := [.live 1, .live 9, .live 1, .raw], led := { made := 1, gone := 2 } }, 1⟩, 0) := by decide +kernel

/-- **C91, refuted for `Vcq::push_back` on a full queue.** The same: the oldest element is destroyed first. -/
theorem C91_vcq_push_full_broken {n : Nat} (hn : 0 < n) {ops : List (Spec.QOp α)} {q outs : List α}
    (hf : Spec.fifo n ops [] = some (q, outs)) (hq : q.length = n) (a : α) (b : Nat) (hb : b < 2) :
    ∃ s t, Vcq.runOps .managed ops (Vcq.mk0 n) = .ok outs s ∧
      Thr.Cyc.vcqPush .managed a (s, b) = .thrown (t, 0) ∧ Vcq.dtor .managed t = .ub .deadDestroy := by
  obtain ⟨s, h1, h2, h, _⟩ := Props.Cyc.vcq_state hn .managed hf
  obtain ⟨t, h3, h4⟩ := Thr.Cyc.vcqPush_full_crash h (by rw [h2]; exact hq) a hb
  exact ⟨s, t, h1, h3, h4⟩

example : Spec.fifo 2 [.push 1, .push 2, .pop, .push 3] [] = some ([2, 3], [1]) := by decide +kernel

/-- **C91, `Vcq::push_back` on a queue with room.** If the first copy throws nothing has changed; if the second one
throws the queue is as before but one element stays constructed that the destructor does not destroy. -/
theorem C91_vcq_push_room {n : Nat} (hn : 0 < n) {ops : List (Spec.QOp α)} {q outs : List α}
    (hf : Spec.fifo n ops [] = some (q, outs)) (hq : q.length < n) (a : α) :
    ∃ s t u, Vcq.runOps .managed ops (Vcq.mk0 n) = .ok outs s ∧
      Thr.Cyc.vcqPush .managed a (s, 0) = .thrown (s, 0) ∧
      Thr.Cyc.vcqPush .managed a (s, 1) = .thrown (t, 0) ∧ Vcq.contents t = .ok q t ∧
      Vcq.dtor .managed t = .ok () u ∧ u.mem.led.made = u.mem.led.gone + 1 := by
  obtain ⟨s, h1, h2, h, _⟩ := Props.Cyc.vcq_state hn .managed hf
  obtain ⟨h3, h4⟩ := Thr.Cyc.vcqPush_room_crash h (by rw [h2]; exact hq) a
  have hrd := h.rd
  have hwr := h.wr_lt
  have hwr' := h.wr
  have hsz := h.size
  have hcl := h.cells
  have hne : ∀ i, i < q.length → wrap s.n s.rd i ≠ s.wr := by
    intro i hi
    rw [hwr', hsz]
    unfold wrap
    repeat' split
    all_goals omega
  have hne' : ∀ i, i < q.length → s.wr ≠ s.rd + i := by
    intro i hi
    rw [hwr', hsz]
    unfold wrap
    split <;> omega
  have hset : ∀ j, s.wr ≠ j → (s.mem.cells.set s.wr (.live a))[j]? = s.mem.cells[j]? := by
    intro j hj; rw [List.getElem?_set, if_neg hj]
  obtain ⟨u, h5, h6, h7⟩ := Thr.Cyc.vcq_dtor_run (s := { s with mem := ⟨s.mem.cells.set s.wr (.live a),
      { s.mem.led with made := s.mem.led.made + 1 }⟩ }) (l := q) hrd (by simpa using hcl) hsz (by show q.length ≤ s.n; omega)
    (fun i x hx => by
      have hi := (List.getElem?_eq_some_iff.mp hx).1
      rw [hset _ (fun e => hne i hi e.symm)]; exact h.lo i x hx)
    (fun i x hx => by
      have hi := (List.getElem?_eq_some_iff.mp hx).1
      show (s.mem.cells.set s.wr (.live a))[s.n + wrap s.n s.rd i]? = _
      rw [hset _ (by omega)]; exact h.hi i x hx)
  refine ⟨s, _, u, h1, h3, h4, ?_, h5, ?_⟩
  · unfold Vcq.contents
    simp only [hsz]
    refine Vcq.readSlots_run q s.rd ?_
    intro i x hx
    have hi := (List.getElem?_eq_some_iff.mp hx).1
    show (s.mem.cells.set s.wr (.live a))[s.rd + i]? = _
    rw [hset _ (hne' i hi)]
    exact h.window i x hx
  · have := h.led
    simp only at h6 h7
    omega

example : Spec.fifo 3 [.push 1, .push 2, .pop, .push 3] [] = some ([2, 3], [1]) := by decide +kernel

/-- **C91.** With two successful steps both `push_back`s are the ordinary ones (C23-C28). -/
theorem C91_cyclic_enough (s : VcbS α) (q : VcqS α) (a : α) (b : Nat) :
    (∃ b', Thr.Cyc.vcbPush .managed a (s, b + 2) = (Vcb.pushBack .managed a s).mapState (fun t => (t, b'))) ∧
    (∃ b', Thr.Cyc.vcqPush .managed a (q, b + 2) = (Vcq.pushBack .managed a q).mapState (fun t => (t, b'))) := by
  refine ⟨?_, ?_⟩
  · obtain ⟨b', e⟩ := Thr.Cyc.two_ticks (do
        Vcb.onMem (Mem.destroy .managed s.off)
        Vcb.onMem (Mem.destroy .managed (s.off + s.n)))
      (Vcb.onMem (Mem.construct s.off a)) (do
        Vcb.onMem (Mem.construct (s.off + s.n) a)
        Cpp.modify (fun t : VcbS α => { t with off := advance t.n t.off })) s b
    refine ⟨b', ?_⟩
    simp only [lift_bind, bind_assoc'] at e
    exact e
  · obtain ⟨b', e⟩ := Thr.Cyc.two_ticks (Vcq.dropOldest .managed) (Vcq.onMem (Mem.construct q.wr a)) (do
        Vcq.onMem (Mem.construct (q.wr + q.n) a)
        Cpp.modify Vcq.pushed) q b
    refine ⟨b', ?_⟩
    rw [lift_bind] at e
    exact e

end Props
end Efp
