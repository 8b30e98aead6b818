import Verif.ThrowLemmas
import Verif.ArrVecLemmas
import Verif.CyclicLemmas

/-!
# Histories with exceptions, and what the functions without a roll-back leave behind
-/

namespace Efp
namespace Thr

variable {σ α β : Type}

/-- a loop whose every round may throw first, stopped at round `b` -/
theorem loop_crash (f : Nat → Cpp σ Unit) (b : Nat) : ∀ (lo n : Nat) (s t : σ), forUp f lo b s = .ok () t → b < n →
    forUp (fun i => do tick; lift (f i)) lo n (s, b) = .thrown (t, 0) := by
  induction b with
  | zero =>
    intro lo n s t h hn
    obtain ⟨n, rfl⟩ : ∃ m, n = m + 1 := ⟨n - 1, by omega⟩
    cases h
    rw [forUp_succ]
    exact Cpp.bind_thrown (Cpp.bind_thrown (tick_zero s))
  | succ b ih =>
    intro lo n s t h hn
    obtain ⟨n, rfl⟩ : ∃ m, n = m + 1 := ⟨n - 1, by omega⟩
    rw [forUp_succ] at h ⊢
    rw [Cpp.bind_run] at h
    cases hf : f lo s with
    | ok u s' =>
      rw [hf] at h
      have h1 : (do tick; lift (f lo) : Cpp (σ × Nat) Unit) (s, b + 1) = .ok () (s', b) := by
        rw [Cpp.bind_ok (tick_succ s b), lift_ok hf]
      rw [Cpp.bind_ok h1]
      exact ih (lo + 1) n s' t h (by omega)
    | thrown s' => rw [hf] at h; cases h
    | ub w => rw [hf] at h; cases h

/-- a loop whose every round may throw first, with enough successful steps -/
theorem loop_enough (f : Nat → Cpp σ Unit) (n : Nat) : ∀ (lo b : Nat) (s : σ), n ≤ b → ∀ t, forUp f lo n s = .ok () t →
    forUp (fun i => do tick; lift (f i)) lo n (s, b) = .ok () (t, b - n) := by
  induction n with
  | zero => intro lo b s _ t h; cases h; rfl
  | succ n ih =>
    intro lo b s hb t h
    obtain ⟨b, rfl⟩ : ∃ m, b = m + 1 := ⟨b - 1, by omega⟩
    rw [forUp_succ] at h ⊢
    rw [Cpp.bind_run] at h
    cases hf : f lo s with
    | ok u s' =>
      rw [hf] at h
      have h1 : (do tick; lift (f lo) : Cpp (σ × Nat) Unit) (s, b + 1) = .ok () (s', b) := by
        rw [Cpp.bind_ok (tick_succ s b), lift_ok hf]
      rw [Cpp.bind_ok h1, ih (lo + 1) b s' (by omega) t h]
      congr 2; omega
    | thrown s' => rw [hf] at h; cases h
    | ub w => rw [hf] at h; cases h

/-- destroying a range in which some slot holds no object is undefined -/
theorem destroy_dead (n : Nat) : ∀ (lo : Nat) (m : Mem α), lo + n ≤ m.cells.length →
    (∃ i, lo ≤ i ∧ i < lo + n ∧ m.cells[i]? = some .raw) →
    forUp (fun i => Mem.destroy .managed i) lo n m = .ub .deadDestroy := by
  induction n with
  | zero => intro lo m _ ⟨i, h1, h2, _⟩; omega
  | succ n ih =>
    intro lo m hl ⟨i, h1, h2, h3⟩
    rw [forUp_succ]
    have hlt : lo < m.cells.length := by omega
    obtain ⟨c, hc⟩ : ∃ c, m.cells[lo]? = some c := ⟨m.cells[lo], by simp [hlt]⟩
    by_cases ha : c.alive = true
    · have hd : Mem.destroy .managed lo m =
          .ok () ⟨m.cells.set lo .raw, { m.led with gone := m.led.gone + 1 }⟩ := by
        unfold Mem.destroy; rw [hc]; simp only [ha, if_true]
      rw [Cpp.bind_ok hd]
      have hne : lo ≠ i := by
        rintro rfl
        rw [hc] at h3; cases h3; cases ha
      refine ih (lo + 1) _ (by simp; omega) ⟨i, by omega, by omega, ?_⟩
      simp only [List.getElem?_set]
      rw [if_neg hne]; exact h3
    · refine Cpp.bind_ub ?_
      unfold Mem.destroy; rw [hc]; simp only [ha]; rfl

namespace Vec

open VecS

/-- the calls of a history that did not throw -/
theorem runOps_run {k : Kind} (ops : List (Op α × Nat)) : ∀ {s : VecS α} {l : List α}, Rep k s l → Spare s →
    (k = .managed → ∀ p ∈ ops, ∀ m, Spec.endOp p.1 m) →
    ∃ t evs l', runOps false k ops s = .ok (t, evs) ∧ evs.length = ops.length ∧
      Spec.vecRun (((ops.zip evs).filter (fun p => !p.2)).map (fun p => p.1.1)) l =
        (l', ((evs.filter (fun e => !e)))) ∧
      Rep k t l' ∧ Spare t ∧ Balance k s t l l' := by
  induction ops with
  | nil => intro s l h hsp _; exact ⟨s, [], l, rfl, rfl, rfl, h, hsp, Balance.refl _ _ _⟩
  | cons p ops ih =>
    obtain ⟨op, b⟩ := p
    intro s l h hsp hops
    have hop : k = .managed → Spec.endOp op l := fun hk => hops hk (op, b) (List.mem_cons_self ..) l
    have hrest : k = .managed → ∀ p ∈ ops, ∀ m, Spec.endOp p.1 m := fun hk q hq =>
      hops hk q (List.mem_cons_of_mem _ hq)
    -- the rest of the history after a call that changed nothing a client can see
    have same : ∀ (u : VecS α), Rep k u l → Spare u → Balance k s u l l → ∀ b',
        run false k op (s, b) = .thrown (u, b') →
        ∃ t evs l', runOps false k ((op, b) :: ops) s = .ok (t, evs) ∧ evs.length = ((op, b) :: ops).length ∧
          Spec.vecRun ((((op, b) :: ops).zip evs |>.filter (fun p => !p.2)).map (fun p => p.1.1)) l =
            (l', ((evs.filter (fun e => !e)))) ∧ Rep k t l' ∧ Spare t ∧ Balance k s t l l' := by
      intro u hu hus hb b' hr
      obtain ⟨t, evs, l', h1, h2, h3, h4, h5, h6⟩ := ih hu hus hrest
      refine ⟨t, true :: evs, l', ?_, by simp [h2], ?_, h4, h5, ?_, ?_, ?_⟩
      · simp only [runOps, hr, h1]; rfl
      · simpa using h3
      · intro hk; have := h6.objs hk; have := hb.objs hk; omega
      · rw [h6.blocks, hb.blocks]
      · intro h0
        obtain ⟨a1, a2⟩ := h6.fresh h0
        obtain ⟨b1, b2⟩ := hb.fresh a1
        exact ⟨b1, a2.trans b2⟩
    rcases (run_outcome h hsp op hop b).1 with ⟨b', hr⟩ | ⟨u, b', hr, hu, hus, hb⟩
    · have hs := step_run h hsp op hop
      cases hv : Spec.vecStep op l with
      | none =>
        rw [hv] at hs
        exact same s h hsp (Balance.refl _ _ _) b' (by rw [hr, lift_thrown hs])
      | some l1 =>
        rw [hv] at hs
        obtain ⟨u, hu, hur, hus, hb⟩ := hs
        obtain ⟨t, evs, l', h1, h2, h3, h4, h5, h6⟩ := ih hur hus hrest
        refine ⟨t, false :: evs, l', ?_, by simp [h2], ?_, h4, h5, ?_, ?_, ?_⟩
        · simp only [runOps, hr, lift_ok hu, h1]; rfl
        · simp only [List.zip_cons_cons, Bool.not_false, List.filter_cons_of_pos, List.map_cons, Spec.vecRun, hv, h3]
        · intro hk; have := h6.objs hk; have := hb.objs hk; omega
        · rw [h6.blocks, hb.blocks]
        · intro h0
          obtain ⟨a1, a2⟩ := h6.fresh h0
          obtain ⟨b1, b2⟩ := hb.fresh a1
          exact ⟨b1, a2.trans b2⟩
    · exact same u hu hus hb b' hr

/-- the copy loop stopped at element `b` -/
theorem copyLoop_crash {other : VecS α} {l : List α} (ho : Rep .managed other l) {s : VecS α} {b : Nat}
    {cs rest : List (Cell α)} (hb : b < l.length) (hp : s.ptr = .block) (hcells : s.cells = cs ++ rest)
    (hlen : cs.length = b) :
    copyLoop .managed other 0 other.size (s, b) = .thrown ({ s with
      cells := (l.take b).map .live ++ rest, led := { s.led with made := s.led.made + b } }, 0) := by
  have hne : l ≠ [] := by intro e; subst e; simp at hb
  obtain ⟨hop, hocap, orest, hocells, _⟩ := ho.block_of_pos hne
  have hsz := ho.1
  have h1 := copyLoop_eq_fillLoop other hop (l.take b) [] ((l.drop b).map .live ++ orest) (by
    rw [hocells, List.nil_append, ← List.append_assoc, ← List.map_append, List.take_append_drop]) s
  have hbl : (l.take b).length = b := by simp; omega
  have h2 := fillLoop_run (l.take b) [] cs rest s hp (by simpa using hcells) (by rw [hbl, hlen])
  simp only [List.length_nil, hbl, List.nil_append] at h1 h2
  exact loop_crash (VecS.copyOne other) b 0 other.size s _ (h1.trans h2) (by omega)

/-- the initializer-list loop stopped at element `b` -/
theorem fillLoop_crash (b : Nat) : ∀ (l : List α) (i : Nat) (s t : VecS α), b < l.length →
    VecS.fillLoop i (l.take b) s = .ok () t → fillLoop .managed i l (s, b) = .thrown (t, 0) := by
  induction b with
  | zero =>
    intro l i s t hb h
    cases l with
    | nil => simp at hb
    | cons a l => cases h; rfl
  | succ b ih =>
    intro l i s t hb h
    cases l with
    | nil => simp at hb
    | cons a l =>
      simp only [List.take_succ_cons, VecS.fillLoop, Cpp.bind_run] at h
      simp only [fillLoop]
      cases hc : VecS.onMem (Mem.construct i a) s with
      | ok u s' =>
        rw [hc] at h
        rw [Cpp.bind_ok (show tickE .managed (s, b + 1) = .ok () (s, b) from rfl), Cpp.bind_ok (lift_ok hc b)]
        exact ih l (i + 1) s' t (by simpa using hb) h
      | thrown s' => rw [hc] at h; cases h
      | ub w => rw [hc] at h; cases h

/-- relocation with throwing moves stopped at element `b` -/
theorem relocate_crash (b : Nat) : ∀ (n i : Nat) (new new' : List (Cell α)) (s t : VecS α), b < n →
    VecS.relocate .managed b i new s = .ok new' t → relocate true .managed n i new (s, b) = .thrown (t, 0) := by
  induction b with
  | zero =>
    intro n i new new' s t hb h
    obtain ⟨n, rfl⟩ : ∃ m, n = m + 1 := ⟨n - 1, by omega⟩
    cases h; rfl
  | succ b ih =>
    intro n i new new' s t hb h
    obtain ⟨n, rfl⟩ : ∃ m, n = m + 1 := ⟨n - 1, by omega⟩
    simp only [VecS.relocate, Cpp.bind_run] at h
    simp only [relocate, if_true]
    rw [Cpp.bind_ok (show tickE .managed (s, b + 1) = .ok () (s, b) from rfl)]
    cases h1 : VecS.onMem (Mem.moveOut .managed i) s with
    | ok a s1 =>
      rw [h1] at h
      rw [Cpp.bind_ok (lift_ok h1 b)]
      simp only at h
      cases h2 : VecS.constructIn new i a s1 with
      | ok new1 s2 =>
        rw [h2] at h
        rw [Cpp.bind_ok (lift_ok h2 b)]
        simp only [Cpp.modify_run] at h
        rw [Cpp.bind_ok (lift_ok (Cpp.modify_run _ _) b)]
        exact ih n (i + 1) new1 new' _ t (by omega) h
      | thrown s2 => rw [h2] at h; cases h
      | ub w => rw [h2] at h; cases h
    | thrown s1 => rw [h1] at h; cases h
    | ub w => rw [h1] at h; cases h

/-- `reserve` whose move number `b` throws -/
theorem reserve_crash {s : VecS α} {l : List α} (h : Rep .managed s l) {n b : Nat} (hn : n > s.cap) (hb : b < l.length) :
    ∃ t, reserve true .managed n (s, b + 1) = .thrown (t, 0) ∧
      t.led = { s.led with made := s.led.made + b, alloc := s.led.alloc + 1, reloc := s.led.reloc + b } ∧
      t.size = s.size ∧ t.ptr = .block ∧
      ∃ rest, t.cells = List.replicate b .moved ++ (l.drop b).map .live ++ rest := by
  have hne : l ≠ [] := by intro e; subst e; simp at hb
  obtain ⟨hp, hcap, rest, hcells, _⟩ := h.block_of_pos hne
  have hsz := h.1
  have hle := h.size_le_cap
  have hbl : (l.take b).length = b := by simp; omega
  have h1 := relocate_run (k := .managed) (l.take b) [] ((l.drop b).map .live ++ rest) [] n
    { s with led := { s.led with alloc := s.led.alloc + 1 } } hp (by
      show s.cells = _
      rw [hcells, List.nil_append, ← List.append_assoc, ← List.map_append, List.take_append_drop]) rfl (by omega)
  simp only [hbl, List.length_nil, List.nil_append] at h1
  refine ⟨{ s with
    cells := (l.take b).map (husk .managed) ++ ((l.drop b).map .live ++ rest)
    led := { s.led with made := s.led.made + b, alloc := s.led.alloc + 1, reloc := s.led.reloc + b } },
    ?_, rfl, rfl, hp, rest, ?_⟩
  · unfold reserve
    rw [if_pos hn]
    unfold reallocate
    rw [Cpp.bind_ok (allocate_succ s b), Cpp.bind_ok (lift_ok (Cpp.get_run _) b)]
    exact Cpp.bind_thrown (relocate_crash b _ 0 _ _ _ _ (by show b < s.size; omega) h1)
  · have : (l.take b).map (husk Kind.managed) = List.replicate b Cell.moved := by
      rw [show (husk Kind.managed : α → Cell α) = fun _ => Cell.moved from rfl, List.map_const', hbl]
    simp only [this, List.append_assoc]

end Vec

namespace Av

open AvS

theorem copyLoop_crash {n : Nat} {other : AvS α} {l : List α} (ho : AvS.Rep .managed n other l) {s : AvS α} {b : Nat}
    {cs rest : List (Cell α)} (hb : b < l.length) (hcells : s.cells = cs ++ rest) (hlen : cs.length = b) :
    copyLoop .managed other 0 other.size (s, b) = .thrown ({ s with
      cells := (l.take b).map .live ++ rest, led := { s.led with made := s.led.made + b } }, 0) := by
  obtain ⟨orest, hocells, _, _⟩ := ho.cells
  have hsz := ho.size
  have h1 := copyLoop_eq_fill other (l.take b) [] ((l.drop b).map .live ++ orest) (by
    rw [hocells, List.nil_append, ← List.append_assoc, ← List.map_append, List.take_append_drop]) s
  have hbl : (l.take b).length = b := by simp; omega
  have h2 := fill_run (l.take b) [] cs rest s (by simpa using hcells) (by rw [hbl, hlen])
  simp only [List.length_nil, hbl, List.nil_append] at h1 h2
  exact loop_crash (AvS.copyOne other) b 0 other.size s _ (h1.trans h2) (by omega)

theorem dtor_dead {s : AvS α} (hl : s.size ≤ s.cells.length) {i : Nat} (hi : i < s.size) (hr : s.cells[i]? = some .raw) :
    AvS.dtor .managed s = .ub .deadDestroy := by
  unfold AvS.dtor AvS.destroyAll AvS.onM
  rw [destroy_dead s.size 0 s.toMem (by simpa using hl) ⟨i, by omega, by omega, hr⟩]
  rfl

end Av

namespace Cyc

open Cyclic

/-- the first two statements of `Vcb::push_back` -/
theorem vcb_destroyed {s : VcbS α} {vs lo hi : List α} (h : Vcb.Rep s vs lo hi) :
    ∃ u, (∀ b, lift (Vcb.onMem (Mem.destroy .managed s.off)) (s, b) = .ok () (u, b)) ∧
      ∃ v, (∀ b, lift (Vcb.onMem (Mem.destroy .managed (s.off + s.n))) (u, b) = .ok () (v, b)) ∧
        v.n = s.n ∧ v.mem.cells.length = 2 * s.n ∧ v.mem.cells[s.off]? = some .raw ∧
        v.mem.cells[s.off + s.n]? = some .raw := by
  have hoff := h.off
  have hlen := h.len
  have hpos := h.pos
  obtain ⟨x, hx⟩ : ∃ x, vs[s.off]? = some x := ⟨vs[s.off], by simp⟩
  obtain ⟨y, hy⟩ : ∃ y, vs[s.off + s.n]? = some y := ⟨vs[s.off + s.n], by simp⟩
  have c1 : s.mem.cells[s.off]? = some (.live x) := by rw [h.cells]; exact Vcb.getElem?_live hx
  have c2 : s.mem.cells[s.off + s.n]? = some (.live y) := by rw [h.cells]; exact Vcb.getElem?_live hy
  have hcl : s.mem.cells.length = 2 * s.n := by rw [h.cells, List.length_map, hlen]
  have d1 := Vcb.onMem_ok (s := s) (destroy_run (k := .managed) c1 (fun _ => rfl))
  have d2 := Vcb.onMem_ok (s := { s with mem := ⟨s.mem.cells.set s.off (dead .managed (.live x)),
    { s.mem.led with gone := s.mem.led.gone + 1 }⟩ }) (destroy_run (k := .managed) (i := s.off + s.n) (c := .live y) (by
      simp only [List.getElem?_set]; rw [if_neg (by omega)]; exact c2) (fun _ => rfl))
  refine ⟨_, fun b => lift_ok d1 b, _, fun b => lift_ok d2 b, rfl, by simp [hcl], ?_, ?_⟩
  · simp only [List.getElem?_set, List.length_set]
    rw [if_neg (by omega), if_pos trivial, if_pos (by omega)]; rfl
  · simp only [List.getElem?_set, List.length_set]
    rw [if_pos trivial, if_pos (by omega)]; rfl

theorem vcb_dtor_dead {t : VcbS α} (tl : t.mem.cells.length = 2 * t.n) {i : Nat} (tr : t.mem.cells[i]? = some .raw) :
    Vcb.dtor .managed t = .ub .deadDestroy := by
  have hi := (List.getElem?_eq_some_iff.mp tr).1
  unfold Vcb.dtor
  rw [Vcb.forUp_onMem]
  unfold Vcb.onMem
  rw [destroy_dead (t.n * 2) 0 t.mem (by omega) ⟨i, by omega, by omega, tr⟩]
  rfl

/-- `push_back` stopped before the first or the second copy -/
theorem vcbPush_crash {s : VcbS α} {vs lo hi : List α} (h : Vcb.Rep s vs lo hi) (a : α) {b : Nat} (hb : b < 2) :
    ∃ t, vcbPush .managed a (s, b) = .thrown (t, 0) ∧ Vcb.dtor .managed t = .ub .deadDestroy := by
  obtain ⟨u, h1, v, h2, h3, h4, h5, h6⟩ := vcb_destroyed h
  have hoff := h.off
  have hb' : b = 0 ∨ b = 1 := by omega
  rcases hb' with rfl | rfl
  · have e : vcbPush .managed a (s, 0) = .thrown (v, 0) := by
      unfold vcbPush
      rw [Cpp.bind_ok (h1 0), Cpp.bind_ok (h2 0)]
      rfl
    exact ⟨v, e, vcb_dtor_dead (by rw [h3, h4]) h5⟩
  · have hc := Vcb.onMem_ok (s := v) (construct_run (i := s.off) (m := v.mem) a (by omega))
    have e : vcbPush .managed a (s, 1) = .thrown ({ v with mem := ⟨v.mem.cells.set s.off (.live a),
        { v.mem.led with made := v.mem.led.made + 1 }⟩ }, 0) := by
      unfold vcbPush
      rw [Cpp.bind_ok (h1 1), Cpp.bind_ok (h2 1),
        Cpp.bind_ok (show tickE .managed (v, 1) = .ok () (v, 0) from rfl), Cpp.bind_ok (lift_ok hc 0)]
      rfl
    refine ⟨_, e, vcb_dtor_dead (i := s.off + s.n) (by simp [h3, h4]) ?_⟩
    simp only [List.getElem?_set]
    rw [if_neg (by have := h.pos; omega)]
    exact h6

/-- `Vcq::push_back` on a full queue stopped before the first or the second copy -/
theorem vcqPush_full_crash {s : VcqS α} {l : List α} (h : Vcq.Rep .managed s l) (hf : l.length = s.n) (a : α) {b : Nat}
    (hb : b < 2) :
    ∃ t, vcqPush .managed a (s, b) = .thrown (t, 0) ∧ Vcq.dtor .managed t = .ub .deadDestroy := by
  have hsz := h.size
  have hpos := h.pos
  have hrd := h.rd
  have hwr := h.wr_lt
  have hcl := h.cells
  have hw : s.wr = s.rd := by
    rw [h.wr, hsz, hf]; unfold wrap; rw [if_neg (by omega)]; omega
  obtain ⟨x, hx⟩ : ∃ x, l[0]? = some x := ⟨l[0], by simp⟩
  have hw0 : wrap s.n s.rd 0 = s.rd := by unfold wrap; rw [if_pos (by omega)]; rfl
  have c1 := h.lo 0 x hx
  have c2 := h.hi 0 x hx
  rw [hw0] at c1 c2
  have hd : Vcq.dropOldest .managed s = .ok () { s with mem := ⟨(s.mem.cells.set s.rd .raw).set (s.n + s.rd) .raw,
      { s.mem.led with gone := s.mem.led.gone + 2 }⟩ } := by
    unfold Vcq.dropOldest
    rw [if_pos (by omega), ← Vcq.bind_unit (Vcq.onMem (Mem.destroy .managed (s.wr + s.n))), hw,
      Vcq.destroy2 _ (Nat.add_comm _ _) hrd c1 c2 rfl rfl, ← hw]
    rfl
  have hdt : ∀ t : VcqS α, t.n = s.n → t.rd = s.rd → t.size = s.size → t.mem.cells.length = 2 * s.n →
      t.mem.cells[s.n + s.rd]? = some .raw → Vcq.dtor .managed t = .ub .deadDestroy := by
    intro t tn tr ts tl tc
    unfold Vcq.dtor
    rw [ts, hsz, tn, tr]
    obtain ⟨m, hm⟩ : ∃ m, l.length = m + 1 := ⟨l.length - 1, by omega⟩
    rw [hm, forUp_succ]
    refine Cpp.bind_ub ?_
    unfold Vcq.destroyBody
    rw [hw0, Cpp.bind_run]
    obtain ⟨c, hc⟩ : ∃ c, t.mem.cells[s.rd]? = some c := by
      have : s.rd < t.mem.cells.length := by omega
      exact ⟨t.mem.cells[s.rd], by simp [this]⟩
    cases hal : c.alive with
    | true =>
      rw [Vcq.onMem_ok (destroy_run (k := .managed) hc (fun _ => hal))]
      simp only
      unfold Vcq.onMem Mem.destroy
      simp only [List.getElem?_set]
      rw [if_neg (by omega), tc]
      rfl
    | false =>
      have : Vcq.onMem (Mem.destroy .managed s.rd) t = .ub .deadDestroy := by
        unfold Vcq.onMem Mem.destroy
        rw [hc]; simp [hal]
      rw [this]
  have hb' : b = 0 ∨ b = 1 := by omega
  rcases hb' with rfl | rfl
  · have e : vcqPush .managed a (s, 0) = .thrown ({ s with
        mem := ⟨(s.mem.cells.set s.rd .raw).set (s.n + s.rd) .raw, { s.mem.led with gone := s.mem.led.gone + 2 }⟩ }, 0) := by
      unfold vcqPush
      rw [Cpp.bind_ok (lift_ok hd 0)]
      rfl
    refine ⟨_, e, hdt _ rfl rfl rfl (by simp [hcl]) ?_⟩
    simp only [List.getElem?_set, List.length_set]
    rw [if_pos trivial, if_pos (by omega)]
  · have hc := Vcq.onMem_ok (s := { s with mem := ⟨(s.mem.cells.set s.rd .raw).set (s.n + s.rd) .raw,
      { s.mem.led with gone := s.mem.led.gone + 2 }⟩ }) (construct_run (i := s.wr) a (by simp; omega))
    have e : vcqPush .managed a (s, 1) = .thrown ({ s with
        mem := ⟨((s.mem.cells.set s.rd .raw).set (s.n + s.rd) .raw).set s.wr (.live a),
          { s.mem.led with gone := s.mem.led.gone + 2, made := s.mem.led.made + 1 }⟩ }, 0) := by
      unfold vcqPush
      rw [Cpp.bind_ok (lift_ok hd 1), Cpp.bind_ok (show tickE .managed (_, 1) = .ok () (_, 0) from rfl),
        Cpp.bind_ok (lift_ok hc 0)]
      rfl
    refine ⟨_, e, hdt _ rfl rfl rfl (by simp [hcl]) ?_⟩
    simp only [List.getElem?_set, List.length_set]
    rw [if_neg (by omega), if_pos trivial, if_pos (by omega)]

/-- `Vcq::push_back` on a queue with room, stopped before the second copy -/
theorem vcqPush_room_crash {s : VcqS α} {l : List α} (h : Vcq.Rep .managed s l) (hf : l.length < s.n) (a : α) :
    vcqPush .managed a (s, 0) = .thrown (s, 0) ∧
    vcqPush .managed a (s, 1) = .thrown ({ s with mem := ⟨s.mem.cells.set s.wr (.live a),
      { s.mem.led with made := s.mem.led.made + 1 }⟩ }, 0) := by
  have hsz := h.size
  have hwr := h.wr_lt
  have hcl := h.cells
  have hd : Vcq.dropOldest .managed s = .ok () s := by
    unfold Vcq.dropOldest; rw [if_neg (by omega)]; rfl
  refine ⟨?_, ?_⟩
  · unfold vcqPush
    rw [Cpp.bind_ok (lift_ok hd 0)]; rfl
  · have hc := Vcq.onMem_ok (s := s) (construct_run (i := s.wr) (m := s.mem) a (by omega))
    unfold vcqPush
    rw [Cpp.bind_ok (lift_ok hd 1), Cpp.bind_ok (show tickE .managed (s, 1) = .ok () (s, 0) from rfl),
      Cpp.bind_ok (lift_ok hc 0)]
    rfl

/-- copies between two steps that cannot throw, with two successful steps left -/
theorem two_ticks {γ : Type} (m p q : Cpp γ Unit) (s : γ) (b : Nat) :
    ∃ b', (lift m >>= fun _ => tickE .managed >>= fun _ => lift p >>= fun _ => tickE .managed >>= fun _ => lift q)
      (s, b + 2) = ((m >>= fun _ => p >>= fun _ => q) s).mapState (fun t => (t, b')) := by
  cases hm : m s with
  | ok u t =>
    rw [Cpp.bind_ok (lift_ok hm _), Cpp.bind_ok hm,
      Cpp.bind_ok (show tickE .managed (t, b + 2) = .ok () (t, b + 1) from rfl)]
    cases hp : p t with
    | ok u t' =>
      rw [Cpp.bind_ok (lift_ok hp _), Cpp.bind_ok hp]
      exact ⟨b, rfl⟩
    | thrown t' =>
      rw [Cpp.bind_thrown (lift_thrown hp _), Cpp.bind_thrown hp]
      exact ⟨b + 1, rfl⟩
    | ub w =>
      rw [Cpp.bind_ub (lift_ub hp _), Cpp.bind_ub hp]
      exact ⟨0, rfl⟩
  | thrown t =>
    rw [Cpp.bind_thrown (lift_thrown hm _), Cpp.bind_thrown hm]
    exact ⟨b + 2, rfl⟩
  | ub w =>
    rw [Cpp.bind_ub (lift_ub hm _), Cpp.bind_ub hm]
    exact ⟨0, rfl⟩

/-- the destructor of a queue whose elements are all there, whatever the other slots hold -/
theorem vcq_dtor_run {s : VcqS α} {l : List α} (hrd : s.rd < s.n) (hcl : s.mem.cells.length = 2 * s.n)
    (hsz : s.size = l.length) (hle : l.length ≤ s.n)
    (hlo : ∀ i a, l[i]? = some a → s.mem.cells[wrap s.n s.rd i]? = some (.live a))
    (hhi : ∀ i a, l[i]? = some a → s.mem.cells[s.n + wrap s.n s.rd i]? = some (.live a)) :
    ∃ u, Vcq.dtor .managed s = .ok () u ∧ u.mem.led.made = s.mem.led.made ∧
      u.mem.led.gone = s.mem.led.gone + 2 * l.length := by
  let P : Nat → VcqS α → Prop := fun i t => t.n = s.n ∧ t.mem.cells.length = 2 * s.n ∧
    t.mem.led.made = s.mem.led.made ∧ t.mem.led.gone = s.mem.led.gone + 2 * i ∧
    (∀ j a, i ≤ j → l[j]? = some a → t.mem.cells[wrap s.n s.rd j]? = some (.live a) ∧
      t.mem.cells[s.n + wrap s.n s.rd j]? = some (.live a))
  have hinj : ∀ i j, i < s.n → j < s.n → wrap s.n s.rd i = wrap s.n s.rd j → i = j := by
    intro i j hi hj
    unfold wrap
    repeat' split
    all_goals omega
  obtain ⟨s', hs', hP⟩ := forUp_inv (body := Vcq.destroyBody .managed s.n s.rd) P 0 s.size s
    ⟨rfl, hcl, rfl, by simp, fun j a _ ha => ⟨hlo j a ha, hhi j a ha⟩⟩
    (by
      rintro i t - hi ⟨p1, p2, p3, p4, p5⟩
      rw [hsz, Nat.zero_add] at hi
      obtain ⟨a, ha⟩ : ∃ a, l[i]? = some a := ⟨l[i], by simp [hi]⟩
      obtain ⟨q1, q2⟩ := p5 i a (Nat.le_refl _) ha
      have hw := wrap_lt (i := i) hrd (by omega)
      have hd := Vcq.destroy2 (k := .managed) (s := t) (j := wrap s.n s.rd i) (fun _ => pure ()) (by rw [p1])
        (by rw [p1]; exact hw) q1 (by rw [p1]; exact q2) rfl rfl
      rw [Vcq.bind_unit, p1, Cpp.pure_run] at hd
      refine ⟨_, hd, rfl, by simp [p2], p3, by simp only [p4]; omega, ?_⟩
      intro j b hj hb
      have hj' := (List.getElem?_eq_some_iff.mp hb).1
      have hne : wrap s.n s.rd j ≠ wrap s.n s.rd i := fun e => by
        have := hinj j i (by omega) (by omega) e; omega
      have hwj := wrap_lt (i := j) hrd (by omega)
      obtain ⟨r1, r2⟩ := p5 j b (by omega) hb
      simp only
      rw [Vcq.set2_get p2 hw, Vcq.set2_get p2 hw, if_neg (by omega), if_neg hne, if_neg (by omega), if_neg (by omega)]
      exact ⟨r1, r2⟩)
  exact ⟨s', hs', hP.2.2.1, by rw [hP.2.2.2.1, hsz, Nat.zero_add]⟩

end Cyc

end Thr
end Efp
