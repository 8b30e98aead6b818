import Verif.ArrVecWorld
import Verif.NoThrow

/-!
# Properties of `ArrVec` (C07, C10-C13, C15)

Vocabulary: `AvS.runW k n ops []` runs a program over any number of `ArrVec<A, n>` variables (declaration,
initializer list, copy, assignment, move, member calls; `Verif.ArrVec`), `Spec.avRun n ops []` runs it on
variables holding plain lists of length at most `n` (`Verif.Spec.ArrVec`).
-/

namespace Efp.Spec

/-- the variable `s` and the list `l` are the values of one variable at the end of one program -/
def AvReachable {α : Type} (k : Kind) (n : Nat) (s : AvS α) (l : List α) : Prop :=
  ∃ (ops : List (AvS.WOp α)) (W : List (AvS α)) (flags : List Bool) (v : Nat),
    (k = .managed → ∀ op ∈ ops, avManagedOk op) ∧ AvS.runW k n ops [] = .ok (W, flags) ∧
    W[v]? = some s ∧ (avRun n ops []).1[v]? = some l

end Efp.Spec

namespace Efp.Props

open AvS

variable {α : Type}

theorem av_rep_of_reachable {k : Kind} {n : Nat} {s : AvS α} {l : List α} (h : Spec.AvReachable k n s l) :
    AvS.Rep k n s l := by
  obtain ⟨ops, W, flags, v, hok, hrun, hs, hl⟩ := h
  obtain ⟨W', h', hr⟩ := runW_run ops (repW_nil k n) hok
  rw [h'] at hrun
  cases hrun
  exact hr.2 v s l hs hl

/-- used by the examples: a reachable variable found by kernel evaluation -/
theorem av_reachable_example {k : Kind} {n : Nat} (ops : List (WOp α)) (v : Nat) (l : List α)
    (p : AvS α → Bool) (hok : k = .managed → ∀ op ∈ ops, Spec.avManagedOk op)
    (h : (runW k n ops []).map (fun r => (r.1[v]?.map p)) = .ok (some true))
    (hl : (Spec.avRun n ops []).1[v]? = some l) :
    ∃ s, Spec.AvReachable k n s l ∧ p s = true := by
  obtain ⟨⟨W, flags⟩, hrun, hf⟩ := exists_of_map _ _ h
  dsimp only at hf
  cases hs : W[v]? with
  | none => rw [hs] at hf; cases hf
  | some s =>
    rw [hs] at hf
    exact ⟨s, ⟨ops, W, flags, v, hok, hrun, hs, hl⟩, by simpa using hf⟩

/-! ## C07 (ArrVec part) -/

theorem noThrow_onM {β : Type} {m : Cpp (Mem α) β} (h : NoThrow m) : NoThrow (AvS.onM m : Cpp (AvS α) β) := by
  intro s t hs
  unfold AvS.onM at hs
  cases hm : m s.toMem with
  | ok b x => rw [hm] at hs; cases hs
  | thrown x => exact h _ _ hm
  | ub w => rw [hm] at hs; cases hs

theorem noThrow_destroyAll (k : Kind) : NoThrow (AvS.destroyAll k : Cpp (AvS α) Unit) := by
  intro s t hs
  exact noThrow_onM (NoThrow.forUp (fun i => NoThrow.destroy k i) 0 s.size) s t hs

/-- **C07 (ArrVec).** Whatever the state of the ArrVec and the element kind, a call that throws leaves the
object (contents, size, capacity, everything) as it was. -/
theorem C07_arrvec_throw_unchanged (k : Kind) (op : Op α) (s t : AvS α)
    (h : op.run k s = .thrown t) : t = s := by
  have hn : ∀ {m : Cpp (AvS α) Unit}, NoThrow m → m s = .thrown t → t = s :=
    fun hm h => absurd h (hm s t)
  cases op with
  | push a =>
    simp only [Op.run, pushBack] at h
    rw [Cpp.bind_ok (Cpp.get_run _)] at h
    split at h
    · exact (Out.thrown.inj h).symm
    · exact hn (NoThrow.bind (noThrow_onM (NoThrow.construct _ _)) fun _ => NoThrow.modify _) h
  | pop =>
    simp only [Op.run, popBack] at h
    rw [Cpp.bind_ok (Cpp.get_run _)] at h
    split at h
    · exact (Out.thrown.inj h).symm
    · exact hn (NoThrow.bind (NoThrow.modify _) fun _ => noThrow_onM (NoThrow.destroy _ _)) h
  | insert i a =>
    simp only [Op.run, AvS.insert] at h
    rw [Cpp.bind_ok (Cpp.get_run _)] at h
    split at h
    · exact (Out.thrown.inj h).symm
    · exact hn (NoThrow.bind (noThrow_onM (NoThrow.forDown (fun _ => NoThrow.bind (NoThrow.moveOut _ _)
        fun _ => NoThrow.bind (NoThrow.construct _ _) fun _ => NoThrow.destroy _ _) _ _)) fun _ =>
        NoThrow.bind (noThrow_onM (NoThrow.construct _ _)) fun _ => NoThrow.modify _) h
  | erase i =>
    simp only [Op.run, AvS.erase] at h
    rw [Cpp.bind_ok (Cpp.get_run _)] at h
    split at h
    · exact (Out.thrown.inj h).symm
    · exact hn (NoThrow.bind (noThrow_onM (NoThrow.destroy _ _)) fun _ =>
        NoThrow.bind (noThrow_onM (NoThrow.forUp (fun _ => NoThrow.bind (NoThrow.moveOut _ _)
        fun _ => NoThrow.bind (NoThrow.construct _ _) fun _ => NoThrow.destroy _ _) _ _)) fun _ =>
        NoThrow.modify _) h
  | clear =>
    exact hn (NoThrow.bind (noThrow_destroyAll k) fun _ => NoThrow.modify _) h
  | reserve m =>
    simp only [Op.run, AvS.reserve] at h
    rw [Cpp.bind_ok (Cpp.get_run _)] at h
    split at h
    · exact (Out.thrown.inj h).symm
    · cases h
  | resize m =>
    simp only [Op.run, AvS.resize] at h
    split at h
    · rw [Cpp.bind_ok (Cpp.get_run _)] at h
      split at h
      · exact (Out.thrown.inj h).symm
      · cases h
    · cases h
  | setElem i a =>
    simp only [Op.run] at h
    split at h
    · exact hn (noThrow_onM (NoThrow.assign _ _ _)) h
    · cases h

example : (Op.push 3).run .managed (⟨⟨[.live 1, .live 2], {}⟩, 2, 2⟩ : AvS Nat) =
    .thrown ⟨⟨[.live 1, .live 2], {}⟩, 2, 2⟩ := by decide +kernel

/-! ## C10 -/

/-- **C10.** Every program over ArrVecs of trivial elements is free of undefined behaviour (no access
outside the `n` slots, no read of a slot holding nothing), throws exactly in the steps where the bounded
list program does, and ends with every variable holding the contents of the corresponding list, whose
length never exceeds `n`. -/
theorem C10_arrvec_refines_bounded_list (n : Nat) (ops : List (WOp α)) :
    ∃ W, runW .trivial n ops [] = .ok (W, (Spec.avRun n ops []).2) ∧
      W.map contents = (Spec.avRun n ops []).1.map .ok ∧
      W.map (·.size) = (Spec.avRun n ops []).1.map List.length ∧
      ∀ s ∈ W, s.size ≤ n ∧ s.cap = n := by
  obtain ⟨W, h, hlen, hr⟩ := runW_run ops (repW_nil (α := α) .trivial n) (by simp)
  refine ⟨W, h, ?_, ?_, ?_⟩
  · apply List.ext_getElem?
    intro i
    rcases RepW.get ⟨hlen, hr⟩ i with ⟨s, l, h1, h2, h3⟩ | ⟨h1, h2⟩
    · simp [List.getElem?_map, h1, h2, h3.contents]
    · simp [List.getElem?_map, h1, h2]
  · apply List.ext_getElem?
    intro i
    rcases RepW.get ⟨hlen, hr⟩ i with ⟨s, l, h1, h2, h3⟩ | ⟨h1, h2⟩
    · simp [List.getElem?_map, h1, h2, h3.size]
    · simp [List.getElem?_map, h1, h2]
  · intro s hs
    obtain ⟨i, hi, rfl⟩ := List.getElem_of_mem hs
    have h3 := hr i W[i] ((Spec.avRun n ops []).1[i]'(by omega)) (by simp) (by simp)
    exact ⟨by rw [h3.size]; exact h3.le, h3.cap⟩

/-- the list side of C10 on a program with every kind of step, throwing ones included -/
example : Spec.avRun 3 [WOp.make, .on 0 (.push 1), .on 0 (.push 2), .on 0 (.insert 1 7), .on 0 (.push 9),
      .copy 0, .on 1 (.erase 0), .on 1 .pop, .on 1 .clear, .on 1 .pop, .makeOf [1, 2, 3, 4], .assign 1 0,
      .assign 1 1, .move 1, .moveAssign 1 2, .on 1 (.insert 4 0), .on 0 (.resize 1), .on 0 (.resize 4),
      .on 0 (.setElem 0 5)] ([] : List (List Nat)) =
    ([[5], [1, 7, 2], []],
     [false, false, false, false, true, false, false, false, false, true, true, false, false, false, false,
      true, false, true, false]) := by decide

/-! ## C11 -/

/-- **C11.** Every program over ArrVecs of resource-owning elements without moves between ArrVecs and
without `resize` is free of undefined behaviour (no dead object is destroyed, read or assigned), behaves
like the bounded-list program, and at its end: each slot below `size()` holds a living element, every slot
above holds none, and the objects constructed and not yet destroyed by a variable are exactly its `size()`
elements.  After the destructors, every constructed object has been destroyed. -/
theorem C11_arrvec_managed_lifetimes (n : Nat) (ops : List (WOp α)) (hops : ∀ op ∈ ops, Spec.avManagedOk op) :
    ∃ W, runW .managed n ops [] = .ok (W, (Spec.avRun n ops []).2) ∧
      W.map contents = (Spec.avRun n ops []).1.map .ok ∧
      (∀ s ∈ W, s.led.made = s.led.gone + s.size ∧
        ∀ i, i < n → (s.cells[i]?.map Cell.alive = some (decide (i < s.size)))) ∧
      ∃ W', destroyVars .managed W = .ok W' ∧ W'.length = W.length ∧
        ∀ s ∈ W', s.led.made = s.led.gone ∧ aliveCount s.cells = 0 := by
  obtain ⟨W, h, hlen, hr⟩ := runW_run ops (repW_nil (α := α) .managed n) (fun _ => hops)
  have hall : ∀ s ∈ W, ∃ l, AvS.Rep .managed n s l := by
    intro s hs
    obtain ⟨i, hi, rfl⟩ := List.getElem_of_mem hs
    exact ⟨_, hr i W[i] ((Spec.avRun n ops []).1[i]'(by omega)) (by simp) (by simp)⟩
  obtain ⟨W', hd, hl', hz⟩ := destroyVars_run (k := .managed) W hall
  refine ⟨W, h, ?_, ?_, W', hd, hl', hz rfl⟩
  · apply List.ext_getElem?
    intro i
    rcases RepW.get ⟨hlen, hr⟩ i with ⟨s, l, h1, h2, h3⟩ | ⟨h1, h2⟩
    · simp [List.getElem?_map, h1, h2, h3.contents]
    · simp [List.getElem?_map, h1, h2]
  · intro s hs
    obtain ⟨l, hl⟩ := hall s hs
    refine ⟨by rw [hl.led rfl, hl.size], fun i hi => ?_⟩
    obtain ⟨rest, hc, hlen, hraw⟩ := hl.cells
    rw [hc, hl.size]
    by_cases hlt : i < l.length
    · rw [List.getElem?_append_left (by simpa using hlt)]
      simp [hlt, Cell.alive]
    · rw [List.getElem?_append_right (by simp; omega)]
      have hlt' : i - (l.map Cell.live).length < rest.length := by simp at hlen ⊢; omega
      rw [List.getElem?_eq_getElem hlt', hraw rfl _ (List.getElem_mem hlt')]
      simp [hlt, Cell.alive]

example : ∀ op ∈ [WOp.make, .on 0 (.push 1), .on 0 (.insert 0 2), .copy 0, .on 0 (.erase 0), .assign 0 1],
    Spec.avManagedOk (α := Nat) op := by simp [Spec.avManagedOk]

/-- **C11, `resize`.** Shrinking a resource-owning ArrVec with `resize` destroys nothing: the dropped
elements stay alive above `size()`, and after the destructor exactly that many objects are leaked. -/
theorem C11_resize_shrink_leaks {n : Nat} {s : AvS α} {l : List α} (hs : Spec.AvReachable .managed n s l)
    (m : Nat) (hm : m ≤ l.length) :
    ∃ t u, AvS.resize m s = .ok () t ∧ AvS.dtor .managed t = .ok () u ∧
      u.led.made = u.led.gone + (l.length - m) ∧ aliveCount u.cells = l.length - m := by
  have hr := av_rep_of_reachable hs
  obtain ⟨rest, hc, hlen, hraw⟩ := hr.cells
  have hle := hr.le
  have hc' : s.cells = (l.take m).map .live ++ ((l.drop m).map .live ++ rest) := by
    rw [← List.append_assoc, ← List.map_append, List.take_append_drop, hc]
  have hd := Mem.destroy_range (k := .managed) ((l.take m).map .live) [] ((l.drop m).map .live ++ rest) s.led
    (fun _ c hc => by obtain ⟨a, _, rfl⟩ := List.mem_map.mp hc; rfl)
  simp only [List.length_nil, List.nil_append, List.length_map, List.length_take, Nat.min_eq_left hm] at hd
  have e1 : AvS.resize m s = .ok () { s with size := m } := by
    unfold AvS.resize
    rw [Cpp.bind_ok (Cpp.get_run _), if_neg (by rw [hr.cap]; omega)]
  have e2 : AvS.dtor .managed { s with size := m } =
      AvS.onM (forUp (fun i => Mem.destroy .managed i) 0 m) { s with size := m } := rfl
  refine ⟨_, _, e1, e2.trans (AvS.onM_ok (by rw [AvS.toMem_eq (s := { s with size := m }) hc']; exact hd)), ?_, ?_⟩
  · have := hr.led rfl
    simp; omega
  · have h0 := aliveCount_all_raw (hraw rfl)
    have h1 : aliveCount (((l.take m).map Cell.live).map (dead .managed)) = 0 :=
      aliveCount_all_raw (fun c hc => by obtain ⟨a, _, rfl⟩ := List.mem_map.mp hc; rfl)
    show aliveCount (_ ++ (_ ++ _)) = _
    rw [aliveCount_append, aliveCount_append, h0, h1, aliveCount_map_live]
    simp

example : ∃ s : AvS Nat, Spec.AvReachable .managed 4 s [1, 2, 3] := by
  obtain ⟨s, h, _⟩ := av_reachable_example (k := .managed) (n := 4)
    [WOp.make, .on 0 (.push 1), .on 0 (.push 3), .on 0 (.insert 1 2)] 0 [1, 2, 3] (fun _ => true)
    (by simp [Spec.avManagedOk]) (by decide +kernel) (by decide +kernel)
  exact ⟨s, h⟩

/-! ## C12 (false for resource-owning elements) -/

/-- **C12, what holds.** Move construction and move assignment give the target the contents of the source
and leave the source empty, for both element kinds; nothing is undefined. -/
theorem C12_arrvec_move_partial {k : Kind} {n : Nat} {a b : AvS α} {la lb : List α}
    (ha : Spec.AvReachable k n a la) (hb : Spec.AvReachable k n b lb) :
    (∃ t a', moveCtor k a = .ok () (t, a') ∧ t.contents = .ok la ∧ t.size = la.length ∧ a'.size = 0 ∧
      a'.contents = .ok []) ∧
    (∃ t a', AvS.moveAssign k (b, a) = .ok () (t, a') ∧ t.contents = .ok la ∧ t.size = la.length ∧ a'.size = 0 ∧
      a'.contents = .ok []) := by
  have hra := av_rep_of_reachable ha
  have hrb := av_rep_of_reachable hb
  obtain ⟨t, o', rest, he, hrt, hsz, _⟩ := moveCtor_run hra
  obtain ⟨t2, o2, rest2, he2, hrt2, hsz2, _⟩ := moveAssign_run hrb hra
  exact ⟨⟨t, o', he, hrt.contents, hrt.size, hsz, by unfold AvS.contents; rw [hsz]; rfl⟩,
    ⟨t2, o2, he2, hrt2.contents, hrt2.size, hsz2, by unfold AvS.contents; rw [hsz2]; rfl⟩⟩

/-- **C12 refuted.** For resource-owning elements, moving from an ArrVec leaves all its element objects
alive in a vector of size 0, and its destructor destroys none of them: exactly `la.length` objects are
leaked, for every non-empty source. -/
theorem C12_arrvec_move_leaks {n : Nat} {a b : AvS α} {la lb : List α}
    (ha : Spec.AvReachable .managed n a la) (hb : Spec.AvReachable .managed n b lb) :
    (∃ t a' u, moveCtor .managed a = .ok () (t, a') ∧ aliveCount a'.cells = la.length ∧
      AvS.dtor .managed a' = .ok () u ∧ u.led.made = u.led.gone + la.length) ∧
    (∃ t a' u, AvS.moveAssign .managed (b, a) = .ok () (t, a') ∧ aliveCount a'.cells = la.length ∧
      AvS.dtor .managed a' = .ok () u ∧ u.led.made = u.led.gone + la.length) := by
  have hra := av_rep_of_reachable ha
  have hrb := av_rep_of_reachable hb
  have key : ∀ (a' : AvS α) (rest : List (Cell α)), a'.size = 0 → a'.cells = la.map (husk .managed) ++ rest →
      a.cells = la.map .live ++ rest → a'.led = a.led →
      aliveCount a'.cells = la.length ∧ ∃ u, AvS.dtor .managed a' = .ok () u ∧
        u.led.made = u.led.gone + la.length := by
    intro a' rest hsz hc hc0 hled
    obtain ⟨rest', hc1, _, hraw⟩ := hra.cells
    have : rest = rest' := by
      rw [hc0] at hc1; exact List.append_cancel_left hc1
    subst this
    have h0 := aliveCount_all_raw (hraw rfl)
    have h1 : aliveCount (la.map (husk .managed)) = la.length := by
      simp [aliveCount, List.countP_map, Function.comp_def]
    refine ⟨by rw [hc]; simp only [aliveCount_append, h0, h1]; omega, a', ?_, ?_⟩
    · unfold AvS.dtor AvS.destroyAll
      rw [hsz]
      exact onM_ok rfl
    · rw [hled]; exact hra.led rfl
  obtain ⟨t, o', rest, he, _, hsz, _, hc, hc0, hled⟩ := moveCtor_run hra
  obtain ⟨t2, o2, rest2, he2, _, hsz2, _, hc2, hc02, hled2⟩ := moveAssign_run hrb hra
  obtain ⟨h1, u, h2, h3⟩ := key o' rest hsz hc hc0 hled
  obtain ⟨h12, u2, h22, h32⟩ := key o2 rest2 hsz2 hc2 hc02 hled2
  exact ⟨⟨t, o', u, he, h1, h2, h3⟩, ⟨t2, o2, u2, he2, h12, h22, h32⟩⟩

/-! ## C13 (false for partially filled sources) -/

/-- **C13, what holds.** Converting a completely filled `ArrVec<A, k>` to a larger capacity copies exactly
its elements. -/
theorem C13_widen_full_partial {k : Kind} {n m : Nat} {s : AvS α} {l : List α} (hs : Spec.AvReachable k n s l)
    (hfull : l.length = n) (hnm : n ≤ m) :
    ∃ t, widen m s = .ok () t ∧ t.contents = .ok l ∧ t.size = l.length ∧ t.cap = m := by
  have hr := av_rep_of_reachable hs
  obtain ⟨rest, hcells, _, _⟩ := hr.cells
  have e := copyLoop_eq_fill s l [] rest (by simpa using hcells)
  simp only [List.length_nil] at e
  obtain ⟨u, hu, hru⟩ := fill_rep (k := k) (n := m) (l := l) (by omega)
    { cells := List.replicate m .raw, size := n, cap := m } hfull.symm rfl (by simp)
    (fun _ c hc => (List.mem_replicate.mp hc).2) (fun _ => rfl)
  refine ⟨u, ?_, hru.contents, hru.size, hru.cap⟩
  unfold widen
  rw [hr.cap]
  subst hfull
  rw [e]; exact hu

example : ∃ s : AvS Nat, Spec.AvReachable .managed 2 s [1, 2] := by
  obtain ⟨s, h, _⟩ := av_reachable_example (k := .managed) (n := 2)
    [WOp.make, .on 0 (.push 1), .on 0 (.push 2)] 0 [1, 2] (fun _ => true)
    (by simp [Spec.avManagedOk]) (by decide +kernel) (by decide +kernel)
  exact ⟨s, h⟩

/-- the converted vector always claims the source's capacity as its size -/
theorem widen_size {m : Nat} {s t : AvS α} (h : widen m s = .ok () t) : t.size = s.cap := by
  have key : ∀ (cnt lo : Nat) (u t : AvS α), forUp (copyOne s) lo cnt u = .ok () t → t.size = u.size := by
    intro cnt
    induction cnt with
    | zero => intro lo u t h; cases h; rfl
    | succ cnt ih =>
      intro lo u t h
      rw [forUp_succ, Cpp.bind_run] at h
      cases hb : copyOne s lo u with
      | ok x v =>
        rw [hb] at h
        have h1 := ih _ _ _ h
        have h2 : v.size = u.size := by
          unfold copyOne at hb
          split at hb
          · rename_i a _ _
            unfold AvS.onM at hb
            cases hc : Mem.construct lo a u.toMem with
            | ok y w => rw [hc] at hb; cases hb; rfl
            | thrown w => rw [hc] at hb; cases hb
            | ub w => rw [hc] at hb; cases hb
          · cases hb
          · cases hb
        omega
      | thrown v => rw [hb] at h; cases h
      | ub w => rw [hb] at h; cases h
  exact key _ _ _ _ h

/-- **C13 refuted.** For every source that is not completely filled the conversion never yields the size of
the source, and for resource-owning elements it reads a slot that holds no element. -/
theorem C13_widen_not_full_refuted {k : Kind} {n m : Nat} {s : AvS α} {l : List α}
    (hs : Spec.AvReachable k n s l) (hpart : l.length < n) (hnm : n ≤ m) :
    (∀ t, widen m s = .ok () t → t.size = n ∧ t.size ≠ l.length) ∧
    (k = .managed → widen m s = .ub .deadRead) := by
  have hr := av_rep_of_reachable hs
  refine ⟨fun t ht => ?_, fun hk => ?_⟩
  · have := widen_size ht
    rw [hr.cap] at this
    omega
  · subst hk
    obtain ⟨rest, hcells, hlen, hraw⟩ := hr.cells
    obtain ⟨c, rest', hc', hl', hcr, _⟩ := hr.spare hpart
    have e := copyLoop_eq_fill s l [] rest (by simpa using hcells)
    simp only [List.length_nil] at e
    have hf := fill_run l [] (List.replicate l.length .raw) (List.replicate (m - l.length) .raw)
      { cells := List.replicate m .raw, size := n, cap := m } (by simp; omega) (by simp)
    simp only [List.length_nil] at hf
    have split : ∀ (j : Nat) (lo i : Nat) (u : AvS α), forUp (copyOne s) lo (i + j) u =
        (forUp (copyOne s) lo i >>= fun _ => forUp (copyOne s) (lo + i) j) u := by
      intro j lo i
      induction i generalizing lo with
      | zero => intro u; simp
      | succ i ih =>
        intro u
        rw [show i + 1 + j = i + j + 1 by omega, forUp_succ, forUp_succ, Cpp.bind_run, Cpp.bind_run,
          Cpp.bind_run]
        cases copyOne s lo u with
        | ok x v =>
          dsimp only
          rw [ih, Cpp.bind_run, show lo + 1 + i = lo + (i + 1) by omega]
        | thrown v => rfl
        | ub w => rfl
    unfold widen
    rw [hr.cap]
    have hsp := split (n - l.length) 0 l.length { cells := List.replicate m .raw, size := n, cap := m }
    rw [show l.length + (n - l.length) = n by omega] at hsp
    rw [hsp, Cpp.bind_ok ((e _).trans hf), show n - l.length = (n - l.length - 1) + 1 by omega, forUp_succ]
    refine Cpp.bind_ub ?_
    have hread : Mem.read (0 + l.length) s.toMem = .ub .deadRead := by
      rw [toMem_eq hc', hcr rfl]
      simp only [Mem.read]
      rw [get_mid (by simp)]
    simp only [copyOne, hread]

example : ∃ s : AvS Nat, Spec.AvReachable .managed 3 s [1] := by
  obtain ⟨s, h, _⟩ := av_reachable_example (k := .managed) (n := 3)
    [WOp.make, .on 0 (.push 1)] 0 [1] (fun _ => true)
    (by simp [Spec.avManagedOk]) (by decide +kernel) (by decide +kernel)
  exact ⟨s, h⟩

/-! ## C15 (ArrVec part) -/

/-- **C15 (ArrVec).** `a == b` is true exactly when the sizes agree and all elements compare equal. -/
theorem C15_arrvec_eq_extensional (eq : α → α → Bool) {k : Kind} {n : Nat} {a b : AvS α} {la lb : List α}
    (ha : Spec.AvReachable k n a la) (hb : Spec.AvReachable k n b lb) :
    ∃ r, eqv eq b a = .ok r a ∧
      (r = true ↔ la.length = lb.length ∧ ∀ i (hi : i < la.length) (hj : i < lb.length), eq la[i] lb[i] = true) :=
  ⟨_, eqv_run eq (av_rep_of_reachable ha) (av_rep_of_reachable hb), by simp⟩

end Efp.Props
