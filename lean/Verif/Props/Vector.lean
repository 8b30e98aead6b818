import Verif.VectorHistory
import Verif.NoThrow

/-!
# Properties of `Vector` (C01-C09, C15, C17)

Vocabulary used in the statements: `VecS.session k init ops led` constructs a vector of elements of
kind `k` (by default or from values) and runs a history of client calls on it (`Verif.Vector`);
`VecS.contents` is what reading `v[0], ..., v[size-1]` gives; `Spec.vecRun` is the same history on a
mathematical list (`Verif.Spec.Lists`).  A result of the form `.ok _` excludes undefined behaviour.
-/

namespace Efp.Props

open VecS

variable {α : Type}

/-! ## C01, C02 -/

/-- **C01.** Every session on a `Vector` of trivial elements is free of undefined behaviour, throws
exactly where the list history says so, and ends with the size and the contents of the list. -/
theorem C01_vector_refines_list (init : Option (List α)) (ops : List (Op α)) :
    ∃ s, session .trivial init ops = .ok (s, (Spec.vecRun ops (init.getD [])).2) ∧
      s.contents = .ok (Spec.vecRun ops (init.getD [])).1 ∧
      s.size = (Spec.vecRun ops (init.getD [])).1.length := by
  obtain ⟨t, ht, hr, _⟩ := session_run (k := .trivial) init ops {} (by simp)
  exact ⟨t, ht, hr.contents, hr.1⟩

/-- the list side of C01 on a history with every kind of call, throwing ones included -/
example :
    Spec.vecRun [Op.push 1, .push 2, .insert 1 7, .erase 0, .pop, .pop, .pop, .insert 3 9, .push 4,
      .push 5, .push 6, .shrinkTo 2, .setElem 0 8] ([] : List Nat) =
    ([8, 5], [false, false, false, false, false, false, true, true, false, false, false, false, false]) := by
  decide

/-- **C02.** After every session, capacity 0 means that nothing was ever allocated, and otherwise the
capacity is the size of the owned block and exceeds the size, so slot `size()` is inside the block. -/
theorem C02_vector_spare_slot (init : Option (List α)) (ops : List (Op α)) {s : VecS α} {evs : List Bool}
    (h : session .trivial init ops = .ok (s, evs)) :
    (s.cap = 0 → s.led.alloc = 0 ∧ s.ptr = .null ∧ s.size = 0) ∧
    (s.cap ≠ 0 → s.ptr = .block ∧ s.cells.length = s.cap ∧ s.size + 1 ≤ s.cap) := by
  obtain ⟨t, ht, hr, hs, _, _, hf⟩ := session_run (k := .trivial) init ops {} (by simp)
  rw [ht] at h
  cases h
  have hle := hr.size_le_cap
  refine ⟨fun hc => ⟨(hf hc).2, ?_, by omega⟩, fun hc => ?_⟩
  · rcases hs with hs | hs
    · exact hs.2
    · omega
  · rcases hs with hs | hs
    · exact absurd hs.1 hc
    · obtain ⟨hp, c, rest, _, hcap, _⟩ := hr.split_spare hs
      exact ⟨hp, hcap.symm, hs⟩

example : ∃ s evs, session .trivial none [Op.push 1, .push 2, .push 3, .shrinkToFit] = .ok (s, evs) ∧
    s.cap = 4 ∧ s.size = 3 := by
  obtain ⟨⟨s, evs⟩, h, hf⟩ := exists_of_map
    (x := session .trivial none [Op.push 1, .push 2, .push 3, .shrinkToFit])
    (fun r => (r.1.cap, r.1.size)) (4, 3) (by decide +kernel)
  exact ⟨s, evs, h, congrArg Prod.fst hf, congrArg Prod.snd hf⟩

/-! ## C03 -/

/-- **C03.** Resource-owning elements, append/remove-at-end interface (`Spec.endHistory`): every session
is free of undefined behaviour (in particular no dead object is destroyed, read or assigned) and behaves
like the list; the objects constructed and not yet destroyed are exactly the `size()` elements (so none
was overwritten while alive and none was lost), exactly the current block is unreleased; and after the
destructor every object constructed was destroyed and every block released. -/
theorem C03_vector_managed_lifetimes (init : Option (List α)) (ops : List (Op α))
    (hops : Spec.endHistory ops (init.getD [])) :
    ∃ s, session .managed init ops = .ok (s, (Spec.vecRun ops (init.getD [])).2) ∧
      s.contents = .ok (Spec.vecRun ops (init.getD [])).1 ∧
      s.led.made = s.led.gone + s.size ∧ aliveCount s.cells = s.size ∧
      s.led.alloc = s.led.freed + (if s.cap = 0 then 0 else 1) ∧
      ∃ t, dtor .managed s = .ok () t ∧ t.led.made = t.led.gone ∧ t.led.alloc = t.led.freed := by
  obtain ⟨t, ht, hr, hs, hobj, hblk, hf⟩ := session_run (k := .managed) init ops {} (fun _ => hops)
  have h1 := hobj rfl
  have hb : (hadBlock t : Int) = if t.cap = 0 then 0 else 1 := by
    rcases hs with ⟨hc, hp⟩ | hs
    · simp [hadBlock, hp, hc]
    · have := (hr.split_spare hs).1
      have hc : t.cap ≠ 0 := by omega
      simp [hadBlock, this, hc]
  have ho : t.led.made = t.led.gone + t.size := by simp only [Ledger.objs] at h1; omega
  refine ⟨t, ht, hr.contents, ho, ?_, ?_, ?_⟩
  · obtain ⟨hsz, h | ⟨hp, hcap, rest, hcells, hraw⟩⟩ := hr
    · rw [h.2.1, hsz, h.2.2.2]; rfl
    · rw [hcells, aliveCount_append, aliveCount_map_live, aliveCount_all_raw (hraw rfl), hsz]; rfl
  · simp only [Ledger.blocks] at hblk; split at hb <;> simp_all <;> omega
  · obtain ⟨u, hu, hul⟩ := dtor_run hr
    refine ⟨u, hu, ?_, ?_⟩
    · rw [hul]; simp only; have := hr.1; omega
    · rw [hul]; simp only [Ledger.blocks] at *; omega

/-- a session that meets the hypothesis, with reallocation, throwing calls and removal -/
example : Spec.endHistory [Op.push 1, .push 2, .insert 2 7, .insert 9 9, .erase 2, .pop, .pop, .pop, .push 4,
    .reserve 20, .setElem 0 5, .shrinkToFit, .clear, .push 6] ([] : List Nat) := by
  simp [Spec.endHistory, Spec.endOp, Spec.vecStep]

/-! ## C04 (false for this code) -/

/-- **C04, refuted.** For resource-owning elements `insert` before an existing element always reaches
undefined behaviour: the shift assigns into a slot that holds no object. -/
theorem C04_insert_middle_managed_undefined {s : VecS α} {l : List α}
    (hs : Spec.VecReachable .managed s l) (i : Nat) (a : α) (hi : i < s.size) :
    VecS.insert .managed i a s = .ub .deadAssign := by
  have hr := (rep_of_reachable hs).1
  exact insert_middle_ub hr a (by have := hr.1; omega)

/-- **C04, refuted.** For resource-owning elements `erase` of an element that is not the last one always
reaches undefined behaviour: the destroyed slot is assigned. -/
theorem C04_erase_middle_managed_undefined {s : VecS α} {l : List α}
    (hs : Spec.VecReachable .managed s l) (i : Nat) (hi : i + 1 < s.size) :
    VecS.erase .managed i s = .ub .deadAssign := by
  have hr := (rep_of_reachable hs).1
  exact erase_middle_ub hr (by have := hr.1; omega)

/-- **C04, the part that holds**: insertion at the end and erasure of the last element are safe for
resource-owning elements, and account for every object. -/
theorem C04_insert_erase_partial {s : VecS α} {l : List α} (hs : Spec.VecReachable .managed s l) :
    (∀ a, ∃ t, VecS.insert .managed s.size a s = .ok () t ∧ t.contents = .ok (l ++ [a]) ∧
      t.led.objs = s.led.objs + 1) ∧
    (l ≠ [] → ∃ t, VecS.erase .managed (s.size - 1) s = .ok () t ∧ t.contents = .ok l.dropLast ∧
      t.led.objs = s.led.objs - 1) := by
  have hr := (rep_of_reachable hs).1
  have hsz := hr.1
  constructor
  · intro a
    obtain ⟨t, ht, htr, _, _, hled⟩ := insert_end_run hr a
    refine ⟨t, by rw [hsz]; exact ht, htr.contents, ?_⟩
    rw [hled]; split <;> simp [Ledger.objs] <;> omega
  · intro hl
    rcases List.eq_nil_or_concat l with rfl | ⟨l, a, rfl⟩
    · exact absurd rfl hl
    simp only [List.concat_eq_append] at *
    obtain ⟨t, ht, htr, _, _, hled⟩ := erase_last_run hr
    refine ⟨t, ?_, ?_, ?_⟩
    · rw [← ht]; congr 1; simp at hsz; omega
    · rw [htr.contents]; simp
    · rw [hled]; simp [Ledger.objs]; omega

/-- reachable managed vectors with several elements exist -/
example : ∃ s, Spec.VecReachable .managed s [1, 2, 3] ∧ s.size = 3 :=
  (reachable_example none [.push 1, .push 2, .push 3] _ (fun s => decide (s.size = 3))
    (by simp [Spec.endHistory, Spec.endOp]) (by decide +kernel)).imp fun _ h => ⟨h.1, by simpa using h.2⟩

/-! ## C05 (false for this code) -/

/-- **C05, exact behaviour.** Copy assignment of trivial vectors: the result is the source only if the
target's capacity is at most the source's size; otherwise the target keeps its own size. -/
theorem C05_copy_assign_result {a b : VecS α} {la lb : List α}
    (ha : Spec.VecReachable .trivial a la) (hb : Spec.VecReachable .trivial b lb) :
    ∃ t, copyAssign .trivial b a = .ok () t ∧
      t.contents = .ok (if a.cap ≤ lb.length then lb else (lb ++ la.drop lb.length).take la.length) := by
  obtain ⟨t, ht, htr⟩ := copyAssign_trivial (rep_of_reachable ha).1 (rep_of_reachable hb).1
  exact ⟨t, ht, htr.contents⟩

/-- **C05, what holds**: the copy equals the source exactly when the target had to reallocate or the
sizes already agreed. -/
theorem C05_copy_assign_partial {a b t : VecS α} {la lb : List α}
    (ha : Spec.VecReachable .trivial a la) (hb : Spec.VecReachable .trivial b lb)
    (h : copyAssign .trivial b a = .ok () t) :
    t.contents = .ok lb ↔ a.cap ≤ b.size ∨ a.size = b.size := by
  have hra := (rep_of_reachable ha).1
  have hrb := (rep_of_reachable hb).1
  obtain ⟨t', ht', htr⟩ := copyAssign_trivial hra hrb
  rw [ht'] at h
  cases h
  rw [htr.contents, hra.1, hrb.1]
  by_cases hc : a.cap ≤ lb.length
  · simp [hc]
  · rw [if_neg hc]
    constructor
    · intro h
      have := congrArg List.length (Except.ok.inj h)
      simp only [List.length_take, List.length_append, List.length_drop] at this
      right; omega
    · rintro (h | h)
      · exact absurd h hc
      · have : la.drop lb.length = [] := List.drop_of_length_le (by omega)
        rw [this, List.append_nil, List.take_of_length_le (by omega)]

/-- **C05, refuted** by the smallest case: assigning a one-element vector to a two-element one leaves a
two-element vector. -/
theorem C05_copy_assign_refuted :
    ∃ a b t : VecS Nat, Spec.VecReachable .trivial a [1, 2] ∧ Spec.VecReachable .trivial b [7] ∧
      copyAssign .trivial b a = .ok () t ∧ t.contents = .ok [7, 2] := by
  obtain ⟨a, ha, hac⟩ := reachable_example (k := .trivial) (some [1, 2]) [] [1, 2]
    (fun s => decide (s.cap = 3)) (by simp) (by decide +kernel)
  obtain ⟨b, hb, _⟩ := reachable_example (k := .trivial) (some [7]) [] [7] (fun _ => true) (by simp)
    (by decide +kernel)
  obtain ⟨t, ht, htc⟩ := C05_copy_assign_result ha hb
  have : a.cap = 3 := by simpa using hac
  refine ⟨a, b, t, ha, hb, ht, ?_⟩
  rw [htc, this]; rfl

/-- **C05, refuted** for resource-owning elements: whenever a non-empty target has to grow, its destroyed
elements are moved from. -/
theorem C05_copy_assign_managed_undefined {a b : VecS α} {la lb : List α}
    (ha : Spec.VecReachable .managed a la) (hb : Spec.VecReachable .managed b lb)
    (hne : a.size ≠ 0) (hcap : a.cap ≤ b.size) :
    copyAssign .managed b a = .ub .deadRead := by
  have hra := (rep_of_reachable ha).1
  have hrb := (rep_of_reachable hb).1
  refine copyAssign_managed_ub hra hrb ?_ (by have := hrb.1; omega)
  rintro rfl
  exact hne hra.1

example : ∃ a b : VecS Nat, Spec.VecReachable .managed a [1] ∧ Spec.VecReachable .managed b [2, 3] ∧
    a.size ≠ 0 ∧ a.cap ≤ b.size := by
  obtain ⟨a, ha, ha'⟩ := reachable_example (k := .managed) (some [1]) [] [1]
    (fun s => decide (s.size = 1 ∧ s.cap = 2)) (by simp [Spec.endHistory]) (by decide +kernel)
  obtain ⟨b, hb, hb'⟩ := reachable_example (k := .managed) (some [2, 3]) [] [2, 3]
    (fun s => decide (s.size = 2)) (by simp [Spec.endHistory]) (by decide +kernel)
  simp only [decide_eq_true_eq] at ha' hb'
  exact ⟨a, b, ha, hb, by omega, by omega⟩

/-! ## C06 (false for a never-allocated source) -/

/-- **C06, what holds**: copying a vector that owns a block gives a vector with the same contents in its
own block, on which every later history behaves like the list history, and which can be destroyed. -/
theorem C06_copy_ctor_partial {k : Kind} {a : VecS α} {l : List α} (ha : Spec.VecReachable k a l)
    (hcap : a.cap ≠ 0) (led : Ledger) (ops : List (Op α)) (hops : k = .managed → Spec.endHistory ops l) :
    ∃ b, copyCtor a led = .ok () b ∧ b.contents = .ok l ∧ b.led.objs = led.objs + b.size ∧
      b.led.blocks = led.blocks + 1 ∧
      ∃ b', runOps k ops b = .ok (b', (Spec.vecRun ops l).2) ∧ b'.contents = .ok (Spec.vecRun ops l).1 ∧
        ∃ t, dtor k b' = .ok () t ∧ t.led.blocks = led.blocks ∧ (k = .managed → t.led.objs = led.objs) := by
  obtain ⟨hr, hs⟩ := rep_of_reachable ha
  have hlt : a.size < a.cap := hs.resolve_left (fun h => hcap h.1)
  have hp : a.ptr = .block := (hr.split_spare hlt).1
  obtain ⟨b, hb, hbr, hbp, hbc, hbl⟩ := copyCtor_run hr hp led
  have hbs := hbr.1
  have has := hr.1
  obtain ⟨b', hb', hbr', _, hbal⟩ := history_run (k := k) ops hbr (.inr (by omega)) hops
  obtain ⟨t, ht, htl⟩ := dtor_run hbr'
  have hsz' := hbr'.1
  have hblk := hbal.blocks
  refine ⟨b, hb, hbr.contents, ?_, ?_, b', hb', hbr'.contents, t, ht, ?_, fun hk => ?_⟩
  · rw [hbl, hbs]; simp only [Ledger.objs]; omega
  · rw [hbl]; simp only [Ledger.blocks]; omega
  · rw [hbl] at hblk
    rw [htl]; simp only [Ledger.blocks, hadBlock, hbp, if_true] at *; omega
  · have := hbal.objs hk
    rw [hbl] at this
    rw [htl]; simp only [Ledger.objs] at *; omega

/-- **C06, refuted**: copying a vector that never allocated (a default-constructed one) leaves the data
pointer of the copy uninitialised; its destructor, or pushing into it, is undefined behaviour. -/
theorem C06_copy_of_default_undefined {k : Kind} {a : VecS α} {l : List α} (ha : Spec.VecReachable k a l)
    (hcap : a.cap = 0) (led : Ledger) :
    ∃ b, copyCtor a led = .ok () b ∧ dtor k b = .ub .wildPtr ∧ ∀ x, pushBack k x b = .ub .wildPtr := by
  obtain ⟨hr, hs⟩ := rep_of_reachable ha
  have hp : a.ptr = .null := by
    rcases hs with hs | hs
    · exact hs.2
    · omega
  refine ⟨_, copyCtor_null hr hp led, rfl, fun x => ?_⟩
  rfl

example : ∃ a : VecS Nat, Spec.VecReachable .trivial a [] ∧ a.cap = 0 :=
  (reachable_example none [] _ (fun s => decide (s.cap = 0)) (by simp) (by decide +kernel)).imp
    fun _ h => ⟨h.1, by simpa using h.2⟩
example : ∃ a : VecS Nat, Spec.VecReachable .managed a [4, 5] ∧ a.cap ≠ 0 :=
  (reachable_example none [.push 4, .push 5] _ (fun s => decide (s.cap ≠ 0))
    (by simp [Spec.endHistory, Spec.endOp]) (by decide +kernel)).imp fun _ h => ⟨h.1, by simpa using h.2⟩

/-! ## C07 (Vector part) -/

/-- **C07 (Vector).** Whatever the state of the vector and the element kind, a call that throws leaves the
object (contents, size, capacity, everything) as it was. -/
theorem C07_vector_throw_unchanged (k : Kind) (op : Op α) (s t : VecS α)
    (h : op.run k s = .thrown t) : t = s := by
  have hn : ∀ {m : Cpp (VecS α) Unit}, NoThrow m → m s = .thrown t → t = s :=
    fun hm h => absurd h (hm s t)
  have hmod : ∀ f : VecS α → VecS α, NoThrow (Cpp.modify f) := NoThrow.modify
  have hshift : ∀ i j : Nat, NoThrow (do
      let x ← onMem (Mem.moveOut (α := α) k i)
      onMem (Mem.assign k j x)) := fun i j =>
    NoThrow.bind (noThrow_onMem (NoThrow.moveOut _ _)) fun _ => noThrow_onMem (NoThrow.assign _ _ _)
  cases op with
  | push a =>
    refine hn (NoThrow.bind ?_ fun _ => NoThrow.bind NoThrow.get fun _ =>
      NoThrow.bind (noThrow_onMem (NoThrow.construct _ _)) fun _ => hmod _) h
    intro s t h
    unfold growPush at h
    split at h
    · exact noThrow_reserve _ _ _ _ h
    · cases h
  | pop =>
    simp only [Op.run, popBack] at h
    rw [Cpp.bind_ok (Cpp.get_run _)] at h
    split at h
    · exact (Out.thrown.inj h).symm
    · exact hn (NoThrow.bind (noThrow_onMem (NoThrow.destroy _ _)) fun _ => hmod _) h
  | insert i a =>
    simp only [Op.run, VecS.insert] at h
    rw [Cpp.bind_ok (Cpp.get_run _)] at h
    split at h
    · exact (Out.thrown.inj h).symm
    · have hrest : NoThrow (do
          forDown (fun i => do
            let x ← onMem (Mem.moveOut (α := α) k (i - 1))
            onMem (Mem.assign k i x)) s.size (s.size - i)
          onMem (Mem.construct i a)
          Cpp.modify (fun s => { s with size := s.size + 1 })) :=
        NoThrow.bind (NoThrow.forDown (fun j => hshift _ _) _ _) fun _ =>
          NoThrow.bind (noThrow_onMem (NoThrow.construct _ _)) fun _ => hmod _
      split at h
      · exact hn (NoThrow.bind (noThrow_reserve _ _) fun _ => hrest) h
      · exact hn hrest h
  | erase i =>
    simp only [Op.run, VecS.erase] at h
    rw [Cpp.bind_ok (Cpp.get_run _)] at h
    split at h
    · exact (Out.thrown.inj h).symm
    · exact hn (NoThrow.bind (noThrow_onMem (NoThrow.destroy _ _)) fun _ =>
        NoThrow.bind (NoThrow.forUp (fun j => hshift _ _) _ _) fun _ => hmod _) h
  | clear => exact hn (NoThrow.bind (noThrow_destroyAll _) fun _ => hmod _) h
  | reserve n => exact hn (noThrow_reserve _ _) h
  | shrinkToFit =>
    simp only [Op.run, shrinkToFit] at h
    split at h
    · exact hn (noThrow_reallocate _ _) h
    · cases h
  | shrinkTo n =>
    simp only [Op.run] at h
    split at h
    · refine hn (NoThrow.bind NoThrow.get fun u => ?_) h
      dsimp only
      split
      · exact NoThrow.bind (noThrow_reserve _ _) fun _ => hmod _
      · exact hmod _
    · cases h
  | setElem i a =>
    simp only [Op.run] at h
    split at h
    · exact hn (noThrow_onMem (NoThrow.assign _ _ _)) h
    · cases h

/-- throwing calls exist -/
example : (Op.insert 5 (1 : Nat)).run .managed mk0 = .thrown mk0 := rfl

/-! ## C08 -/

/-- **C08.** Building a vector by `n` calls of `push_back` (any element kind) relocates fewer than `2 n`
elements in total, and the number of allocations `m` satisfies `2^m ≤ 4 n`, i.e. is logarithmic. -/
theorem C08_push_back_amortised (k : Kind) (xs : List α) :
    ∃ s evs, session k none (xs.map Op.push) = .ok (s, evs) ∧ s.contents = .ok xs ∧
      s.led.reloc ≤ 2 * xs.length ∧ (xs ≠ [] → s.led.reloc < 2 * xs.length) ∧
      (xs ≠ [] → 2 ^ s.led.alloc ≤ 4 * xs.length) := by
  suffices h : ∀ (ys : List α) (s : VecS α) (l : List α), Rep k s l →
      ((l = [] ∧ s = mk0) ∨ ∃ j, s.cap = 2 ^ j + 1 ∧ l.length ≤ 2 ^ j ∧ l ≠ [] ∧
        2 ^ j < 2 * l.length ∧ s.led.reloc + 1 = 2 ^ j ∧ s.led.alloc = j + 1) →
      ∃ t evs, runOps k (ys.map Op.push) s = .ok (t, evs) ∧ Rep k t (l ++ ys) ∧
        ((l ++ ys = [] ∧ t = mk0) ∨ ∃ j, t.cap = 2 ^ j + 1 ∧ (l ++ ys).length ≤ 2 ^ j ∧ l ++ ys ≠ [] ∧
        2 ^ j < 2 * (l ++ ys).length ∧ t.led.reloc + 1 = 2 ^ j ∧ t.led.alloc = j + 1) by
    obtain ⟨t, evs, ht, hr, hinv⟩ := h xs mk0 [] (rep_mk0 k {}) (.inl ⟨rfl, rfl⟩)
    simp only [List.nil_append] at hr hinv
    refine ⟨t, evs, ht, hr.contents, ?_⟩
    rcases hinv with ⟨rfl, rfl⟩ | ⟨j, _, _, hne, hlt, hrel, hal⟩
    · simp [mk0]
    · refine ⟨by omega, fun _ => by omega, fun _ => ?_⟩
      rw [hal, Nat.pow_succ]; omega
  intro ys
  induction ys with
  | nil => intro s l h hinv; exact ⟨s, [], rfl, by simpa using h, by simpa using hinv⟩
  | cons y ys ih =>
    intro s l h hinv
    obtain ⟨t, ht, hr, hp, hc, hcap, hled⟩ := pushBack_run h y
    have hsz := h.1
    obtain ⟨u, evs, hu, hur, huinv⟩ := ih t (l ++ [y]) hr (by
      right
      rcases hinv with ⟨rfl, rfl⟩ | ⟨j, hj1, hj2, hne, hj3, hj4, hj5⟩
      · refine ⟨0, ?_, by simp, by simp, by simp, ?_, ?_⟩
        · simp [mk0] at hcap; exact hcap
        · simp [mk0] at hled; rw [hled]
        · simp [mk0] at hled; rw [hled]
      · by_cases hg : s.size + 1 ≥ s.cap
        · rw [if_pos hg] at hcap hled
          have hl : l.length = 2 ^ j := by omega
          refine ⟨j + 1, ?_, ?_, by simp, ?_, ?_, ?_⟩
          · have : l.length ≠ 0 := by rw [hl]; exact Nat.ne_of_gt (Nat.two_pow_pos j)
            rw [hcap, if_neg (by omega), Nat.pow_succ]; omega
          · rw [Nat.pow_succ]; simp
            have := Nat.two_pow_pos j; omega
          · rw [Nat.pow_succ]; simp; omega
          · rw [hled, Nat.pow_succ]; simp only; omega
          · rw [hled]; simp only; omega
        · rw [if_neg hg] at hcap hled
          refine ⟨j, by omega, by simp; omega, by simp, by simp; omega, ?_, ?_⟩
          · rw [hled]; exact hj4
          · rw [hled]; exact hj5)
    refine ⟨u, false :: evs, ?_, by simpa using hur, by simpa using huinv⟩
    simp only [List.map_cons, runOps, Op.run, ht, hu]; rfl

example : ∃ s evs, session .managed none ([1, 2, 3, 4, 5, 6, 7, 8, 9].map Op.push) = .ok (s, evs) ∧
    s.led.reloc = 15 ∧ s.led.alloc = 5 := by
  obtain ⟨⟨s, evs⟩, h, hf⟩ := exists_of_map
    (x := session .managed none ([1, 2, 3, 4, 5, 6, 7, 8, 9].map Op.push))
    (fun r => (r.1.led.reloc, r.1.led.alloc)) (15, 5) (by decide +kernel)
  exact ⟨s, evs, h, congrArg Prod.fst hf, congrArg Prod.snd hf⟩

/-! ## C09 -/

/-- **C09 (move construction).** The new vector has the source's contents, the source becomes an empty
vector of capacity 0 that behaves like a fresh one under every later history, and nothing is constructed,
destroyed, allocated or freed by the move. -/
theorem C09_move_ctor {k : Kind} {a : VecS α} {l : List α} (ha : Spec.VecReachable k a l)
    (ops : List (Op α)) (hops : k = .managed → Spec.endHistory ops []) :
    (moveCtor a).1.contents = .ok l ∧ (moveCtor a).1.led = a.led ∧
    (moveCtor a).2.size = 0 ∧ (moveCtor a).2.cap = 0 ∧ (moveCtor a).2.led = a.led ∧
    (∃ t, runOps k ops (moveCtor a).2 = .ok (t, (Spec.vecRun ops []).2) ∧
      t.contents = .ok (Spec.vecRun ops []).1) ∧
    (∃ t, dtor k (moveCtor a).1 = .ok () t ∧ t.led.gone = a.led.gone + l.length ∧
      ∃ t', dtor k { (moveCtor a).2 with led := t.led } = .ok () t' ∧ t'.led = t.led) := by
  have hr := (rep_of_reachable ha).1
  refine ⟨hr.contents, rfl, rfl, rfl, rfl, ?_, ?_⟩
  · obtain ⟨t, ht, htr, _⟩ := history_run (k := k) ops (rep_mk0 (α := α) k a.led) (spare_mk0 a.led) hops
    exact ⟨t, ht, htr.contents⟩
  · obtain ⟨t, ht, htl⟩ := dtor_run hr
    exact ⟨t, ht, by rw [htl], _, rfl, rfl⟩

/-- **C09 (move assignment).** Two vectors built in one execution (`b` after `a`, sharing the ledger):
after `a = move(b)`, `a` has `b`'s contents, `b` is empty with capacity 0 and reusable, and destroying
both leaves exactly the objects and blocks that existed before either was built. -/
theorem C09_move_assign {k : Kind} (initA initB : Option (List α)) (opsA opsB ops : List (Op α)) (led : Ledger)
    (hA : k = .managed → Spec.endHistory opsA (initA.getD []))
    (hB : k = .managed → Spec.endHistory opsB (initB.getD []))
    (hops : k = .managed → Spec.endHistory ops [])
    {a b : VecS α} {ea eb : List Bool} (ha : session k initA opsA led = .ok (a, ea))
    (hb : session k initB opsB a.led = .ok (b, eb)) :
    ∃ a' b', moveAssign k b { a with led := b.led } = .ok b' a' ∧
      a'.contents = .ok (Spec.vecRun opsB (initB.getD [])).1 ∧ b'.size = 0 ∧ b'.cap = 0 ∧
      (∃ t, runOps k ops b' = .ok (t, (Spec.vecRun ops []).2) ∧ t.contents = .ok (Spec.vecRun ops []).1) ∧
      ∃ t, dtor k a' = .ok () t ∧ dtor k { b' with led := t.led } = .ok () { b' with led := t.led } ∧
        t.led.blocks = led.blocks ∧ (k = .managed → t.led.objs = led.objs) := by
  obtain ⟨a0, ha0, hra, _, hoa, hba, _⟩ := session_run (k := k) initA opsA led hA
  rw [ha0] at ha; cases ha
  obtain ⟨b0, hb0, hrb, _, hob, hbb, _⟩ := session_run (k := k) initB opsB a.led hB
  rw [hb0] at hb; cases hb
  have hra' : Rep k { a with led := b.led } (Spec.vecRun opsA (initA.getD [])).1 := ⟨hra.1, hra.2⟩
  obtain ⟨t, o, ht, htr, hor, htc, htp, htl⟩ := moveAssign_run hra' hrb
  obtain ⟨u, hu, hul⟩ := dtor_run htr
  have ho : o.size = 0 ∧ o.cap = 0 ∧ o.ptr = .null := by
    have : o = { movedFrom b with led := t.led } := by
      have h := ht
      unfold moveAssign at h
      simp only [Cpp.bind_run] at h
      split at h
      · split at h
        · cases h; rfl
        · cases h
        · cases h
      · cases h
      · cases h
    rw [this]; exact ⟨rfl, rfl, rfl⟩
  have has := hra.1
  have hbs := hrb.1
  have hbt : hadBlock t = hadBlock b := by simp only [hadBlock, htp]
  have hba' : hadBlock { a with led := b.led } = hadBlock a := rfl
  refine ⟨t, o, ht, htr.contents, ho.1, ho.2.1, ?_, u, hu, ?_, ?_, fun hk => ?_⟩
  · obtain ⟨w, hw, hwr, _⟩ := history_run (k := k) ops hor (.inl ⟨ho.2.1, ho.2.2⟩) hops
    exact ⟨w, hw, hwr.contents⟩
  · unfold dtor; simp only [ho.2.2]
  · rw [hul, htl]; simp only [Ledger.blocks] at *; omega
  · have h1 := hoa hk
    have h2 := hob hk
    rw [hul, htl]; simp only [Ledger.objs] at *; omega

/-- **C09 (self move-assignment)** changes nothing. -/
theorem C09_move_assign_self (s : VecS α) : (assignSelf : Cpp (VecS α) Unit) s = .ok () s := rfl

example : ∃ (a b : VecS Nat) (ea eb : List Bool), session .managed (some [1, 2]) [.push 3] {} = .ok (a, ea) ∧
    session .managed none [.push 4] a.led = .ok (b, eb) ∧ a.size = 3 := by
  obtain ⟨a, ha, hr, _⟩ := session_run (k := .managed) (some [1, 2]) [.push 3] {}
    (by simp [Spec.endHistory, Spec.endOp])
  obtain ⟨b, hb, _⟩ := session_run (k := .managed) none [.push 4] a.led
    (by simp [Spec.endHistory, Spec.endOp])
  exact ⟨a, b, _, _, ha, hb, hr.1⟩

/-! ## C15 (Vector part) -/

/-- **C15 (Vector).** `a == b` is true exactly when the sizes agree and all elements compare equal,
whatever the capacities. -/
theorem C15_vector_eq_extensional (eq : α → α → Bool) {k : Kind} {a b : VecS α} {la lb : List α}
    (ha : Spec.VecReachable k a la) (hb : Spec.VecReachable k b lb) :
    ∃ r, eqv eq b a = .ok r a ∧
      (r = true ↔ la.length = lb.length ∧ ∀ i (hi : i < la.length) (hj : i < lb.length), eq la[i] lb[i] = true) := by
  refine ⟨_, eqv_run eq (rep_of_reachable ha).1 (rep_of_reachable hb).1, ?_⟩
  simp only [Bool.and_eq_true, beq_iff_eq]
  refine and_congr_right fun hlen => ?_
  simp only [List.all_eq_true]
  constructor
  · intro h i hi hj
    refine h (la[i], lb[i]) ?_
    rw [← List.getElem_zip (h := by simp; omega)]
    exact List.getElem_mem _
  · rintro h ⟨x, y⟩ hxy
    obtain ⟨i, hi, he⟩ := List.getElem_of_mem hxy
    rw [List.getElem_zip] at he
    cases he
    exact h i _ _

/-- **C15 (Vector).** If element equality is equality of values, `==` decides equality of contents; it is
then reflexive, symmetric and transitive. -/
theorem C15_vector_eq_iff_contents [DecidableEq α] {k : Kind} {a b : VecS α} {la lb : List α}
    (ha : Spec.VecReachable k a la) (hb : Spec.VecReachable k b lb) :
    eqv (fun x y => decide (x = y)) b a = .ok (decide (la = lb)) a := by
  obtain ⟨r, hr, hiff⟩ := C15_vector_eq_extensional (fun x y => decide (x = y)) ha hb
  rw [hr]
  congr 1
  rw [Bool.eq_iff_iff, hiff, decide_eq_true_eq]
  constructor
  · rintro ⟨hlen, h⟩
    exact List.ext_getElem hlen (fun i h1 h2 => by simpa using h i h1 h2)
  · rintro rfl
    exact ⟨rfl, by simp⟩

example : ∃ a b : VecS Nat, Spec.VecReachable .trivial a [1, 2] ∧ Spec.VecReachable .trivial b [1, 2] ∧
    a.cap ≠ b.cap := by
  obtain ⟨a, ha, ha'⟩ := reachable_example (k := .trivial) (some [1, 2]) [] [1, 2]
    (fun s => decide (s.cap = 3)) (by simp) (by decide +kernel)
  obtain ⟨b, hb, hb'⟩ := reachable_example (k := .trivial) none [.push 1, .push 2, .reserve 50] [1, 2]
    (fun s => decide (s.cap = 50)) (by simp) (by decide +kernel)
  simp only [decide_eq_true_eq] at ha' hb'
  exact ⟨a, b, ha, hb, by omega⟩

/-! ## C17 (false for this code when the push reallocates) -/

/-- **C17, exact behaviour.** `v.push_back(v[i])` appends a copy of element `i` exactly when the push does
not reallocate (`size + 1 < capacity`); otherwise it reads through a dangling reference. -/
theorem C17_push_own_element {k : Kind} {s : VecS α} {l : List α} (hs : Spec.VecReachable k s l)
    {i : Nat} (hi : i < l.length) :
    (s.size + 1 < s.cap → ∃ t, pushBackOwn k i s = .ok () t ∧ t.contents = .ok (l ++ [l[i]])) ∧
    (s.cap ≤ s.size + 1 → pushBackOwn k i s = .ub .wildPtr) := by
  obtain ⟨hr, hsp⟩ := rep_of_reachable hs
  have hsz := hr.1
  constructor
  · intro hlt
    obtain ⟨hp, hc, rest, hcells, _⟩ := hr.block_of_pos (by rintro rfl; simp at hi)
    obtain ⟨t, ht, htr, _⟩ := construct_back hr (by omega) l[i]
    refine ⟨t, ?_, htr.contents⟩
    have hread : onMem (Mem.read i) s = .ok l[i] s := by
      rw [onMem_block hp]
      have : s.cells[i]? = some (.live l[i]) := by
        rw [hcells, List.getElem?_append_left (by simpa using hi)]
        simp [hi]
      simp only [Mem.read, this, Out.mapState_ok]
    unfold pushBackOwn
    rw [Cpp.bind_ok (Cpp.get_run _), Cpp.bind_ok (growPush_run hr), if_neg (by omega),
      Cpp.bind_ok (Cpp.get_run _), if_neg (by simp), Cpp.bind_ok hread]
    exact ht
  · intro hge
    unfold pushBackOwn
    rw [Cpp.bind_ok (Cpp.get_run _), Cpp.bind_ok (growPush_run hr), if_pos (by omega),
      Cpp.bind_ok (Cpp.get_run _), if_pos (by simp [afterRealloc])]

/-- **C17, the part that holds**: with spare capacity the own element is appended. -/
theorem C17_push_own_element_partial {k : Kind} {s : VecS α} {l : List α} (hs : Spec.VecReachable k s l)
    {i : Nat} (hi : i < l.length) (hcap : s.size + 1 < s.cap) :
    ∃ t, pushBackOwn k i s = .ok () t ∧ t.contents = .ok (l ++ [l[i]]) :=
  (C17_push_own_element hs hi).1 hcap

example : ∃ s : VecS Nat, Spec.VecReachable .trivial s [1, 2, 3, 4] ∧ s.cap ≤ s.size + 1 :=
  (reachable_example none [.push 1, .push 2, .push 3, .push 4] _ (fun s => decide (s.cap ≤ s.size + 1))
    (by simp) (by decide +kernel)).imp fun _ h => ⟨h.1, by simpa using h.2⟩
example : ∃ s : VecS Nat, Spec.VecReachable .trivial s [1, 2, 3] ∧ s.size + 1 < s.cap :=
  (reachable_example none [.push 1, .push 2, .push 3] _ (fun s => decide (s.size + 1 < s.cap))
    (by simp) (by decide +kernel)).imp fun _ h => ⟨h.1, by simpa using h.2⟩

end Efp.Props
