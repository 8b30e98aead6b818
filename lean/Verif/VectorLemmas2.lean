import Verif.VectorLemmas

/-! Helper lemmas for the `Vector` model, continued: element assignment, shrinking, construction from
values, copies, moves, destruction and comparison. -/

namespace Efp
namespace VecS

variable {α β : Type}

theorem setAt_run {k : Kind} {s : VecS α} {l : List α} (h : Rep k s l) {i : Nat} (a : α)
    (hi : i < l.length) :
    ∃ t, setAt k i a s = .ok () t ∧ Rep k t (l.set i a) ∧ t.cap = s.cap ∧ t.ptr = s.ptr ∧
      t.led = s.led := by
  have hsz := h.1
  obtain ⟨hp, hcap, rest, hcells, hraw⟩ := h.block_of_pos (by rintro rfl; simp at hi)
  have hl : l = l.take i ++ l[i] :: l.drop (i + 1) := by
    rw [← List.drop_eq_getElem_cons hi, List.take_append_drop]
  have hm : s.toMem = ⟨(l.take i).map .live ++ .live l[i] :: ((l.drop (i + 1)).map .live ++ rest), s.led⟩ :=
    toMem_eq (by rw [hcells, ← List.cons_append, ← List.map_cons, ← List.append_assoc,
      ← List.map_append, ← hl])
  have hset : l.set i a = l.take i ++ a :: l.drop (i + 1) := by
    rw [List.set_eq_take_append_cons_drop, if_pos hi]
  refine ⟨{ s with cells := (l.take i).map .live ++ .live a :: ((l.drop (i + 1)).map .live ++ rest) },
    ?_, ?_, rfl, rfl, rfl⟩
  · unfold setAt
    rw [onMem_block hp, hm, Mem.assign_mid (by simp; omega) (fun _ => rfl)]
    rfl
  · refine rep_block hp (by simp [hsz]) ?_ (rest := rest) (by rw [hset]; simp) hraw
    simp only [hcap, hcells]; simp; omega

theorem resize_down_run {k : Kind} {s : VecS α} {l : List α} (h : Rep k s l) {n : Nat}
    (hn : n ≤ l.length) :
    ∃ t, resize k n s = .ok () { t with size := n } ∧ Rep k t l ∧ t.ptr = .block ∧
      (l ≠ [] → n < s.cap → t = s) := by
  have hsz := h.1
  have hle := h.size_le_cap
  by_cases hg : n + 1 > s.cap
  · refine ⟨afterRealloc s l (n + 1), ?_, rep_afterRealloc _ _ _ (by omega), rfl, by omega⟩
    simp only [resize, Cpp.bind_run, Cpp.get_run, if_pos hg, reserve_run h, Cpp.modify_run]
  · refine ⟨s, ?_, h, ?_, fun _ _ => rfl⟩
    · simp only [resize, Cpp.bind_run, Cpp.get_run, if_neg hg, Cpp.pure_run, Cpp.modify_run]
    · obtain ⟨_, h | ⟨hp, _⟩⟩ := h
      · obtain ⟨_, _, hc, _⟩ := h; omega
      · exact hp

theorem resize_down_trivial {s : VecS α} {l : List α} (h : Rep .trivial s l) {n : Nat}
    (hn : n ≤ l.length) :
    ∃ t, resize .trivial n s = .ok () t ∧ Rep .trivial t (l.take n) ∧ t.ptr = .block ∧
      n < t.cap ∧ t.led.blocks = s.led.blocks + 1 - hadBlock s := by
  have hsz := h.1
  by_cases hg : n + 1 > s.cap
  · have hle := h.size_le_cap
    have hr := rep_afterRealloc (k := .trivial) s l (n + 1) (by omega)
    refine ⟨{ afterRealloc s l (n + 1) with size := n }, ?_, ?_, rfl, ?_, ?_⟩
    · simp only [resize, Cpp.bind_run, Cpp.get_run, if_pos hg, reserve_run h, Cpp.modify_run]
    · have : l.take n = l := List.take_of_length_le (by omega)
      rw [this]
      exact ⟨by show n = _; omega, hr.2⟩
    · show n < n + 1; omega
    · simp only [Ledger.blocks, afterRealloc]; omega
  · refine ⟨{ s with size := n }, ?_, ?_, ?_, by show n < s.cap; omega, ?_⟩
    · simp only [resize, Cpp.bind_run, Cpp.get_run, if_neg hg, Cpp.pure_run, Cpp.modify_run]
    · obtain ⟨_, h | ⟨hp, hcap, rest, hcells, hraw⟩⟩ := h
      · obtain ⟨_, _, hc, _⟩ := h; omega
      · refine rep_block hp (by simp; omega) hcap (rest := (l.drop n).map .live ++ rest) ?_ (by simp)
        show s.cells = _
        rw [hcells, ← List.append_assoc, ← List.map_append, List.take_append_drop]
    · obtain ⟨_, h | ⟨hp, _⟩⟩ := h
      · obtain ⟨_, _, hc, _⟩ := h; omega
      · exact hp
    · obtain ⟨_, h | ⟨hp, _⟩⟩ := h
      · obtain ⟨_, _, hc, _⟩ := h; omega
      · simp [hadBlock, hp]

/-! ### construction from values -/

theorem fillLoop_run (ys : List α) (pre cs rest : List (Cell α)) (s : VecS α) (hp : s.ptr = .block)
    (hcells : s.cells = pre ++ cs ++ rest) (hlen : cs.length = ys.length) :
    fillLoop pre.length ys s = .ok () { s with
      cells := pre ++ ys.map .live ++ rest
      led := { s.led with made := s.led.made + ys.length } } := by
  induction ys generalizing pre cs s with
  | nil =>
    have : cs = [] := List.length_eq_zero_iff.mp hlen
    subst this
    simp only [fillLoop, Cpp.pure_run]
    simp at hcells
    simp [← hcells]
  | cons y ys ih =>
    cases cs with
    | nil => simp at hlen
    | cons c cs =>
      have hm : s.toMem = ⟨pre ++ c :: (cs ++ rest), s.led⟩ := toMem_eq (by rw [hcells]; simp)
      have h1 : onMem (Mem.construct pre.length y) s = .ok () { s with
          cells := pre ++ .live y :: (cs ++ rest), led := { s.led with made := s.led.made + 1 } } := by
        rw [onMem_block hp, hm, Mem.construct_mid y rfl]; rfl
      have h2 := ih (pre ++ [.live y]) cs { s with
          cells := pre ++ .live y :: (cs ++ rest), led := { s.led with made := s.led.made + 1 } } hp
          (by simp) (by simpa using hlen)
      simp only [List.length_append, List.length_cons, List.length_nil, Nat.zero_add] at h2
      simp only [fillLoop]
      rw [Cpp.bind_ok h1, h2]
      simp [Nat.add_assoc, Nat.add_comm 1]

theorem copyLoop_succ {other s : VecS α} {i n : Nat} {y : α} (h1 : at_ i other = .ok y other) :
    copyLoop other i (n + 1) s =
      (do onMem (Mem.construct i y); copyLoop other (i + 1) n) s := by
  unfold copyLoop
  rw [forUp_succ, Cpp.bind_run, Cpp.bind_run]
  simp only [copyOne, h1]

theorem copyLoop_eq_fillLoop (other : VecS α) (hp : other.ptr = .block) (ys : List α)
    (opre orest : List (Cell α)) (hcells : other.cells = opre ++ ys.map .live ++ orest)
    (s : VecS α) :
    copyLoop other opre.length ys.length s = fillLoop opre.length ys s := by
  induction ys generalizing opre s with
  | nil => rfl
  | cons y ys ih =>
    have hm : other.toMem = ⟨opre ++ .live y :: (ys.map .live ++ orest), other.led⟩ :=
      toMem_eq (by rw [hcells]; simp)
    have h1 : at_ opre.length other = .ok y other := by
      unfold at_
      rw [onMem_block hp, hm, Mem.read_mid rfl, Out.mapState_ok, ← hm]
    have h2 := ih (opre ++ [.live y]) (by rw [hcells]; simp)
    simp only [List.length_append, List.length_cons, List.length_nil, Nat.zero_add] at h2
    rw [List.length_cons, copyLoop_succ h1]
    simp only [fillLoop, Cpp.bind_run]
    cases onMem (Mem.construct opre.length y) s with
    | ok b t => exact h2 t
    | thrown t => rfl
    | ub w => rfl

theorem ofList_run (k : Kind) (l : List α) (led : Ledger) :
    ∃ t, ofList l led = .ok () t ∧ Rep k t l ∧ t.ptr = .block ∧ t.cap = l.length + 1 ∧
      t.led = { led with alloc := led.alloc + 1, made := led.made + l.length } := by
  have h := fillLoop_run l [] (List.replicate l.length .raw) [.raw]
    { cells := List.replicate (l.length + 1) .raw, led := { led with alloc := led.alloc + 1 },
      ptr := .block, size := l.length, cap := l.length + 1 } rfl
      (by simp [List.replicate_succ']) (by simp)
  refine ⟨_, h, ?_, rfl, rfl, rfl⟩
  exact rep_block rfl rfl (by simp) (rest := [.raw]) (by simp) (by simp)

theorem copyCtor_run {k : Kind} {other : VecS α} {l : List α} (h : Rep k other l)
    (hp : other.ptr = .block) (led : Ledger) :
    ∃ t, copyCtor other led = .ok () t ∧ Rep k t l ∧ t.ptr = .block ∧ t.cap = other.cap ∧
      t.led = { led with alloc := led.alloc + 1, made := led.made + l.length } := by
  have hsz := h.1
  have hle := h.size_le_cap
  obtain ⟨_, h | ⟨_, hcap, rest, hcells, _⟩⟩ := h
  · rw [h.1] at hp; cases hp
  unfold copyCtor
  simp only [hp]
  have e := copyLoop_eq_fillLoop other hp l [] rest (by simpa using hcells)
  simp only [List.length_nil] at e
  rw [hsz, e]
  have h := fillLoop_run l [] (List.replicate l.length .raw) (List.replicate (other.cap - l.length) .raw)
    { cells := List.replicate other.cap .raw, led := { led with alloc := led.alloc + 1 },
      ptr := .block, size := l.length, cap := other.cap } rfl
      (by simp only [List.nil_append, List.replicate_append_replicate]; congr 1; omega) (by simp)
  refine ⟨_, h, ?_, rfl, rfl, rfl⟩
  refine rep_block rfl rfl (by simp; omega) (rest := List.replicate (other.cap - l.length) .raw)
    (by simp) ?_
  intro _ c hc; exact (List.mem_replicate.mp hc).2

theorem copyCtor_null {k : Kind} {other : VecS α} {l : List α} (h : Rep k other l)
    (hp : other.ptr = .null) (led : Ledger) :
    copyCtor other led = .ok () { cells := [], led := led, ptr := .wild, size := 0, cap := 0 } := by
  obtain ⟨hsz, h | ⟨h, _⟩⟩ := h
  · obtain ⟨_, _, hc, rfl⟩ := h
    simp only [List.length_nil] at hsz
    unfold copyCtor
    simp only [hp, hsz, hc]
  · rw [h] at hp; cases hp

/-! ### copy assignment -/

theorem copyLoop_zero (other s : VecS α) (i : Nat) : copyLoop other i 0 s = .ok () s := rfl

/-- the copy loop of copy assignment writes the source's elements over the first cells -/
theorem copyLoop_run {k : Kind} {other : VecS α} {lo : List α} (ho : Rep k other lo) {s : VecS α}
    {cs rest : List (Cell α)} (hp : s.ptr = .block ∨ lo = []) (hcells : s.cells = cs ++ rest)
    (hlen : cs.length = lo.length) :
    copyLoop other 0 other.size s = .ok () { s with
      cells := lo.map .live ++ rest, led := { s.led with made := s.led.made + lo.length } } := by
  have hosz := ho.1
  rcases lo with _ | ⟨x, lo⟩
  · have : cs = [] := List.length_eq_zero_iff.mp hlen
    subst this
    rw [hosz]
    simp only [List.length_nil, copyLoop_zero, List.map_nil, Nat.add_zero]
    rw [← hcells]
  · obtain ⟨hop, _, orest, hocells, _⟩ := ho.block_of_pos (by simp)
    have hp : s.ptr = .block := hp.resolve_right (by simp)
    have e := copyLoop_eq_fillLoop other hop (x :: lo) [] orest (by simpa using hocells)
    simp only [List.length_nil] at e
    rw [hosz, e]
    exact fillLoop_run (x :: lo) [] cs rest s hp (by simpa using hcells) hlen

theorem map_dead_trivial (cs : List (Cell α)) : cs.map (dead .trivial) = cs := by
  induction cs with
  | nil => rfl
  | cons c cs ih => simp [ih]

/-- destroying all elements of a represented vector of trivial elements changes only the ledger -/
theorem destroyAll_trivial {s : VecS α} {l : List α} (h : Rep .trivial s l) :
    destroyAll .trivial s = .ok () { s with led := { s.led with gone := s.led.gone + l.length } } := by
  obtain ⟨hsz, h | ⟨hp, hcap, rest, hcells, hraw⟩⟩ := h
  · obtain ⟨_, _, _, rfl⟩ := h
    rw [destroyAll_null hsz]; rfl
  · rw [destroyAll_block (l.map .live) rest hp hcells (by simp [hsz]) (by simp), map_dead_trivial,
      ← hcells]
    simp

theorem copyAssign_trivial {s other : VecS α} {l lo : List α} (h : Rep .trivial s l)
    (ho : Rep .trivial other lo) :
    ∃ t, copyAssign .trivial other s = .ok () t ∧
      Rep .trivial t (if s.cap ≤ lo.length then lo else (lo ++ l.drop lo.length).take l.length) := by
  have hsz := h.1
  have hosz := ho.1
  have hle := h.size_le_cap
  have h1 : Rep .trivial { s with led := { s.led with gone := s.led.gone + l.length } } l := ⟨h.1, h.2⟩
  by_cases hc : s.cap ≤ lo.length
  · rw [if_pos hc]
    have hlt : l.length ≤ lo.length := by omega
    let t : VecS α := { s with led := { s.led with gone := s.led.gone + l.length } }
    have hrs : resize .trivial other.size t =
        .ok () { afterRealloc t l (other.size + 1) with size := other.size } := by
      have hcap : other.size + 1 > t.cap := by show _ > s.cap; omega
      simp only [resize, Cpp.bind_run, Cpp.get_run, if_pos hcap, reserve_run h1, Cpp.modify_run,
        t]
    have hcells : ({ afterRealloc t l (other.size + 1) with size := other.size } : VecS α).cells =
        (l.map .live ++ List.replicate (lo.length - l.length) .raw) ++ [.raw] := by
      simp only [afterRealloc, hosz, List.append_assoc, ← List.replicate_succ']
      congr 2; omega
    have hcl := copyLoop_run ho (s := { afterRealloc t l (other.size + 1) with size := other.size })
      (.inl rfl) hcells (by simp; omega)
    refine ⟨_, Eq.trans ?_ hcl, ?_⟩
    · unfold copyAssign
      rw [Cpp.bind_ok (destroyAll_trivial h), Cpp.bind_ok (Cpp.get_run _), if_pos (by show s.cap < _; omega)]
      exact Cpp.bind_ok hrs
    · exact rep_block rfl hosz (by simp [afterRealloc, hosz]) (rest := [.raw]) rfl (by simp)
  · rw [if_neg hc]
    have hpp : s.ptr = .block ∨ lo = [] := by
      obtain ⟨_, h | ⟨hp, _⟩⟩ := h
      · omega
      · exact .inl hp
    obtain ⟨cs, rest, hcells, hlen⟩ : ∃ cs rest, s.cells = cs ++ rest ∧ cs.length = lo.length := by
      refine ⟨s.cells.take lo.length, s.cells.drop lo.length, by simp, ?_⟩
      have : s.cap = s.cells.length := by
        obtain ⟨_, h | ⟨_, hcap, _⟩⟩ := h
        · obtain ⟨_, h2, h3, _⟩ := h; simp [h2, h3]
        · exact hcap
      simp; omega
    have hcl := copyLoop_run ho (s := { s with led := { s.led with gone := s.led.gone + l.length } })
      hpp hcells hlen
    refine ⟨_, Eq.trans ?_ hcl, ?_⟩
    · unfold copyAssign
      rw [Cpp.bind_ok (destroyAll_trivial h), Cpp.bind_ok (Cpp.get_run _), if_neg (by show ¬ (s.cap < _); omega)]
    · obtain ⟨_, h | ⟨hp, hcap, rest', hcells', _⟩⟩ := h
      · omega
      · have hr : rest = (s.cells.drop lo.length) := by rw [hcells]; simp [← hlen]
        refine rep_block hp ?_ ?_ (rest := (lo.map Cell.live ++ rest).drop l.length) ?_ (by simp)
        · simp [hsz]; omega
        · simp only [hcap, hcells]; simp [hlen]
        · simp only
          have : ((lo ++ l.drop lo.length).take l.length).map Cell.live =
              (lo.map Cell.live ++ rest).take l.length := by
            have e : l.length - lo.length - (l.length - lo.length) = 0 := by omega
            rw [hr, hcells']
            simp only [List.map_take, List.map_append, List.map_drop, List.take_append,
              List.drop_append, List.length_drop, List.length_map]
            simp [e]
          rw [this, List.take_append_drop]

/-- a resource-owning target that must grow is relocated after its elements were destroyed -/
theorem copyAssign_managed_ub {s other : VecS α} {l lo : List α} (h : Rep .managed s l)
    (ho : Rep .managed other lo) (hl : l ≠ []) (hcap : s.cap ≤ lo.length) :
    copyAssign .managed other s = .ub .deadRead := by
  have hsz := h.1
  have hosz := ho.1
  obtain ⟨hp, hc, rest, hcells, _⟩ := h.block_of_pos hl
  obtain ⟨x, l', rfl⟩ := List.exists_cons_of_ne_nil hl
  unfold copyAssign
  rw [Cpp.bind_ok (destroyAll_block (k := .managed) ((x :: l').map .live) rest hp hcells (by simp [hsz]) (by simp)),
    Cpp.bind_ok (Cpp.get_run _), if_pos (by show s.cap < _; omega)]
  refine Cpp.bind_ub ?_
  unfold resize
  rw [Cpp.bind_ok (Cpp.get_run _), if_pos (by show _ > s.cap; omega)]
  refine Cpp.bind_ub ?_
  simp only [reserve]
  rw [if_pos (by show _ > s.cap; omega)]
  simp only [List.length_cons] at hsz
  simp [reallocate, Cpp.bind_run, hsz, relocate, onMem, hp, Mem.moveOut]

/-! ### moves, destruction -/

theorem moveAssign_run {k : Kind} {s other : VecS α} {l lo : List α} (h : Rep k s l)
    (ho : Rep k other lo) :
    ∃ t o, moveAssign k other s = .ok o t ∧ Rep k t lo ∧ Rep k o [] ∧ t.cap = other.cap ∧
      t.ptr = other.ptr ∧
      t.led = { s.led with gone := s.led.gone + l.length, freed := s.led.freed + hadBlock s } := by
  obtain ⟨hsz, h | ⟨hp, hcap, rest, hcells, hraw⟩⟩ := h
  · obtain ⟨hp, hcells, hcap, rfl⟩ := h
    refine ⟨{ other with led := s.led }, { movedFrom other with led := s.led }, ?_, ⟨ho.1, ho.2⟩,
      rep_mk0 k s.led, rfl, rfl, by simp [hadBlock, hp]⟩
    unfold moveAssign
    rw [Cpp.bind_ok (destroyAll_null hsz)]
    simp [Cpp.bind_run, dealloc, hp]
  · refine ⟨{ other with led := { s.led with gone := s.led.gone + l.length, freed := s.led.freed + 1 } },
      { movedFrom other with led := { s.led with gone := s.led.gone + l.length, freed := s.led.freed + 1 } },
      ?_, ⟨ho.1, ho.2⟩, rep_mk0 k _, rfl, rfl, by simp [hadBlock, hp]⟩
    unfold moveAssign
    rw [Cpp.bind_ok (destroyAll_block (k := k) (l.map .live) rest hp hcells (by simp [hsz]) (by simp))]
    simp [Cpp.bind_run, dealloc, hp]

theorem dtor_run {k : Kind} {s : VecS α} {l : List α} (h : Rep k s l) :
    ∃ t, dtor k s = .ok () t ∧
      t.led = { s.led with gone := s.led.gone + l.length, freed := s.led.freed + hadBlock s } := by
  obtain ⟨hsz, h | ⟨hp, hcap, rest, hcells, hraw⟩⟩ := h
  · obtain ⟨hp, hcells, hcap, rfl⟩ := h
    refine ⟨s, ?_, by simp [hadBlock, hp]⟩
    unfold dtor; simp only [hp]
  · refine ⟨{ s with cells := [], ptr := .null, led := { s.led with
        gone := s.led.gone + l.length, freed := s.led.freed + 1 } }, ?_, ?_⟩
    · unfold dtor
      simp only [hp]
      rw [Cpp.bind_ok (destroyAll_block (k := k) (l.map .live) rest hp hcells (by simp [hsz]) (by simp))]
      simp [Cpp.bind_run, dealloc, hp]
    · simp [hadBlock, hp]

/-! ### comparison -/

theorem eqLoop_run (eq : α → α → Bool) {s other : VecS α} (hp : s.ptr = .block) (hop : other.ptr = .block)
    (xs ys : List α) (pre opre rest orest : List (Cell α)) (hlen : xs.length = ys.length)
    (hpre : pre.length = opre.length) (hcells : s.cells = pre ++ xs.map .live ++ rest)
    (hocells : other.cells = opre ++ ys.map .live ++ orest) :
    eqLoop eq other pre.length xs.length s = .ok ((xs.zip ys).all (fun p => eq p.1 p.2)) s := by
  induction xs generalizing ys pre opre with
  | nil => simp [eqLoop]
  | cons x xs ih =>
    cases ys with
    | nil => simp at hlen
    | cons y ys =>
      have hm : s.toMem = ⟨pre ++ .live x :: (xs.map .live ++ rest), s.led⟩ :=
        toMem_eq (by rw [hcells]; simp)
      have hom : other.toMem = ⟨opre ++ .live y :: (ys.map .live ++ orest), other.led⟩ :=
        toMem_eq (by rw [hocells]; simp)
      have h1 : at_ pre.length s = .ok x s := by
        unfold at_
        rw [onMem_block hp, hm, Mem.read_mid rfl, Out.mapState_ok, ← hm]
      have h2 : at_ pre.length other = .ok y other := by
        unfold at_
        rw [onMem_block hop, hom, Mem.read_mid hpre.symm, Out.mapState_ok, ← hom]
      have h3 := ih ys (pre ++ [.live x]) (opre ++ [.live y]) (by simpa using hlen) (by simp [hpre])
        (by rw [hcells]; simp) (by rw [hocells]; simp)
      simp only [List.length_append, List.length_cons, List.length_nil, Nat.zero_add] at h3
      simp only [List.length_cons, eqLoop, h1, h2, List.zip_cons_cons, List.all_cons]
      by_cases he : eq x y = true
      · rw [if_pos he, h3, he, Bool.true_and]
      · rw [if_neg he]; simp only [Bool.not_eq_true] at he; rw [he, Bool.false_and]

theorem eqv_run (eq : α → α → Bool) {k : Kind} {s other : VecS α} {l lo : List α} (h : Rep k s l)
    (ho : Rep k other lo) :
    eqv eq other s = .ok (l.length == lo.length && (l.zip lo).all (fun p => eq p.1 p.2)) s := by
  have hsz := h.1
  have hosz := ho.1
  unfold eqv
  by_cases hne : s.size ≠ other.size
  · rw [if_pos hne]
    have : l.length ≠ lo.length := by omega
    simp [this]
  · rw [if_neg hne]
    have hll : l.length = lo.length := by omega
    rcases l with _ | ⟨x, l⟩
    · have : lo = [] := List.length_eq_zero_iff.mp (by simpa using hll.symm)
      subst this
      rw [hsz]; rfl
    · obtain ⟨hp, _, rest, hcells, _⟩ := h.block_of_pos (by simp)
      obtain ⟨hop, _, orest, hocells, _⟩ := ho.block_of_pos (by rintro rfl; simp at hll)
      have := eqLoop_run eq hp hop (x :: l) lo [] [] rest orest hll rfl (by simpa using hcells)
        (by simpa using hocells)
      rw [hsz]
      simp only [List.length_nil] at this
      rw [this, hll]; simp

end VecS
end Efp
