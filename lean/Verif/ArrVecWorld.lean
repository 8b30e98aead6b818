import Verif.ArrVecLemmas

/-! `ArrVec`: remaining calls and whole programs. -/

namespace Efp
namespace AvS

variable {α β : Type}

theorem map_split {γ : Type} (f : α → γ) (l : List α) (i : Nat) (hi : i < l.length) :
    l.map f = (l.take i).map f ++ f l[i] :: (l.drop (i + 1)).map f := by
  rw [← List.map_cons, ← List.map_append, ← List.drop_eq_getElem_cons hi, List.take_append_drop]

theorem insert_throw {k : Kind} {n : Nat} {s : AvS α} {l : List α} (h : Rep k n s l) (i : Nat) (a : α)
    (hl : ¬ (i ≤ l.length ∧ l.length < n)) : AvS.insert k i a s = .thrown s := by
  have := h.le
  unfold AvS.insert
  rw [Cpp.bind_ok (Cpp.get_run _), if_pos (by rw [h.size, h.cap]; omega)]

theorem insert_run {k : Kind} {n : Nat} {s : AvS α} {l : List α} (h : Rep k n s l) (i : Nat) (a : α)
    (hi : i ≤ l.length) (hl : l.length < n) :
    ∃ t, AvS.insert k i a s = .ok () t ∧ Rep k n t (l.take i ++ a :: l.drop i) := by
  obtain ⟨c, rest, hcells, hlen, hc, hraw⟩ := h.spare hl
  have hcells' : s.cells = (l.take i).map .live ++ (l.drop i).map .live ++ c :: rest := by
    rw [hcells, ← List.map_append, List.take_append_drop]
  obtain ⟨x, _, hrun⟩ := shiftUp_run k (l.length - i) (l.drop i) (by simp) ((l.take i).map .live) rest c s.led hc
  rw [← toMem_eq hcells', List.length_map, List.length_take, Nat.min_eq_left hi,
    show i + (l.length - i) = s.size by rw [h.size]; omega] at hrun
  have h2 : onM (Mem.construct i a) { s with
      cells := (l.take i).map .live ++ x :: ((l.drop i).map .live ++ rest)
      led := { s.led with made := s.led.made + (l.length - i), gone := s.led.gone + (l.length - i) } } =
      .ok () { s with
      cells := (l.take i).map .live ++ .live a :: ((l.drop i).map .live ++ rest)
      led := { s.led with made := s.led.made + (l.length - i) + 1, gone := s.led.gone + (l.length - i) } } :=
    onM_ok (Mem.construct_mid a (by simp [hi]))
  refine ⟨{ s with
      cells := (l.take i).map .live ++ .live a :: ((l.drop i).map .live ++ rest)
      led := { s.led with made := s.led.made + (l.length - i) + 1, gone := s.led.gone + (l.length - i) }
      size := s.size + 1 }, ?_, ?_⟩
  · unfold AvS.insert
    rw [Cpp.bind_ok (Cpp.get_run _), if_neg (by rw [h.size, h.cap]; omega)]
    rw [show s.size - i = l.length - i by rw [h.size]]
    rw [Cpp.bind_ok (onM_ok hrun)]
    simp only [List.append_assoc, List.cons_append]
    rw [Cpp.bind_ok h2]
  · refine ⟨by simp [h.size]; omega, h.cap, ⟨rest, by simp, ?_, hraw⟩, fun hk => ?_⟩
    · simp; omega
    · have := h.led hk
      simp; omega

theorem erase_throw {k : Kind} {n : Nat} {s : AvS α} {l : List α} (h : Rep k n s l) (i : Nat)
    (hl : ¬ i < l.length) : AvS.erase k i s = .thrown s := by
  unfold AvS.erase
  rw [Cpp.bind_ok (Cpp.get_run _), if_pos (by rw [h.size]; omega)]

theorem erase_run {k : Kind} {n : Nat} {s : AvS α} {l : List α} (h : Rep k n s l) (i : Nat)
    (hi : i < l.length) :
    ∃ t, AvS.erase k i s = .ok () t ∧ Rep k n t (l.take i ++ l.drop (i + 1)) := by
  obtain ⟨rest, hcells, hlen, hraw⟩ := h.cells
  have hcells' : s.cells = (l.take i).map .live ++ .live l[i] :: ((l.drop (i + 1)).map .live ++ rest) := by
    rw [hcells, map_split _ l i hi]; simp
  have h1 : onM (Mem.destroy k i) s = .ok () { s with
      cells := (l.take i).map .live ++ dead k (.live l[i]) :: ((l.drop (i + 1)).map .live ++ rest)
      led := { s.led with gone := s.led.gone + 1 } } := by
    refine onM_ok ?_
    rw [toMem_eq hcells', Mem.destroy_mid (by simp; omega) (fun _ => rfl)]
  obtain ⟨x, hx, hrun⟩ := shiftDown_run k (l.drop (i + 1)) ((l.take i).map .live) rest (dead k (.live l[i]))
    { s.led with gone := s.led.gone + 1 } (by rintro rfl; rfl)
  rw [List.length_map, List.length_take, Nat.min_eq_left (by omega), List.length_drop] at hrun
  have h2 : onM (forUp (shiftDownOne k) i (l.length - (i + 1))) { s with
      cells := (l.take i).map .live ++ dead k (.live l[i]) :: ((l.drop (i + 1)).map .live ++ rest)
      led := { s.led with gone := s.led.gone + 1 } } = .ok () { s with
      cells := (l.take i).map .live ++ (l.drop (i + 1)).map .live ++ x :: rest
      led := { s.led with made := s.led.made + (l.length - (i + 1)),
                          gone := s.led.gone + 1 + (l.length - (i + 1)) } } := by
    refine onM_ok ?_
    simp only [List.append_assoc, List.cons_append] at hrun ⊢
    exact hrun
  refine ⟨{ s with
      cells := (l.take i).map .live ++ (l.drop (i + 1)).map .live ++ x :: rest
      led := { s.led with made := s.led.made + (l.length - (i + 1)),
                          gone := s.led.gone + 1 + (l.length - (i + 1)) }
      size := s.size - 1 }, ?_, ?_⟩
  · unfold AvS.erase
    rw [Cpp.bind_ok (Cpp.get_run _), if_neg (by rw [h.size]; omega), Cpp.bind_ok h1]
    rw [show s.size - 1 - i = l.length - (i + 1) by rw [h.size]; omega, Cpp.bind_ok h2]
  · refine ⟨by simp [h.size]; omega, h.cap, ⟨x :: rest, by simp, ?_, ?_⟩, fun hk => ?_⟩
    · simp at hlen ⊢; omega
    · intro hk c hc
      rcases List.mem_cons.mp hc with rfl | hc
      · exact hx hk
      · exact hraw hk c hc
    · have := h.led hk
      simp; omega

theorem clear_run {k : Kind} {n : Nat} {s : AvS α} {l : List α} (h : Rep k n s l) :
    ∃ t, AvS.clear k s = .ok () t ∧ Rep k n t [] := by
  obtain ⟨t, ht, _, hcap, hlen, hraw, _, hled⟩ := destroyAll_run h
  refine ⟨{ t with size := 0 }, ?_, ⟨rfl, hcap, ⟨t.cells, rfl, hlen, hraw⟩, fun hk => ?_⟩⟩
  · unfold AvS.clear
    rw [Cpp.bind_ok ht]
  · have := h.led hk
    simp [hled]; omega

theorem reserve_run {k : Kind} {n : Nat} {s : AvS α} {l : List α} (h : Rep k n s l) (m : Nat) :
    AvS.reserve m s = if m ≤ n then .ok () s else .thrown s := by
  unfold AvS.reserve
  rw [Cpp.bind_ok (Cpp.get_run _), h.cap]
  by_cases hm : m ≤ n
  · rw [if_neg (by omega), if_pos hm]; rfl
  · rw [if_pos (by omega), if_neg hm]

theorem resize_throw {k : Kind} {n : Nat} {s : AvS α} {l : List α} (h : Rep k n s l) (m : Nat)
    (hm : n < m) : AvS.resize m s = .thrown s := by
  unfold AvS.resize
  rw [Cpp.bind_ok (Cpp.get_run _), h.cap, if_pos (by omega)]

theorem resize_run {n : Nat} {s : AvS α} {l : List α} (h : Rep .trivial n s l) (m : Nat)
    (hm : m ≤ l.length) : ∃ t, AvS.resize m s = .ok () t ∧ Rep .trivial n t (l.take m) := by
  obtain ⟨rest, hcells, hlen, _⟩ := h.cells
  have := h.le
  refine ⟨{ s with size := m }, ?_, ⟨by simp [hm], h.cap, ⟨(l.drop m).map .live ++ rest, ?_, ?_, by simp⟩,
    by simp⟩⟩
  · unfold AvS.resize
    rw [Cpp.bind_ok (Cpp.get_run _), if_neg (by rw [h.cap]; omega)]
  · rw [← List.append_assoc, ← List.map_append, List.take_append_drop, hcells]
  · rw [← List.append_assoc, ← List.map_append, List.take_append_drop, hlen]

theorem setAt_run {k : Kind} {n : Nat} {s : AvS α} {l : List α} (h : Rep k n s l) (i : Nat) (a : α)
    (hi : i < l.length) : ∃ t, setAt k i a s = .ok () t ∧ Rep k n t (l.set i a) := by
  obtain ⟨rest, hcells, hlen, hraw⟩ := h.cells
  have hcells' : s.cells = (l.take i).map .live ++ .live l[i] :: ((l.drop (i + 1)).map .live ++ rest) := by
    rw [hcells, map_split _ l i hi]; simp
  have e : setAt k i a s = .ok () { s with
      cells := (l.take i).map .live ++ .live a :: ((l.drop (i + 1)).map .live ++ rest) } := by
    refine onM_ok ?_
    rw [toMem_eq hcells', Mem.assign_mid (by simp; omega) (fun _ => rfl)]
  refine ⟨_, e, ⟨by simp [h.size], h.cap, ⟨rest, ?_, by simpa using hlen, hraw⟩, fun hk => ?_⟩⟩
  · rw [List.set_eq_take_append_cons_drop, if_pos hi]
    simp
  · simpa using h.led hk

/-! ### moves -/

/-- moving `ys` out of `other` slot by slot -/
theorem moveLoop_run {k : Kind} (ys : List α) (pre cs rest opre orest : List (Cell α)) (s o : AvS α)
    (hs : s.cells = pre ++ cs ++ rest) (hlen : cs.length = ys.length)
    (ho : o.cells = opre ++ ys.map .live ++ orest) (hp : opre.length = pre.length) :
    forUp (moveOne k) pre.length ys.length (s, o) =
      .ok () ({ s with cells := pre ++ ys.map .live ++ rest
                       led := { s.led with made := s.led.made + ys.length } },
              { o with cells := opre ++ ys.map (husk k) ++ orest }) := by
  induction ys generalizing pre cs opre s o with
  | nil =>
    have : cs = [] := List.length_eq_zero_iff.mp hlen
    subst this
    simp at hs ho
    simp [← hs, ← ho]
  | cons y ys ih =>
    cases cs with
    | nil => simp at hlen
    | cons c cs =>
      have h1 : Mem.moveOut k pre.length o.toMem =
          .ok y ⟨opre ++ husk k y :: (ys.map .live ++ orest), o.led⟩ := by
        rw [toMem_eq (cs := opre ++ .live y :: (ys.map .live ++ orest)) (by rw [ho]; simp),
          Mem.moveOut_mid hp]
      have h2 : onM (Mem.construct pre.length y) s = .ok () { s with
          cells := pre ++ .live y :: (cs ++ rest), led := { s.led with made := s.led.made + 1 } } := by
        refine onM_ok ?_
        rw [toMem_eq (cs := pre ++ c :: (cs ++ rest)) (by rw [hs]; simp), Mem.construct_mid y rfl]
      have hbody : moveOne k pre.length (s, o) = .ok () ({ s with
          cells := pre ++ .live y :: (cs ++ rest), led := { s.led with made := s.led.made + 1 } },
          { o with cells := opre ++ husk k y :: (ys.map .live ++ orest) }) := by
        simp only [moveOne, h1, h2, Out.mapState_ok]
      have h3 := ih (pre ++ [.live y]) cs (opre ++ [husk k y]) { s with
          cells := pre ++ .live y :: (cs ++ rest), led := { s.led with made := s.led.made + 1 } }
          { o with cells := opre ++ husk k y :: (ys.map .live ++ orest) }
          (by simp) (by simpa using hlen) (by simp) (by simp [hp])
      simp only [List.length_append, List.length_cons, List.length_nil, Nat.zero_add] at h3
      rw [List.length_cons, forUp_succ, Cpp.bind_ok hbody, h3]
      simp [Nat.add_assoc, Nat.add_comm 1]

theorem moveCtor_run {k : Kind} {n : Nat} {o : AvS α} {l : List α} (h : Rep k n o l) :
    ∃ t o' rest, moveCtor k o = .ok () (t, o') ∧ Rep k n t l ∧ o'.size = 0 ∧ o'.cap = n ∧
      o'.cells = l.map (husk k) ++ rest ∧ o.cells = l.map .live ++ rest ∧ o'.led = o.led := by
  obtain ⟨rest, hcells, hlen, _⟩ := h.cells
  have hle := h.le
  have e := moveLoop_run (k := k) l [] (List.replicate l.length .raw) (List.replicate (n - l.length) .raw) [] rest
    { cells := List.replicate n .raw, size := o.size, cap := n } { o with size := 0 }
    (by simp; omega) (by simp) (by simpa using hcells) rfl
  have e' : moveCtor k o = forUp (moveOne k) 0 l.length
      ({ cells := List.replicate n .raw, size := o.size, cap := n }, { o with size := 0 }) := by
    unfold moveCtor
    rw [h.cap, h.size]
  refine ⟨_, _, rest, e'.trans e, ?_, rfl, h.cap, rfl, hcells, rfl⟩
  exact ⟨h.size, rfl, ⟨List.replicate (n - l.length) .raw, rfl, by simp; omega,
      fun _ c hc => (List.mem_replicate.mp hc).2⟩, fun _ => by simp⟩

end AvS
end Efp
namespace Efp
namespace AvS

variable {α β : Type}

theorem moveAssign_run {k : Kind} {n : Nat} {s o : AvS α} {l lo : List α} (h : Rep k n s l)
    (ho : Rep k n o lo) :
    ∃ t o' rest, AvS.moveAssign k (s, o) = .ok () (t, o') ∧ Rep k n t lo ∧ o'.size = 0 ∧ o'.cap = n ∧
      o'.cells = lo.map (husk k) ++ rest ∧ o.cells = lo.map .live ++ rest ∧ o'.led = o.led := by
  obtain ⟨u, hu, _, hcap, hlen, hraw, _, hled⟩ := destroyAll_run h
  obtain ⟨rest, hcells, _, _⟩ := ho.cells
  have hle := ho.le
  have e := moveLoop_run (k := k) lo [] (u.cells.take lo.length) (u.cells.drop lo.length) [] rest
    { u with size := o.size } o (by simp) (by simp; omega) (by simpa using hcells) rfl
  simp only [List.length_nil, List.nil_append] at e
  have e' : AvS.moveAssign k (s, o) = (do
        forUp (moveOne k) 0 lo.length
        Cpp.modify (fun q => (q.1, { q.2 with size := 0 }))) ({ u with size := o.size }, o) := by
    unfold AvS.moveAssign
    simp only [hu, ho.size]
  rw [Cpp.bind_ok e, Cpp.modify_run] at e'
  refine ⟨_, _, rest, e', ⟨ho.size, hcap, ⟨u.cells.drop lo.length, rfl, by simp; omega,
    fun hk c hc => hraw hk c (List.mem_of_mem_drop hc)⟩, fun hk => ?_⟩, rfl, ho.cap, rfl, hcells, rfl⟩
  have := h.led hk
  simp [hled]; omega

/-- for trivial elements a moved-from ArrVec is an ordinary empty one -/
theorem rep_moved_trivial {n : Nat} {o' : AvS α} {l : List α} {rest : List (Cell α)} (hsz : o'.size = 0)
    (hcap : o'.cap = n) (hcells : o'.cells = l.map (husk .trivial) ++ rest)
    (hlen : (l.map Cell.live ++ rest).length = n) : Rep .trivial n o' [] :=
  ⟨hsz, hcap, ⟨o'.cells, rfl, by rw [hcells]; simpa using hlen, by simp⟩, by simp⟩

theorem Rep.cells_length {k : Kind} {n : Nat} {s : AvS α} {l : List α} (h : Rep k n s l) :
    s.cells.length = n := by
  obtain ⟨rest, hc, hl, _⟩ := h.cells
  rw [hc, hl]

/-! ### reading -/

theorem readFrom_run (s : AvS α) (ys : List α) (pre rest : List (Cell α))
    (hcells : s.cells = pre ++ ys.map .live ++ rest) : readFrom s pre.length ys.length = .ok ys := by
  induction ys generalizing pre with
  | nil => rfl
  | cons y ys ih =>
    have h1 : at_ pre.length s = .ok y s := by
      refine onM_ok ?_
      rw [toMem_eq (cs := pre ++ .live y :: (ys.map .live ++ rest)) (by rw [hcells]; simp),
        Mem.read_mid rfl]
    have h2 := ih (pre ++ [.live y]) (by rw [hcells]; simp)
    simp only [List.length_append, List.length_cons, List.length_nil, Nat.zero_add] at h2
    simp only [List.length_cons, readFrom, h1, h2, Except.map]

theorem Rep.contents {k : Kind} {n : Nat} {s : AvS α} {l : List α} (h : Rep k n s l) :
    s.contents = .ok l := by
  obtain ⟨rest, hcells, _, _⟩ := h.cells
  have := readFrom_run s l [] rest (by simpa using hcells)
  unfold AvS.contents
  rw [h.size]; exact this

theorem at_run {k : Kind} {n : Nat} {s : AvS α} {l : List α} (h : Rep k n s l) (i : Nat) (hi : i < l.length) :
    at_ i s = .ok l[i] s := by
  obtain ⟨rest, hcells, _, _⟩ := h.cells
  refine onM_ok ?_
  rw [toMem_eq (cs := (l.take i).map .live ++ .live l[i] :: ((l.drop (i + 1)).map .live ++ rest))
    (by rw [hcells, map_split _ l i hi]; simp), Mem.read_mid (by simp; omega)]

theorem eqLoop_run (eq : α → α → Bool) {k k' : Kind} {n n' : Nat} {s o : AvS α} {l lo : List α}
    (h : Rep k n s l) (ho : Rep k' n' o lo) (m i : Nat) (hm : i + m = l.length) (hl : l.length = lo.length) :
    eqLoop eq o i m s =
      .ok (decide (∀ j (h1 : j < l.length) (h2 : j < lo.length), i ≤ j → eq l[j] lo[j] = true)) s := by
  induction m generalizing i with
  | zero =>
    simp only [eqLoop, Cpp.pure_run, Out.ok.injEq, and_true]
    symm
    rw [decide_eq_true_iff]
    intro j h1 h2 h3; omega
  | succ m ih =>
    have h1 := at_run h i (by omega)
    have h2 := at_run ho i (by omega)
    simp only [eqLoop, h1, h2]
    by_cases hb : eq (l[i]'(by omega)) (lo[i]'(by omega)) = true
    · rw [if_pos hb, ih (i + 1) (by omega)]
      congr 1
      rw [decide_eq_decide]
      constructor
      · intro H j h1 h2 h3
        by_cases hj : j = i
        · subst hj; exact hb
        · exact H j h1 h2 (by omega)
      · intro H j h1 h2 h3; exact H j h1 h2 (by omega)
    · rw [if_neg hb]
      congr 1
      symm
      rw [decide_eq_false_iff_not]
      intro H; exact hb (H i _ _ (Nat.le_refl _))

theorem eqv_run (eq : α → α → Bool) {k k' : Kind} {n n' : Nat} {s o : AvS α} {l lo : List α}
    (h : Rep k n s l) (ho : Rep k' n' o lo) :
    eqv eq o s = .ok (decide (l.length = lo.length ∧
      ∀ j (h1 : j < l.length) (h2 : j < lo.length), eq l[j] lo[j] = true)) s := by
  unfold eqv
  by_cases hl : l.length = lo.length
  · rw [if_neg (by rw [h.size, ho.size]; simpa using hl), h.size, eqLoop_run eq h ho l.length 0 (by omega) hl]
    simp [hl]
  · rw [if_pos (by rw [h.size, ho.size]; exact hl)]
    simp [hl]

/-! ### one call against the list-level specification -/

theorem op_run {k : Kind} {n : Nat} {s : AvS α} {l : List α} (h : Rep k n s l) (op : Op α)
    (hop : k = .managed → ∀ m, op ≠ .resize m) :
    (∃ l' t, Spec.avStep n op l = some l' ∧ op.run k s = .ok () t ∧ Rep k n t l') ∨
    (Spec.avStep n op l = none ∧ op.run k s = .thrown s) := by
  have hle := h.le
  cases op with
  | push a =>
    by_cases hl : l.length < n
    · obtain ⟨t, ht, hr⟩ := pushBack_run h a hl
      exact .inl ⟨_, t, by simp [Spec.avStep, hl], ht, hr⟩
    · exact .inr ⟨by simp [Spec.avStep, hl], pushBack_throw h a hl⟩
  | pop =>
    rcases List.eq_nil_or_concat l with rfl | ⟨l', a, rfl⟩
    · exact .inr ⟨rfl, popBack_throw h⟩
    · rw [List.concat_eq_append] at h
      obtain ⟨t, ht, hr⟩ := popBack_run h
      exact .inl ⟨l', t, by simp [Spec.avStep], ht, hr⟩
  | insert i a =>
    by_cases hl : i ≤ l.length ∧ l.length < n
    · obtain ⟨t, ht, hr⟩ := insert_run h i a hl.1 hl.2
      exact .inl ⟨_, t, by simp only [Spec.avStep, if_pos hl], ht, hr⟩
    · exact .inr ⟨by simp only [Spec.avStep, if_neg hl], insert_throw h i a hl⟩
  | erase i =>
    by_cases hl : i < l.length
    · obtain ⟨t, ht, hr⟩ := erase_run h i hl
      exact .inl ⟨_, t, by simp only [Spec.avStep, if_pos hl], ht, hr⟩
    · exact .inr ⟨by simp only [Spec.avStep, if_neg hl], erase_throw h i hl⟩
  | clear =>
    obtain ⟨t, ht, hr⟩ := clear_run h
    exact .inl ⟨_, t, rfl, ht, hr⟩
  | reserve m =>
    have e := reserve_run h m
    by_cases hm : m ≤ n
    · rw [if_pos hm] at e
      exact .inl ⟨l, s, by simp [Spec.avStep, hm], e, h⟩
    · rw [if_neg hm] at e
      exact .inr ⟨by simp [Spec.avStep, hm], e⟩
  | resize m =>
    cases k with
    | managed => exact absurd rfl (hop rfl m)
    | trivial =>
      have hc := h.cap
      have hs := h.size
      by_cases hm : m ≤ n
      · by_cases hml : m ≤ l.length
        · obtain ⟨t, ht, hr⟩ := resize_run h m hml
          exact .inl ⟨_, t, by simp [Spec.avStep, hm], by
            simp only [Op.run]; rw [if_pos (by omega)]; exact ht, hr⟩
        · exact .inl ⟨l.take m, s, by simp only [Spec.avStep, hm, if_true], by
            simp only [Op.run]; rw [if_neg (by omega)], by rw [List.take_of_length_le (by omega)]; exact h⟩
      · exact .inr ⟨by simp [Spec.avStep, hm], by
          simp only [Op.run]; rw [if_pos (by omega)]; exact resize_throw h m (by omega)⟩
  | setElem i a =>
    have hs := h.size
    by_cases hi : i < l.length
    · obtain ⟨t, ht, hr⟩ := setAt_run h i a hi
      exact .inl ⟨_, t, rfl, by simp only [Op.run]; rw [if_pos (by omega)]; exact ht, hr⟩
    · exact .inl ⟨_, s, rfl, by simp only [Op.run]; rw [if_neg (by omega)], by
        rw [List.set_eq_of_length_le (by omega)]; exact h⟩

/-! ### programs -/

/-- every variable represents the corresponding list -/
def RepW (k : Kind) (n : Nat) (W : List (AvS α)) (ws : List (List α)) : Prop :=
  W.length = ws.length ∧ ∀ (i : Nat) (s : AvS α) (l : List α), W[i]? = some s → ws[i]? = some l → Rep k n s l

theorem RepW.set {k : Kind} {n : Nat} {W : List (AvS α)} {ws : List (List α)} (h : RepW k n W ws) (v : Nat)
    {t : AvS α} {l : List α} (hr : Rep k n t l) : RepW k n (W.set v t) (ws.set v l) := by
  refine ⟨by simp [h.1], fun i s l' h1 h2 => ?_⟩
  rw [List.getElem?_set] at h1 h2
  by_cases hv : v = i
  · subst hv
    by_cases hlt : v < W.length
    · have hlt' : v < ws.length := by rw [← h.1]; exact hlt
      simp [hlt] at h1; simp [hlt'] at h2
      subst h1; subst h2; exact hr
    · simp [hlt] at h1
  · rw [if_neg hv] at h1 h2
    exact h.2 i s l' h1 h2

theorem RepW.append {k : Kind} {n : Nat} {W : List (AvS α)} {ws : List (List α)} (h : RepW k n W ws)
    {t : AvS α} {l : List α} (hr : Rep k n t l) : RepW k n (W ++ [t]) (ws ++ [l]) := by
  refine ⟨by simp [h.1], fun i s l' h1 h2 => ?_⟩
  by_cases hlt : i < W.length
  · rw [List.getElem?_append_left hlt] at h1
    rw [List.getElem?_append_left (by rw [← h.1]; exact hlt)] at h2
    exact h.2 i s l' h1 h2
  · rw [List.getElem?_append_right (by omega)] at h1
    rw [List.getElem?_append_right (by rw [← h.1]; omega)] at h2
    by_cases hi : i - W.length = 0
    · have hi' : i - ws.length = 0 := by rw [← h.1]; exact hi
      rw [hi] at h1; rw [hi'] at h2
      simp at h1 h2
      subst h1; subst h2; exact hr
    · obtain ⟨j, hj⟩ : ∃ j, i - W.length = j + 1 := ⟨i - W.length - 1, by omega⟩
      rw [hj] at h1; simp at h1

theorem RepW.get {k : Kind} {n : Nat} {W : List (AvS α)} {ws : List (List α)} (h : RepW k n W ws) (v : Nat) :
    (∃ s l, W[v]? = some s ∧ ws[v]? = some l ∧ Rep k n s l) ∨ (W[v]? = none ∧ ws[v]? = none) := by
  by_cases hlt : v < W.length
  · have hlt' : v < ws.length := by rw [← h.1]; exact hlt
    exact .inl ⟨W[v], ws[v], by simp [hlt], by simp [hlt'], h.2 v _ _ (by simp [hlt]) (by simp [hlt'])⟩
  · exact .inr ⟨by simp; omega, by have := h.1; simp; omega⟩

theorem set_self {γ : Type} (l : List γ) (v : Nat) (a : γ) (h : l[v]? = some a) : l.set v a = l := by
  apply List.ext_getElem?
  intro i
  rw [List.getElem?_set]
  by_cases hv : v = i
  · subst hv
    have hlt : v < l.length := by
      rcases Nat.lt_or_ge v l.length with h' | h'
      · exact h'
      · rw [List.getElem?_eq_none h'] at h; cases h
    simp [hlt] at h ⊢
    exact h.symm
  · rw [if_neg hv]

theorem wop_run {k : Kind} {n : Nat} {W : List (AvS α)} {ws : List (List α)} (h : RepW k n W ws)
    (op : WOp α) (hop : k = .managed → Spec.avManagedOk op) :
    ∃ W', op.run k n W = .ok (W', (Spec.avWorldStep n op ws).2) ∧
      RepW k n W' (Spec.avWorldStep n op ws).1 := by
  cases op with
  | make => exact ⟨_, rfl, h.append (rep_mk0 k n)⟩
  | makeOf l =>
    by_cases hl : l.length ≤ n
    · obtain ⟨u, hu, hr⟩ := ofList_run k hl
      refine ⟨W ++ [u], ?_, ?_⟩
      · simp only [WOp.run, hu, declare, Spec.avWorldStep, hl, if_true]
      · simp only [Spec.avWorldStep, hl, if_true]
        exact h.append hr
    · refine ⟨W, ?_, ?_⟩
      · simp only [WOp.run, ofList, Spec.avWorldStep, hl, if_false]
        rw [if_pos (by omega)]; rfl
      · simp only [Spec.avWorldStep, hl, if_false]; exact h
  | copy v =>
    rcases h.get v with ⟨s, l, h1, h2, hr⟩ | ⟨h1, h2⟩
    · obtain ⟨u, hu, hr'⟩ := copyCtor_run hr
      refine ⟨W ++ [u], ?_, ?_⟩
      · simp only [WOp.run, h1, hu, declare, Spec.avWorldStep, h2]
      · simp only [Spec.avWorldStep, h2]
        exact h.append hr'
    · exact ⟨W, by simp only [WOp.run, h1, Spec.avWorldStep, h2], by simp only [Spec.avWorldStep, h2]; exact h⟩
  | assign v w =>
    rcases h.get v with ⟨s, l, h1, h2, hr⟩ | ⟨h1, h2⟩
    · rcases h.get w with ⟨o, lo, h3, h4, hro⟩ | ⟨h3, h4⟩
      · by_cases hvw : v = w
        · subst hvw
          refine ⟨W, ?_, ?_⟩
          · simp only [WOp.run, h1, Spec.avWorldStep, h2, if_true]
          · simp only [Spec.avWorldStep, h2]
            rw [set_self _ _ _ h2]; exact h
        · obtain ⟨u, hu, hr'⟩ := copyAssign_run hr hro
          refine ⟨W.set v u, ?_, ?_⟩
          · simp only [WOp.run, h1, h3, if_neg hvw, hu, store, Spec.avWorldStep, h2, h4]
          · simp only [Spec.avWorldStep, h2, h4]
            exact h.set v hr'
      · exact ⟨W, by simp only [WOp.run, h1, h3, Spec.avWorldStep, h2, h4],
          by simp only [Spec.avWorldStep, h2, h4]; exact h⟩
    · exact ⟨W, by simp only [WOp.run, h1, Spec.avWorldStep, h2],
          by simp only [Spec.avWorldStep, h2]; exact h⟩
  | move v =>
    cases k with
    | managed => exact (hop rfl).elim
    | trivial =>
      rcases h.get v with ⟨s, l, h1, h2, hr⟩ | ⟨h1, h2⟩
      · obtain ⟨t, o', rest, he, hrt, hsz, hcap, hc, hc0, _⟩ := moveCtor_run hr
        have hlen := hr.cells_length
        rw [hc0] at hlen
        refine ⟨W.set v o' ++ [t], ?_, ?_⟩
        · simp only [WOp.run, h1, he, Spec.avWorldStep, h2]
        · simp only [Spec.avWorldStep, h2]
          exact (h.set v (rep_moved_trivial hsz hcap hc hlen)).append hrt
      · exact ⟨W, by simp only [WOp.run, h1, Spec.avWorldStep, h2], by simp only [Spec.avWorldStep, h2]; exact h⟩
  | moveAssign v w =>
    cases k with
    | managed => exact (hop rfl).elim
    | trivial =>
      rcases h.get v with ⟨s, l, h1, h2, hr⟩ | ⟨h1, h2⟩
      · rcases h.get w with ⟨o, lo, h3, h4, hro⟩ | ⟨h3, h4⟩
        · by_cases hvw : v = w
          · refine ⟨W, ?_, ?_⟩
            · simp only [WOp.run, h1, h3, Spec.avWorldStep, h2, h4, hvw, if_true]
            · simp only [Spec.avWorldStep, h2, h4, hvw, if_true]
              exact h
          · obtain ⟨t, o', rest, he, hrt, hsz, hcap, hc, hc0, _⟩ := moveAssign_run hr hro
            have hlen := hro.cells_length
            rw [hc0] at hlen
            refine ⟨(W.set v t).set w o', ?_, ?_⟩
            · simp only [WOp.run, h1, h3, he, Spec.avWorldStep, h2, h4, hvw, if_false]
            · simp only [Spec.avWorldStep, h2, h4, hvw, if_false]
              exact (h.set v hrt).set w (rep_moved_trivial hsz hcap hc hlen)
        · exact ⟨W, by simp only [WOp.run, h1, h3, Spec.avWorldStep, h2, h4],
            by simp only [Spec.avWorldStep, h2, h4]; exact h⟩
      · exact ⟨W, by simp only [WOp.run, h1, Spec.avWorldStep, h2],
            by simp only [Spec.avWorldStep, h2]; exact h⟩
  | on v op =>
    rcases h.get v with ⟨s, l, h1, h2, hr⟩ | ⟨h1, h2⟩
    · have hop' : k = .managed → ∀ m, op ≠ .resize m := by
        rintro hk m rfl
        exact hop hk
      rcases op_run hr op hop' with ⟨l', t, hs, ht, hr'⟩ | ⟨hs, ht⟩
      · refine ⟨W.set v t, ?_, ?_⟩
        · simp only [WOp.run, h1, ht, store, Spec.avWorldStep, h2, hs]
        · simp only [Spec.avWorldStep, h2, hs]
          exact h.set v hr'
      · refine ⟨W, ?_, ?_⟩
        · simp only [WOp.run, h1, ht, store, Spec.avWorldStep, h2, hs]
          rw [set_self _ _ _ h1]
        · simp only [Spec.avWorldStep, h2, hs]
          exact h
    · exact ⟨W, by simp only [WOp.run, h1, Spec.avWorldStep, h2],
            by simp only [Spec.avWorldStep, h2]; exact h⟩

theorem runW_run {k : Kind} {n : Nat} (ops : List (WOp α)) {W : List (AvS α)} {ws : List (List α)}
    (h : RepW k n W ws) (hops : k = .managed → ∀ op ∈ ops, Spec.avManagedOk op) :
    ∃ W', runW k n ops W = .ok (W', (Spec.avRun n ops ws).2) ∧ RepW k n W' (Spec.avRun n ops ws).1 := by
  induction ops generalizing W ws with
  | nil => exact ⟨W, rfl, h⟩
  | cons op ops ih =>
    obtain ⟨W1, h1, hr1⟩ := wop_run h op (fun hk => hops hk op (by simp))
    obtain ⟨W2, h2, hr2⟩ := ih hr1 (fun hk o ho => hops hk o (by simp [ho]))
    refine ⟨W2, ?_, hr2⟩
    simp only [runW, h1, h2, Except.map, Spec.avRun]

theorem repW_nil (k : Kind) (n : Nat) : RepW k n ([] : List (AvS α)) [] := ⟨rfl, by simp⟩

theorem destroyVars_run {k : Kind} {n : Nat} (W : List (AvS α)) (hW : ∀ s ∈ W, ∃ l, Rep k n s l) :
    ∃ W', destroyVars k W = .ok W' ∧ W'.length = W.length ∧
      (k = .managed → ∀ s ∈ W', s.led.made = s.led.gone ∧ aliveCount s.cells = 0) := by
  induction W with
  | nil => exact ⟨[], rfl, rfl, by simp⟩
  | cons s W ih =>
    obtain ⟨W', h', hl', hz'⟩ := ih (fun t ht => hW t (by simp [ht]))
    obtain ⟨l, hr⟩ := hW s (by simp)
    obtain ⟨t, ht, _, _, _, hraw, _, hled⟩ := destroyAll_run hr
    refine ⟨t :: W', ?_, by simp [hl'], fun hk u hu => ?_⟩
    · simp only [destroyVars, dtor, ht, h', Except.map]
    · rcases List.mem_cons.mp hu with rfl | hu
      · have := hr.led hk
        exact ⟨by simp [hled]; omega, aliveCount_all_raw (hraw hk)⟩
      · exact hz' hk u hu

end AvS
end Efp
