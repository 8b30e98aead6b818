import Verif.Array
import Verif.Spec.Array

/-! Helper lemmas for the `Array` model. -/

namespace Efp
namespace ArrS

variable {α β : Type}

/-- `s` holds `n` living elements, with values `l` if that is `some` -/
structure Rep (n : Nat) (s : ArrS α) (l : Option (List α)) : Prop where
  n_eq : s.n = n
  len : s.cells.length = n
  alive : ∀ c ∈ s.cells, c.alive = true
  val : ∀ x, l = some x → s.cells = x.map .live
  led : s.led.made = s.led.gone + n

theorem toMem_eq {s : ArrS α} {cs : List (Cell α)} (h : s.cells = cs) : s.toMem = ⟨cs, s.led⟩ := by
  subst h; rfl

theorem onM_ok {m : Cpp (Mem α) β} {s : ArrS α} {b : β} {m' : Mem α} (h : m s.toMem = .ok b m') :
    onM m s = .ok b { s with toMem := m' } := by
  unfold onM; rw [h]; rfl

theorem rep_live {n : Nat} {s : ArrS α} {l : List α} (hn : s.n = n) (hc : s.cells = l.map .live)
    (hl : l.length = n) (hled : s.led.made = s.led.gone + n) : Rep n s (some l) := by
  refine ⟨hn, by rw [hc]; simpa using hl, ?_, ?_, hled⟩
  · intro c h
    rw [hc] at h
    obtain ⟨a, _, rfl⟩ := List.mem_map.mp h
    rfl
  · rintro x h; cases h; exact hc

theorem fill_run (ys : List α) (pre cs : List (Cell α)) (s : ArrS α)
    (hcells : s.cells = pre ++ cs) (hlen : cs.length = ys.length) :
    fill pre.length ys s = .ok () { s with
      cells := pre ++ ys.map .live
      led := { s.led with made := s.led.made + ys.length } } := by
  induction ys generalizing pre cs s with
  | nil =>
    have : cs = [] := List.length_eq_zero_iff.mp hlen
    subst this
    simp only [fill, Cpp.pure_run]
    simp at hcells
    simp [← hcells]
  | cons y ys ih =>
    cases cs with
    | nil => simp at hlen
    | cons c cs =>
      have h1 : onM (Mem.construct pre.length y) s = .ok () { s with
          cells := pre ++ .live y :: cs, led := { s.led with made := s.led.made + 1 } } := by
        refine onM_ok ?_
        rw [toMem_eq hcells, Mem.construct_mid y rfl]
      have h2 := ih (pre ++ [.live y]) cs { s with
          cells := pre ++ .live y :: cs, led := { s.led with made := s.led.made + 1 } }
          (by simp) (by simpa using hlen)
      simp only [List.length_append, List.length_cons, List.length_nil, Nat.zero_add] at h2
      simp only [fill]
      rw [Cpp.bind_ok h1, h2]
      simp [Nat.add_assoc, Nat.add_comm 1]

theorem initLoop_eq_fill (d : α) (m i : Nat) (s : ArrS α) :
    forUp (initOne d) i m s = fill i (List.replicate m d) s := by
  induction m generalizing i s with
  | zero => rfl
  | succ m ih =>
    rw [forUp_succ, List.replicate_succ]
    simp only [fill, Cpp.bind_run, initOne]
    cases onM (Mem.construct i d) s with
    | ok b t => exact ih _ t
    | thrown t => rfl
    | ub w => rfl

theorem copyLoop_eq_fill (other : ArrS α) (ys : List α) (opre orest : List (Cell α))
    (hcells : other.cells = opre ++ ys.map .live ++ orest) (s : ArrS α) :
    forUp (copyOne other) opre.length ys.length s = fill opre.length ys s := by
  induction ys generalizing opre s with
  | nil => rfl
  | cons y ys ih =>
    have h1 : Mem.read opre.length other.toMem = .ok y other.toMem := by
      rw [toMem_eq (cs := opre ++ .live y :: (ys.map .live ++ orest)) (by rw [hcells]; simp),
        Mem.read_mid rfl]
    have h2 := ih (opre ++ [.live y]) (by rw [hcells]; simp)
    simp only [List.length_append, List.length_cons, List.length_nil, Nat.zero_add] at h2
    rw [List.length_cons, forUp_succ]
    simp only [fill, Cpp.bind_run, copyOne, h1]
    cases onM (Mem.construct opre.length y) s with
    | ok b t => exact h2 t
    | thrown t => rfl
    | ub w => rfl

theorem fill_blank {n : Nat} {l : List α} (hl : l.length = n) :
    ∃ u, fill 0 l (blank n) = .ok () u ∧ Rep n u (some l) := by
  have h := fill_run l [] (List.replicate n .raw) (blank n) rfl (by simp [hl])
  simp only [List.length_nil, List.nil_append] at h
  exact ⟨_, h, rep_live rfl rfl hl (by simp [blank, hl])⟩

theorem mk0_run (n : Nat) (d : α) : ∃ u, mk0 n d = .ok () u ∧ Rep n u (some (List.replicate n d)) := by
  unfold mk0
  rw [initLoop_eq_fill]
  exact fill_blank (by simp)

theorem ofList_run {n : Nat} {l : List α} (hl : l.length = n) :
    ∃ u, ofList n l = .ok () u ∧ Rep n u (some l) := by
  unfold ofList
  rw [if_neg (by simpa using hl)]
  exact fill_blank hl

theorem Rep.cells_eq {n : Nat} {s : ArrS α} {l : List α} (h : Rep n s (some l)) : s.cells = l.map .live :=
  h.val l rfl

theorem Rep.len_eq {n : Nat} {s : ArrS α} {l : List α} (h : Rep n s (some l)) : l.length = n := by
  have := h.len
  rw [h.cells_eq] at this
  simpa using this

theorem copyCtor_run {n : Nat} {o : ArrS α} {l : List α} (h : Rep n o (some l)) :
    ∃ u, copyCtor o = .ok () u ∧ Rep n u (some l) := by
  have e := copyLoop_eq_fill o l [] [] (by simpa using h.cells_eq)
  simp only [List.length_nil] at e
  unfold copyCtor
  rw [h.n_eq]
  have hl := h.len_eq
  subst hl
  rw [e]
  exact fill_blank rfl

theorem copyAssignLoop_run {k : Kind} (ys : List α) (pre cs : List (Cell α)) (opre : List (Cell α))
    (s o : ArrS α) (hs : s.cells = pre ++ cs) (hlen : cs.length = ys.length)
    (hal : ∀ c ∈ cs, c.alive = true)
    (ho : o.cells = opre ++ ys.map .live) (hp : opre.length = pre.length) :
    forUp (copyAssignOne k o) pre.length ys.length s =
      .ok () { s with cells := pre ++ ys.map .live
                      led := { s.led with made := s.led.made + ys.length, gone := s.led.gone + ys.length } } := by
  induction ys generalizing pre cs opre s with
  | nil =>
    have : cs = [] := List.length_eq_zero_iff.mp hlen
    subst this
    simp at hs
    simp [← hs]
  | cons y ys ih =>
    cases cs with
    | nil => simp at hlen
    | cons c cs =>
      have h0 : onM (Mem.destroy k pre.length) s = .ok () { s with
          cells := pre ++ dead k c :: cs, led := { s.led with gone := s.led.gone + 1 } } := by
        refine onM_ok ?_
        rw [toMem_eq hs, Mem.destroy_mid rfl (fun _ => hal c (by simp))]
      have h1 : Mem.read pre.length o.toMem = .ok y o.toMem := by
        rw [toMem_eq (cs := opre ++ .live y :: ys.map .live) (by rw [ho]; simp), Mem.read_mid hp]
      have h2 : copyOne o pre.length { s with
          cells := pre ++ dead k c :: cs, led := { s.led with gone := s.led.gone + 1 } } = .ok () { s with
          cells := pre ++ .live y :: cs
          led := { s.led with made := s.led.made + 1, gone := s.led.gone + 1 } } := by
        simp only [copyOne, h1]
        exact onM_ok (Mem.construct_mid y rfl)
      have hbody : copyAssignOne k o pre.length s = .ok () { s with
          cells := pre ++ .live y :: cs
          led := { s.led with made := s.led.made + 1, gone := s.led.gone + 1 } } := by
        unfold copyAssignOne
        rw [Cpp.bind_ok h0, h2]
      have h3 := ih (pre ++ [.live y]) cs (opre ++ [.live y]) { s with
          cells := pre ++ .live y :: cs
          led := { s.led with made := s.led.made + 1, gone := s.led.gone + 1 } }
          (by simp) (by simpa using hlen) (fun c hc => hal c (by simp [hc])) (by rw [ho]; simp) (by simp [hp])
      simp only [List.length_append, List.length_cons, List.length_nil, Nat.zero_add] at h3
      rw [List.length_cons, forUp_succ, Cpp.bind_ok hbody, h3]
      simp [Nat.add_assoc, Nat.add_comm 1]

theorem copyAssign_run {k : Kind} {n : Nat} {s o : ArrS α} {ls : Option (List α)} {l : List α}
    (h : Rep n s ls) (ho : Rep n o (some l)) :
    ∃ u, copyAssign k o s = .ok () u ∧ Rep n u (some l) := by
  have hl := ho.len_eq
  have e := copyAssignLoop_run (k := k) l [] s.cells [] s o rfl (by rw [h.len, hl]) h.alive
    (by simpa using ho.cells_eq) rfl
  simp only [List.length_nil, List.nil_append] at e
  have e' : copyAssign k o s = forUp (copyAssignOne k o) 0 l.length s := by
    unfold copyAssign; rw [ho.n_eq, hl]
  refine ⟨_, e'.trans e, rep_live h.n_eq rfl hl ?_⟩
  have := h.led
  simp; omega

theorem moveLoop_run {k : Kind} (ys : List α) (pre cs opre : List (Cell α)) (s o : ArrS α)
    (hs : s.cells = pre ++ cs) (hlen : cs.length = ys.length)
    (ho : o.cells = opre ++ ys.map .live) (hp : opre.length = pre.length) :
    forUp (moveOne k) pre.length ys.length (s, o) =
      .ok () ({ s with cells := pre ++ ys.map .live
                       led := { s.led with made := s.led.made + ys.length } },
              { o with cells := opre ++ ys.map (husk k) }) := by
  induction ys generalizing pre cs opre s o with
  | nil =>
    have : cs = [] := List.length_eq_zero_iff.mp hlen
    subst this
    simp at hs ho
    simp [← hs, ← ho]
  | cons y ys ih =>
    cases cs with
    | nil => simp at hlen
    | cons c cs =>
      have h1 : Mem.moveOut k pre.length o.toMem = .ok y ⟨opre ++ husk k y :: ys.map .live, o.led⟩ := by
        rw [toMem_eq (cs := opre ++ .live y :: ys.map .live) (by rw [ho]; simp), Mem.moveOut_mid hp]
      have h2 : onM (Mem.construct pre.length y) s = .ok () { s with
          cells := pre ++ .live y :: cs, led := { s.led with made := s.led.made + 1 } } := by
        refine onM_ok ?_
        rw [toMem_eq hs, Mem.construct_mid y rfl]
      have hbody : moveOne k pre.length (s, o) = .ok () ({ s with
          cells := pre ++ .live y :: cs, led := { s.led with made := s.led.made + 1 } },
          { o with cells := opre ++ husk k y :: ys.map .live }) := by
        simp only [moveOne, h1, h2, Out.mapState_ok]
      have h3 := ih (pre ++ [.live y]) cs (opre ++ [husk k y]) { s with
          cells := pre ++ .live y :: cs, led := { s.led with made := s.led.made + 1 } }
          { o with cells := opre ++ husk k y :: ys.map .live }
          (by simp) (by simpa using hlen) (by simp) (by simp [hp])
      simp only [List.length_append, List.length_cons, List.length_nil, Nat.zero_add] at h3
      rw [List.length_cons, forUp_succ, Cpp.bind_ok hbody, h3]
      simp [Nat.add_assoc, Nat.add_comm 1]

theorem moveAssignLoop_run {k : Kind} (ys : List α) (pre cs opre : List (Cell α)) (s o : ArrS α)
    (hs : s.cells = pre ++ cs) (hlen : cs.length = ys.length) (hal : ∀ c ∈ cs, c.alive = true)
    (ho : o.cells = opre ++ ys.map .live) (hp : opre.length = pre.length) :
    forUp (moveAssignOne k) pre.length ys.length (s, o) =
      .ok () ({ s with cells := pre ++ ys.map .live
                       led := { s.led with made := s.led.made + ys.length, gone := s.led.gone + ys.length } },
              { o with cells := opre ++ ys.map (husk k) }) := by
  induction ys generalizing pre cs opre s o with
  | nil =>
    have : cs = [] := List.length_eq_zero_iff.mp hlen
    subst this
    simp at hs ho
    simp [← hs, ← ho]
  | cons y ys ih =>
    cases cs with
    | nil => simp at hlen
    | cons c cs =>
      have h0 : onM (Mem.destroy k pre.length) s = .ok () { s with
          cells := pre ++ dead k c :: cs, led := { s.led with gone := s.led.gone + 1 } } := by
        refine onM_ok ?_
        rw [toMem_eq hs, Mem.destroy_mid rfl (fun _ => hal c (by simp))]
      have h1 : Mem.moveOut k pre.length o.toMem = .ok y ⟨opre ++ husk k y :: ys.map .live, o.led⟩ := by
        rw [toMem_eq (cs := opre ++ .live y :: ys.map .live) (by rw [ho]; simp), Mem.moveOut_mid hp]
      have h2 : onM (Mem.construct pre.length y) { s with
          cells := pre ++ dead k c :: cs, led := { s.led with gone := s.led.gone + 1 } } = .ok () { s with
          cells := pre ++ .live y :: cs
          led := { s.led with made := s.led.made + 1, gone := s.led.gone + 1 } } :=
        onM_ok (Mem.construct_mid y rfl)
      have hbody : moveAssignOne k pre.length (s, o) = .ok () ({ s with
          cells := pre ++ .live y :: cs
          led := { s.led with made := s.led.made + 1, gone := s.led.gone + 1 } },
          { o with cells := opre ++ husk k y :: ys.map .live }) := by
        simp only [moveAssignOne, h0, moveOne, h1, h2, Out.mapState_ok]
      have h3 := ih (pre ++ [.live y]) cs (opre ++ [husk k y]) { s with
          cells := pre ++ .live y :: cs
          led := { s.led with made := s.led.made + 1, gone := s.led.gone + 1 } }
          { o with cells := opre ++ husk k y :: ys.map .live }
          (by simp) (by simpa using hlen) (fun c hc => hal c (by simp [hc])) (by simp) (by simp [hp])
      simp only [List.length_append, List.length_cons, List.length_nil, Nat.zero_add] at h3
      rw [List.length_cons, forUp_succ, Cpp.bind_ok hbody, h3]
      simp [Nat.add_assoc, Nat.add_comm 1]

theorem rep_husk {k : Kind} {n : Nat} {o : ArrS α} {l : List α} (ho : Rep n o (some l)) :
    Rep n { o with cells := l.map (husk k) } none := by
  refine ⟨ho.n_eq, by simp [ho.len_eq], ?_, by simp, ho.led⟩
  intro c hc
  obtain ⟨a, _, rfl⟩ := List.mem_map.mp hc
  simp

theorem moveCtor_run {k : Kind} {n : Nat} {o : ArrS α} {l : List α} (h : Rep n o (some l)) :
    ∃ t o', moveCtor k o = .ok () (t, o') ∧ Rep n t (some l) ∧ Rep n o' none := by
  have hl := h.len_eq
  have e := moveLoop_run (k := k) l [] (List.replicate n .raw) [] (blank n) o rfl (by simp [hl])
    (by simpa using h.cells_eq) rfl
  simp only [List.length_nil, List.nil_append] at e
  have e' : moveCtor k o = forUp (moveOne k) 0 l.length (blank n, o) := by
    unfold moveCtor; rw [h.n_eq, hl]
  exact ⟨_, _, e'.trans e, rep_live rfl rfl hl (by simp [blank, hl]), rep_husk h⟩

theorem moveAssign_run {k : Kind} {n : Nat} {s o : ArrS α} {ls : Option (List α)} {l : List α}
    (h : Rep n s ls) (ho : Rep n o (some l)) :
    ∃ t o', ArrS.moveAssign k (s, o) = .ok () (t, o') ∧ Rep n t (some l) ∧ Rep n o' none := by
  have hl := ho.len_eq
  have e := moveAssignLoop_run (k := k) l [] s.cells [] s o rfl (by rw [h.len, hl]) h.alive
    (by simpa using ho.cells_eq) rfl
  simp only [List.length_nil, List.nil_append] at e
  have e' : ArrS.moveAssign k (s, o) = forUp (moveAssignOne k) 0 l.length (s, o) := by
    unfold ArrS.moveAssign; simp only [ho.n_eq, hl]
  refine ⟨_, _, e'.trans e, rep_live h.n_eq rfl hl ?_, rep_husk ho⟩
  have := h.led
  simp; omega

theorem dtor_run {k : Kind} {n : Nat} {s : ArrS α} {l : Option (List α)} (h : Rep n s l) :
    ∃ t, dtor k s = .ok () t ∧ t.led.made = t.led.gone ∧ (k = .managed → aliveCount t.cells = 0) := by
  have hd := Mem.destroy_range (k := k) s.cells [] [] s.led (fun _ => h.alive)
  simp only [List.length_nil, List.nil_append, List.append_nil] at hd
  have e : dtor k s = onM (forUp (fun i => Mem.destroy k i) 0 s.cells.length) s := by
    unfold dtor
    rw [h.n_eq, h.len]
  refine ⟨_, e.trans (onM_ok hd), ?_, ?_⟩
  · have := h.led
    have := h.len
    simp; omega
  · rintro rfl
    apply aliveCount_all_raw
    intro c hc
    simp at hc
    obtain ⟨_, _, rfl⟩ := hc
    rfl

theorem at_run {n : Nat} {s : ArrS α} {l : List α} (h : Rep n s (some l)) (i : Nat) (hi : i < l.length) :
    at_ i s = .ok l[i] s := by
  refine onM_ok ?_
  rw [toMem_eq (cs := (l.take i).map .live ++ .live l[i] :: (l.drop (i + 1)).map .live)
    (by rw [h.cells_eq, AvS.map_split _ l i hi]), Mem.read_mid (by simp; omega)]

theorem setAt_run {k : Kind} {n : Nat} {s : ArrS α} {l : List α} (h : Rep n s (some l)) (i : Nat) (a : α)
    (hi : i < l.length) : ∃ t, setAt k i a s = .ok () t ∧ Rep n t (some (l.set i a)) := by
  have e : setAt k i a s = .ok () { s with
      cells := (l.take i).map .live ++ .live a :: (l.drop (i + 1)).map .live } := by
    refine onM_ok ?_
    rw [toMem_eq (cs := (l.take i).map .live ++ .live l[i] :: (l.drop (i + 1)).map .live)
      (by rw [h.cells_eq, AvS.map_split _ l i hi]), Mem.assign_mid (by simp; omega) (fun _ => rfl)]
  refine ⟨_, e, rep_live h.n_eq ?_ (by simp [h.len_eq]) h.led⟩
  rw [List.set_eq_take_append_cons_drop, if_pos hi]
  simp

theorem readFrom_run (s : ArrS α) (ys : List α) (pre : List (Cell α))
    (hcells : s.cells = pre ++ ys.map .live) : readFrom s pre.length ys.length = .ok ys := by
  induction ys generalizing pre with
  | nil => rfl
  | cons y ys ih =>
    have h1 : at_ pre.length s = .ok y s := by
      refine onM_ok ?_
      rw [toMem_eq (cs := pre ++ .live y :: ys.map .live) (by rw [hcells]; simp), Mem.read_mid rfl]
    have h2 := ih (pre ++ [.live y]) (by rw [hcells]; simp)
    simp only [List.length_append, List.length_cons, List.length_nil, Nat.zero_add] at h2
    simp only [List.length_cons, readFrom, h1, h2, Except.map]

theorem Rep.contents {n : Nat} {s : ArrS α} {l : List α} (h : Rep n s (some l)) : s.contents = .ok l := by
  have := readFrom_run s l [] (by simpa using h.cells_eq)
  unfold ArrS.contents
  rw [h.n_eq, ← h.len_eq]; exact this

theorem eqLoop_run (ne : α → α → Bool) {n : Nat} {s o : ArrS α} {l lo : List α}
    (h : Rep n s (some l)) (ho : Rep n o (some lo)) (m i : Nat) (hm : i + m = n) :
    eqLoop ne o i m s =
      .ok (decide (∀ j (h1 : j < l.length) (h2 : j < lo.length), i ≤ j → ne l[j] lo[j] = false)) s := by
  have hl := h.len_eq
  have hl' := ho.len_eq
  induction m generalizing i with
  | zero =>
    simp only [eqLoop, Cpp.pure_run, Out.ok.injEq, and_true]
    symm
    rw [decide_eq_true_iff]
    intro j h1 h2 h3; omega
  | succ m ih =>
    have h1 := at_run h i (by omega)
    have h2 := at_run ho i (by omega)
    simp only [eqLoop, h1, h2]
    by_cases hb : ne (l[i]'(by omega)) (lo[i]'(by omega)) = true
    · rw [if_pos hb]
      congr 1
      symm
      rw [decide_eq_false_iff_not]
      intro H
      have := H i (by omega) (by omega) (Nat.le_refl _)
      rw [this] at hb; cases hb
    · rw [if_neg hb, ih (i + 1) (by omega)]
      congr 1
      rw [decide_eq_decide]
      constructor
      · intro H j h1 h2 h3
        by_cases hj : j = i
        · subst hj; exact eq_false_of_ne_true hb
        · exact H j h1 h2 (by omega)
      · intro H j h1 h2 h3; exact H j h1 h2 (by omega)

/-! ### programs -/

/-- every variable represents the corresponding list -/
def RepW (n : Nat) (W : List (ArrS α)) (ws : List (Option (List α))) : Prop :=
  W.length = ws.length ∧
    ∀ (i : Nat) (s : ArrS α) (l : Option (List α)), W[i]? = some s → ws[i]? = some l → Rep n s l

theorem RepW.set {n : Nat} {W : List (ArrS α)} {ws : List (Option (List α))} (h : RepW n W ws) (v : Nat)
    {t : ArrS α} {l : Option (List α)} (hr : Rep n t l) : RepW n (W.set v t) (ws.set v l) := by
  refine ⟨by simp [h.1], fun i s l' h1 h2 => ?_⟩
  rw [List.getElem?_set] at h1 h2
  by_cases hv : v = i
  · subst hv
    by_cases hlt : v < W.length
    · have hlt' : v < ws.length := by rw [← h.1]; exact hlt
      simp [hlt] at h1; simp [hlt'] at h2
      subst h1; subst h2; exact hr
    · simp [hlt] at h1
  · rw [if_neg hv] at h1 h2
    exact h.2 i s l' h1 h2

theorem RepW.append {n : Nat} {W : List (ArrS α)} {ws : List (Option (List α))} (h : RepW n W ws)
    {t : ArrS α} {l : Option (List α)} (hr : Rep n t l) : RepW n (W ++ [t]) (ws ++ [l]) := by
  refine ⟨by simp [h.1], fun i s l' h1 h2 => ?_⟩
  by_cases hlt : i < W.length
  · rw [List.getElem?_append_left hlt] at h1
    rw [List.getElem?_append_left (by rw [← h.1]; exact hlt)] at h2
    exact h.2 i s l' h1 h2
  · rw [List.getElem?_append_right (by omega)] at h1
    rw [List.getElem?_append_right (by rw [← h.1]; omega)] at h2
    by_cases hi : i - W.length = 0
    · have hi' : i - ws.length = 0 := by rw [← h.1]; exact hi
      rw [hi] at h1; rw [hi'] at h2
      simp at h1 h2
      subst h1; subst h2; exact hr
    · obtain ⟨j, hj⟩ : ∃ j, i - W.length = j + 1 := ⟨i - W.length - 1, by omega⟩
      rw [hj] at h1; simp at h1

theorem RepW.get {n : Nat} {W : List (ArrS α)} {ws : List (Option (List α))} (h : RepW n W ws) (v : Nat) :
    (∃ s l, v < ws.length ∧ W[v]? = some s ∧ ws[v]? = some l ∧ Rep n s l) ∨
    (¬ v < ws.length ∧ W[v]? = none ∧ ws[v]? = none) := by
  by_cases hlt : v < W.length
  · have hlt' : v < ws.length := by rw [← h.1]; exact hlt
    exact .inl ⟨W[v], ws[v], hlt', by simp [hlt], by simp [hlt'],
      h.2 v _ _ (by simp [hlt]) (by simp [hlt'])⟩
  · have := h.1
    exact .inr ⟨by omega, by simp; omega, by simp; omega⟩

theorem wop_run {k : Kind} {n : Nat} {W : List (ArrS α)} {ws : List (Option (List α))} (h : RepW n W ws)
    (op : WOp α) (hop : Spec.arrOk op ws) :
    ∃ W', op.run k n W = .ok (W', (Spec.arrStep n op ws).2) ∧ RepW n W' (Spec.arrStep n op ws).1 := by
  cases op with
  | make d =>
    obtain ⟨u, hu, hr⟩ := mk0_run n d
    exact ⟨W ++ [u], by simp only [WOp.run, hu, declare, Spec.arrStep], h.append hr⟩
  | makeOf l =>
    by_cases hl : l.length = n
    · obtain ⟨u, hu, hr⟩ := ofList_run hl
      refine ⟨W ++ [u], ?_, ?_⟩
      · simp only [WOp.run, hu, declare, Spec.arrStep, hl, if_true]
      · simp only [Spec.arrStep, hl, if_true]
        exact h.append hr
    · refine ⟨W, ?_, ?_⟩
      · simp only [WOp.run, ofList, Spec.arrStep, hl, if_false]
        rw [if_pos hl]; rfl
      · simp only [Spec.arrStep, hl, if_false]; exact h
  | copy v =>
    rcases h.get v with ⟨s, l, _, h1, h2, hr⟩ | ⟨_, h1, h2⟩
    · cases l with
      | none => exact absurd h2 hop
      | some l =>
        obtain ⟨u, hu, hr'⟩ := copyCtor_run hr
        refine ⟨W ++ [u], ?_, ?_⟩
        · simp only [WOp.run, h1, hu, declare, Spec.arrStep, h2]
        · simp only [Spec.arrStep, h2]
          exact h.append hr'
    · exact ⟨W, by simp only [WOp.run, h1, Spec.arrStep, h2], by simp only [Spec.arrStep, h2]; exact h⟩
  | assign v w =>
    rcases h.get v with ⟨s, l, hv, h1, h2, hr⟩ | ⟨_, h1, h2⟩
    · rcases h.get w with ⟨o, lo, _, h3, h4, hro⟩ | ⟨_, h3, h4⟩
      · cases lo with
        | none => exact absurd h4 (hop hv)
        | some lo =>
          by_cases hvw : v = w
          · subst hvw
            refine ⟨W, ?_, ?_⟩
            · simp only [WOp.run, h1, Spec.arrStep, h4, if_true]
            · simp only [Spec.arrStep, h4]
              rw [AvS.set_self _ _ _ h4]; exact h
          · obtain ⟨u, hu, hr'⟩ := copyAssign_run (k := k) hr hro
            refine ⟨W.set v u, ?_, ?_⟩
            · simp only [WOp.run, h1, h3, if_neg hvw, hu, store, Spec.arrStep, h2, h4]
            · simp only [Spec.arrStep, h2, h4]
              exact h.set v hr'
      · exact ⟨W, by simp only [WOp.run, h1, h3, Spec.arrStep, h2, h4],
          by simp only [Spec.arrStep, h2, h4]; exact h⟩
    · exact ⟨W, by simp only [WOp.run, h1, Spec.arrStep, h2], by simp only [Spec.arrStep, h2]; exact h⟩
  | move v =>
    rcases h.get v with ⟨s, l, _, h1, h2, hr⟩ | ⟨_, h1, h2⟩
    · cases l with
      | none => exact absurd h2 hop
      | some l =>
        obtain ⟨t, o', he, hrt, hro⟩ := moveCtor_run (k := k) hr
        refine ⟨W.set v o' ++ [t], ?_, ?_⟩
        · simp only [WOp.run, h1, he, Spec.arrStep, h2]
        · simp only [Spec.arrStep, h2]
          exact (h.set v hro).append hrt
    · exact ⟨W, by simp only [WOp.run, h1, Spec.arrStep, h2], by simp only [Spec.arrStep, h2]; exact h⟩
  | moveAssign v w =>
    rcases h.get v with ⟨s, l, hv, h1, h2, hr⟩ | ⟨_, h1, h2⟩
    · rcases h.get w with ⟨o, lo, _, h3, h4, hro⟩ | ⟨_, h3, h4⟩
      · cases lo with
        | none => exact absurd h4 (hop hv)
        | some lo =>
          by_cases hvw : v = w
          · refine ⟨W, ?_, ?_⟩
            · simp only [WOp.run, h1, h3, Spec.arrStep, h2, h4, hvw, if_true]
            · simp only [Spec.arrStep, h2, h4, hvw, if_true]
              exact h
          · obtain ⟨t, o', he, hrt, hro'⟩ := moveAssign_run (k := k) hr hro
            refine ⟨(W.set v t).set w o', ?_, ?_⟩
            · simp only [WOp.run, h1, h3, he, Spec.arrStep, h2, h4, hvw, if_false]
            · simp only [Spec.arrStep, h2, h4, hvw, if_false]
              exact (h.set v hrt).set w hro'
      · exact ⟨W, by simp only [WOp.run, h1, h3, Spec.arrStep, h2, h4],
          by simp only [Spec.arrStep, h2, h4]; exact h⟩
    · exact ⟨W, by simp only [WOp.run, h1, Spec.arrStep, h2], by simp only [Spec.arrStep, h2]; exact h⟩
  | setElem v i a =>
    rcases h.get v with ⟨s, l, _, h1, h2, hr⟩ | ⟨_, h1, h2⟩
    · cases l with
      | none => exact absurd h2 hop
      | some l =>
        have hn := hr.n_eq
        have hl := hr.len_eq
        by_cases hi : i < l.length
        · obtain ⟨t, ht, hr'⟩ := setAt_run (k := k) hr i a hi
          refine ⟨W.set v t, ?_, ?_⟩
          · simp only [WOp.run, h1, ht, store, Spec.arrStep, h2]
            rw [if_pos (by omega)]
          · simp only [Spec.arrStep, h2]
            exact h.set v hr'
        · refine ⟨W, ?_, ?_⟩
          · simp only [WOp.run, h1, Spec.arrStep, h2]
            rw [if_neg (by omega)]
          · simp only [Spec.arrStep, h2, Option.map_some]
            rw [show l.set i a = l from List.set_eq_of_length_le (by omega), AvS.set_self _ _ _ h2]
            exact h
    · exact ⟨W, by simp only [WOp.run, h1, Spec.arrStep, h2], by simp only [Spec.arrStep, h2]; exact h⟩
  | resize v m =>
    rcases h.get v with ⟨s, l, hv, h1, h2, hr⟩ | ⟨hv, h1, h2⟩
    · have e : ArrS.resize m s = if m ≠ n then .thrown s else .ok () s := by
        unfold ArrS.resize
        rw [Cpp.bind_ok (Cpp.get_run _), hr.n_eq]
        split <;> rfl
      by_cases hm : m = n
      · subst hm
        rw [if_neg (by simp)] at e
        refine ⟨W, ?_, ?_⟩
        · simp only [WOp.run, h1, e, store, Spec.arrStep, ne_eq, not_true_eq_false, and_false, if_false]
          rw [AvS.set_self _ _ _ h1]
        · simp only [Spec.arrStep, ne_eq, not_true_eq_false, and_false, if_false]
          exact h
      · rw [if_pos hm] at e
        refine ⟨W, ?_, ?_⟩
        · simp only [WOp.run, h1, e, store, Spec.arrStep]
          rw [AvS.set_self _ _ _ h1, if_pos ⟨hv, hm⟩]
        · simp only [Spec.arrStep]
          rw [if_pos ⟨hv, hm⟩]
          exact h
    · refine ⟨W, ?_, ?_⟩
      · simp only [WOp.run, h1, Spec.arrStep, hv, false_and, if_false]
      · simp only [Spec.arrStep, hv, false_and, if_false]; exact h
  | reserve v m =>
    rcases h.get v with ⟨s, l, hv, h1, h2, hr⟩ | ⟨hv, h1, h2⟩
    · have e : ArrS.reserve m s = if n < m then .thrown s else .ok () s := by
        unfold ArrS.reserve
        rw [Cpp.bind_ok (Cpp.get_run _), hr.n_eq]
        split <;> rfl
      by_cases hm : n < m
      · rw [if_pos hm] at e
        refine ⟨W, ?_, ?_⟩
        · simp only [WOp.run, h1, e, store, Spec.arrStep]
          rw [AvS.set_self _ _ _ h1, if_pos ⟨hv, hm⟩]
        · simp only [Spec.arrStep]
          rw [if_pos ⟨hv, hm⟩]
          exact h
      · rw [if_neg hm] at e
        refine ⟨W, ?_, ?_⟩
        · simp only [WOp.run, h1, e, store, Spec.arrStep, hm, and_false, if_false]
          rw [AvS.set_self _ _ _ h1]
        · simp only [Spec.arrStep, hm, and_false, if_false]
          exact h
    · refine ⟨W, ?_, ?_⟩
      · simp only [WOp.run, h1, Spec.arrStep, hv, false_and, if_false]
      · simp only [Spec.arrStep, hv, false_and, if_false]; exact h

theorem runW_run {k : Kind} {n : Nat} (ops : List (WOp α)) {W : List (ArrS α)} {ws : List (Option (List α))}
    (h : RepW n W ws) (hops : Spec.arrProgramOk n ops ws) :
    ∃ W', runW k n ops W = .ok (W', (Spec.arrRun n ops ws).2) ∧ RepW n W' (Spec.arrRun n ops ws).1 := by
  induction ops generalizing W ws with
  | nil => exact ⟨W, rfl, h⟩
  | cons op ops ih =>
    obtain ⟨W1, h1, hr1⟩ := wop_run (k := k) h op hops.1
    obtain ⟨W2, h2, hr2⟩ := ih hr1 hops.2
    refine ⟨W2, ?_, hr2⟩
    simp only [runW, h1, h2, Except.map, Spec.arrRun]

theorem repW_nil (n : Nat) : RepW n ([] : List (ArrS α)) [] := ⟨rfl, by simp⟩

theorem destroyVars_run {k : Kind} {n : Nat} (W : List (ArrS α)) (hW : ∀ s ∈ W, ∃ l, Rep n s l) :
    ∃ W', destroyVars k W = .ok W' ∧ W'.length = W.length ∧
      ∀ s ∈ W', s.led.made = s.led.gone ∧ (k = .managed → aliveCount s.cells = 0) := by
  induction W with
  | nil => exact ⟨[], rfl, rfl, by simp⟩
  | cons s W ih =>
    obtain ⟨W', h', hl', hz'⟩ := ih (fun t ht => hW t (by simp [ht]))
    obtain ⟨l, hr⟩ := hW s (by simp)
    obtain ⟨t, ht, hz⟩ := dtor_run (k := k) hr
    refine ⟨t :: W', ?_, by simp [hl'], fun u hu => ?_⟩
    · simp only [destroyVars, ht, h', Except.map]
    · rcases List.mem_cons.mp hu with rfl | hu
      · exact hz
      · exact hz' u hu

end ArrS
end Efp
