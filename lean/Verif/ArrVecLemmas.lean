import Verif.ArrVec
import Verif.Spec.ArrVec

/-! Helper lemmas for the `ArrVec` model. -/

namespace Efp
namespace AvS

variable {α β : Type}

/-- `s` represents `l` in `n` slots; for resource-owning elements the slots above hold no object and the
ledger is balanced -/
structure Rep (k : Kind) (n : Nat) (s : AvS α) (l : List α) : Prop where
  size : s.size = l.length
  cap : s.cap = n
  cells : ∃ rest, s.cells = l.map .live ++ rest ∧ (l.map Cell.live ++ rest).length = n ∧
    (k = .managed → ∀ c ∈ rest, c = .raw)
  led : k = .managed → s.led.made = s.led.gone + l.length

theorem Rep.le {k : Kind} {n : Nat} {s : AvS α} {l : List α} (h : Rep k n s l) : l.length ≤ n := by
  obtain ⟨rest, _, h2, _⟩ := h.cells
  simp at h2; omega

theorem toMem_eq {s : AvS α} {cs : List (Cell α)} (h : s.cells = cs) : s.toMem = ⟨cs, s.led⟩ := by
  subst h; rfl

theorem onM_ok {m : Cpp (Mem α) β} {s : AvS α} {b : β} {m' : Mem α} (h : m s.toMem = .ok b m') :
    onM m s = .ok b { s with toMem := m' } := by
  unfold onM; rw [h]; rfl

/-! ### shifting -/

/-- `insert` shift: opens a gap before `ys` -/
theorem shiftUp_run (k : Kind) (m : Nat) (ys : List α) (hm : ys.length = m) (pre rest : List (Cell α))
    (c : Cell α) (led : Ledger) (hc : k = .managed → c = .raw) :
    ∃ x, (k = .managed → x = .raw) ∧
      forDown (shiftUpOne k) (pre.length + m) m ⟨pre ++ ys.map .live ++ c :: rest, led⟩ =
      .ok () ⟨pre ++ x :: ys.map .live ++ rest,
        { led with made := led.made + m, gone := led.gone + m }⟩ := by
  induction m generalizing ys c rest led with
  | zero =>
    have : ys = [] := List.length_eq_zero_iff.mp hm
    subst this
    exact ⟨c, hc, by simp⟩
  | succ m ih =>
    rcases List.eq_nil_or_concat ys with rfl | ⟨zs, z, rfl⟩
    · simp at hm
    have hzs : zs.length = m := by simpa using hm
    have h1 := Mem.moveOut_mid (k := k) (pre := pre ++ zs.map .live) (post := c :: rest) (a := z)
      (i := pre.length + (m + 1) - 1) (led := led) (by simp [hzs])
    have h2 := Mem.construct_mid (pre := pre ++ zs.map .live ++ [husk k z]) (post := rest) (c := c)
      (i := pre.length + (m + 1)) (led := led) z (by simp [hzs, Nat.add_assoc])
    have h3 := Mem.destroy_mid (k := k) (pre := pre ++ zs.map .live) (post := .live z :: rest)
      (c := husk k z) (i := pre.length + (m + 1) - 1) (led := { led with made := led.made + 1 })
      (by simp [hzs]) (by simp)
    obtain ⟨x, hx, hrun⟩ := ih zs hzs (.live z :: rest) (dead k (husk k z))
      { led with made := led.made + 1, gone := led.gone + 1 } (by rintro rfl; rfl)
    refine ⟨x, hx, ?_⟩
    have hbody : shiftUpOne k (pre.length + (m + 1)) ⟨pre ++ (zs.concat z).map .live ++ c :: rest, led⟩ =
        .ok () ⟨pre ++ zs.map .live ++ dead k (husk k z) :: .live z :: rest,
          { led with made := led.made + 1, gone := led.gone + 1 }⟩ := by
      unfold shiftUpOne
      simp only [List.concat_eq_append, List.map_append, List.map_cons, List.map_nil, List.append_assoc,
        List.cons_append, List.nil_append] at h1 h2 h3 ⊢
      rw [Cpp.bind_ok h1, Cpp.bind_ok h2, h3]
    rw [forDown_succ, Cpp.bind_ok hbody, show pre.length + (m + 1) - 1 = pre.length + m by omega, hrun]
    simp [Nat.add_assoc, Nat.add_comm 1]

/-- `erase` shift: closes the gap before `ys` -/
theorem shiftDown_run (k : Kind) (ys : List α) (pre rest : List (Cell α)) (c : Cell α) (led : Ledger)
    (hc : k = .managed → c = .raw) :
    ∃ x, (k = .managed → x = .raw) ∧
      forUp (shiftDownOne k) pre.length ys.length ⟨pre ++ c :: ys.map .live ++ rest, led⟩ =
      .ok () ⟨pre ++ ys.map .live ++ x :: rest,
        { led with made := led.made + ys.length, gone := led.gone + ys.length }⟩ := by
  induction ys generalizing pre c led with
  | nil => exact ⟨c, hc, by simp⟩
  | cons y ys ih =>
    have h1 := Mem.moveOut_mid (k := k) (pre := pre ++ [c]) (post := ys.map .live ++ rest) (a := y)
      (i := pre.length + 1) (led := led) (by simp)
    have h2 := Mem.construct_mid (pre := pre) (post := husk k y :: (ys.map .live ++ rest)) (c := c)
      (i := pre.length) (led := led) y rfl
    have h3 := Mem.destroy_mid (k := k) (pre := pre ++ [.live y]) (post := ys.map .live ++ rest)
      (c := husk k y) (i := pre.length + 1) (led := { led with made := led.made + 1 }) (by simp) (by simp)
    obtain ⟨x, hx, hrun⟩ := ih (pre ++ [.live y]) (dead k (husk k y))
      { led with made := led.made + 1, gone := led.gone + 1 } (by rintro rfl; rfl)
    refine ⟨x, hx, ?_⟩
    have hbody : shiftDownOne k pre.length ⟨pre ++ c :: (y :: ys).map .live ++ rest, led⟩ =
        .ok () ⟨pre ++ [.live y] ++ dead k (husk k y) :: ys.map .live ++ rest,
          { led with made := led.made + 1, gone := led.gone + 1 }⟩ := by
      unfold shiftDownOne
      simp only [List.map_cons, List.append_assoc, List.cons_append, List.nil_append] at h1 h2 h3 ⊢
      rw [Cpp.bind_ok h1, Cpp.bind_ok h2, h3]
    simp only [List.length_append, List.length_cons, List.length_nil, Nat.zero_add] at hrun
    rw [List.length_cons, forUp_succ, Cpp.bind_ok hbody, hrun]
    simp [Nat.add_assoc, Nat.add_comm 1]

/-! ### single calls -/

theorem rep_mk0 (k : Kind) (n : Nat) : Rep k n (mk0 n : AvS α) [] :=
  ⟨rfl, rfl, ⟨List.replicate n .raw, by simp [mk0], by simp,
    fun _ c hc => (List.mem_replicate.mp hc).2⟩, fun _ => rfl⟩

theorem destroyAll_run {k : Kind} {n : Nat} {s : AvS α} {l : List α} (h : Rep k n s l) :
    ∃ t, destroyAll k s = .ok () t ∧ t.size = s.size ∧ t.cap = n ∧ t.cells.length = n ∧
      (k = .managed → ∀ c ∈ t.cells, c = .raw) ∧ (k = .trivial → t.cells = s.cells) ∧
      t.led = { s.led with gone := s.led.gone + l.length } := by
  obtain ⟨rest, hcells, hlen, hraw⟩ := h.cells
  have hd := Mem.destroy_range (k := k) (l.map .live) [] rest s.led (by simp)
  simp only [List.length_nil, List.nil_append, List.length_map] at hd
  rw [← toMem_eq hcells] at hd
  have e : destroyAll k s = onM (forUp (fun i => Mem.destroy k i) 0 l.length) s := by
    unfold destroyAll
    rw [h.size]
  replace e := e.trans (onM_ok hd)
  refine ⟨_, e, rfl, h.cap, by simpa using hlen, ?_, ?_, rfl⟩
  · rintro rfl c hc
    rcases List.mem_append.mp hc with hc | hc
    · simp only [List.map_map, List.mem_map] at hc
      obtain ⟨x, _, rfl⟩ := hc; rfl
    · exact hraw rfl c hc
  · rintro rfl
    simp only [hcells]
    congr 1
    exact List.map_id'' (fun _ => rfl) _

theorem fill_run (ys : List α) (pre cs rest : List (Cell α)) (s : AvS α)
    (hcells : s.cells = pre ++ cs ++ rest) (hlen : cs.length = ys.length) :
    fill pre.length ys s = .ok () { s with
      cells := pre ++ ys.map .live ++ rest
      led := { s.led with made := s.led.made + ys.length } } := by
  induction ys generalizing pre cs s with
  | nil =>
    have : cs = [] := List.length_eq_zero_iff.mp hlen
    subst this
    simp only [fill, Cpp.pure_run]
    simp at hcells
    simp [← hcells]
  | cons y ys ih =>
    cases cs with
    | nil => simp at hlen
    | cons c cs =>
      have h1 : onM (Mem.construct pre.length y) s = .ok () { s with
          cells := pre ++ .live y :: (cs ++ rest), led := { s.led with made := s.led.made + 1 } } := by
        refine onM_ok ?_
        rw [toMem_eq (cs := pre ++ c :: (cs ++ rest)) (by rw [hcells]; simp), Mem.construct_mid y rfl]
      have h2 := ih (pre ++ [.live y]) cs { s with
          cells := pre ++ .live y :: (cs ++ rest), led := { s.led with made := s.led.made + 1 } }
          (by simp) (by simpa using hlen)
      simp only [List.length_append, List.length_cons, List.length_nil, Nat.zero_add] at h2
      simp only [fill]
      rw [Cpp.bind_ok h1, h2]
      simp [Nat.add_assoc, Nat.add_comm 1]

theorem copyLoop_eq_fill (other : AvS α) (ys : List α) (opre orest : List (Cell α))
    (hcells : other.cells = opre ++ ys.map .live ++ orest) (s : AvS α) :
    forUp (copyOne other) opre.length ys.length s = fill opre.length ys s := by
  induction ys generalizing opre s with
  | nil => rfl
  | cons y ys ih =>
    have h1 : Mem.read opre.length other.toMem = .ok y other.toMem := by
      rw [toMem_eq (cs := opre ++ .live y :: (ys.map .live ++ orest)) (by rw [hcells]; simp),
        Mem.read_mid rfl]
    have h2 := ih (opre ++ [.live y]) (by rw [hcells]; simp)
    simp only [List.length_append, List.length_cons, List.length_nil, Nat.zero_add] at h2
    rw [List.length_cons, forUp_succ]
    simp only [fill, Cpp.bind_run, copyOne, h1]
    cases onM (Mem.construct opre.length y) s with
    | ok b t => exact h2 t
    | thrown t => rfl
    | ub w => rfl

/-- filling `n` slots (raw ones, for resource-owning elements) with the values `l` -/
theorem fill_rep {k : Kind} {n : Nat} {l : List α} (hl : l.length ≤ n) (t : AvS α) (hsz : t.size = l.length)
    (hcap : t.cap = n) (hlen : t.cells.length = n) (hraw : k = .managed → ∀ c ∈ t.cells, c = .raw)
    (hled : k = .managed → t.led.made = t.led.gone) :
    ∃ u, fill 0 l t = .ok () u ∧ Rep k n u l := by
  have h := fill_run l [] (t.cells.take l.length) (t.cells.drop l.length) t (by simp) (by simp; omega)
  simp only [List.length_nil, List.nil_append] at h
  refine ⟨_, h, ⟨hsz, hcap, ⟨t.cells.drop l.length, rfl, by simp; omega,
    fun hk c hc => hraw hk c (List.mem_of_mem_drop hc)⟩, fun hk => ?_⟩⟩
  have := hled hk
  simp only; omega

theorem ofList_run (k : Kind) {n : Nat} {l : List α} (hl : l.length ≤ n) :
    ∃ u, ofList n l = .ok () u ∧ Rep k n u l := by
  unfold ofList
  rw [if_neg (by omega)]
  exact fill_rep hl _ rfl rfl (by simp) (fun _ c hc => (List.mem_replicate.mp hc).2) (fun _ => rfl)

theorem copyCtor_run {k : Kind} {n : Nat} {o : AvS α} {l : List α} (h : Rep k n o l) :
    ∃ u, copyCtor o = .ok () u ∧ Rep k n u l := by
  obtain ⟨rest, hcells, _, _⟩ := h.cells
  unfold copyCtor
  have e := copyLoop_eq_fill o l [] rest (by simpa using hcells)
  simp only [List.length_nil] at e
  rw [h.size, e, h.cap]
  exact fill_rep h.le _ rfl rfl (by simp) (fun _ c hc => (List.mem_replicate.mp hc).2) (fun _ => rfl)

theorem copyAssign_run {k : Kind} {n : Nat} {s o : AvS α} {l lo : List α} (h : Rep k n s l)
    (ho : Rep k n o lo) :
    ∃ u, copyAssign k o s = .ok () u ∧ Rep k n u lo := by
  obtain ⟨t, ht, _, hcap, hlen, hraw, _, hled⟩ := destroyAll_run h
  obtain ⟨rest, hcells, _, _⟩ := ho.cells
  have e := copyLoop_eq_fill o lo [] rest (by simpa using hcells)
  simp only [List.length_nil] at e
  obtain ⟨u, hu, hr⟩ := fill_rep (k := k) ho.le { t with size := o.size } ho.size hcap hlen hraw
    (fun hk => by have := h.led hk; simp only [hled]; omega)
  refine ⟨u, ?_, hr⟩
  unfold copyAssign
  rw [Cpp.bind_ok ht, Cpp.bind_ok (Cpp.modify_run _ _), ho.size, e, ← ho.size]
  exact hu

theorem pushBack_throw {k : Kind} {n : Nat} {s : AvS α} {l : List α} (h : Rep k n s l) (a : α)
    (hl : ¬ l.length < n) : pushBack a s = .thrown s := by
  unfold pushBack
  rw [Cpp.bind_ok (Cpp.get_run _), if_pos (by rw [h.size, h.cap]; omega)]

/-- splitting off one free slot -/
theorem Rep.spare {k : Kind} {n : Nat} {s : AvS α} {l : List α} (h : Rep k n s l) (hl : l.length < n) :
    ∃ c rest, s.cells = l.map .live ++ c :: rest ∧ l.length + 1 + rest.length = n ∧
      (k = .managed → c = .raw) ∧ (k = .managed → ∀ c ∈ rest, c = .raw) := by
  obtain ⟨rest, hcells, hlen, hraw⟩ := h.cells
  cases rest with
  | nil => simp at hlen; omega
  | cons c rest =>
    exact ⟨c, rest, hcells, by simp at hlen; omega, fun hk => hraw hk c (by simp),
      fun hk d hd => hraw hk d (by simp [hd])⟩

theorem pushBack_run {k : Kind} {n : Nat} {s : AvS α} {l : List α} (h : Rep k n s l) (a : α)
    (hl : l.length < n) : ∃ t, pushBack a s = .ok () t ∧ Rep k n t (l ++ [a]) := by
  obtain ⟨c, rest, hcells, hlen, _, hraw⟩ := h.spare hl
  have h1 : onM (Mem.construct s.size a) s = .ok () { s with
      cells := l.map .live ++ .live a :: rest, led := { s.led with made := s.led.made + 1 } } := by
    refine onM_ok ?_
    rw [toMem_eq hcells, Mem.construct_mid a (by simp [h.size])]
  refine ⟨{ s with
      cells := l.map .live ++ .live a :: rest, led := { s.led with made := s.led.made + 1 },
      size := s.size + 1 }, ?_, ?_⟩
  · unfold pushBack
    rw [Cpp.bind_ok (Cpp.get_run _), if_neg (by rw [h.size, h.cap]; omega), Cpp.bind_ok h1]
  · refine ⟨by simp [h.size], h.cap, ⟨rest, by simp, by simp; omega, hraw⟩, fun hk => ?_⟩
    have := h.led hk
    simp; omega

theorem popBack_throw {k : Kind} {n : Nat} {s : AvS α} (h : Rep k n s []) : popBack k s = .thrown s := by
  unfold popBack
  rw [Cpp.bind_ok (Cpp.get_run _), if_pos (by simpa using h.size)]

theorem popBack_run {k : Kind} {n : Nat} {s : AvS α} {l : List α} {a : α} (h : Rep k n s (l ++ [a])) :
    ∃ t, popBack k s = .ok () t ∧ Rep k n t l := by
  obtain ⟨rest, hcells, hlen, hraw⟩ := h.cells
  have hsz : s.size = l.length + 1 := by simpa using h.size
  have hcells' : s.cells = l.map .live ++ .live a :: rest := by simpa using hcells
  have h1 : onM (Mem.destroy k (s.size - 1)) { s with size := s.size - 1 } = .ok () { s with
      cells := l.map .live ++ dead k (.live a) :: rest, led := { s.led with gone := s.led.gone + 1 },
      size := s.size - 1 } := by
    refine onM_ok ?_
    rw [toMem_eq (s := { s with size := s.size - 1 }) hcells', Mem.destroy_mid (by simp [hsz]) (fun _ => rfl)]
  have e : popBack k s = onM (Mem.destroy k (s.size - 1)) { s with size := s.size - 1 } := by
    unfold popBack
    rw [Cpp.bind_ok (Cpp.get_run _), if_neg (by omega), Cpp.bind_ok (Cpp.modify_run _ _)]
  replace e := e.trans h1
  refine ⟨_, e, ?_⟩
  · refine ⟨by simp [hsz], h.cap, ⟨dead k (.live a) :: rest, rfl, ?_, ?_⟩, fun hk => ?_⟩
    · simp at hlen ⊢; omega
    · rintro rfl c hc
      rcases List.mem_cons.mp hc with rfl | hc
      · rfl
      · exact hraw rfl c hc
    · have := h.led hk
      simp at this ⊢; omega

end AvS
end Efp
