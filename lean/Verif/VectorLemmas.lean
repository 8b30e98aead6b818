import Verif.Vector
import Verif.MemLemmas

/-! Helper lemmas for the `Vector` model: representation relation and one lemma per operation. -/

namespace Efp
namespace VecS

variable {α β : Type}

/-- `s` represents the list `l`: null with nothing, or a block whose first cells are the elements and
whose other cells hold no object if the element type is resource-owning. -/
def Rep (k : Kind) (s : VecS α) (l : List α) : Prop :=
  s.size = l.length ∧
  ((s.ptr = .null ∧ s.cells = [] ∧ s.cap = 0 ∧ l = []) ∨
   (s.ptr = .block ∧ s.cap = s.cells.length ∧
     ∃ rest, s.cells = l.map .live ++ rest ∧ (k = .managed → ∀ c ∈ rest, c = .raw)))

theorem onMem_block {m : Cpp (Mem α) β} {s : VecS α} (h : s.ptr = .block) :
    onMem m s = (m s.toMem).mapState (fun m' => { s with toMem := m' }) := by
  unfold onMem; rw [h]; cases m s.toMem <;> rfl

theorem onMem_ok {m : Cpp (Mem α) β} {s : VecS α} {b : β} {m' : Mem α} (h : s.ptr = .block)
    (hm : m s.toMem = .ok b m') : onMem m s = .ok b { s with toMem := m' } := by
  rw [onMem_block h, hm]; rfl

theorem forUp_onMem {f : Nat → Cpp (Mem α) Unit} (lo n : Nat) (s : VecS α) (h : s.ptr = .block) :
    forUp (fun i => onMem (f i)) lo n s =
      (forUp f lo n s.toMem).mapState (fun m' => { s with toMem := m' }) := by
  induction n generalizing lo s with
  | zero => rfl
  | succ n ih =>
    simp only [forUp_succ, Cpp.bind_run, onMem_block h]
    cases hf : f lo s.toMem with
    | ok b m' =>
      simp only [Out.mapState_ok]
      rw [ih (lo + 1) { s with toMem := m' } h]
    | thrown m' => rfl
    | ub w => rfl

/-- destroying `cs`, the first `s.size` cells -/
theorem destroyAll_block {k : Kind} {s : VecS α} (cs rest : List (Cell α)) (hp : s.ptr = .block)
    (hcells : s.cells = cs ++ rest) (hsz : s.size = cs.length)
    (hc : k = .managed → ∀ c ∈ cs, c.alive = true) :
    destroyAll k s = .ok () { s with
      cells := cs.map (dead k) ++ rest
      led := { s.led with gone := s.led.gone + cs.length } } := by
  have h := Mem.destroy_range (k := k) cs [] rest s.led hc
  simp only [List.length_nil, List.nil_append] at h
  unfold destroyAll
  rw [forUp_onMem _ _ _ hp, hsz]
  have : s.toMem = ⟨cs ++ rest, s.led⟩ := by cases s with | mk m => cases m; simp_all
  rw [this, h]; rfl

theorem destroyAll_null {k : Kind} {s : VecS α} (hsz : s.size = 0) : destroyAll k s = .ok () s := by
  unfold destroyAll; rw [hsz]; rfl

theorem relocate_run {k : Kind} (ys : List α) (pre rest npre : List (Cell α)) (m : Nat) (s : VecS α)
    (hp : s.ptr = .block) (hcells : s.cells = pre ++ ys.map .live ++ rest)
    (hlen : npre.length = pre.length) (hm : ys.length ≤ m) :
    relocate k ys.length pre.length (npre ++ List.replicate m .raw) s =
      .ok (npre ++ ys.map .live ++ List.replicate (m - ys.length) .raw)
        { s with
          cells := pre ++ ys.map (husk k) ++ rest
          led := { s.led with made := s.led.made + ys.length, reloc := s.led.reloc + ys.length } } := by
  induction ys generalizing pre npre m s with
  | nil =>
    simp only [List.length_nil, relocate, List.map_nil, List.append_nil, Nat.sub_zero, Nat.add_zero,
      Cpp.pure_run]
    simp only [List.map_nil, List.append_nil] at hcells
    rw [← hcells]
  | cons y ys ih =>
    obtain ⟨m, rfl⟩ : ∃ m', m = m' + 1 := ⟨m - 1, by simp at hm; omega⟩
    have hs : s.toMem = ⟨pre ++ .live y :: (ys.map .live ++ rest), s.led⟩ := by
      cases s with | mk mm => cases mm; simp_all
    have h1 : onMem (Mem.moveOut k pre.length) s = .ok y
        { s with cells := pre ++ husk k y :: (ys.map .live ++ rest) } := by
      rw [onMem_block hp, hs, Mem.moveOut_mid rfl]; rfl
    have h2 : ∀ t : VecS α, constructIn (npre ++ List.replicate (m + 1) .raw) pre.length y t =
        .ok (npre ++ [Cell.live y] ++ List.replicate m .raw)
          { t with led := { t.led with made := t.led.made + 1 } } := by
      intro t
      unfold constructIn
      have hlt : pre.length < (npre ++ List.replicate (m + 1) (Cell.raw : Cell α)).length := by
        simp; omega
      rw [if_pos hlt, List.replicate_succ, set_mid hlen]; simp
    have h3 := ih (pre ++ [husk k y]) (npre ++ [Cell.live y]) m
      { s with
        cells := pre ++ husk k y :: (ys.map .live ++ rest)
        led := { s.led with made := s.led.made + 1, reloc := s.led.reloc + 1 } }
      hp (by simp) (by simp [hlen]) (by simpa using hm)
    simp only [List.length_append, List.length_cons, List.length_nil, Nat.zero_add] at h3
    simp only [List.length_cons, relocate]
    rw [Cpp.bind_ok h1, Cpp.bind_ok (h2 _), Cpp.bind_ok (Cpp.modify_run _ _)]
    simp only
    rw [h3]
    simp [Nat.add_assoc, Nat.add_comm 1, Nat.add_sub_add_right]

/-- block-freeing increment of the ledger -/
def hadBlock (s : VecS α) : Nat := if s.ptr = .block then 1 else 0

theorem reallocate_run {k : Kind} {s : VecS α} {l : List α} (h : Rep k s l) (n : Nat)
    (hn : l.length ≤ n) :
    reallocate k n s = .ok ()
      { cells := l.map .live ++ List.replicate (n - l.length) .raw
        ptr := .block, size := l.length, cap := n
        led := { made := s.led.made + l.length, gone := s.led.gone + l.length,
                 alloc := s.led.alloc + 1, freed := s.led.freed + hadBlock s,
                 reloc := s.led.reloc + l.length } } := by
  obtain ⟨hsz, h | ⟨hp, hcap, rest, hcells, hraw⟩⟩ := h
  · obtain ⟨hp, hcells, hcap, rfl⟩ := h
    cases s with | mk mm ptr size cap =>
    cases mm with | mk cells led =>
    simp only at hsz hp hcells hcap
    subst hp hcells hcap
    simp only [List.length_nil] at hsz
    subst hsz
    simp [reallocate, Cpp.bind_run, relocate, destroyAll, dealloc, hadBlock]
  · cases s with | mk mm ptr size cap =>
    cases mm with | mk cells led =>
    simp only at hsz hp hcells hcap
    subst hp hsz
    unfold reallocate
    rw [Cpp.bind_ok (Cpp.modify_run _ _), Cpp.bind_ok (Cpp.get_run _)]
    have h1 := relocate_run (k := k) l [] rest [] n
      ⟨⟨cells, { led with alloc := led.alloc + 1 }⟩, .block, l.length, cap⟩ rfl
      (by simpa using hcells) rfl hn
    simp only [List.nil_append, List.length_nil] at h1
    simp only
    rw [Cpp.bind_ok h1]
    have h2 := destroyAll_block (k := k)
      (s := ⟨⟨l.map (husk k) ++ rest,
          { led with alloc := led.alloc + 1, made := led.made + l.length,
                     reloc := led.reloc + l.length }⟩, .block, l.length, cap⟩)
      (l.map (husk k)) rest rfl rfl (by simp) (by simp)
    rw [Cpp.bind_ok h2]
    simp [Cpp.bind_run, dealloc, hadBlock]

theorem rep_block {k : Kind} {s : VecS α} {l : List α} {rest : List (Cell α)} (hp : s.ptr = .block)
    (hsz : s.size = l.length) (hcap : s.cap = s.cells.length)
    (hcells : s.cells = l.map .live ++ rest) (hraw : k = .managed → ∀ c ∈ rest, c = .raw) :
    Rep k s l := ⟨hsz, .inr ⟨hp, hcap, rest, hcells, hraw⟩⟩

theorem Rep.size_le_cap {k : Kind} {s : VecS α} {l : List α} (h : Rep k s l) : s.size ≤ s.cap := by
  obtain ⟨hsz, h | ⟨hp, hcap, rest, hcells, hraw⟩⟩ := h
  · obtain ⟨_, _, hcap, rfl⟩ := h; simp [hsz, hcap]
  · rw [hcap, hsz, hcells]; simp

theorem rep_mk0 (k : Kind) (led : Ledger) : Rep k (mk0 led : VecS α) [] :=
  ⟨rfl, .inl ⟨rfl, rfl, rfl, rfl⟩⟩

/-- after `reallocate` to `n` slots -/
def afterRealloc (s : VecS α) (l : List α) (n : Nat) : VecS α :=
  { cells := l.map .live ++ List.replicate (n - l.length) .raw
    ptr := .block, size := l.length, cap := n
    led := { made := s.led.made + l.length, gone := s.led.gone + l.length,
             alloc := s.led.alloc + 1, freed := s.led.freed + hadBlock s,
             reloc := s.led.reloc + l.length } }

theorem rep_afterRealloc {k : Kind} (s : VecS α) (l : List α) (n : Nat) (hn : l.length ≤ n) :
    Rep k (afterRealloc s l n) l := by
  refine rep_block rfl rfl ?_ rfl ?_
  · simp [afterRealloc]; omega
  · intro _ c hc; exact (List.mem_replicate.mp hc).2

theorem reserve_run {k : Kind} {s : VecS α} {l : List α} (h : Rep k s l) (n : Nat) :
    reserve k n s = .ok () (if n > s.cap then afterRealloc s l n else s) := by
  unfold reserve
  split
  · next hn => rw [reallocate_run h n (by have := h.size_le_cap; have := h.1; omega)]; rfl
  · rfl

theorem shrinkToFit_run {k : Kind} {s : VecS α} {l : List α} (h : Rep k s l) :
    shrinkToFit k s = .ok () (afterRealloc s l (l.length + 1)) := by
  unfold shrinkToFit
  have h1 := h.size_le_cap
  have h2 := h.1
  rw [if_pos (by omega), h2, reallocate_run h _ (by omega)]; rfl

theorem growPush_run {k : Kind} {s : VecS α} {l : List α} (h : Rep k s l) :
    growPush k s = .ok () (if s.size + 1 ≥ s.cap then
      afterRealloc s l (if s.size = 0 then 2 else 2 * s.size + 1) else s) := by
  unfold growPush
  have h1 := h.size_le_cap
  split
  · rw [reserve_run h, if_pos (by split <;> omega)]
  · rfl

/-- the elements plus at least one free slot -/
theorem Rep.split_spare {k : Kind} {s : VecS α} {l : List α} (h : Rep k s l) (hsp : s.size < s.cap) :
    s.ptr = .block ∧ ∃ c rest, s.cells = l.map .live ++ c :: rest ∧ s.cap = s.cells.length ∧
      (k = .managed → c = .raw ∧ ∀ c ∈ rest, c = .raw) := by
  obtain ⟨hsz, h | ⟨hp, hcap, rest, hcells, hraw⟩⟩ := h
  · obtain ⟨_, _, hcap, _⟩ := h; omega
  · refine ⟨hp, ?_⟩
    cases rest with
    | nil => simp [hcells] at hcap; omega
    | cons c rest =>
      exact ⟨c, rest, hcells, hcap, fun hk => ⟨hraw hk c (by simp), fun c' hc' => hraw hk c' (by simp [hc'])⟩⟩

theorem construct_back {k : Kind} {s : VecS α} {l : List α} (h : Rep k s l) (hsp : s.size < s.cap)
    (a : α) :
    ∃ t, (do onMem (Mem.construct s.size a)
             Cpp.modify (fun s => { s with size := s.size + 1 })) s = .ok () t ∧
      Rep k t (l ++ [a]) ∧ t.cap = s.cap ∧ t.ptr = .block ∧
      t.led = { s.led with made := s.led.made + 1 } := by
  obtain ⟨hp, c, rest, hcells, hcap, hraw⟩ := h.split_spare hsp
  have hsz := h.1
  have hm : s.toMem = ⟨l.map .live ++ c :: rest, s.led⟩ := by cases s with | mk mm => cases mm; simp_all
  have h1 : onMem (Mem.construct s.size a) s = .ok () { s with
      cells := l.map .live ++ .live a :: rest, led := { s.led with made := s.led.made + 1 } } := by
    rw [onMem_block hp, hm, Mem.construct_mid a (by simp [hsz])]; rfl
  refine ⟨{ s with cells := l.map .live ++ .live a :: rest, led := { s.led with made := s.led.made + 1 },
                    size := s.size + 1 }, by rw [Cpp.bind_ok h1], ?_, rfl, hp, rfl⟩
  refine rep_block hp (by simp [hsz]) ?_ (rest := rest) (by simp) (fun hk => (hraw hk).2)
  simp only [hcap, hcells]; simp

theorem pushBack_run {k : Kind} {s : VecS α} {l : List α} (h : Rep k s l) (a : α) :
    ∃ t, pushBack k a s = .ok () t ∧ Rep k t (l ++ [a]) ∧ t.ptr = .block ∧ t.size < t.cap ∧
      t.cap = (if s.size + 1 ≥ s.cap then (if s.size = 0 then 2 else 2 * s.size + 1) else s.cap) ∧
      t.led = (if s.size + 1 ≥ s.cap then
        { made := s.led.made + l.length + 1, gone := s.led.gone + l.length,
          alloc := s.led.alloc + 1, freed := s.led.freed + hadBlock s,
          reloc := s.led.reloc + l.length }
        else { s.led with made := s.led.made + 1 }) := by
  have hle := h.size_le_cap
  have hsz := h.1
  unfold pushBack
  rw [Cpp.bind_ok (growPush_run h), Cpp.bind_ok (Cpp.get_run _)]
  by_cases hg : s.size + 1 ≥ s.cap
  · rw [if_pos hg, if_pos hg, if_pos hg]
    have hrep : Rep k (afterRealloc s l (if s.size = 0 then 2 else 2 * s.size + 1)) l :=
      rep_afterRealloc _ _ _ (by split <;> omega)
    obtain ⟨t, ht, hr, hc, hp, hled⟩ := construct_back hrep (a := a)
      (by show l.length < _; simp only [afterRealloc]; split <;> omega)
    refine ⟨t, ht, hr, hp, ?_, by rw [hc]; rfl, by rw [hled]; rfl⟩
    rw [hr.1, hc]; simp only [List.length_append, List.length_cons, List.length_nil, afterRealloc]
    split <;> omega
  · rw [if_neg hg, if_neg hg, if_neg hg]
    obtain ⟨t, ht, hr, hc, hp, hled⟩ := construct_back h (a := a) (by omega)
    refine ⟨t, ht, hr, hp, ?_, hc, hled⟩
    rw [hr.1, hc]; simp; omega

theorem popBack_throw {k : Kind} {s : VecS α} (h : Rep k s []) : popBack k s = .thrown s := by
  have := h.1
  simp [popBack, Cpp.bind_run, this]

theorem popBack_run {k : Kind} {s : VecS α} {l : List α} {a : α} (h : Rep k s (l ++ [a])) :
    ∃ t, popBack k s = .ok () t ∧ Rep k t l ∧ t.cap = s.cap ∧ t.ptr = s.ptr ∧
      t.led = { s.led with gone := s.led.gone + 1 } := by
  obtain ⟨hsz, h | ⟨hp, hcap, rest, hcells, hraw⟩⟩ := h
  · simp at h
  · have hsz' : s.size = l.length + 1 := by simpa using hsz
    have hm : s.toMem = ⟨l.map .live ++ .live a :: rest, s.led⟩ := by
      cases s with | mk mm => cases mm; simp_all
    have h1 : onMem (Mem.destroy k (s.size - 1)) s = .ok () { s with
        cells := l.map .live ++ dead k (.live a) :: rest
        led := { s.led with gone := s.led.gone + 1 } } := by
      rw [onMem_block hp, hm, Mem.destroy_mid (by simp [hsz']) (fun _ => rfl)]; rfl
    refine ⟨{ s with cells := l.map .live ++ dead k (.live a) :: rest, size := s.size - 1,
                      led := { s.led with gone := s.led.gone + 1 } }, ?_, ?_, rfl, rfl, rfl⟩
    · unfold popBack
      rw [Cpp.bind_ok (Cpp.get_run _), if_neg (by omega), Cpp.bind_ok h1]
    · refine rep_block hp (by simp [hsz']) ?_ (rest := dead k (.live a) :: rest) rfl ?_
      · simp only [hcap, hcells]; simp
      · intro hk c hc
        subst hk
        rcases List.mem_cons.mp hc with rfl | hc
        · rfl
        · exact hraw rfl c hc

theorem clear_run {k : Kind} {s : VecS α} {l : List α} (h : Rep k s l) :
    ∃ t, clear k s = .ok () t ∧ Rep k t [] ∧ t.cap = s.cap ∧ t.ptr = s.ptr ∧
      t.led = { s.led with gone := s.led.gone + l.length } := by
  obtain ⟨hsz, h | ⟨hp, hcap, rest, hcells, hraw⟩⟩ := h
  · obtain ⟨hp, hcells, hcap, rfl⟩ := h
    unfold clear
    rw [Cpp.bind_ok (destroyAll_null hsz)]
    exact ⟨_, rfl, ⟨rfl, .inl ⟨hp, hcells, hcap, rfl⟩⟩, rfl, rfl, rfl⟩
  · unfold clear
    rw [Cpp.bind_ok (destroyAll_block (k := k) (l.map .live) rest hp hcells (by simp [hsz]) (by simp))]
    refine ⟨_, rfl, ?_, rfl, rfl, by simp⟩
    refine rep_block hp rfl ?_ (rest := (l.map .live).map (dead k) ++ rest) (by simp) ?_
    · simp only [hcap, hcells]; simp
    · intro hk c hc
      subst hk
      rcases List.mem_append.mp hc with hc | hc
      · simp only [List.map_map, List.mem_map] at hc
        obtain ⟨x, _, rfl⟩ := hc; rfl
      · exact hraw rfl c hc

theorem readFrom_run {s : VecS α} (ys : List α) (pre rest : List (Cell α)) (hp : s.ptr = .block)
    (hcells : s.cells = pre ++ ys.map .live ++ rest) :
    readFrom s pre.length ys.length = .ok ys := by
  induction ys generalizing pre with
  | nil => rfl
  | cons y ys ih =>
    have hm : s.toMem = ⟨pre ++ .live y :: (ys.map .live ++ rest), s.led⟩ := by
      cases s with | mk mm => cases mm; simp_all
    have h1 : at_ pre.length s = .ok y s := by
      unfold at_
      rw [onMem_block hp, hm, Mem.read_mid rfl, Out.mapState_ok, ← hm]
    have h2 := ih (pre ++ [Cell.live y]) (by simp [hcells])
    simp only [List.length_append, List.length_cons, List.length_nil, Nat.zero_add] at h2
    simp only [List.length_cons, readFrom, h1, h2]; rfl

theorem Rep.contents {k : Kind} {s : VecS α} {l : List α} (h : Rep k s l) : s.contents = .ok l := by
  obtain ⟨hsz, h | ⟨hp, hcap, rest, hcells, hraw⟩⟩ := h
  · obtain ⟨_, _, _, rfl⟩ := h
    unfold VecS.contents; rw [hsz]; rfl
  · unfold VecS.contents; rw [hsz]
    exact readFrom_run l [] rest hp (by simpa using hcells)

theorem toMem_eq {s : VecS α} {cs : List (Cell α)} (h : s.cells = cs) : s.toMem = ⟨cs, s.led⟩ := by
  subst h; rfl

/-! ### insert and erase -/

/-- shift loop of `insert` on trivial elements: opens a gap (holding some cell `x`) before `ys` -/
theorem shiftUp_trivial (n : Nat) (ys : List α) (hn : ys.length = n) (pre rest : List (Cell α))
    (c : Cell α) (s : VecS α) (hp : s.ptr = .block) (hcells : s.cells = pre ++ ys.map .live ++ c :: rest) :
    ∃ x, forDown (fun i => do
        let y ← onMem (Mem.moveOut .trivial (i - 1))
        onMem (Mem.assign .trivial i y)) (pre.length + n) n s =
      .ok () { s with cells := pre ++ x :: ys.map .live ++ rest } := by
  induction n generalizing ys c rest s with
  | zero =>
    have : ys = [] := List.length_eq_zero_iff.mp hn
    subst this
    refine ⟨c, ?_⟩
    simp only [forDown_zero, Cpp.pure_run, List.map_nil, List.append_nil] at hcells ⊢
    simp [← hcells]
  | succ n ih =>
    rcases List.eq_nil_or_concat ys with rfl | ⟨zs, z, rfl⟩
    · simp at hn
    have hzs : zs.length = n := by simpa using hn
    have hm : s.toMem = ⟨(pre ++ zs.map .live) ++ .live z :: c :: rest, s.led⟩ := by
      cases s with | mk mm => cases mm; simp_all
    have h1 : onMem (Mem.moveOut .trivial (pre.length + (n + 1) - 1)) s = .ok z s := by
      rw [onMem_block (by exact hp), hm, Mem.moveOut_mid (by simp [hzs])]
      simp only [husk, Out.mapState_ok, ← hm]
    have h2 : onMem (Mem.assign .trivial (pre.length + (n + 1)) z) s =
        .ok () { s with cells := pre ++ zs.map .live ++ .live z :: .live z :: rest } := by
      have hm' : s.toMem = ⟨(pre ++ zs.map .live ++ [.live z]) ++ c :: rest, s.led⟩ := by
        rw [hm]; simp
      rw [onMem_block (by exact hp), hm', Mem.assign_mid (by simp [hzs, Nat.add_assoc]) (by simp)]
      simp
    obtain ⟨x, hx⟩ := ih zs hzs (.live z :: rest) (.live z)
      { s with cells := pre ++ zs.map .live ++ .live z :: .live z :: rest } hp rfl
    refine ⟨x, ?_⟩
    rw [forDown_succ, Cpp.bind_run, Cpp.bind_ok h1, h2]
    have : pre.length + (n + 1) - 1 = pre.length + n := by omega
    simp only [this]
    rw [hx]; simp

/-- shift loop of `erase` on trivial elements: closes the gap `c` before `ys` -/
theorem shiftDown_trivial (ys : List α) (pre rest : List (Cell α))
    (c : Cell α) (s : VecS α) (hp : s.ptr = .block) (hcells : s.cells = pre ++ c :: ys.map .live ++ rest) :
    ∃ x, forUp (fun i => do
        let y ← onMem (Mem.moveOut .trivial (i + 1))
        onMem (Mem.assign .trivial i y)) pre.length ys.length s =
      .ok () { s with cells := pre ++ ys.map .live ++ x :: rest } := by
  induction ys generalizing pre c s with
  | nil => exact ⟨c, by simp at hcells; simp [← hcells]⟩
  | cons y ys ih =>
    have hm : s.toMem = ⟨(pre ++ [c]) ++ .live y :: (ys.map .live ++ rest), s.led⟩ := by
      cases s with | mk mm => cases mm; simp_all
    have h1 : onMem (Mem.moveOut .trivial (pre.length + 1)) s = .ok y s := by
      rw [onMem_block (by exact hp), hm, Mem.moveOut_mid (by simp)]
      simp only [husk, Out.mapState_ok, ← hm]
    have h2 : onMem (Mem.assign .trivial pre.length y) s =
        .ok () { s with cells := pre ++ .live y :: .live y :: (ys.map .live ++ rest) } := by
      have hm' : s.toMem = ⟨pre ++ c :: .live y :: (ys.map .live ++ rest), s.led⟩ := by
        rw [hm]; simp
      rw [onMem_block (by exact hp), hm', Mem.assign_mid rfl (by simp)]
      simp
    obtain ⟨x, hx⟩ := ih (pre ++ [.live y]) (.live y)
      { s with cells := pre ++ .live y :: .live y :: (ys.map .live ++ rest) } hp (by simp)
    refine ⟨x, ?_⟩
    simp only [List.length_append, List.length_cons, List.length_nil, Nat.zero_add] at hx
    rw [List.length_cons, forUp_succ, Cpp.bind_run, Cpp.bind_ok h1, h2]
    simp only
    rw [hx]; simp

/-- growth step of `insert` -/
theorem insert_grow {k : Kind} {s : VecS α} {l : List α} (h : Rep k s l) :
    ∃ t, (if s.size + 1 ≥ s.cap then reserve k (if s.cap = 0 then 2 else 2 * s.cap) else pure ()) s =
        .ok () t ∧ Rep k t l ∧ t.size < t.cap ∧ t.ptr = .block ∧ t.size = s.size ∧
      ((s.cap = 0 ∨ s.size < s.cap) → t.size + 2 ≤ t.cap) ∧
      t.led = (if s.size + 1 ≥ s.cap then
        { made := s.led.made + l.length, gone := s.led.gone + l.length,
          alloc := s.led.alloc + 1, freed := s.led.freed + hadBlock s,
          reloc := s.led.reloc + l.length }
        else s.led) := by
  have hle := h.size_le_cap
  have hsz := h.1
  by_cases hg : s.size + 1 ≥ s.cap
  · refine ⟨afterRealloc s l (if s.cap = 0 then 2 else 2 * s.cap), ?_, ?_, ?_, rfl, hsz.symm, ?_, ?_⟩
    · rw [if_pos hg, reserve_run h, if_pos (by split <;> omega)]
    · exact rep_afterRealloc _ _ _ (by split <;> omega)
    · simp only [afterRealloc]; split <;> omega
    · simp only [afterRealloc]; split <;> omega
    · rw [if_pos hg]; rfl
  · refine ⟨s, ?_, h, by omega, ?_, rfl, by omega, ?_⟩
    · rw [if_neg hg]; rfl
    · exact (h.split_spare (by omega)).1
    · rw [if_neg hg]

theorem insert_throw {k : Kind} {s : VecS α} {l : List α} (h : Rep k s l) {i : Nat} (a : α)
    (hi : l.length < i) : insert k i a s = .thrown s := by
  have := h.1
  unfold insert
  rw [Cpp.bind_ok (Cpp.get_run _), if_pos (by omega)]

theorem insert_run_trivial {s : VecS α} {l : List α} (h : Rep .trivial s l) {i : Nat} (a : α)
    (hi : i ≤ l.length) :
    ∃ t, insert .trivial i a s = .ok () t ∧ Rep .trivial t (l.take i ++ a :: l.drop i) ∧
      t.ptr = .block ∧ ((s.cap = 0 ∨ s.size < s.cap) → t.size < t.cap) ∧
      t.led.blocks = s.led.blocks + 1 - hadBlock s := by
  have hsz := h.1
  obtain ⟨t, ht, hrep, hsp, hp, htsz, hroom, hled⟩ := insert_grow h
  unfold insert
  rw [Cpp.bind_ok (Cpp.get_run _), if_neg (by omega)]
  obtain ⟨_, c, rest, hcells, hcap, _⟩ := hrep.split_spare hsp
  have hlen : (l.take i).length = i := by simp; omega
  have hsplit : t.cells = (l.take i).map .live ++ (l.drop i).map .live ++ c :: rest := by
    rw [hcells, ← List.map_append, List.take_append_drop]
  obtain ⟨x, hx⟩ := shiftUp_trivial (l.length - i) (l.drop i) (by simp) _ rest c t hp hsplit
  have e1 : (List.map Cell.live (l.take i)).length + (l.length - i) = s.size := by
    simp; omega
  have e2 : s.size - i = l.length - i := by omega
  rw [e1] at hx
  have hcon : onMem (Mem.construct i a) { t with
      cells := (l.take i).map .live ++ x :: (l.drop i).map .live ++ rest } = .ok () { t with
      cells := (l.take i).map .live ++ .live a :: ((l.drop i).map .live ++ rest)
      led := { t.led with made := t.led.made + 1 } } := by
    rw [onMem_block (by exact hp)]
    simp only [List.append_assoc, List.cons_append]
    rw [Mem.construct_mid a (by simp; omega)]; rfl
  refine ⟨{ t with
      cells := (l.take i).map .live ++ .live a :: ((l.drop i).map .live ++ rest)
      led := { t.led with made := t.led.made + 1 }, size := t.size + 1 }, ?_, ?_, hp, ?_, ?_⟩
  · rw [e2]
    by_cases hg : s.size + 1 ≥ s.cap
    · rw [if_pos hg] at ht
      rw [if_pos hg]; refine (Cpp.bind_ok ht).trans ?_; dsimp only; rw [Cpp.bind_ok hx, Cpp.bind_ok hcon]
    · rw [if_neg hg] at ht
      have : t = s := by simpa using ht.symm
      subst this
      rw [if_neg hg]; dsimp only; rw [Cpp.bind_ok hx, Cpp.bind_ok hcon]
  · refine rep_block hp ?_ ?_ (rest := rest) ?_ (by simp)
    · simp only [htsz, hsz, List.length_append, List.length_cons, hlen, List.length_drop]; omega
    · simp only [hcap, hcells]; simp; omega
    · simp
  · intro hlt; have := hroom hlt; simp only; omega
  · simp only [Ledger.blocks, hled]
    split
    · simp only; omega
    · next hg =>
      have : s.ptr = .block := (h.split_spare (by omega)).1
      simp [hadBlock, this]

theorem insert_end_run {k : Kind} {s : VecS α} {l : List α} (h : Rep k s l) (a : α) :
    ∃ t, insert k l.length a s = .ok () t ∧ Rep k t (l ++ [a]) ∧ t.ptr = .block ∧
      ((s.cap = 0 ∨ s.size < s.cap) → t.size < t.cap) ∧
      t.led = (if s.size + 1 ≥ s.cap then
        { made := s.led.made + l.length + 1, gone := s.led.gone + l.length,
          alloc := s.led.alloc + 1, freed := s.led.freed + hadBlock s,
          reloc := s.led.reloc + l.length }
        else { s.led with made := s.led.made + 1 }) := by
  have hsz := h.1
  obtain ⟨t, ht, hrep, hsp, hp, htsz, hroom, hled⟩ := insert_grow h
  obtain ⟨u, hu, hur, huc, hup, hul⟩ := construct_back hrep hsp a
  refine ⟨u, ?_, hur, hup, ?_, ?_⟩
  · unfold insert
    rw [Cpp.bind_ok (Cpp.get_run _), if_neg (by omega)]
    have e2 : s.size - l.length = 0 := by omega
    have e3 : l.length = t.size := by omega
    rw [e2]
    by_cases hg : s.size + 1 ≥ s.cap
    · rw [if_pos hg] at ht
      rw [if_pos hg]; refine (Cpp.bind_ok ht).trans ?_; dsimp only; rw [forDown_zero, Cpp.pure_bind, e3]; exact hu
    · rw [if_neg hg] at ht
      have : t = s := by simpa using ht.symm
      subst this
      rw [if_neg hg]; dsimp only; rw [forDown_zero, Cpp.pure_bind, e3]; exact hu
  · intro hlt; have h1 := hroom hlt; have h2 := hur.1; simp at h2; omega
  · rw [hul, hled]; split <;> rfl

/-- for resource-owning elements the first shift step assigns to a slot without an object -/
theorem insert_middle_ub {s : VecS α} {l : List α} (h : Rep .managed s l) {i : Nat} (a : α)
    (hi : i < l.length) : insert .managed i a s = .ub .deadAssign := by
  have hsz := h.1
  obtain ⟨t, ht, hrep, hsp, hp, htsz, hroom, hled⟩ := insert_grow h
  obtain ⟨_, c, rest, hcells, hcap, hraw⟩ := hrep.split_spare hsp
  have hcr : c = .raw := (hraw rfl).1
  subst hcr
  rcases List.eq_nil_or_concat l with rfl | ⟨zs, z, rfl⟩
  · simp at hi
  have hsz' : s.size = zs.length + 1 := by simpa using hsz
  have hm : t.toMem = ⟨zs.map .live ++ .live z :: .raw :: rest, t.led⟩ := by
    cases t with | mk mm => cases mm; simp_all
  have h1 : onMem (Mem.moveOut .managed (s.size - 1)) t =
      .ok z { t with cells := zs.map .live ++ .moved :: .raw :: rest } := by
    rw [onMem_block (by exact hp), hm, Mem.moveOut_mid (by simp [hsz'])]; rfl
  have h2 : onMem (Mem.assign .managed s.size z) { t with cells := zs.map .live ++ .moved :: .raw :: rest } =
      .ub .deadAssign := by
    rw [onMem_block (by exact hp)]
    have : (zs.map Cell.live ++ Cell.moved :: Cell.raw :: rest)[s.size]? = some .raw := by
      rw [hsz', show (zs.map Cell.live ++ Cell.moved :: Cell.raw :: rest) =
        (zs.map Cell.live ++ [Cell.moved]) ++ Cell.raw :: rest by simp]
      exact get_mid (by simp)
    simp [Mem.assign, this]
  have hbody : forDown (fun i => do
        let x ← onMem (Mem.moveOut Kind.managed (i - 1))
        onMem (Mem.assign Kind.managed i x)) s.size (s.size - i) t = .ub .deadAssign := by
    obtain ⟨m, hm'⟩ : ∃ m, s.size - i = m + 1 := ⟨s.size - i - 1, by simp at hi; omega⟩
    rw [hm', forDown_succ]
    exact Cpp.bind_ub (by rw [Cpp.bind_ok h1, h2])
  unfold insert
  rw [Cpp.bind_ok (Cpp.get_run _), if_neg (by simp at hi; omega)]
  by_cases hg : s.size + 1 ≥ s.cap
  · rw [if_pos hg] at ht
    rw [if_pos hg]; refine (Cpp.bind_ok ht).trans ?_; dsimp only; rw [Cpp.bind_ub hbody]
  · rw [if_neg hg] at ht
    have : t = s := by simpa using ht.symm
    subst this
    rw [if_neg hg]; dsimp only; rw [Cpp.bind_ub hbody]

theorem erase_throw {k : Kind} {s : VecS α} {l : List α} (h : Rep k s l) {i : Nat}
    (hi : l.length ≤ i) : erase k i s = .thrown s := by
  have := h.1
  unfold erase
  rw [Cpp.bind_ok (Cpp.get_run _), if_pos (by omega)]

theorem Rep.block_of_pos {k : Kind} {s : VecS α} {l : List α} (h : Rep k s l) (hl : l ≠ []) :
    s.ptr = .block ∧ s.cap = s.cells.length ∧
     ∃ rest, s.cells = l.map .live ++ rest ∧ (k = .managed → ∀ c ∈ rest, c = .raw) := by
  obtain ⟨hsz, h | h⟩ := h
  · exact absurd h.2.2.2 hl
  · exact h

theorem erase_run_trivial {s : VecS α} {l : List α} (h : Rep .trivial s l) {i : Nat}
    (hi : i < l.length) :
    ∃ t, erase .trivial i s = .ok () t ∧ Rep .trivial t (l.eraseIdx i) ∧ t.ptr = s.ptr ∧
      t.cap = s.cap ∧ t.led.blocks = s.led.blocks := by
  have hsz := h.1
  obtain ⟨hp, hcap, rest, hcells, _⟩ := h.block_of_pos (by rintro rfl; simp at hi)
  have hlen : (l.take i).length = i := by simp; omega
  have hl : l = l.take i ++ l[i] :: l.drop (i + 1) := by
    rw [← List.drop_eq_getElem_cons hi, List.take_append_drop]
  have hsplit : s.cells = (l.take i).map .live ++ .live l[i] :: (l.drop (i + 1)).map .live ++ rest := by
    rw [hcells, ← List.map_cons, ← List.map_append, ← hl]
  have hd : onMem (Mem.destroy .trivial i) s = .ok () { s with led := { s.led with gone := s.led.gone + 1 } } := by
    have hm : s.toMem = ⟨(l.take i).map .live ++ .live l[i] :: ((l.drop (i + 1)).map .live ++ rest), s.led⟩ :=
      toMem_eq (by rw [hsplit]; simp)
    rw [onMem_block (by exact hp), hm, Mem.destroy_mid (by simp; omega) (by simp)]
    simp only [Out.mapState_ok, dead]
  obtain ⟨x, hx⟩ := shiftDown_trivial (l.drop (i + 1)) _ rest _
    { s with led := { s.led with gone := s.led.gone + 1 } } hp hsplit
  have e1 : (List.map Cell.live (l.take i)).length = i := by simp; omega
  have e2 : (l.drop (i + 1)).length = s.size - 1 - i := by simp; omega
  rw [e1, e2] at hx
  refine ⟨{ s with
      cells := (l.take i).map .live ++ (l.drop (i + 1)).map .live ++ x :: rest
      led := { s.led with gone := s.led.gone + 1 }, size := s.size - 1 }, ?_, ?_, rfl, rfl, rfl⟩
  · unfold erase
    rw [Cpp.bind_ok (Cpp.get_run _), if_neg (by omega), Cpp.bind_ok hd, Cpp.bind_ok hx]
  · refine rep_block hp ?_ ?_ (rest := x :: rest) ?_ (by simp)
    · rw [List.length_eraseIdx_of_lt hi]; simp only; omega
    · simp only [hcap, hsplit]; simp; omega
    · rw [List.eraseIdx_eq_take_drop_succ]; simp

theorem erase_last_run {k : Kind} {s : VecS α} {l : List α} {a : α} (h : Rep k s (l ++ [a])) :
    ∃ t, erase k l.length s = .ok () t ∧ Rep k t l ∧ t.ptr = s.ptr ∧ t.cap = s.cap ∧
      t.led = { s.led with gone := s.led.gone + 1 } := by
  have hsz : s.size = l.length + 1 := by simpa using h.1
  obtain ⟨t, ht, hr, hc, hp, hled⟩ := popBack_run h
  refine ⟨t, ?_, hr, hp, hc, hled⟩
  rw [← ht]
  unfold erase popBack
  rw [Cpp.bind_ok (Cpp.get_run _), Cpp.bind_ok (Cpp.get_run _), if_neg (by omega), if_neg (by omega)]
  have e1 : s.size - 1 - l.length = 0 := by omega
  have e2 : s.size - 1 = l.length := by omega
  simp only [e2, Nat.sub_self, forUp_zero, Cpp.pure_bind]

theorem erase_middle_ub {s : VecS α} {l : List α} (h : Rep .managed s l) {i : Nat}
    (hi : i + 1 < l.length) : erase .managed i s = .ub .deadAssign := by
  have hsz := h.1
  obtain ⟨hp, hcap, rest, hcells, _⟩ := h.block_of_pos (by rintro rfl; simp at hi)
  have hl : l = l.take i ++ l[i] :: l[i + 1] :: l.drop (i + 2) := by
    rw [← List.drop_eq_getElem_cons hi, ← List.drop_eq_getElem_cons (by omega), List.take_append_drop]
  have hm : s.toMem = ⟨(l.take i).map .live ++ .live l[i] :: (.live l[i + 1] ::
      ((l.drop (i + 2)).map .live ++ rest)), s.led⟩ := by
    have : s.cells = (l.take i).map .live ++ .live l[i] :: (.live l[i + 1] ::
      ((l.drop (i + 2)).map .live ++ rest)) := by
      rw [hcells, ← List.cons_append, ← List.cons_append, ← List.map_cons, ← List.map_cons,
        ← List.append_assoc, ← List.map_append, ← hl]
    exact toMem_eq this
  have hlen : (List.map Cell.live (l.take i)).length = i := by simp; omega
  have h0 : onMem (Mem.destroy .managed i) s = .ok () { s with
      cells := (l.take i).map .live ++ .raw :: (.live l[i + 1] :: ((l.drop (i + 2)).map .live ++ rest))
      led := { s.led with gone := s.led.gone + 1 } } := by
    rw [onMem_block (by exact hp), hm, Mem.destroy_mid hlen (fun _ => rfl)]; rfl
  have h1 : onMem (Mem.moveOut .managed (i + 1)) { s with
      cells := (l.take i).map .live ++ .raw :: (.live l[i + 1] :: ((l.drop (i + 2)).map .live ++ rest))
      led := { s.led with gone := s.led.gone + 1 } } = .ok l[i + 1] { s with
      cells := (l.take i).map .live ++ .raw :: (.moved :: ((l.drop (i + 2)).map .live ++ rest))
      led := { s.led with gone := s.led.gone + 1 } } := by
    rw [onMem_block (by exact hp)]
    have := Mem.moveOut_mid (k := .managed) (pre := (l.take i).map .live ++ [.raw])
      (post := (l.drop (i + 2)).map .live ++ rest) (a := l[i + 1]) (i := i + 1)
      (led := { s.led with gone := s.led.gone + 1 }) (by simp; omega)
    simp only [List.append_assoc, List.cons_append, List.nil_append] at this
    simp only [this, Out.mapState_ok]; rfl
  have h2 : onMem (Mem.assign .managed i l[i + 1]) { s with
      cells := (l.take i).map .live ++ .raw :: (.moved :: ((l.drop (i + 2)).map .live ++ rest))
      led := { s.led with gone := s.led.gone + 1 } } = .ub .deadAssign := by
    rw [onMem_block (by exact hp)]
    simp only [Mem.assign, get_mid hlen]; simp
  obtain ⟨m, hm'⟩ : ∃ m, s.size - 1 - i = m + 1 := ⟨s.size - 2 - i, by omega⟩
  unfold erase
  rw [Cpp.bind_ok (Cpp.get_run _), if_neg (by omega), Cpp.bind_ok h0, hm', forUp_succ]
  apply Cpp.bind_ub
  apply Cpp.bind_ub
  rw [Cpp.bind_ok h1, h2]

end VecS
end Efp
