import Verif.Fmt.BufferLemmas
import Verif.Spec.MemBuf

/-!
# Helper lemmas: `memory_buffer`
-/

namespace Efp
namespace Fmt

open Spec.MemBuf

/-! ## One buffer -/

theorem Heap.set_same (h : Heap) (p : Nat) (v : Option Cells) : h.set p v p = v := if_pos rfl

theorem Heap.set_other (h : Heap) {p q : Nat} (v : Option Cells) (hq : q ≠ p) : h.set p v q = h q := if_neg hq

theorem newCapacity_ge (c n : Nat) : n ≤ newCapacity c n := by
  unfold newCapacity
  simp only
  split
  · exact Nat.le_refl _
  · split
    · split
      · exact Nat.le_refl _
      · omega
    · omega

theorem newCapacity_le {c n : Nat} (hn : n ≤ maxSize) : newCapacity c n ≤ maxSize := by
  unfold newCapacity
  simp only
  split
  · exact hn
  · split
    · split
      · exact hn
      · exact Nat.le_refl _
    · omega

/-- the buffer holds the cells; `F` is the heap without them -/
def Mem.Owned (F : Heap) (m : Mem) (capacity : Nat) (cells : Cells) : Prop :=
  match m.ptr with
  | none => m.heap = F ∧ capacity ≤ inlineSize ∧ cells = m.inline
  | some p => m.heap = F.set p (some cells) ∧ cells.length = capacity ∧ F p = none ∧ p < m.next

/-- the buffer holds the elements `old` and then the text; `F` is the heap without its storage -/
def Mem.Inv (F : Heap) (old : Cells) (v : Buf Mem) (t : Str) : Prop :=
  v.size ≤ v.capacity ∧ v.capacity ≤ maxSize ∧ v.rest.inline.length = inlineSize ∧ v.size = old.length + t.length ∧
    (∀ q, F q ≠ none → q < v.rest.next) ∧
    ∃ cells, Mem.Owned F v.rest v.capacity cells ∧ cells.take v.size = old ++ t.map some

theorem Mem.Owned.cells_eq {F : Heap} {m : Mem} {n : Nat} {cells : Cells} (h : Mem.Owned F m n cells) :
    m.cells m.ptr = some cells := by
  unfold Mem.Owned at h
  unfold Mem.cells
  split
  · rename_i hp
    rw [hp] at h
    simp only at h
    rw [h.2.2]
  · rename_i p hp
    rw [hp] at h
    simp only at h
    rw [h.1, Heap.set_same]

theorem Mem.Owned.length_ge {F : Heap} {m : Mem} {n : Nat} {cells : Cells} (h : Mem.Owned F m n cells)
    (hi : m.inline.length = inlineSize) : n ≤ cells.length := by
  unfold Mem.Owned at h
  split at h
  · rw [h.2.2, hi]; exact h.2.1
  · rw [h.2.1]; exact Nat.le_refl _

theorem Mem.Owned.store {F : Heap} {m : Mem} {n : Nat} {cells : Cells} (h : Mem.Owned F m n cells) {i : Nat}
    (hi : i < cells.length) (c : Option Char) :
    ∃ m', m.store i c = .ok m' ∧ Mem.Owned F m' n (cells.set i c) ∧ m'.inline.length = m.inline.length ∧ m'.next = m.next ∧
      m'.ptr = m.ptr := by
  unfold Mem.Owned at h
  unfold Mem.store
  cases hp : m.ptr with
  | none =>
    rw [hp] at h
    simp only at h
    obtain ⟨h1, h2, rfl⟩ := h
    refine ⟨{ m with inline := m.inline.set i c }, ?_, ?_, List.length_set, rfl, hp⟩
    · simp only [if_pos hi, hp]
    · unfold Mem.Owned
      simp only [hp]
      exact ⟨h1, h2, trivial⟩
  | some p =>
    rw [hp] at h
    simp only at h
    obtain ⟨h1, h2, h3, h4⟩ := h
    refine ⟨{ m with heap := m.heap.set p (some (cells.set i c)) }, ?_, ?_, rfl, rfl, hp⟩
    · simp only [h1, Heap.set_same, if_pos hi, hp]
    · unfold Mem.Owned
      simp only [hp]
      refine ⟨?_, by rw [List.length_set]; exact h2, h3, h4⟩
      rw [h1]
      funext q
      unfold Heap.set
      split <;> rfl

theorem Mem.grow_ok (fails : Nat → Nat → Bool) {F : Heap} {old : Cells} {b : Buf Mem} {t : Str} (h : Mem.Inv F old b t) {n : Nat}
    (hn : b.capacity < n) :
    (∃ b', (Mem.kind fails).grow n b = .ok b' ∧ Mem.Inv F old b' t ∧ n ≤ b'.capacity ∧ b'.size = b.size ∧
      b'.rest.inline = b.rest.inline ∧ b'.rest.ptr = some b.rest.next) ∨
    ((fails b.rest.next (newCapacity b.capacity n) = true ∨ maxSize < n) ∧ (Mem.kind fails).grow n b = .threw b) := by
  obtain ⟨h1, h2, h3, h4, h5, cells, h6, h7⟩ := h
  have hN := newCapacity_ge b.capacity n
  simp only [Mem.kind]
  generalize hNN : newCapacity b.capacity n = N at hN ⊢
  by_cases hf : N > maxSize ∨ fails b.rest.next N = true
  · refine .inr ⟨?_, by rw [if_pos hf]⟩
    rcases hf with hf | hf
    · refine .inr (Nat.lt_of_not_le fun hc => ?_)
      have := newCapacity_le (c := b.capacity) hc
      omega
    · exact .inl hf
  · refine .inl ?_
    rw [if_neg hf]
    have hlen := h6.length_ge h3
    rw [h6.cells_eq]
    have hc : ¬ (cells.length < b.size ∨ N < b.size) := by omega
    simp only [if_neg hc]
    generalize hnew : cells.take b.size ++ List.replicate (N - b.size) none = new
    have hnl : new.length = N := by rw [← hnew, List.length_append, List.length_take, List.length_replicate]; omega
    have htake : new.take b.size = old ++ t.map some := by
      rw [← hnew, List.take_append_of_le_length (by rw [List.length_take]; omega), List.take_take, Nat.min_self, h7]
    have hFn : F b.rest.next = none := by
      cases e : F b.rest.next with
      | none => rfl
      | some x => exact absurd (h5 _ (by rw [e]; nofun)) (Nat.lt_irrefl _)
    have fin : ∀ H : Heap, H = F.set b.rest.next (some new) →
        Mem.Inv F old ⟨b.size, N, { b.rest with heap := H, next := b.rest.next + 1, ptr := some b.rest.next }⟩ t := by
      intro H hH
      refine ⟨by simp only; omega, by simp only; omega, h3, h4, fun q hq => Nat.lt_succ_of_lt (h5 q hq), new, ?_, htake⟩
      unfold Mem.Owned
      exact ⟨hH, hnl, hFn, Nat.lt_succ_self _⟩
    cases hp : b.rest.ptr with
    | none =>
      simp only [Mem.deallocate, Run.then_ok]
      unfold Mem.Owned at h6
      rw [hp] at h6
      simp only at h6
      refine ⟨_, rfl, fin _ (by rw [h6.1]), hN, rfl, rfl, rfl⟩
    | some p =>
      unfold Mem.Owned at h6
      rw [hp] at h6
      simp only at h6
      obtain ⟨g1, g2, g3, g4⟩ := h6
      have hpn : p ≠ b.rest.next := Nat.ne_of_lt g4
      have e : (b.rest.heap.set b.rest.next (some new)) p = some cells := by
        rw [Heap.set_other _ _ hpn, g1, Heap.set_same]
      simp only [Mem.deallocate, e, if_pos g2, Run.then_ok]
      refine ⟨_, rfl, fin _ ?_, hN, rfl, rfl, rfl⟩
      rw [g1]
      funext q
      unfold Heap.set
      by_cases hq : q = p
      · rw [if_pos hq, if_neg (by rw [hq]; exact hpn), hq, g3]
      · rw [if_neg hq, if_neg hq]

theorem Mem.store_ok (fails : Nat → Nat → Bool) {F : Heap} {old : Cells} {b : Buf Mem} {t : Str} (h : Mem.Inv F old b t)
    (hb : b.size < b.capacity) (c : Char) :
    ∃ r, (Mem.kind fails).store b.size c b.rest = .ok r ∧ Mem.Inv F old ⟨b.size + 1, b.capacity, r⟩ (t ++ [c]) ∧
      r.next = b.rest.next := by
  obtain ⟨h1, h2, h3, h4, h5, cells, h6, h7⟩ := h
  have hlen := h6.length_ge h3
  obtain ⟨m', g1, g2, g3, g4, g5⟩ := h6.store (i := b.size) (by omega) (some c)
  refine ⟨m', g1, ⟨hb, h2, by rw [← h3]; exact g3, ?_, fun q hq => by rw [g4]; exact h5 q hq, _, g2, ?_⟩, g4⟩
  · simp only [List.length_append, List.length_cons, List.length_nil]; omega
  · have e : (cells.set b.size (some c)).take (b.size + 1) = cells.take b.size ++ [some c] := by
      rw [List.take_add_one, List.take_set_of_le (Nat.le_refl _), List.getElem?_set_self (by omega)]
      rfl
    simp only [e, h7, List.map_append, List.map_cons, List.map_nil, List.append_assoc]

/-- the law of a buffer that may allocate -/
theorem Mem.law (fails : Nat → Nat → Bool) (F : Heap) (old : Cells) {req : Nat} (hreq : req < 2 ^ 64) :
    (Mem.kind fails).Law (Mem.Inv F old) ((∃ a n, fails a n = true) ∨ maxSize < req) old.length req req where
  lim_lt := hreq
  lim_req := Nat.le_refl _
  size_le b t h := ⟨h.1, Nat.lt_of_le_of_lt h.2.1 (by decide), Nat.le_of_eq h.2.2.2.1⟩
  grow b t n h hn _ hr := by
    rcases Mem.grow_ok fails h hn with ⟨b', h1, h2, h3, h4, _⟩ | ⟨h1, h2⟩
    · exact .inl ⟨b', h1, h2, by have := h.1; omega⟩
    · refine .inr ⟨?_, b, h2, h⟩
      rcases h1 with h1 | h1
      · exact .inl ⟨_, _, h1⟩
      · exact .inr (by omega)
  store b t c h hb _ := by
    obtain ⟨r, h1, h2, _⟩ := Mem.store_ok fails h hb c
    exact ⟨r, h1, h2⟩

/-- the law of a buffer that has room: it neither allocates nor throws -/
theorem Mem.law_room (fails : Nat → Nat → Bool) (F : Heap) (old : Cells) {C : Nat} (hC : C < 2 ^ 64) (N : Nat) :
    (Mem.kind fails).Law (fun v t => Mem.Inv F old v t ∧ v.capacity = C ∧ v.rest.next = N) False old.length C C where
  lim_lt := hC
  lim_req := Nat.le_refl _
  size_le b t h := ⟨h.1.1, Nat.lt_of_le_of_lt h.1.2.1 (by decide), Nat.le_of_eq h.1.2.2.2.1⟩
  grow b t n h hn _ hr := by have := h.2.1; omega
  store b t c h hb _ := by
    obtain ⟨r, h1, h2, h3⟩ := Mem.store_ok fails h.1 hb c
    exact ⟨r, h1, h2, h.2.1, h3.trans h.2.2⟩

/-! ## Many buffers -/

/-- the world is in order -/
structure Good (w : MW) : Prop where
  buf : ∀ i b, w.bufs i = some b → b.size ≤ b.capacity ∧ b.capacity ≤ maxSize ∧ b.inline.length = inlineSize ∧
    (b.ptr = none → b.capacity ≤ inlineSize) ∧ ∀ p, b.ptr = some p → ∃ cells, w.heap p = some cells ∧ cells.length = b.capacity
  once : ∀ i j b c p, w.bufs i = some b → w.bufs j = some c → b.ptr = some p → c.ptr = some p → i = j
  owned : ∀ p, w.heap p ≠ none → p < w.next ∧ ∃ i b, w.bufs i = some b ∧ b.ptr = some p

theorem good_empty : Good MW.empty := ⟨nofun, nofun, fun p h => absurd rfl h⟩

/-- the world without buffer `i` -/
def MW.without (w : MW) (i : Nat) (b : MB) : MW :=
  ⟨fun q => if b.ptr = some q then none else w.heap q, w.next, update w.bufs i none⟩

theorem update_same {α : Type} (f : Nat → Option α) (i : Nat) (v : Option α) : update f i v i = v := if_pos rfl

theorem update_other {α : Type} (f : Nat → Option α) {i j : Nat} (v : Option α) (h : j ≠ i) : update f i v j = f j := if_neg h

theorem update_update {α : Type} (f : Nat → Option α) (i : Nat) (v u : Option α) : update (update f i v) i u = update f i u := by
  funext j
  unfold update
  split <;> rfl

theorem update_comm {α : Type} (f : Nat → Option α) {i j : Nat} (h : i ≠ j) (v u : Option α) :
    update (update f i v) j u = update (update f j u) i v := by
  funext k
  unfold update
  split
  · rename_i h1
    rw [if_neg (by omega)]
  · rfl

theorem without_back (w : MW) (i : Nat) (b : MB) (v : Buf Mem) : (w.without i b).back i v = w.back i v := by
  unfold MW.back MW.without
  simp only [update_update]

theorem text_none {w : MW} {i : Nat} (h : w.bufs i = none) : w.text i = none := by
  rw [MW.text, h]; rfl

theorem good_text {w : MW} (g : Good w) {i : Nat} {b : MB} (h : w.bufs i = some b) :
    ∃ l, w.text i = some l ∧ l.length = b.size ∧ ∃ cells, (w.view b).rest.cells b.ptr = some cells ∧ l = cells.take b.size ∧
      b.capacity ≤ cells.length := by
  obtain ⟨h1, h2, h3, h4, h5⟩ := g.buf i b h
  rw [MW.text, h, Option.bind_some]
  have : ∃ cells, (w.view b).rest.cells b.ptr = some cells ∧ b.capacity ≤ cells.length := by
    unfold Mem.cells MW.view
    cases hp : b.ptr with
    | none => exact ⟨_, rfl, by simp only; rw [h3]; exact h4 hp⟩
    | some p =>
      obtain ⟨cells, h6, h7⟩ := h5 p hp
      exact ⟨cells, h6, by omega⟩
  obtain ⟨cells, h6, h7⟩ := this
  refine ⟨cells.take b.size, by rw [h6]; rfl, by rw [List.length_take]; omega, cells, h6, rfl, h7⟩

theorem text_some_iff {w : MW} (g : Good w) (i : Nat) : w.text i ≠ none ↔ w.bufs i ≠ none := by
  constructor
  · intro h hn
    exact h (text_none hn)
  · intro h hn
    cases hb : w.bufs i with
    | none => exact h hb
    | some b =>
      obtain ⟨l, h1, _⟩ := good_text g hb
      rw [h1] at hn
      nomatch hn

/-- taking a buffer out -/
theorem good_split {w : MW} (g : Good w) {i : Nat} {b : MB} (h : w.bufs i = some b) {l : Cells} (hl : w.text i = some l) :
    Good (w.without i b) ∧ Mem.Inv (w.without i b).heap l (w.view b) [] ∧ (w.without i b).text = Lists.set w.text i none := by
  have hptr : ∀ {j c p}, w.bufs j = some c → j ≠ i → c.ptr = some p → b.ptr ≠ some p := by
    intro j c p hj hji hc hb
    exact hji (g.once j i c b p hj h hc hb)
  refine ⟨⟨?_, ?_, ?_⟩, ?_, ?_⟩
  · intro j c hj
    unfold MW.without at hj
    simp only [update] at hj
    split at hj
    · nomatch hj
    · rename_i hji
      obtain ⟨h1, h2, h3, h4, h5⟩ := g.buf j c hj
      refine ⟨h1, h2, h3, h4, fun p hp => ?_⟩
      obtain ⟨cells, h6, h7⟩ := h5 p hp
      exact ⟨cells, by simp only [MW.without, if_neg (hptr hj hji hp)]; exact h6, h7⟩
  · intro j k c d p hj hk
    unfold MW.without at hj hk
    simp only [update] at hj hk
    split at hj
    · nomatch hj
    split at hk
    · nomatch hk
    exact g.once j k c d p hj hk
  · intro p hp
    simp only [MW.without] at hp
    split at hp
    · exact absurd rfl hp
    · rename_i hbp
      obtain ⟨h1, j, c, h2, h3⟩ := g.owned p hp
      refine ⟨h1, j, c, ?_, h3⟩
      have : j ≠ i := by
        rintro rfl
        rw [h] at h2
        cases h2
        exact hbp h3
      simp only [MW.without, update_other _ _ this]
      exact h2
  · obtain ⟨h1, h2, h3, h4, h5⟩ := g.buf i b h
    obtain ⟨l', e1, e2, cells, e3, e4, e5⟩ := good_text g h
    rw [hl] at e1
    cases e1
    refine ⟨h1, h2, h3, e2.symm, ?_, cells, ?_, ?_⟩
    · intro q hq
      simp only [MW.without] at hq
      split at hq
      · exact absurd rfl hq
      · exact (g.owned q hq).1
    · unfold Mem.Owned
      simp only [MW.view]
      cases hp : b.ptr with
      | none =>
        rw [hp] at e3
        simp only [Mem.cells, MW.view] at e3
        cases e3
        refine ⟨?_, h4 hp, rfl⟩
        funext q
        simp only [MW.without, hp]
        rw [if_neg nofun]
      | some p =>
        rw [hp] at e3
        simp only [Mem.cells, MW.view] at e3
        obtain ⟨c2, h6, h7⟩ := h5 p hp
        rw [e3] at h6
        cases h6
        refine ⟨?_, h7, ?_, (g.owned p (by rw [e3]; nofun)).1⟩
        · funext q
          simp only [MW.without, Heap.set, hp, Option.some.injEq]
          split
          · rename_i hq; rw [hq, e3]
          · rw [if_neg (fun e => by omega)]
        · simp only [MW.without, if_pos hp]
    · rw [List.map_nil, List.append_nil]
      exact e4.symm
  · funext j
    unfold Lists.set
    split
    · rename_i hj
      rw [hj]
      exact text_none (update_same _ _ _)
    · rename_i hj
      unfold MW.text
      have e : (w.without i b).bufs j = w.bufs j := update_other _ _ hj
      rw [e]
      cases hc : w.bufs j with
      | none => rfl
      | some c =>
        simp only [Option.bind_some, MW.view, Mem.cells]
        cases hp : c.ptr with
        | none => rfl
        | some p => simp only [MW.without, if_neg (hptr hc hj hp)]

/-- putting a buffer in -/
theorem good_join {w : MW} (g : Good w) {i : Nat} (h : w.bufs i = none) {old : Cells} {v : Buf Mem} {t : Str}
    (hv : Mem.Inv w.heap old v t) :
    Good (w.back i v) ∧ (w.back i v).text = Lists.set w.text i (some (old ++ t.map some)) := by
  obtain ⟨h1, h2, h3, h4, h5, cells, h6, h7⟩ := hv
  have heap_other : ∀ {p}, w.heap p ≠ none → v.rest.heap p = w.heap p ∧ v.rest.ptr ≠ some p := by
    intro p hp
    unfold Mem.Owned at h6
    cases hq : v.rest.ptr with
    | none =>
      rw [hq] at h6
      simp only at h6
      exact ⟨by rw [h6.1], nofun⟩
    | some q =>
      rw [hq] at h6
      simp only at h6
      have : p ≠ q := by
        rintro rfl
        exact hp h6.2.2.1
      exact ⟨by rw [h6.1, Heap.set_other _ _ this], fun e => this (Option.some.inj e).symm⟩
  have block : ∀ {j c p}, w.bufs j = some c → c.ptr = some p → w.heap p ≠ none := by
    intro j c p hj hc
    obtain ⟨cells, h6, _⟩ := (g.buf j c hj).2.2.2.2 p hc
    rw [h6]; nofun
  refine ⟨⟨?_, ?_, ?_⟩, ?_⟩
  · intro j c hj
    simp only [MW.back, update] at hj
    split at hj
    · cases hj
      refine ⟨h1, h2, h3, ?_, ?_⟩
      · intro hp
        simp only at hp
        unfold Mem.Owned at h6
        rw [hp] at h6
        exact h6.2.1
      · intro p hp
        simp only at hp
        have := h6.cells_eq
        unfold Mem.Owned at h6
        rw [hp] at h6 this
        exact ⟨cells, this, h6.2.1⟩
    · obtain ⟨g1, g2, g3, g4, g5⟩ := g.buf j c hj
      refine ⟨g1, g2, g3, g4, fun p hp => ?_⟩
      obtain ⟨d, g6, g7⟩ := g5 p hp
      exact ⟨d, by simp only [MW.back]; rw [(heap_other (block hj hp)).1]; exact g6, g7⟩
  · intro j k c d p hj hk hc hd
    simp only [MW.back, update] at hj hk
    split at hj
    · cases hj
      simp only at hc
      split at hk
      · omega
      · exact absurd hc (heap_other (block hk hd)).2
    · split at hk
      · cases hk
        simp only at hd
        exact absurd hd (heap_other (block hj hc)).2
      · exact g.once j k c d p hj hk hc hd
  · intro p hp
    simp only [MW.back] at hp
    by_cases hw : w.heap p = none
    · unfold Mem.Owned at h6
      cases hq : v.rest.ptr with
      | none =>
        rw [hq] at h6
        simp only at h6
        rw [h6.1] at hp
        exact absurd hw hp
      | some q =>
        rw [hq] at h6
        simp only at h6
        have : p = q := by
          refine Decidable.byContradiction fun hpq => ?_
          rw [h6.1, Heap.set_other _ _ hpq] at hp
          exact hp hw
        subst this
        exact ⟨h6.2.2.2, i, _, update_same _ _ _, hq⟩
    · obtain ⟨g1, j, c, g2, g3⟩ := g.owned p hw
      refine ⟨h5 p hw, j, c, ?_, g3⟩
      have : j ≠ i := by
        rintro rfl
        rw [h] at g2
        nomatch g2
      simp only [MW.back, update_other _ _ this]
      exact g2
  · funext j
    unfold Lists.set
    split
    · rename_i hj
      subst hj
      have := h6.cells_eq
      simp only [MW.text, MW.back, update_same, Option.bind_some, MW.view]
      have e : (⟨v.rest.heap, v.rest.next, v.rest.inline, v.rest.ptr⟩ : Mem) = v.rest := rfl
      rw [e, this, Option.map_some, h7]
    · rename_i hj
      simp only [MW.text, MW.back, update_other _ _ hj]
      cases hc : w.bufs j with
      | none => rfl
      | some c =>
        simp only [Option.bind_some, MW.view, Mem.cells]
        cases hp : c.ptr with
        | none => rfl
        | some p => simp only [(heap_other (block hc hp)).1]

theorem lists_set_set (t : Lists) (i : Nat) (a b : Option (List (Option Char))) : Lists.set (Lists.set t i a) i b = Lists.set t i b := by
  funext j
  unfold Lists.set
  split <;> rfl

theorem lists_set_self {t : Lists} {i : Nat} {a : Option (List (Option Char))} (h : t i = a) : Lists.set t i a = t := by
  funext j
  unfold Lists.set
  split
  · rename_i hj; rw [hj, h]
  · rfl

theorem lists_set_comm (t : Lists) {i j : Nat} (h : i ≠ j) (a b : Option (List (Option Char))) :
    Lists.set (Lists.set t i a) j b = Lists.set (Lists.set t j b) i a := by
  funext k
  unfold Lists.set
  split
  · rename_i h1
    rw [if_neg (by omega)]
  · rfl

/-- running code on one buffer -/
theorem on_view {w : MW} (g : Good w) {i : Nat} {l : Cells} (hl : w.text i = some l) (f : Buf Mem → Run (Buf Mem))
    (P Q : Cells → Prop)
    (hf : ∀ F v, (∃ b, w.bufs i = some b ∧ v = w.view b) → Mem.Inv F l v [] →
      (∃ v' old, f v = .ok v' ∧ Mem.Inv F old v' [] ∧ P old) ∨ (∃ v' old, f v = .threw v' ∧ Mem.Inv F old v' [] ∧ Q old)) :
    (∃ w' old, w.on i f = .ok w' ∧ Good w' ∧ w'.text = Lists.set w.text i (some old) ∧ P old) ∨
    (∃ w' old, w.on i f = .threw w' ∧ Good w' ∧ w'.text = Lists.set w.text i (some old) ∧ Q old) := by
  have hb : w.bufs i ≠ none := (text_some_iff g i).mp (by rw [hl]; nofun)
  cases hbi : w.bufs i with
  | none => exact absurd hbi hb
  | some b =>
    obtain ⟨g1, g2, g3⟩ := good_split g hbi hl
    have hn : (w.without i b).bufs i = none := update_same _ _ _
    have fin : ∀ v' old, Mem.Inv (w.without i b).heap old v' [] →
        Good (w.back i v') ∧ (w.back i v').text = Lists.set w.text i (some old) := by
      intro v' old hv
      obtain ⟨j1, j2⟩ := good_join g1 hn hv
      rw [without_back] at j1 j2
      refine ⟨j1, ?_⟩
      rw [j2, g3, lists_set_set, List.map_nil, List.append_nil]
    unfold MW.on
    rw [hbi]
    simp only
    rcases hf _ _ ⟨b, hbi, rfl⟩ g2 with ⟨v', old, h1, h2, h3⟩ | ⟨v', old, h1, h2, h3⟩
    · obtain ⟨j1, j2⟩ := fin v' old h2
      exact .inl ⟨w.back i v', old, by rw [h1, Run.then_ok], j1, j2, h3⟩
    · obtain ⟨j1, j2⟩ := fin v' old h2
      exact .inr ⟨w.back i v', old, by rw [h1, Run.then_threw], j1, j2, h3⟩

/-- running code on one buffer -/
theorem on_ok {w : MW} (g : Good w) {i : Nat} {l : Cells} (hl : w.text i = some l) (f : Buf Mem → Run (Buf Mem))
    (P Q : Cells → Prop)
    (hf : ∀ F v, Mem.Inv F l v [] →
      (∃ v' old, f v = .ok v' ∧ Mem.Inv F old v' [] ∧ P old) ∨ (∃ v' old, f v = .threw v' ∧ Mem.Inv F old v' [] ∧ Q old)) :
    (∃ w' old, w.on i f = .ok w' ∧ Good w' ∧ w'.text = Lists.set w.text i (some old) ∧ P old) ∨
    (∃ w' old, w.on i f = .threw w' ∧ Good w' ∧ w'.text = Lists.set w.text i (some old) ∧ Q old) :=
  on_view g hl f P Q fun F v _ => hf F v

/-! ## Commands -/

theorem inv_shift {F : Heap} {old : Cells} {v : Buf Mem} {t : Str} :
    Mem.Inv F old v t ↔ Mem.Inv F (old ++ t.map some) v [] := by
  simp only [Mem.Inv, List.length_append, List.length_map, List.map_nil, List.append_nil, List.length_nil, Nat.add_zero]

theorem tryReserve_cases (fails : Nat → Nat → Bool) {F : Heap} {old : Cells} {b : Buf Mem} {t : Str} (h : Mem.Inv F old b t)
    (n : Nat) :
    (∃ b', b.tryReserve (Mem.kind fails) n = .ok b' ∧ Mem.Inv F old b' t ∧ n ≤ b'.capacity ∧ b'.size = b.size) ∨
    ((fails b.rest.next (newCapacity b.capacity n) = true ∨ maxSize < n) ∧ b.tryReserve (Mem.kind fails) n = .threw b) := by
  unfold Buf.tryReserve
  by_cases hn : n > b.capacity
  · rw [if_pos hn]
    rcases Mem.grow_ok fails h hn with ⟨b', h1, h2, h3, h4, _⟩ | h
    · exact .inl ⟨b', h1, h2, h3, h4⟩
    · exact .inr h
  · rw [if_neg hn]
    exact .inl ⟨b, rfl, h, by omega, rfl⟩

theorem push_cases (fails : Nat → Nat → Bool) {F : Heap} {old : Cells} {b : Buf Mem} (h : Mem.Inv F old b [])
    (hs : old.length + 1 < 2 ^ 64) (c : Char) :
    (∃ b', b.pushBack (Mem.kind fails) c = .ok b' ∧ Mem.Inv F (old ++ [some c]) b' []) ∨
    (((∃ a n, fails a n = true) ∨ maxSize < old.length + 1) ∧ b.pushBack (Mem.kind fails) c = .threw b) := by
  have hsz : b.size = old.length := h.2.2.2.1
  unfold Buf.pushBack
  rw [wrap_eq (n := b.size + 1) (by omega)]
  rcases tryReserve_cases fails h (b.size + 1) with ⟨b', h1, h2, h3, h4⟩ | ⟨h1, h2⟩
  · obtain ⟨r, g1, g2, g3⟩ := Mem.store_ok fails h2 (by omega) c
    refine .inl ⟨⟨b'.size + 1, b'.capacity, r⟩, ?_, ?_⟩
    · rw [h1, Run.andThen_ok, g1, Run.then_ok, wrap_eq (by omega)]
    · exact inv_shift.mp g2
  · refine .inr ⟨?_, by rw [h2, Run.andThen_threw]⟩
    rcases h1 with h1 | h1
    · exact .inl ⟨_, _, h1⟩
    · exact .inr (by omega)

theorem room_append (fails : Nat → Nat → Bool) {F : Heap} {old : Cells} {b : Buf Mem} (h : Mem.Inv F old b []) (s : Str)
    (hs : b.size + s.length ≤ b.capacity) :
    ∃ b', b.append (Mem.kind fails) s = .ok b' ∧ Mem.Inv F (old ++ s.map some) b' [] ∧ b'.capacity = b.capacity ∧
      b'.rest.next = b.rest.next := by
  have hsz : b.size = old.length := h.2.2.2.1
  have hc : b.capacity < 2 ^ 64 := Nat.lt_of_le_of_lt h.2.1 (by decide)
  have L := Mem.law_room fails F old hc b.rest.next
  rcases L.append_got (b := b) (t := []) s ⟨h, rfl, rfl⟩ (by simp only [List.length_nil]; omega) with
    ⟨b', h1, h2, h3, h4⟩ | ⟨h1, _⟩
  · exact ⟨b', h1, inv_shift.mp (by simpa using h2), h3, h4⟩
  · exact h1.elim

theorem append_cases (fails : Nat → Nat → Bool) {F : Heap} {old : Cells} {b : Buf Mem} (h : Mem.Inv F old b []) (s : Str)
    (hs : old.length + s.length < 2 ^ 64) :
    (∃ b', b.append (Mem.kind fails) s = .ok b' ∧ Mem.Inv F (old ++ s.map some) b' []) ∨
    (((∃ a n, fails a n = true) ∨ maxSize < old.length + s.length) ∧ b.append (Mem.kind fails) s = .threw b) := by
  have hsz : b.size = old.length := h.2.2.2.1
  cases s with
  | nil => exact .inl ⟨b, rfl, by simpa using h⟩
  | cons c s =>
    have step : ∀ b' : Buf Mem, b'.size = b.size → b.size + (c :: s).length ≤ b'.capacity →
        b.tryReserve (Mem.kind fails) (b.size + (c :: s).length) = .ok b' →
        b.append (Mem.kind fails) (c :: s) = b'.append (Mem.kind fails) (c :: s) := by
      intro b' e1 e2 e3
      have e4 : b'.tryReserve (Mem.kind fails) (b'.size + (c :: s).length) = .ok b' := by
        unfold Buf.tryReserve
        rw [if_neg (by omega)]
      unfold Buf.append
      simp only [List.length_cons, Buf.appendLoop]
      rw [← List.length_cons (a := c) (as := s), wrap_eq (n := b.size + (c :: s).length) (by omega),
        wrap_eq (n := b'.size + (c :: s).length) (by omega), e3, e4]
    rcases tryReserve_cases fails h (b.size + (c :: s).length) with ⟨b', h1, h2, h3, h4⟩ | ⟨h1, h2⟩
    · obtain ⟨b'', g1, g2, _⟩ := room_append fails h2 (c :: s) (by omega)
      exact .inl ⟨b'', by rw [step b' h4 h3 h1]; exact g1, g2⟩
    · refine .inr ⟨?_, ?_⟩
      · rcases h1 with h1 | h1
        · exact .inl ⟨_, _, h1⟩
        · exact .inr (by omega)
      · unfold Buf.append
        simp only [List.length_cons, Buf.appendLoop]
        rw [← List.length_cons (a := c) (as := s), wrap_eq (n := b.size + (c :: s).length) (by omega), h2, Run.andThen_threw]

theorem resize_cases (fails : Nat → Nat → Bool) {F : Heap} {old : Cells} {b : Buf Mem} (h : Mem.Inv F old b []) (n : Nat) :
    (∃ b' more, b.tryResize (Mem.kind fails) n = .ok b' ∧ more.length = n ∧ Mem.Inv F ((old ++ more).take n) b' []) ∨
    (((∃ a n, fails a n = true) ∨ maxSize < n) ∧ b.tryResize (Mem.kind fails) n = .threw b) := by
  unfold Buf.tryResize
  rcases tryReserve_cases fails h n with ⟨b', h1, h2, h3, h4⟩ | ⟨h1, h2⟩
  · obtain ⟨g1, g2, g3, g4, g5, cells, g6, g7⟩ := h2
    have hlen := g6.length_ge g3
    have hold : cells.take old.length = old := by
      simpa [show b'.size = old.length from g4] using g7
    refine .inl ⟨{ b' with size := n }, (cells.drop old.length).take n ++ List.replicate (n - (cells.drop old.length).length) none,
      ?_, ?_, h3, g2, g3, ?_, g5, cells, g6, ?_⟩
    · rw [h1, Run.andThen_ok, if_pos h3]
    · rw [List.length_append, List.length_take, List.length_replicate]; omega
    · simp only [List.length_take, List.length_append, List.length_replicate, List.length_nil]; omega
    · rw [List.map_nil, List.append_nil, ← List.append_assoc]
      have e : old ++ (cells.drop old.length).take n = cells.take (old.length + n) := by
        rw [List.take_add, hold]
      have e2 : min n (old.length + n) = n := by omega
      rw [e, List.take_append_of_le_length (by rw [List.length_take]; omega), List.take_take, e2]
  · refine .inr ⟨?_, by rw [h2, Run.andThen_threw]⟩
    rcases h1 with h1 | h1
    · exact .inl ⟨_, _, h1⟩
    · exact .inr h1

theorem inv_clear {F : Heap} {old : Cells} {b : Buf Mem} (h : Mem.Inv F old b []) : Mem.Inv F [] { b with size := 0 } [] := by
  obtain ⟨g1, g2, g3, g4, g5, cells, g6, g7⟩ := h
  exact ⟨Nat.zero_le _, g2, g3, rfl, g5, cells, g6, by simp⟩

theorem inv_set {F : Heap} {old : Cells} {b : Buf Mem} (h : Mem.Inv F old b []) {k : Nat} (hk : k < old.length) (c : Char) :
    ∃ b', MW.setAt k c b = .ok b' ∧ Mem.Inv F (old.set k (some c)) b' [] := by
  obtain ⟨g1, g2, g3, g4, g5, cells, g6, g7⟩ := h
  have hsz : b.size = old.length := g4
  have hlen := g6.length_ge g3
  obtain ⟨m', e1, e2, e3, e4, e5⟩ := g6.store (i := k) (by omega) (some c)
  refine ⟨{ b with rest := m' }, ?_, g1, g2, by rw [← g3]; exact e3, ?_, fun q hq => by rw [e4]; exact g5 q hq, _, e2, ?_⟩
  · unfold MW.setAt
    rw [if_pos (by omega), e1, Run.then_ok]
  · rw [List.length_set]; exact g4
  · rw [List.map_nil, List.append_nil] at g7 ⊢
    rw [← g7, List.take_set]

theorem written_eq (o : Op) : written o = o.text := by cases o <;> rfl

theorem written_flatMap (l : List Op) : l.flatMap written = opsText l := by
  show _ = l.flatMap Op.text
  rw [show written = Op.text from funext written_eq]

theorem format_cases (fails : Nat → Nat → Bool) {F : Heap} {old : Cells} {b : Buf Mem} (h : Mem.Inv F old b []) (l : List Op)
    (hs : old.length + (opsText l).length < 2 ^ 64) :
    (∃ b', runOps (Mem.kind fails) l b = .ok b' ∧ Mem.Inv F (old ++ (opsText l).map some) b' []) ∨
    (∃ b' s, runOps (Mem.kind fails) l b = .threw b' ∧ s <+: opsText l ∧ Mem.Inv F (old ++ s.map some) b' [] ∧
      ((∃ a n, fails a n = true) ∨ ¬ (old.length + (opsText l).length ≤ maxSize ∧
        ∀ n, .reserve n ∈ l → old.length + (opsText l).length + n ≤ maxSize))) := by
  have within : ∀ (l : List Op) (k : Nat), k + (opsText l).length ≤ maxSize →
      (∀ n, .reserve n ∈ l → k + (opsText l).length + n ≤ maxSize) → Within maxSize k l := by
    intro l
    induction l with
    | nil => intro _ _ _; trivial
    | cons o l ih =>
      intro k h1 h2
      have e : opsText (o :: l) = o.text ++ opsText l := rfl
      rw [e, List.length_append] at h1 h2
      refine ⟨?_, ih _ (by omega) fun n hn => ?_⟩
      · cases o with
        | reserve n =>
          have := h2 n (List.mem_cons_self ..)
          exact .inl ⟨by omega, by decide⟩
        | _ => trivial
      · have := h2 n (List.mem_cons_of_mem _ hn)
        omega
  by_cases hm : old.length + (opsText l).length ≤ maxSize ∧
        ∀ n, .reserve n ∈ l → old.length + (opsText l).length + n ≤ maxSize
  · have L := Mem.law fails F old (req := maxSize) (by decide)
    rcases L.runOps_got l b [] h (within l _ (by simpa using hm.1) (by simpa using hm.2)) (by simpa using hm.1) with
      ⟨b', h1, h2⟩ | ⟨ht, b', s, h1, h2, h3⟩
    · exact .inl ⟨b', h1, inv_shift.mp (by simpa using h2)⟩
    · refine .inr ⟨b', s, h1, h2, inv_shift.mp (by simpa using h3), ?_⟩
      rcases ht with ht | ht
      · exact .inl ht
      · exact absurd ht (Nat.lt_irrefl _)
  have L := Mem.law fails F old (req := 2 ^ 64 - 1) (by decide)
  rcases L.runOps_got l b [] h (within_max _ _) (by simp only [List.length_nil]; omega) with ⟨b', h1, h2⟩ | ⟨_, b', s, h1, h2, h3⟩
  · exact .inl ⟨b', h1, inv_shift.mp (by simpa using h2)⟩
  · exact .inr ⟨b', s, h1, h2, inv_shift.mp (by simpa using h3), .inr hm⟩

theorem inv_fresh {w : MW} (g : Good w) (cap : Nat) (hcap : cap ≤ inlineSize) (inline : Cells) (hi : inline.length = inlineSize) :
    Mem.Inv w.heap [] ⟨0, cap, ⟨w.heap, w.next, inline, none⟩⟩ [] := by
  refine ⟨Nat.zero_le _, Nat.le_trans hcap (by decide), hi, rfl, fun q hq => (g.owned q hq).1, inline, ?_, by simp⟩
  unfold Mem.Owned
  exact ⟨rfl, hcap, rfl⟩

theorem dealloc_ok {w : MW} (g : Good w) {i : Nat} {b : MB} (h : w.bufs i = some b) :
    ∃ m, (w.view b).rest.deallocate b.ptr b.capacity = .ok m ∧ m.heap = (w.without i b).heap ∧ m.next = w.next := by
  unfold Mem.deallocate
  cases hp : b.ptr with
  | none =>
    refine ⟨_, rfl, ?_, rfl⟩
    funext q
    simp only [MW.without, hp, MW.view]
    rw [if_neg nofun]
  | some p =>
    obtain ⟨cells, h1, h2⟩ := (g.buf i b h).2.2.2.2 p hp
    simp only [MW.view, h1, if_pos h2]
    refine ⟨_, rfl, ?_, rfl⟩
    funext q
    simp only [MW.without, Heap.set, hp, Option.some.injEq]
    split
    · rename_i hq; rw [if_pos hq.symm]
    · rw [if_neg (fun e => by omega)]

/-- moving from buffer `j` to a new buffer `i` -/
theorem move_ok (fails : Nat → Nat → Bool) {w : MW} (g : Good w) {i j : Nat} (hi : w.bufs i = none) {other : MB}
    (hj : w.bufs j = some other) (size : Nat) {inline : Cells} (hin : inline.length = inlineSize) {l : Cells}
    (hl : w.text j = some l) :
    ∃ v other', w.move fails size inline other = .ok (v, other') ∧
      Good (({ w with bufs := update w.bufs j (some other') } : MW).back i v) ∧ ∃ l', (l' = l ∨ l' = []) ∧
      (({ w with bufs := update w.bufs j (some other') } : MW).back i v).text = Lists.set (Lists.set w.text i (some l)) j (some l') := by
  have hij : i ≠ j := by
    rintro rfl
    rw [hi] at hj
    nomatch hj
  obtain ⟨g1, g2, g3⟩ := good_split g hj hl
  have hi1 : (w.without j other).bufs i = none := (update_other _ _ hij).trans hi
  obtain ⟨h1, h2, h3, h4, h5, cells, h6, h7⟩ := g2
  simp only [MW.view, List.length_nil, Nat.add_zero, List.map_nil, List.append_nil] at h1 h2 h3 h4 h5 h7
  have resize : ∀ v : Buf Mem, v.capacity = other.capacity →
      v.tryResize (Mem.kind fails) other.size = .ok { v with size := other.size } := by
    intro v hv
    unfold Buf.tryResize Buf.tryReserve
    rw [if_neg (by omega), Run.andThen_ok, if_pos (by omega)]
  have world : ∀ (v : Buf Mem) (o : Buf Mem), v.rest.heap = o.rest.heap → v.rest.next = o.rest.next →
      ({ w with bufs := update w.bufs j (some ⟨o.size, o.capacity, o.rest.inline, o.rest.ptr⟩) } : MW).back i v =
        ((w.without j other).back i v).back j o := by
    intro v o e1 e2
    unfold MW.back MW.without
    simp only [e1, e2, MW.mk.injEq, true_and]
    rw [update_comm _ hij.symm, update_comm _ hij.symm, update_update, update_comm _ hij]
  have texts : ∀ l', Lists.set (Lists.set (w.without j other).text i (some l)) j l' = Lists.set (Lists.set w.text i (some l)) j l' := by
    intro l'
    rw [g3, lists_set_comm _ hij.symm, lists_set_set]
  unfold MW.move
  unfold Mem.Owned at h6
  simp only [MW.view] at h6
  have hjn : ∀ v, ((w.without j other).back i v).bufs j = none := by
    intro v
    exact (update_other _ _ hij.symm).trans (update_same _ _ _)
  cases hp : other.ptr with
  | none =>
    rw [hp] at h6
    simp only at h6
    obtain ⟨k1, k2, rfl⟩ := h6
    simp only
    rw [if_pos ⟨by omega, by omega⟩]
    rw [resize _ rfl, Run.then_ok]
    refine ⟨_, _, rfl, ?_⟩
    have hv : Mem.Inv (w.without j other).heap l
        ⟨other.size, other.capacity, ⟨w.heap, w.next, other.inline.take other.size ++ inline.drop other.size, none⟩⟩ [] := by
      refine ⟨h1, h2, ?_, by simpa using h4, h5, other.inline.take other.size ++ inline.drop other.size, ?_, ?_⟩
      · simp only [List.length_append, List.length_take, List.length_drop]; omega
      · exact ⟨k1, k2, rfl⟩
      · simp only [List.map_nil, List.append_nil]
        rw [List.take_append_of_le_length (by rw [List.length_take]; omega), List.take_take, Nat.min_self, h7]
    obtain ⟨j1, j2⟩ := good_join g1 hi1 hv
    have ho : Mem.Inv ((w.without j other).back i
        ⟨other.size, other.capacity, ⟨w.heap, w.next, other.inline.take other.size ++ inline.drop other.size, none⟩⟩).heap l
        ⟨other.size, other.capacity, ⟨w.heap, w.next, other.inline, none⟩⟩ [] := by
      refine ⟨h1, h2, h3, by simpa using h4, fun q hq => (g.owned q hq).1, other.inline, ?_, by simpa using h7⟩
      unfold Mem.Owned
      exact ⟨rfl, k2, rfl⟩
    obtain ⟨j3, j4⟩ := good_join j1 (hjn _) ho
    have := world ⟨other.size, other.capacity, ⟨w.heap, w.next, other.inline.take other.size ++ inline.drop other.size, none⟩⟩
      ⟨other.size, other.capacity, ⟨w.heap, w.next, other.inline, none⟩⟩ rfl rfl
    simp only at this
    have eo : other = ⟨other.size, other.capacity, other.inline, none⟩ := by rw [← hp]
    rw [← eo] at this
    rw [this]
    refine ⟨j3, l, .inl rfl, ?_⟩
    rw [j4, j2]
    simp only [List.map_nil, List.append_nil]
    exact texts _
  | some p =>
    rw [hp] at h6
    simp only at h6
    obtain ⟨k1, k2, k3, k4⟩ := h6
    simp only
    rw [resize _ rfl, Run.then_ok]
    refine ⟨_, _, rfl, ?_⟩
    have hv : Mem.Inv (w.without j other).heap l
        ⟨other.size, other.capacity, ⟨w.heap, w.next, inline, some p⟩⟩ [] := by
      refine ⟨h1, h2, hin, by simpa using h4, h5, cells, ?_, ?_⟩
      · unfold Mem.Owned
        exact ⟨k1, k2, k3, k4⟩
      · simpa using h7
    obtain ⟨j1, j2⟩ := good_join g1 hi1 hv
    obtain ⟨j3, j4⟩ := good_join j1 (hjn _) (inv_fresh j1 0 (Nat.zero_le _) other.inline h3)
    have := world ⟨other.size, other.capacity, ⟨w.heap, w.next, inline, some p⟩⟩
      ⟨0, 0, ⟨w.heap, w.next, other.inline, none⟩⟩ rfl rfl
    simp only at this
    rw [this]
    refine ⟨j3, [], .inr rfl, ?_⟩
    have e : ((w.without j other).back i ⟨other.size, other.capacity, ⟨w.heap, w.next, inline, some p⟩⟩).back j
        ⟨0, 0, ⟨w.heap, w.next, other.inline, none⟩⟩ = _ := rfl
    simp only [MW.back] at j4 ⊢
    rw [j4]
    have j2' := j2
    simp only [MW.back] at j2'
    rw [j2']
    simp only [List.map_nil, List.append_nil]
    exact texts _

/-! ## Elements of the buffer as arguments -/

theorem store_src {F : Heap} {m m' : Mem} {n L to : Nat} {cells sc : Cells} {src : Option Nat} {c : Option Char}
    (h : Mem.Owned F m n cells) (hs : src = none ∨ src = m.ptr) (hc : m.cells src = some sc) (hto : L ≤ to)
    (hlt : to < cells.length) (hr : m.store to c = .ok m') :
    ∃ sc', m'.cells src = some sc' ∧ sc'.take L = sc.take L := by
  obtain ⟨m2, e1, e2, e3, e4, e5⟩ := h.store hlt c
  rw [hr] at e1
  cases e1
  by_cases hp : src = m.ptr
  · rw [hp] at hc ⊢
    rw [h.cells_eq] at hc
    cases hc
    rw [← e5, e2.cells_eq]
    exact ⟨_, rfl, List.take_set_of_le hto⟩
  · rcases hs with rfl | hs
    · simp only [Mem.cells] at hc ⊢
      cases hc
      refine ⟨m'.inline, rfl, ?_⟩
      unfold Mem.store at hr
      cases hq : m.ptr with
      | none => exact absurd hq.symm hp
      | some q =>
        rw [hq] at hr
        simp only at hr
        split at hr
        · nomatch hr
        · split at hr
          · cases hr; rfl
          · nomatch hr
    · exact absurd hs hp

theorem copyFrom_ok {F : Heap} {src : Option Nat} {L : Nat} {l : Cells} (hl : l.length = L) {cap : Nat} :
    ∀ (n from_ to : Nat) (m : Mem) (cells sc : Cells), Mem.Owned F m cap cells → src = none ∨ src = m.ptr →
      m.cells src = some sc → sc.take L = l → from_ + n ≤ L → L ≤ to → to + n ≤ cells.length →
      ∃ m' cells', m.copyFrom src from_ to n = .ok m' ∧ Mem.Owned F m' cap cells' ∧ m'.inline.length = m.inline.length ∧
        m'.next = m.next ∧ m'.ptr = m.ptr ∧ cells'.take (to + n) = cells.take to ++ (l.drop from_).take n
  | 0, from_, to, m, cells, sc, ho, hs, hc, hsc, h1, h2, h3 => ⟨m, cells, rfl, ho, rfl, rfl, rfl, by simp⟩
  | n + 1, from_, to, m, cells, sc, ho, hs, hc, hsc, h1, h2, h3 => by
    have hsl : L ≤ sc.length := by rw [← hl, ← hsc, List.length_take]; omega
    have hg : sc[from_]? = some l[from_] := by
      have : (sc.take L)[from_]? = sc[from_]? := List.getElem?_take_of_lt (by omega)
      rw [← this, hsc]
      exact List.getElem?_eq_getElem (by omega)
    obtain ⟨m1, e1, e2, e3, e4, e5⟩ := ho.store (i := to) (by omega) l[from_]
    obtain ⟨sc', e6, e7⟩ := store_src ho hs hc h2 (by omega) e1
    obtain ⟨m2, cells2, f1, f2, f3, f4, f5, f6⟩ := copyFrom_ok hl n (from_ + 1) (to + 1) m1 _ sc' e2 (by rw [e5]; exact hs)
      e6 (e7.trans hsc) (by omega) (by omega) (by rw [List.length_set]; omega)
    refine ⟨m2, cells2, ?_, f2, f3.trans e3, f4.trans e4, f5.trans e5, ?_⟩
    · simp only [Mem.copyFrom, hc, hg]
      rw [e1, Run.andThen_ok]
      exact f1
    · rw [show to + (n + 1) = to + 1 + n by omega, f6, List.take_add_one, List.take_set_of_le (Nat.le_refl _),
        List.getElem?_set_self (by omega), List.append_assoc]
      congr 1
      rw [List.drop_eq_getElem_cons (i := from_) (by omega), List.take_succ_cons]
      rfl

theorem own_ok (fails : Nat → Nat → Bool) {F : Heap} {l : Cells} {v : Buf Mem} (h : Mem.Inv F l v []) {k n : Nat}
    (hk : k + n ≤ l.length) (hn : l.length + n < 2 ^ 64) (hr : v.size + n ≤ v.capacity ∨ v.rest.ptr = none) :
    (∃ v', MW.appendOwn fails k n v = .ok v' ∧ Mem.Inv F (l ++ (l.drop k).take n) v' []) ∨
    MW.appendOwn fails k n v = .threw v := by
  have hsz : v.size = l.length := h.2.2.2.1
  have main : ∀ (b : Buf Mem) (sc : Cells), Mem.Inv F l b [] → b.size = v.size → v.size + n ≤ b.capacity →
      v.rest.ptr = none ∨ v.rest.ptr = b.rest.ptr → b.rest.cells v.rest.ptr = some sc → sc.take l.length = l →
      v.tryReserve (Mem.kind fails) (v.size + n) = .ok b →
      ∃ v', MW.appendOwn fails k n v = .ok v' ∧ Mem.Inv F (l ++ (l.drop k).take n) v' [] := by
    intro b sc ⟨g1, g2, g3, g4, g5, cells, g6, g7⟩ e1 e2 e3 e4 e5 e6
    have hlen := g6.length_ge g3
    have hcap : b.capacity < 2 ^ 64 := Nat.lt_of_le_of_lt g2 (by decide)
    obtain ⟨m', cells', f1, f2, f3, f4, f5, f6⟩ := copyFrom_ok (src := v.rest.ptr) (rfl : l.length = l.length) n k b.size b.rest
      cells sc g6 e3 e4 e5 hk (by omega) (by omega)
    refine ⟨⟨b.size + n, b.capacity, m'⟩, ?_, by simp only; omega, g2, f3.trans g3, ?_, fun q hq => by rw [f4]; exact g5 q hq,
      cells', f2, ?_⟩
    · unfold MW.appendOwn
      rw [wrap_eq (n := v.size + n) (by omega), e6, Run.andThen_ok, wrapSub_eq (by omega) (by omega), if_neg (by omega), f1,
        Run.then_ok, wrap_eq (by omega)]
    · simp only [List.length_append, List.length_take, List.length_drop, List.length_nil]; omega
    · simp only [f6, g7, List.map_nil, List.append_nil]
  obtain ⟨g1, g2, g3, g4, g5, cells, g6, g7⟩ := h
  by_cases hc : v.size + n ≤ v.capacity
  · refine .inl (main v cells ⟨g1, g2, g3, g4, g5, cells, g6, g7⟩ rfl hc (.inr rfl) g6.cells_eq ?_ ?_)
    · rw [← hsz, g7]; simp
    · unfold Buf.tryReserve
      rw [if_neg (by omega)]
  · have hp : v.rest.ptr = none := hr.resolve_left hc
    rcases Mem.grow_ok fails (n := v.size + n) ⟨g1, g2, g3, g4, g5, cells, g6, g7⟩ (by omega) with
      ⟨b', h1, h2, h3, h4, h5, h6⟩ | ⟨h1, h2⟩
    · refine .inl (main b' v.rest.inline h2 h4 h3 (.inl hp) ?_ ?_ ?_)
      · rw [hp, ← h5]; rfl
      · unfold Mem.Owned at g6
        rw [hp] at g6
        rw [← g6.2.2, ← hsz, g7]; simp
      · unfold Buf.tryReserve
        rw [if_pos (by omega), h1]
    · refine .inr ?_
      unfold MW.appendOwn Buf.tryReserve
      rw [wrap_eq (n := v.size + n) (by omega), if_pos (by omega), h2, Run.andThen_threw]

theorem own_one (fails : Nat → Nat → Bool) {F : Heap} {l : Cells} {v : Buf Mem} (h : Mem.Inv F l v []) (k : Nat)
    (hn : l.length + 1 < 2 ^ 64) : MW.pushOwn fails k v = MW.appendOwn fails k 1 v := by
  have hsz : v.size = l.length := h.2.2.2.1
  unfold MW.pushOwn MW.appendOwn
  rw [wrap_eq (n := v.size + 1) (by omega)]
  rcases tryReserve_cases fails h (v.size + 1) with ⟨b', h1, h2, h3, h4⟩ | ⟨_, h1⟩
  · have hcap : b'.capacity < 2 ^ 64 := Nat.lt_of_le_of_lt h2.2.1 (by decide)
    rw [h1, Run.andThen_ok, Run.andThen_ok, wrapSub_eq (by omega) (by omega), if_neg (by omega)]
  · rw [h1, Run.andThen_threw, Run.andThen_threw]

theorem own_ub {F : Heap} {l : Cells} {v : Buf Mem} (h : Mem.Inv F l v []) {k n : Nat} (hn : 0 < n)
    (hs : l.length + n ≤ maxSize) (hfull : v.capacity < v.size + n) (hp : v.rest.ptr ≠ none) :
    MW.appendOwn (fun _ _ => false) k n v = .ub := by
  have hsz : v.size = l.length := h.2.2.2.1
  have hm : maxSize < 2 ^ 64 := by decide
  rcases Mem.grow_ok (fun _ _ => false) h hfull with ⟨b', h1, h2, h3, h4, h5, h6⟩ | ⟨h1, _⟩
  · obtain ⟨g1, g2, g3, g4, g5, cells, g6, g7⟩ := h
    cases hq : v.rest.ptr with
    | none => exact absurd hq hp
    | some p =>
      unfold Mem.Owned at g6
      rw [hq] at g6
      simp only at g6
      obtain ⟨_, _, _, _, _, c2, k6, _⟩ := h2
      unfold Mem.Owned at k6
      rw [h6] at k6
      simp only at k6
      have hfree : b'.rest.cells (some p) = none := by
        show b'.rest.heap p = none
        rw [k6.1, Heap.set_other _ _ (Nat.ne_of_lt g6.2.2.2)]
        exact g6.2.2.1
      obtain ⟨n, rfl⟩ : ∃ m, n = m + 1 := ⟨n - 1, by omega⟩
      unfold MW.appendOwn Buf.tryReserve
      rw [wrap_eq (n := v.size + (n + 1)) (by omega), if_pos hfull, h1, Run.andThen_ok, hq]
      split
      · rfl
      · simp only [Mem.copyFrom, hfree]
        rfl
  · rcases h1 with h1 | h1
    · nomatch h1
    · omega

end Fmt
end Efp
