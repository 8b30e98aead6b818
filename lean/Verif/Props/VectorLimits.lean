import Verif.VectorLimitsLemmas

/-!
# C133: a `Vector` that cannot grow throws and keeps its elements

Quantified over the width of `size_t`, the element size, the history of calls and the memory the machine offers
during each call.
-/

namespace Efp.Props

open Efp.VecS Efp.Lim

variable {α : Type}

/-- **C133, partial.** With `std::allocator` (or, with either allocator, for elements of one byte): whatever numbers
below `2^w` the client passes and however little memory each call finds, no call is undefined, the vector holds
exactly the list that the calls that did not throw produce on a plain list (each of which is a call that does not
throw there), its capacity in bytes stays below half the address space, and destroying it releases every block and
every element.  Missing from the full property: `resize(SIZE_MAX)` and the freestanding allocator, both refuted
below; for resource-owning elements the positional calls (C04). -/
theorem C133_history_partial {p : Plat} (hp : Spec.PlatOk p) (hh : p.hosted = true ∨ p.esz = 1) {k : Kind}
    (calls : List (Op α × (Nat → Bool)))
    (hc : ∀ c ∈ calls, Spec.ArgFits p c.1 ∧ Spec.Possible p c.2)
    (hm : k = .managed → ∀ c ∈ calls, ∀ m, Spec.endOp c.1 m) :
    ∃ s threw, Lim.runOps p k calls (VecS.mk0 {}) = .ok (s, threw) ∧ threw.length = calls.length ∧
      s.contents = .ok (Spec.vecRun (Spec.finished calls threw) []).1 ∧
      (∀ e ∈ (Spec.vecRun (Spec.finished calls threw) []).2, e = false) ∧
      s.cap * p.esz < 2 ^ (p.w - 1) ∧
      ∃ t, VecS.dtor k s = .ok () t ∧ t.led.alloc = t.led.freed ∧ (k = .managed → t.led.made = t.led.gone) := by
  obtain ⟨s, evs, l, h1, h2, h3, h4, _, h5, h6⟩ :=
    Lim.runOps_run hp hh calls (VecS.rep_mk0 k {}) (VecS.spare_mk0 {}) (Lim.small_mk0 p) hc hm
  refine ⟨s, evs, h1, h2, ?_, ?_, h5, ?_⟩
  · rw [h3]; exact h4.contents
  · rw [h3]
    intro e he
    have := (List.mem_filter.mp he).2
    simpa using this
  · obtain ⟨u, hu, hul⟩ := VecS.dtor_run h4
    refine ⟨u, hu, ?_, fun hk => ?_⟩
    · have := h6.blocks
      rw [hul]; simp [Ledger.blocks, VecS.mk0, VecS.hadBlock] at this ⊢; omega
    · have := h6.objs hk
      rw [hul]; simp [Ledger.objs, VecS.mk0] at this ⊢; omega

/-- a 64-bit machine with 100 bytes: reserving 2^61 strings of 32 bytes throws, and so does growing past three -/
example : (Lim.runOps ⟨64, 32, true⟩ .managed
    [(.push 1, fun b => b ≤ 100), (.reserve (2 ^ 61), fun b => b ≤ 100), (.push 2, fun b => b ≤ 100),
     (.push 3, fun b => b ≤ 100), (.reserve (2 ^ 64 - 1), fun b => b ≤ 100), (.pop, fun b => b ≤ 100),
     (.push 4, fun b => b ≤ 100)] (VecS.mk0 {} : VecS Nat)).map (fun r => (r.2, r.1.size, r.1.cap)) =
    .ok ([false, true, false, true, true, false, false], 2, 3) := by decide +kernel

example : Spec.PlatOk ⟨64, 32, true⟩ := by simp [Spec.PlatOk]

example : ∀ c ∈ [((.push 1 : Op Nat), fun b : Nat => decide (b ≤ 100)), (.reserve (2 ^ 61), fun b => decide (b ≤ 100)),
    (.pop, fun b => decide (b ≤ 100))], Spec.ArgFits ⟨64, 32, true⟩ c.1 ∧ Spec.Possible ⟨64, 32, true⟩ c.2 := by
  have : Spec.Possible ⟨64, 32, true⟩ (fun b => decide (b ≤ 100)) := by
    intro b hb
    have : b ≤ 100 := by simpa using hb
    exact Nat.lt_of_le_of_lt this (by decide)
  simp [Spec.ArgFits, this]

/-- **C133.** Exactly when a call throws for lack of memory: a call on any reachable vector needs a new block of a
certain number of slots or none, computed without overflow; if none, or if the block is available, it is the ordinary
call, and otherwise it throws and the vector is the same object in the same state. -/
theorem C133_call {p : Plat} (hp : Spec.PlatOk p) (hh : p.hosted = true) {k : Kind} {s : VecS α}
    (hs : Spec.LimReachable p k s) (op : Op α) (hop : Spec.ArgFits p op) {avail : Nat → Bool}
    (ha : Spec.Possible p avail) :
    Lim.run p avail k op s =
      match Spec.wanted s op with
      | none => op.run k s
      | some n => if avail (n * p.esz) then op.run k s else .thrown s := by
  obtain ⟨l, hr, hsp, hsm⟩ := Lim.reachable_rep hp (.inl hh) hs
  rw [Lim.run_eq hp ha hr hsm op hop (.inl hh)]
  cases Spec.wanted s op <;> rfl

/-- a vector holding one element, about to grow from two slots -/
example : Spec.LimReachable ⟨64, 32, true⟩ .managed
    (⟨⟨[.live 1, .raw], { made := 1, alloc := 1 }⟩, .block, 1, 2⟩ : VecS Nat) := by
  refine ⟨[(.push 1, fun b => b ≤ 100)], [false], ?_, ?_, by rfl⟩
  · intro c hc
    simp only [List.mem_singleton] at hc
    subst hc
    refine ⟨trivial, fun b hb => ?_⟩
    have : b ≤ 100 := by simpa using hb
    exact Nat.lt_of_le_of_lt this (by decide)
  · intro _ c hc m
    simp only [List.mem_singleton] at hc
    subst hc
    trivial

example : Spec.wanted (⟨⟨[.live 1, .raw], { made := 1, alloc := 1 }⟩, .block, 1, 2⟩ : VecS Nat) (.push 5) = some 3 := by
  decide +kernel

/-- **C133, partial.** `resize(n)` for every `n` but the largest `size_t`: when the capacity is too small and the
memory is not there it throws and nothing changed; otherwise the size is `n`, there is room for `n + 1` elements, and
the elements below the old and the new size are as before (those above the old size are never constructed, C02). -/
theorem C133_resize_partial {p : Plat} (hp : Spec.PlatOk p) (hh : p.hosted = true) {k : Kind} {s : VecS α}
    (hs : Spec.LimReachable p k s) {n : Nat} (hn : n + 1 < 2 ^ p.w) {avail : Nat → Bool} (ha : Spec.Possible p avail) :
    if s.cap < n + 1 ∧ avail ((n + 1) * p.esz) = false then Lim.resize p avail k n s = .thrown s
    else ∃ t, Lim.resize p avail k n s = .ok () t ∧ t.size = n ∧ n + 1 ≤ t.cap ∧ t.cells.length = t.cap ∧
      ∀ i, i < s.size → t.cells[i]? = s.cells[i]? := by
  obtain ⟨l, hr, hsp, hsm⟩ := Lim.reachable_rep hp (.inl hh) hs
  have hsz := hr.1
  have w5 : p.wrap (n + 1) = n + 1 := Nat.mod_eq_of_lt hn
  simp only [Lim.resize, Cpp.bind_run (m := Cpp.get), w5]
  by_cases hg : s.cap < n + 1
  · have hg' : n + 1 > s.cap := hg
    rw [if_pos hg']
    have hre := Lim.reserve_eq hp ha k (n + 1) s (.inl hh)
    rw [if_pos hg] at hre
    simp only [Lim.outcome] at hre
    cases hav : avail ((n + 1) * p.esz) with
    | false =>
      rw [if_pos ⟨hg, rfl⟩]
      rw [hav] at hre
      rw [Cpp.bind_run, hre]; rfl
    | true =>
      rw [if_neg (by simp)]
      rw [hav, if_pos rfl, VecS.reserve_run hr, if_pos hg'] at hre
      refine ⟨{ VecS.afterRealloc s l (n + 1) with size := n }, ?_, rfl, Nat.le_refl _, ?_, ?_⟩
      · rw [Cpp.bind_run, hre]
      · simp [VecS.afterRealloc]; have := hr.size_le_cap; omega
      · intro i hi
        have hb := hr.block_of_pos (by intro h0; subst h0; simp at hsz; omega)
        obtain ⟨_, h0 | ⟨_, _, rest, hcells, _⟩⟩ := hr
        · obtain ⟨_, _, _, rfl⟩ := h0; simp at hsz; omega
        · simp only [VecS.afterRealloc, hcells]
          rw [List.getElem?_append_left (by simp; omega), List.getElem?_append_left (by simp; omega)]
  · have hg' : ¬ n + 1 > s.cap := hg
    rw [if_neg hg', if_neg (fun h => hg h.1)]
    refine ⟨{ s with size := n }, rfl, rfl, by show n + 1 ≤ s.cap; omega, ?_, fun _ _ => rfl⟩
    obtain ⟨_, h0 | ⟨_, hc, _⟩⟩ := hr
    · obtain ⟨_, h1, h2, _⟩ := h0; simp [h1, h2]
    · exact hc.symm

/-- 100 bytes are enough for `resize(2)` of 32-byte elements and not for `resize(3)`, which throws -/
example : (match Lim.resize ⟨64, 32, true⟩ (fun b => b ≤ 100) .trivial 2 (VecS.mk0 {} : VecS Nat) with
    | .ok _ t => some (t.size, t.cap, t.cells.length) | _ => none) = some (2, 3, 3) := by decide +kernel

example : Lim.resize ⟨64, 32, true⟩ (fun b => b ≤ 100) .trivial 3 (VecS.mk0 {} : VecS Nat) =
    .thrown (VecS.mk0 {}) := by decide +kernel

/-- **C133, refutation.** `resize(SIZE_MAX)` does not throw: the capacity to ask for wraps to 0, so the call returns
on every reachable vector, whatever memory there is, with `size()` being `SIZE_MAX` and no new storage; reading the
last element is undefined. -/
theorem C133_resize_max {p : Plat} (hp : Spec.PlatOk p) (hh : p.hosted = true ∨ p.esz = 1) {k : Kind} {s : VecS α}
    (hs : Spec.LimReachable p k s) (avail : Nat → Bool) :
    ∃ t, Lim.resize p avail k (2 ^ p.w - 1) s = .ok () t ∧ t.size = 2 ^ p.w - 1 ∧ t.cap = s.cap ∧
      t.cells = s.cells ∧ ∃ w, VecS.at_ (t.size - 1) t = .ub w := by
  obtain ⟨l, hr, hsp, hsm⟩ := Lim.reachable_rep hp hh hs
  have hf := hsm.facts hp
  have hpow : 0 < 2 ^ p.w := Nat.two_pow_pos _
  have h4 : 2 ^ 2 ≤ 2 ^ p.w := Nat.pow_le_pow_right (by omega) hp.1
  have w0 : p.wrap (2 ^ p.w - 1 + 1) = 0 := by
    unfold Lim.Plat.wrap; rw [Nat.sub_add_cancel hpow, Nat.mod_self]
  refine ⟨{ s with size := 2 ^ p.w - 1 }, ?_, rfl, rfl, rfl, ?_⟩
  · simp only [Lim.resize, Cpp.bind_run (m := Cpp.get), w0]
    rw [if_neg (Nat.not_lt_zero _)]
  · have hlen : s.cells.length = s.cap := by
      obtain ⟨_, h0 | ⟨_, hc, _⟩⟩ := hr
      · obtain ⟨_, h1, h2, _⟩ := h0; simp [h1, h2]
      · exact hc.symm
    simp only [VecS.at_, VecS.onMem]
    cases hpt : s.ptr with
    | null => exact ⟨_, rfl⟩
    | wild => exact ⟨_, rfl⟩
    | block =>
      have : s.cells[2 ^ p.w - 1 - 1]? = none := List.getElem?_eq_none (by omega)
      refine ⟨.oob, ?_⟩
      simp only [Mem.read, this]

/-- the full property is false of `resize` -/
theorem C133_resize_false : ¬ ∀ (n : Nat) (avail : Nat → Bool), n < 2 ^ 64 → Spec.Possible ⟨64, 4, true⟩ avail →
    Lim.resize ⟨64, 4, true⟩ avail .trivial n (VecS.mk0 {} : VecS Nat) = .thrown (VecS.mk0 {}) ∨
    ∃ t, Lim.resize ⟨64, 4, true⟩ avail .trivial n (VecS.mk0 {} : VecS Nat) = .ok () t ∧ n ≤ t.cells.length := by
  intro h
  rcases h (2 ^ 64 - 1) (fun _ => false) (by decide) (by intro b hb; cases hb) with e | ⟨t, e, hl⟩
  · revert e; decide +kernel
  · have e' : Lim.resize ⟨64, 4, true⟩ (fun _ => false) .trivial (2 ^ 64 - 1) (VecS.mk0 {} : VecS Nat) =
        .ok () { VecS.mk0 {} with size := 2 ^ 64 - 1 } := by rfl
    rw [e'] at e
    cases e
    simp [VecS.mk0] at hl

/-- **C133, refutation.** In a freestanding build the product `n * sizeof(A)` wraps: with elements of `2^j` bytes,
`reserve(2^(w-j))` on an empty vector gets a block of zero bytes, returns, reports that capacity, and the next
`push_back`, which sees enough capacity, writes outside the block. -/
theorem C133_freestanding_reserve {w j : Nat} (hj : 1 ≤ j) (hjw : j < w) {k : Kind} (a : α) (avail : Nat → Bool)
    (ha : avail 0 = true) :
    ∃ t, Lim.run ⟨w, 2 ^ j, false⟩ avail k (.reserve (2 ^ (w - j))) (VecS.mk0 {} : VecS α) = .ok () t ∧
      t.cap = 2 ^ (w - j) ∧ t.size = 0 ∧
      (3 ≤ 2 ^ (w - j) → Lim.run ⟨w, 2 ^ j, false⟩ avail k (.push a) t = .ub .oob) := by
  have hprod : 2 ^ (w - j) * 2 ^ j = 2 ^ w := by rw [← Nat.pow_add]; congr 1; omega
  have hpos : 0 < 2 ^ (w - j) := Nat.two_pow_pos _
  have hjp : 0 < 2 ^ j := Nat.two_pow_pos _
  have hal : Lim.allocate ⟨w, 2 ^ j, false⟩ avail (2 ^ (w - j)) = some 0 := by
    simp [Lim.allocate, Lim.Plat.wrap, hprod, ha]
  refine ⟨⟨⟨[], { alloc := 1 }⟩, .block, 0, 2 ^ (w - j)⟩, ?_, rfl, rfl, ?_⟩
  · show Lim.reserve _ avail k _ _ = _
    unfold Lim.reserve Lim.reallocate
    rw [if_pos (by simpa [VecS.mk0] using hpos), hal]
    rfl
  · intro h3
    show Lim.pushBack _ avail k a _ = _
    have hw1 : (1 : Nat) % 2 ^ w = 1 := Nat.mod_eq_of_lt (Nat.one_lt_two_pow (by omega))
    have hg : Lim.growPush (⟨w, 2 ^ j, false⟩ : Lim.Plat) avail k
        (⟨⟨[], { alloc := 1 }⟩, .block, 0, 2 ^ (w - j)⟩ : VecS α) =
        .ok () ⟨⟨[], { alloc := 1 }⟩, .block, 0, 2 ^ (w - j)⟩ := by
      simp only [Lim.growPush, Lim.Plat.wrap, Nat.zero_add, hw1]
      rw [if_neg (by omega)]
    unfold Lim.pushBack
    rw [Cpp.bind_run, hg]
    rfl

/-- `int`s on a 32-bit machine without any memory: `reserve(2^30)` "succeeds" -/
example : ∃ t : VecS Nat, Lim.run ⟨32, 4, false⟩ (fun b => b = 0) .trivial (.reserve (2 ^ 30)) (VecS.mk0 {}) = .ok () t ∧
    t.cap = 2 ^ 30 ∧ Lim.run ⟨32, 4, false⟩ (fun b => b = 0) .trivial (.push 7) t = .ub .oob := by
  obtain ⟨t, h1, h2, _, h3⟩ := C133_freestanding_reserve (α := Nat) (w := 32) (j := 2) (k := .trivial) (by decide)
    (by decide) 7 (fun b => b = 0) rfl
  exact ⟨t, h1, h2, h3 (by decide)⟩

/-- with `std::allocator` the same call throws -/
example : Lim.run ⟨32, 4, true⟩ (fun b => b = 0) .trivial (.reserve (2 ^ 30)) (VecS.mk0 {} : VecS Nat) =
    .thrown (VecS.mk0 {}) := by decide +kernel

end Efp.Props
