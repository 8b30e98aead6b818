import Verif.StringLimitsLemmas

/-!
# C137: a string edit that runs out of memory

Quantified over the width of `size_t`, the size of a character, the history of calls, their arguments and the memory
the machine offers at every turn of every call.
-/

namespace Efp.Props

open Efp.VecS Efp.Lim Efp.StrLim

/-- **C137, partial.** With `std::allocator`, or with either allocator for characters of one byte: whatever
constructor and calls a client makes and however little memory each allocation finds, nothing is undefined.  A
constructor throws exactly when its block is refused, and then nothing is left allocated.  Otherwise text, capacity
and the calls that threw are those of the specification `Spec.limRun`, and destroying the string releases every
block.  Missing from the full property: `String(n, c)` for a product that wraps, and unchanged text, both refuted
below. -/
theorem C137_history_partial {p : Plat} (hp : Spec.PlatOk p) (hh : p.hosted = true ∨ p.esz = 1)
    (i : Str.Init) (hi : Spec.initOk i) (hf : Spec.InitFits p i) {avail : Nat → Bool} (ha : Spec.Possible p avail)
    (calls : List (Str.SOp × Memory))
    (hc : ∀ c ∈ calls, Spec.sopOk c.1 ∧ Spec.StrArgFits p c.1 ∧ ∀ j, Spec.Possible p (c.2 j)) :
    if ∃ n, Spec.initSlots i = some n ∧ avail (n * p.esz) = false then
      ∃ t, StrLim.init p avail i = .thrown t ∧ t.led.alloc = t.led.freed
    else
      ∃ s, StrLim.session p avail i calls =
          .ok (some (s, (Spec.limRun p calls ((Spec.initSlots i).getD 0) (Spec.strInit i)).2.2)) ∧
        s.contents = .ok (Spec.limRun p calls ((Spec.initSlots i).getD 0) (Spec.strInit i)).2.1 ∧
        s.cap = (Spec.limRun p calls ((Spec.initSlots i).getD 0) (Spec.strInit i)).1 ∧
        s.cap * p.esz < 2 ^ (p.w - 1) ∧
        ∃ t, VecS.dtor .trivial s = .ok () t ∧ t.led.alloc = t.led.freed := by
  have h := init_does hp hh ha i hi hf
  have key : ∀ t, init p avail i = .ok () t → t.cap = (Spec.initSlots i).getD 0 → Inv p t (Spec.strInit i) →
      ∃ s, StrLim.session p avail i calls =
          .ok (some (s, (Spec.limRun p calls ((Spec.initSlots i).getD 0) (Spec.strInit i)).2.2)) ∧
        s.contents = .ok (Spec.limRun p calls ((Spec.initSlots i).getD 0) (Spec.strInit i)).2.1 ∧
        s.cap = (Spec.limRun p calls ((Spec.initSlots i).getD 0) (Spec.strInit i)).1 ∧
        s.cap * p.esz < 2 ^ (p.w - 1) ∧
        ∃ t, VecS.dtor .trivial s = .ok () t ∧ t.led.alloc = t.led.freed := by
    intro t e htc ht
    obtain ⟨u, e2, h2, h3⟩ := runOps_does hp hh calls ht hc
    rw [htc] at e2 h2 h3
    refine ⟨u, ?_, h3.rep.contents, h2, h3.small, dtor_does h3⟩
    simp only [StrLim.session, e, e2]; rfl
  cases hs : Spec.initSlots i with
  | none =>
    rw [hs] at h
    rw [if_neg (by rintro ⟨n, hn, _⟩; cases hn)]
    obtain ⟨t, e, htc, ht⟩ := h
    rw [hs] at key
    exact key t e htc ht
  | some n =>
    rw [hs] at h key
    simp only [InitDoes] at h
    by_cases hav : avail (n * p.esz) = true
    · rw [if_pos hav] at h
      rw [if_neg (by rintro ⟨m, hm, hf⟩; cases hm; rw [hav] at hf; cases hf)]
      obtain ⟨t, e, htc, ht⟩ := h
      exact key t e htc ht
    · rw [if_neg hav] at h
      rw [if_pos ⟨n, rfl, by simpa using hav⟩]
      obtain ⟨t, e, ht⟩ := h
      exact ⟨t, e, by rw [ht]⟩

/-- one-byte characters, 8 bytes of memory at a time: "ab", `append("cdef")` stops after one character (the next block
would be 2·4+1 bytes), `insert` throws and changes nothing, `assign("xyz")` fits the capacity -/
example : (StrLim.session ⟨64, 1, true⟩ (fun b => b ≤ 8) (.cstr [97, 98, 0])
    [(.appendC [99, 100, 101, 102, 0], fun _ b => b ≤ 8), (.insertC 1 [120, 120, 120, 120, 120, 0], fun _ b => b ≤ 8),
     (.base .pop, fun _ b => b ≤ 8), (.assignC [120, 121, 122, 0], fun _ b => b ≤ 8)]).map
      (fun r => r.map (fun r => (r.2, r.1.contents, r.1.cap))) =
    .ok (some ([true, true, false, false], .ok [120, 121, 122], 5)) := by decide +kernel

example : Spec.limRun ⟨64, 1, true⟩
    [(.appendC [99, 100, 101, 102, 0], fun _ b => b ≤ 8), (.insertC 1 [120, 120, 120, 120, 120, 0], fun _ b => b ≤ 8)]
    3 [97, 98] = (5, [97, 98, 99, 100], [true, true]) := by decide +kernel

example : Spec.PlatOk ⟨64, 1, true⟩ := by simp [Spec.PlatOk]

example : Spec.initOk (.cstr [97, 98, 0]) ∧ Spec.InitFits ⟨64, 1, true⟩ (.cstr [97, 98, 0]) := by
  simp [Spec.initOk, Spec.InitFits]

example : ∀ c ∈ [((.appendC [99, 100, 0] : Str.SOp), fun _ b : Nat => decide (b ≤ 8))],
    Spec.sopOk c.1 ∧ Spec.StrArgFits ⟨64, 1, true⟩ c.1 ∧ ∀ j : Nat, Spec.Possible ⟨64, 1, true⟩ (c.2 j) := by
  intro c hc
  simp only [List.mem_singleton] at hc
  subst hc
  refine ⟨by simp [Spec.sopOk], by simp [Spec.StrArgFits], fun j b hb => ?_⟩
  have : b ≤ 8 := by simpa using hb
  exact Nat.lt_of_le_of_lt this (by decide)

/-- **C137, partial.** One call on any reachable string: it has its ordinary effect, or it throws.  When it throws,
`insert` and the inherited calls have left the text alone; `append` and `+=` have appended a proper beginning of what
they were given; `assign` has replaced the text by a proper beginning of the new one. -/
theorem C137_call_partial {p : Plat} (hp : Spec.PlatOk p) (hh : p.hosted = true ∨ p.esz = 1) {s : Str} {l : List Nat}
    (hs : Spec.StrLimReachable p s l) (op : Str.SOp) (hop : Spec.sopOk op) (hf : Spec.StrArgFits p op) {av : Memory}
    (ha : ∀ i, Spec.Possible p (av i)) :
    (∃ t l', StrLim.run p av op s = .ok () t ∧ Spec.strStep op l = some l' ∧ t.contents = .ok l') ∨
    (∃ t l', StrLim.run p av op s = .thrown t ∧ Spec.leftBy op l l' ∧ t.contents = .ok l') := by
  obtain ⟨t, e, _, ht⟩ := step_does hp hh ha (reachable_inv hp hh hs) op hop hf
  rcases limStep_text (p := p) av op s.cap l with ⟨h1, h2⟩ | ⟨h1, h2⟩
  · left
    rw [h1] at e
    exact ⟨t, _, e, h2, ht.rep.contents⟩
  · right
    rw [h1] at e
    exact ⟨t, _, e, h2, ht.rep.contents⟩

/-- **C137.** With enough memory no edit throws except for a position out of range: a block of up to
`2 * (capacity + new length) + 2` slots is enough for every call but `reserve`, which needs what it is asked for. -/
theorem C137_enough {p : Plat} (hp : Spec.PlatOk p) (hh : p.hosted = true ∨ p.esz = 1) {s : Str} {l l' : List Nat}
    (hs : Spec.StrLimReachable p s l) (op : Str.SOp) (hop : Spec.sopOk op) (hf : Spec.StrArgFits p op)
    (hnr : ∀ n, op ≠ .base (.reserve n)) (hst : Spec.strStep op l = some l') {av : Memory}
    (ha : ∀ i, Spec.Possible p (av i))
    (hav : ∀ j n, n ≤ 2 * (s.cap + l'.length) + 2 → av j (n * p.esz) = true) :
    ∃ t, StrLim.run p av op s = .ok () t ∧ t.contents = .ok l' := by
  have hinv := reachable_inv hp hh hs
  have hlc : l.length ≤ s.cap := by have := hinv.rep.size_le_cap; have := hinv.rep.1; omega
  obtain ⟨t, e, _, ht⟩ := step_does hp hh ha hinv op hop hf
  have hno : (Spec.limStep p av op s.cap l).1 = false := by
    cases op with
    | base op =>
      simp only [Spec.limStep, Spec.baseStep]
      simp only [Spec.strStep] at hst
      rw [hst]
      simp only
      cases op with
      | push a =>
        simp only [Spec.wanted]
        simp only [Spec.vecStep, Option.some.injEq] at hst
        subst hst
        simp at hav
        by_cases hc : s.cap ≤ l.length + 1
        · simp only [if_pos hc]
          rw [if_pos (hav 0 _ (by split <;> omega))]
        · simp only [if_neg hc]
      | insert j a =>
        simp only [Spec.wanted]
        by_cases hc : j ≤ l.length ∧ s.cap ≤ l.length + 1
        · simp only [if_pos hc]
          rw [if_pos (hav 0 _ (by split <;> omega))]
        · simp only [if_neg hc]
      | reserve n => exact absurd rfl (hnr n)
      | shrinkToFit =>
        simp only [Spec.wanted]
        rw [if_pos (hav 0 _ (by omega))]
      | shrinkTo n =>
        simp only [Spec.wanted]
        by_cases hc : n ≤ l.length ∧ s.cap ≤ n
        · simp only [if_pos hc]
          rw [if_pos (hav 0 _ (by omega))]
        · simp only [if_neg hc]
      | pop => rfl
      | erase j => rfl
      | clear => rfl
      | setElem j a => rfl
    | appendC buf =>
      simp only [Spec.strStep, Option.some.injEq] at hst
      subst hst
      exact pushAll_enough av _ 0 _ l fun j n hn => hav j n (by simp at *; omega)
    | appendN m c =>
      simp only [Spec.strStep, Option.some.injEq] at hst
      subst hst
      exact pushAll_enough av _ 0 _ l fun j n hn => hav j n (by simp at *; omega)
    | assignC buf =>
      simp only [Spec.strStep, Option.some.injEq] at hst
      subst hst
      exact pushAll_enough av _ 0 _ [] fun j n hn => hav j n (by simp at *; omega)
    | assignN m c =>
      simp only [Spec.strStep, Option.some.injEq] at hst
      subst hst
      exact pushAll_enough av _ 0 _ [] fun j n hn => hav j n (by simp at *; omega)
    | insertC pos buf =>
      simp only [Spec.strStep] at hst
      by_cases hpos : pos ≤ l.length
      · rw [if_pos hpos] at hst
        simp only [Option.some.injEq] at hst
        subst hst
        simp only [Spec.limStep, if_pos hpos, Spec.grow]
        rw [if_pos (hav 0 _ (by simp; omega))]
        split <;> rfl
      · rw [if_neg hpos] at hst; cases hst
    | insertCN pos buf m =>
      have hm : m ≤ buf.length := hop
      simp only [Spec.strStep] at hst
      by_cases hpos : pos ≤ l.length
      · rw [if_pos hpos] at hst
        simp only [Option.some.injEq] at hst
        subst hst
        simp only [Spec.limStep, if_pos hpos, Spec.grow]
        rw [if_pos (hav 0 _ (by simp; omega))]
        split <;> rfl
      · rw [if_neg hpos] at hst; cases hst
    | plus w =>
      simp only [Spec.strStep, Option.some.injEq] at hst
      subst hst
      simp only [Spec.limStep]
      rw [if_pos (hav 0 _ (by simp; omega))]
      exact pushAll_enough _ _ 0 _ l fun j n hn => hav (j + 1) n (by simp at *; omega)
  rw [hno] at e
  refine ⟨t, e, ?_⟩
  rcases limStep_text (p := p) av op s.cap l with ⟨_, h2⟩ | ⟨h1, _⟩
  · rw [hst] at h2
    injection h2 with h2
    rw [h2]; exact ht.rep.contents
  · rw [hno] at h1; cases h1

/-- a string with text "ab" and capacity 3, on a 64-bit machine with 1000 bytes -/
theorem reachable_ab : ∃ s, Spec.StrLimReachable ⟨64, 1, true⟩ s [97, 98] ∧ s.cap = 3 := by
  have hpos : Spec.Possible ⟨64, 1, true⟩ (fun b => decide (b ≤ 1000)) := by
    intro b hb
    have : b ≤ 1000 := by simpa using hb
    exact Nat.lt_of_le_of_lt this (by decide)
  have h : ∃ s, StrLim.session ⟨64, 1, true⟩ (fun b => decide (b ≤ 1000)) (.cstr [97, 98, 0]) [] = .ok (some (s, [])) ∧
      s.contents = .ok [97, 98] ∧ s.cap = 3 := ⟨_, rfl, by decide +kernel, by decide +kernel⟩
  obtain ⟨s, h1, h2, h3⟩ := h
  exact ⟨s, ⟨.cstr [97, 98, 0], _, [], [], by simp [Spec.initOk], by simp [Spec.InitFits], hpos, by simp, h1, h2⟩, h3⟩

example : Spec.strStep (.insertC 1 [120, 0]) [97, 98] = some [97, 120, 98] := by decide

/-- **C137.** `append` when no memory can be had: it throws exactly when the text would reach the capacity, and then
the characters that fit below it have been appended. -/
theorem C137_append_without_memory {p : Plat} (hp : Spec.PlatOk p) (hh : p.hosted = true ∨ p.esz = 1) {s : Str}
    {l : List Nat} (hs : Spec.StrLimReachable p s l) {buf : List Nat} (hb : 0 ∈ buf) :
    ∃ t, t.contents = .ok (l ++ (Spec.cChars buf).take (s.cap - 1 - l.length)) ∧ t.cap = s.cap ∧
      StrLim.run p (fun _ _ => false) (.appendC buf) s =
        if Spec.cChars buf ≠ [] ∧ s.cap ≤ l.length + (Spec.cChars buf).length then .thrown t else .ok () t := by
  obtain ⟨t, e, hc, ht⟩ := appendC_does hp hh (av := fun _ _ => false) (fun i b hb => by cases hb)
    (reachable_inv hp hh hs) hb
  rw [pushAll_none] at e hc ht
  refine ⟨t, ht.rep.contents, hc, ?_⟩
  show StrLim.appendC p _ buf s = _
  simpa using e

/-- **C137.** `assign` when no memory can be had: it throws exactly when the new text would reach the capacity, and then
the old text is gone and only the beginning of the new one that fits is there. -/
theorem C137_assign_without_memory {p : Plat} (hp : Spec.PlatOk p) (hh : p.hosted = true ∨ p.esz = 1) {s : Str}
    {l : List Nat} (hs : Spec.StrLimReachable p s l) {buf : List Nat} (hb : 0 ∈ buf) :
    ∃ t, t.contents = .ok ((Spec.cChars buf).take (s.cap - 1)) ∧ t.cap = s.cap ∧
      StrLim.run p (fun _ _ => false) (.assignC buf) s =
        if Spec.cChars buf ≠ [] ∧ s.cap ≤ (Spec.cChars buf).length then .thrown t else .ok () t := by
  obtain ⟨u, hu, huc, hui⟩ := clear_does (reachable_inv hp hh hs)
  obtain ⟨t, e, hc, ht⟩ := appendC_does hp hh (av := fun _ _ => false) (fun i b hb => by cases hb) hui hb
  rw [pushAll_none] at e hc ht
  rw [huc] at e hc ht
  refine ⟨t, by simpa using ht.rep.contents, hc, ?_⟩
  show StrLim.assignC p _ buf s = _
  unfold StrLim.assignC
  rw [Cpp.bind_ok hu]
  simpa using e

example : 0 ∈ [120, 121, 122, 0] ∧ Spec.cChars [120, 121, 122, 0] ≠ [] ∧
    3 ≤ (Spec.cChars [120, 121, 122, 0]).length := by decide

/-- **C137 is false.** On every build and machine on which three characters can be stored at all, there is a string
on which `append` throws and leaves a different text, and one on which `assign` throws and leaves a different text. -/
theorem C137_full_broken {p : Plat} (hp : Spec.PlatOk p) (hh : p.hosted = true ∨ p.esz = 1)
    (hm : 3 * p.esz < 2 ^ (p.w - 1)) :
    (∃ s t l l' buf av, Spec.StrLimReachable p s l ∧ 0 ∈ buf ∧ (∀ i, Spec.Possible p (av i)) ∧
      StrLim.run p av (.appendC buf) s = .thrown t ∧ t.contents = .ok l' ∧ l' ≠ l) ∧
    (∃ s t l l' buf av, Spec.StrLimReachable p s l ∧ 0 ∈ buf ∧ (∀ i, Spec.Possible p (av i)) ∧
      StrLim.run p av (.assignC buf) s = .thrown t ∧ t.contents = .ok l' ∧ l' ≠ l) := by
  have hpos : Spec.Possible p (fun b => decide (b = 3 * p.esz)) := by
    intro b hb
    have : b = 3 * p.esz := by simpa using hb
    omega
  have hf3 : 3 < 2 ^ p.w := by
    have h1 := (pow_half hp).1
    have := half_lt hp hm
    omega
  obtain ⟨s, e, hc, hi⟩ := runOps_does hp hh [(.base (.reserve 3), fun _ b => decide (b = 3 * p.esz))] (inv_mk0 p)
    (by
      intro c hc
      simp only [List.mem_singleton] at hc
      subst hc
      exact ⟨trivial, hf3, fun _ => hpos⟩)
  have hstep : Spec.limRun p [(.base (.reserve 3), fun _ b => decide (b = 3 * p.esz))] (VecS.mk0 {} : Str).cap [] =
      (3, [], [false]) := by
    simp [Spec.limRun, Spec.limStep, Spec.baseStep, Spec.vecStep, Spec.wanted, VecS.mk0]
  rw [hstep] at e hc hi
  have hr : Spec.StrLimReachable p s [] := by
    refine ⟨.default, fun _ => false, [(.base (.reserve 3), fun _ b => decide (b = 3 * p.esz))], [false], trivial, trivial,
      fun b hb => by (cases hb), ?_, ?_, hi.rep.contents⟩
    · intro c hc
      simp only [List.mem_singleton] at hc
      subst hc
      exact ⟨trivial, hf3, fun _ => hpos⟩
    · simp only [StrLim.session, StrLim.init, e]; rfl
  have hb : 0 ∈ [97, 98, 99, 0] := by decide
  refine ⟨?_, ?_⟩
  · obtain ⟨t, h1, h2, h3⟩ := C137_append_without_memory hp hh hr hb
    simp only at hc
    rw [hc] at h1 h3
    rw [if_pos (by decide)] at h3
    exact ⟨s, t, [], _, [97, 98, 99, 0], fun _ _ => false, hr, hb, fun i b hb => (by cases hb), h3, h1, by decide⟩
  · obtain ⟨t, h1, h2, h3⟩ := C137_assign_without_memory hp hh hr hb
    simp only at hc
    rw [hc] at h1 h3
    rw [if_pos (by decide)] at h3
    exact ⟨s, t, [], _, [97, 98, 99, 0], fun _ _ => false, hr, hb, fun i b hb => (by cases hb), h3, h1, by decide⟩

example : Spec.PlatOk ⟨16, 4, true⟩ ∧ 3 * 4 < 2 ^ (16 - 1) := by simp [Spec.PlatOk]

/-- `assign` that throws can lose a text that was there: "ab" becomes "xy" -/
example : (match StrLim.session ⟨64, 1, true⟩ (fun b => b ≤ 8) (.cstr [97, 98, 0])
      [(.assignC [120, 121, 122, 0], fun _ _ => false)] with
    | .ok (some (s, threw)) => some (s.contents, threw) | _ => none) = some (.ok [120, 121], [true]) := by
  decide +kernel

/-- **C137 is false.** `String(n, c)` where `n * sizeof(Char)` does not fit `size_t`: if the machine grants the wrapped
number of bytes, the constructor writes outside the block, in every build. -/
theorem C137_fill_broken {p : Plat} (hp : Spec.PlatOk p) {n : Nat} (c : Nat) (hn : 2 ^ p.w ≤ n * p.esz)
    {avail : Nat → Bool} (hav : avail (n * p.esz % 2 ^ p.w) = true) :
    StrLim.init p avail (.fill n c) = .ub .oob := by
  have hlt : n * p.esz % 2 ^ p.w / p.esz < n := by
    rw [Nat.div_lt_iff_lt_mul hp.2]
    have := Nat.mod_lt (n * p.esz) (Nat.two_pow_pos p.w)
    omega
  show StrLim.fill p avail n c = _
  unfold StrLim.fill
  have hav' : avail (p.wrap (n * p.esz)) = true := hav
  rw [if_pos hav']
  exact fill_oob c n 0 _ rfl (Nat.zero_le _) (by simpa [Plat.wrap] using hlt)

/-- 2^62 wide characters of 4 bytes on a 64-bit machine: no byte is allocated -/
example : 2 ^ (⟨64, 4, true⟩ : Plat).w ≤ 2 ^ 62 * 4 ∧ 2 ^ 62 * 4 % 2 ^ 64 = 0 := by decide

/-- **C137.** `substr` of a reachable string: out of range it throws; otherwise it throws exactly when the block for the
new text and a terminator is refused, with nothing left allocated, and the new string is the part asked for. -/
theorem C137_substr {p : Plat} (hp : Spec.PlatOk p) (hh : p.hosted = true ∨ p.esz = 1) {s : Str} {l : List Nat}
    (hs : Spec.StrLimReachable p s l) (pos len : Nat) {avail : Nat → Bool} (ha : Spec.Possible p avail) :
    if l.length < pos ∨ avail ((((l.drop pos).take len).length + 1) * p.esz) = false then
      ∃ t, StrLim.substr p avail s pos len = .thrown t ∧ t.led.alloc = t.led.freed
    else
      ∃ t, StrLim.substr p avail s pos len = .ok () t ∧ t.contents = .ok ((l.drop pos).take len) ∧
        ∃ u, VecS.dtor .trivial t = .ok () u ∧ u.led.alloc = u.led.freed := by
  have hi := reachable_inv hp hh hs
  by_cases hpos : pos ≤ l.length
  · have h := substr_does hp hh ha hi hpos len
    have hl : ((l.drop pos).take len).length = min len (l.length - pos) := by simp
    simp only [InitDoes] at h
    rw [hl]
    by_cases hav : avail ((min len (l.length - pos) + 1) * p.esz) = true
    · rw [if_pos hav] at h
      rw [if_neg (by rw [hav]; simp; omega)]
      obtain ⟨t, e, _, ht⟩ := h
      exact ⟨t, e, ht.rep.contents, dtor_does ht⟩
    · rw [if_neg hav] at h
      rw [if_pos (.inr (by simpa using hav))]
      obtain ⟨t, e, ht⟩ := h
      exact ⟨t, e, by rw [ht]⟩
  · rw [if_pos (.inl (by omega))]
    refine ⟨VecS.mk0 {}, ?_, rfl⟩
    unfold StrLim.substr
    rw [if_pos (by have := hi.rep.1; omega)]

end Efp.Props
