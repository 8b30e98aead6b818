import Verif.Growth

/-!
# C147-C149: what growing costs
-/

namespace Efp
namespace Props

open Spec Growth

variable {α : Type}

/-! ## C147 -/

/-- C147: whatever calls a client makes on a vector - other than asking for a capacity - the elements relocated are at most
two for every element added and one for every element the constructor put in; blocks are allocated logarithmically often. -/
theorem C147_vector {k : Kind} {init : Option (List α)} {ops : List (VecS.Op α)} (hops : ∀ op ∈ ops, asksCap op = false)
    {s : VecS α} {evs : List Bool} (h : VecS.session k init ops = .ok (s, evs)) :
    s.led.reloc ≤ 2 * addsAll ops + (init.getD []).length ∧
    2 ^ s.led.alloc ≤ 8 * max 1 (peak ops (init.getD [])) := by
  have hf := session_foot h
  have hi : (initFoot init).size < (initFoot init).cap ∨ (initFoot init).size = 0 := by cases init <;> simp [initFoot]
  have h0 : (initFoot init).reloc + pot (initFoot init) ≤ (init.getD []).length := by
    cases init with
    | none => exact Nat.le_refl _
    | some l => simp only [initFoot, pot, Option.getD_some]; omega
  have hsz : (initFoot init).size = (init.getD []).length := by cases init <;> rfl
  have hcap : (initFoot init).cap ≤ (init.getD []).length + 1 := by cases init <;> simp [initFoot]
  have hr : s.led.reloc = (ops.foldl (fun x op => next op x) (initFoot init)).reloc := congrArg Foot.reloc hf
  have ha : s.led.alloc = (ops.foldl (fun x op => next op x) (initFoot init)).alloc := congrArg Foot.alloc hf
  have hpk : (init.getD []).length ≤ peak ops (init.getD []) := by
    cases ops with
    | nil => exact Nat.le_refl _
    | cons o os => exact Nat.le_max_left _ _
  constructor
  · have := fold_pot ops hops hi
    omega
  · have h1 := fold_alloc ops hops hi (by
      cases init with
      | none => exact ⟨fun _ => rfl, fun h => absurd h (by simp [initFoot]), fun h => absurd h (by simp [initFoot])⟩
      | some l => exact ⟨fun h => absurd h (by simp [initFoot]), fun _ => Nat.le_refl _, fun h => by
          simp only [initFoot] at h ⊢; omega⟩)
    have h2 := fold_cap ops (l := init.getD []) (fun op ho n e => by subst e; exact absurd (hops _ ho) (by simp [asksCap])) hsz
    rw [ha]
    omega

/-- C147: whatever calls a client makes on a string - other than asking for a capacity or inserting a text - at most three
characters are relocated for every character added or put in by the constructor. -/
theorem C147_string {init : Str.Init} {ops : List Str.SOp} (hi : initOk init) (hok : ∀ op ∈ ops, sopOk op)
    (hops : ∀ op ∈ ops, strAppends op = true) {s : Str} {evs : List Bool} (h : Str.session init ops = .ok (s, evs)) :
    s.led.reloc ≤ 3 * strAddsAll ops + 3 * (strInit init).length := by
  obtain ⟨a, hf⟩ := sessionS_foot hi h
  have hle : (strInit init).length ≤ initCap init := by cases init <;> simp [strInit, initCap]; omega
  have := foldS_paid ops (x := ⟨(strInit init).length, initCap init, 0, a⟩) hok hops hle
  have hr : s.led.reloc = (ops.foldl (fun x op => nextS op x) ⟨(strInit init).length, initCap init, 0, a⟩).reloc :=
    congrArg Foot.reloc hf
  have hp : potS ⟨(strInit init).length, initCap init, 0, a⟩ ≤ 3 * (strInit init).length := by
    unfold potS
    simp only
    split <;> omega
  simp only at this
  omega

/-- a history with removals and repeated growth: the hypotheses of `C147_vector` hold and elements are relocated -/
example : ∃ s evs, VecS.session .managed (some [1, 2, 3]) [.push 4, .push 5, .pop, .push 6, .insert 9 0, .clear, .push (7 : Nat)] =
    .ok (s, evs) ∧ s.led.reloc = 3 ∧ s.led.alloc = 2 := by
  obtain ⟨r, h, hr⟩ := exists_of_map (x := VecS.session .managed (some [1, 2, 3])
    [.push 4, .push 5, .pop, .push 6, .insert 9 0, .clear, .push (7 : Nat)])
    (fun r => (r.1.led.reloc, r.1.led.alloc)) (3, 2) (by decide +kernel)
  exact ⟨r.1, r.2, h, congrArg Prod.fst hr, congrArg Prod.snd hr⟩

/-- the same for `C147_string` -/
example : ∃ s evs, Str.session (.fill 2 65) [.plus [66, 67], .base .pop, .appendC [68, 69, 0], .assignN 9 70] = .ok (s, evs) ∧
    s.led.reloc = 14 := by
  obtain ⟨r, h, hr⟩ := exists_of_map (x := Str.session (.fill 2 65) [.plus [66, 67], .base .pop, .appendC [68, 69, 0], .assignN 9 70])
    (fun r => r.1.led.reloc) 14 (by decide +kernel)
  exact ⟨r.1, r.2, h, hr⟩

/-! ## C148 -/

/-- C148: a vector whose client never calls `reserve` has at no time more room than for twice the elements it ever held at
once, and one. -/
theorem C148_vector {k : Kind} {init : Option (List α)} {ops : List (VecS.Op α)} (hops : ∀ op ∈ ops, ∀ n, op ≠ .reserve n)
    {s : VecS α} {evs : List Bool} (h : VecS.session k init ops = .ok (s, evs)) :
    s.cap ≤ 2 * peak ops (init.getD []) + 1 := by
  have hf := session_foot h
  have hsz : (initFoot init).size = (init.getD []).length := by cases init <;> rfl
  have hcap : (initFoot init).cap ≤ (init.getD []).length + 1 := by cases init <;> simp [initFoot]
  have h1 := fold_cap ops hops hsz
  have hc : s.cap = (ops.foldl (fun x op => next op x) (initFoot init)).cap := congrArg Foot.cap hf
  have hpk : (init.getD []).length ≤ peak ops (init.getD []) := by
    cases ops with
    | nil => exact Nat.le_refl _
    | cons o os => exact Nat.le_max_left _ _
  omega

/-- C148: the same for strings, insertions of texts included. -/
theorem C148_string {init : Str.Init} {ops : List Str.SOp} (hi : initOk init) (hok : ∀ op ∈ ops, sopOk op)
    (hops : ∀ op ∈ ops, isReserve op = false) {s : Str} {evs : List Bool} (h : Str.session init ops = .ok (s, evs)) :
    s.cap ≤ 2 * strPeak ops (strInit init) + 1 := by
  obtain ⟨a, hf⟩ := sessionS_foot hi h
  have h1 := foldS_cap ops (x := ⟨(strInit init).length, initCap init, 0, a⟩) (l := strInit init) hok hops rfl
  have hc : s.cap = (ops.foldl (fun x op => nextS op x) ⟨(strInit init).length, initCap init, 0, a⟩).cap := congrArg Foot.cap hf
  have hcap : initCap init ≤ (strInit init).length + 1 := by
    cases init with
    | default => exact Nat.zero_le _
    | cstr buf => exact Nat.le_refl _
    | count buf n =>
      have : n ≤ buf.length := hi
      simp [strInit, initCap]; omega
    | fill n c => simp [strInit, initCap]
  have hpk : (strInit init).length ≤ strPeak ops (strInit init) := by
    cases ops with
    | nil => exact Nat.le_refl _
    | cons o os => exact Nat.le_max_left _ _
  simp only at h1
  omega

/-- the bound is reached: five elements, room for eleven -/
example : ∃ s evs, VecS.session .trivial (some [1, 2, 3, 4, 5]) [.push 6, .pop, .pop, .push (7 : Nat)] = .ok (s, evs) ∧
    s.cap = 11 ∧ peak [.push 6, .pop, .pop, .push (7 : Nat)] [1, 2, 3, 4, 5] = 6 := by
  obtain ⟨r, h, hr⟩ := exists_of_map (x := VecS.session .trivial (some [1, 2, 3, 4, 5]) [.push 6, .pop, .pop, .push (7 : Nat)])
    (fun r => r.1.cap) 11 (by decide +kernel)
  exact ⟨r.1, r.2, h, hr, by decide⟩

/-- the hypotheses of `C148_string` hold for an insertion of a text -/
example : ∃ s evs, Str.session (.cstr [65, 66, 0]) [.insertC 1 [67, 68, 0], .base (.insert 0 69)] = .ok (s, evs) ∧
    s.cap = 8 ∧ strPeak [.insertC 1 [67, 68, 0], .base (.insert 0 69)] [65, 66] = 5 := by
  obtain ⟨r, h, hr⟩ := exists_of_map (x := Str.session (.cstr [65, 66, 0]) [.insertC 1 [67, 68, 0], .base (.insert 0 69)])
    (fun r => r.1.cap) 8 (by decide +kernel)
  exact ⟨r.1, r.2, h, hr, by decide⟩

/-! ## C149 -/

/-- C149 is false of the code: `insert(pos, text)` grows the string by exactly what is needed.  Building a string of `n`
characters by `n` insertions at the end relocates `n (n - 1) / 2` characters, which exceeds every multiple of `n`. -/
theorem C149_refuted : (∀ n : Nat, ∃ s evs,
      Str.session .default ((List.range n).map fun i => .insertC i [65, 0]) = .ok (s, evs) ∧
      s.contents = .ok (List.replicate n 65) ∧ s.led.reloc = n * (n - 1) / 2) ∧
    ¬ ∃ K : Nat, ∀ (ops : List Str.SOp) (s : Str) (evs : List Bool), (∀ op ∈ ops, sopOk op ∧ insertsText op = true) →
      Str.session .default ops = .ok (s, evs) → s.led.reloc ≤ K * strAddsAll ops := by
  have key : ∀ n : Nat, ∃ s evs, Str.session .default ((List.range n).map fun i => .insertC i [65, 0]) = .ok (s, evs) ∧
      s.contents = .ok (List.replicate n 65) ∧ s.led.reloc = n * (n - 1) / 2 := by
    intro n
    obtain ⟨s, evs, hs, hrep⟩ : ∃ s evs, Str.session .default ((List.range n).map fun i => .insertC i [65, 0]) = .ok (s, evs) ∧
        s.contents = .ok (strRun ((List.range n).map fun i => .insertC i [65, 0]) []).1 := by
      obtain ⟨s, hs, hr, _⟩ := Str.session_run .default ((List.range n).map fun i => .insertC i [65, 0]) trivial (by
        intro op ho
        obtain ⟨i, _, rfl⟩ := List.mem_map.1 ho
        exact List.mem_cons_of_mem _ (List.mem_cons_self ..))
      exact ⟨s, _, hs, hr.contents⟩
    refine ⟨s, evs, hs, ?_, ?_⟩
    · rw [hrep]
      congr 1
      suffices h : ∀ m : Nat, ∀ i : Nat, (strRun ((List.range' i m).map fun j => .insertC j [65, 0]) (List.replicate i 65)).1 =
          List.replicate (i + m) 65 by
        have := h n 0
        rw [← List.range_eq_range'] at this
        simpa using this
      intro m
      induction m with
      | zero => intro i; rfl
      | succ m ih =>
        intro i
        have hstep : strStep (.insertC i [65, 0]) (List.replicate i 65) = some (List.replicate (i + 1) 65) := by
          simp [strStep, cChars, List.replicate_succ']
        simp only [List.range'_succ, List.map_cons, strRun, hstep]
        rw [ih (i + 1)]
        congr 1
        omega
    · obtain ⟨a, hf⟩ := sessionS_foot (init := .default) trivial hs
      obtain ⟨b, hb⟩ := fold_inserts 65 (by decide) n a
      have := congrArg Foot.reloc (hf.trans hb)
      exact this
  refine ⟨key, ?_⟩
  rintro ⟨K, hK⟩
  obtain ⟨s, evs, hs, _, hr⟩ := key (2 * K + 2)
  have h1 := hK _ s evs (by
    intro op ho
    obtain ⟨i, _, rfl⟩ := List.mem_map.1 ho
    exact ⟨List.mem_cons_of_mem _ (List.mem_cons_self ..), rfl⟩) hs
  have h2 : ∀ n, strAddsAll ((List.range n).map fun i => .insertC i [65, 0]) = n := by
    intro n
    induction n with
    | zero => rfl
    | succ n ih =>
      rw [List.range_succ, List.map_append, strAddsAll, List.map_append, List.sum_append]
      have : (List.map strAdds ((List.range n).map fun i => .insertC i [65, 0])).sum = n := ih
      rw [this]
      rfl
  rw [h2, hr] at h1
  have h3 : (2 * K + 2) * (2 * K + 2 - 1) / 2 = (K + 1) * (2 * K + 1) := by
    have : (2 * K + 2) * (2 * K + 2 - 1) = 2 * ((K + 1) * (2 * K + 1)) := by
      rw [show 2 * K + 2 - 1 = 2 * K + 1 by omega, show 2 * K + 2 = 2 * (K + 1) by omega, Nat.mul_assoc]
    rw [this, Nat.mul_div_cancel_left _ (by omega)]
  rw [h3, show 2 * K + 2 = 2 * (K + 1) by omega, Nat.add_mul, ← Nat.mul_assoc, Nat.mul_comm K 2] at h1
  have e1 : K * (2 * K + 1) = 2 * K * K + K := by rw [Nat.mul_add, Nat.mul_one, ← Nat.mul_assoc, Nat.mul_comm K 2]
  have e2 : 2 * K * (K + 1) = 2 * K * K + 2 * K := by rw [Nat.mul_add, Nat.mul_one]
  omega

/-- C149 as far as it holds: an insertion of a text costs at most three times the largest size the string ever had, whatever
other calls are mixed with it. -/
theorem C149_insert_partial {init : Str.Init} {ops : List Str.SOp} (hi : initOk init) (hok : ∀ op ∈ ops, sopOk op)
    (hops : ∀ op ∈ ops, strAppends op = true ∨ insertsText op = true) {s : Str} {evs : List Bool}
    (h : Str.session init ops = .ok (s, evs)) :
    s.led.reloc ≤ 3 * strAddsAll ops + 3 * (strInit init).length +
      3 * (ops.countP insertsText * strPeak ops (strInit init)) := by
  obtain ⟨a, hf⟩ := sessionS_foot hi h
  have hle : (strInit init).length ≤ initCap init := by cases init <;> simp [strInit, initCap]; omega
  have := foldS_all ops (x := ⟨(strInit init).length, initCap init, 0, a⟩) (l := strInit init) hok hops hle rfl (Nat.le_refl _)
  have hr : s.led.reloc = (ops.foldl (fun x op => nextS op x) ⟨(strInit init).length, initCap init, 0, a⟩).reloc :=
    congrArg Foot.reloc hf
  have hp : potS ⟨(strInit init).length, initCap init, 0, a⟩ ≤ 3 * (strInit init).length := by
    unfold potS
    simp only
    split <;> omega
  simp only at this
  omega

/-- the hypotheses of `C149_insert_partial` hold for appends mixed with insertions -/
example : ∃ s evs, Str.session (.cstr [65, 66, 0]) [.insertC 1 [67, 68, 0], .appendN 3 69, .insertCN 0 [70, 71] 2] = .ok (s, evs) ∧
    s.led.reloc = 13 := by
  obtain ⟨r, h, hr⟩ := exists_of_map (x := Str.session (.cstr [65, 66, 0])
    [.insertC 1 [67, 68, 0], .appendN 3 69, .insertCN 0 [70, 71] 2]) (fun r => r.1.led.reloc) 13 (by decide +kernel)
  exact ⟨r.1, r.2, h, hr⟩

end Props
end Efp
