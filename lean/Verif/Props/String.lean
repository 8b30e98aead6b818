import Verif.StringLemmas2

/-!
# Properties of strings (C18-C22, C76, C77)

Characters are their codes, NUL is 0.  A session is a constructor call followed by any list of operations, exceptions
being caught and recorded.  `StrReachable s l`: some valid session ends in the string `s`, and a client reading it
character by character gets `l`.  C-string arguments are arrays containing a NUL; `cChars buf` are the characters before
it.
-/

namespace Efp
namespace Props

open VecS Spec Str

/-- used by the examples -/
theorem strReachable_of (init : Str.Init) (ops : List SOp) (l : List Nat) (hi : initOk init)
    (hops : ∀ op ∈ ops, sopOk op) (h : (Str.session init ops).map (fun r => r.1.contents) = .ok (.ok l)) :
    ∃ s, StrReachable s l := by
  obtain ⟨⟨s, evs⟩, h1, h2⟩ := exists_of_map _ _ h
  exact ⟨s, init, ops, evs, hi, hops, h1, h2⟩

/-! ## C18 -/

/-- C18: every session of constructors, `append`, `assign`, `insert`, `+=` and the inherited operations runs without
undefined behaviour, throws exactly where the list-level history says so (position beyond the end, `pop_back` or `erase`
out of range), and ends with the string the list operations give. -/
theorem C18_history (init : Str.Init) (ops : List SOp) (hi : initOk init) (hops : ∀ op ∈ ops, sopOk op) :
    ∃ s, Str.session init ops = .ok (s, (strRun ops (strInit init)).2) ∧
      s.contents = .ok (strRun ops (strInit init)).1 ∧ s.size = (strRun ops (strInit init)).1.length := by
  obtain ⟨t, ht, hr, _⟩ := session_run init ops hi hops
  exact ⟨t, ht, hr.contents, hr.1⟩

/-- C18: `a += b` for any two different strings -/
theorem C18_plus (s t : Str) (l w : List Nat) (hs : StrReachable s l) (ht : StrReachable t w) :
    ∃ u, plusEq t s = .ok () u ∧ u.contents = .ok (l ++ w) := by
  obtain ⟨u, h1, h2, _⟩ := plusEq_run (rep_of_reachable hs) (rep_of_reachable ht)
  exact ⟨u, h1, h2.contents⟩

/-- C18: `substr(pos, len)` is the list slice, clamped at the end; it throws exactly for `pos > size()` -/
theorem C18_substr (s : Str) (l : List Nat) (hs : StrReachable s l) (pos len : Nat) (led : Ledger) :
    (pos ≤ l.length → ∃ t, substr s pos len led = .ok () t ∧ t.contents = .ok ((l.drop pos).take len)) ∧
    (l.length < pos → ∃ t, substr s pos len led = .thrown t) := by
  have h := rep_of_reachable hs
  refine ⟨fun hp => ?_, fun hp => ?_⟩
  · obtain ⟨t, h1, h2, _⟩ := substr_run h len hp led
    exact ⟨t, h1, h2.contents⟩
  · unfold substr
    rw [if_pos (by have := h.1; omega)]
    exact ⟨_, rfl⟩

/-- C18: `copy(dest, count, pos)` writes the slice to the front of `dest`, leaves the rest of `dest` alone and returns
the number of characters written, provided `dest` has room for them; it throws exactly for `pos > size()` and then leaves
`dest` alone. -/
theorem C18_copy (s : Str) (l : List Nat) (hs : StrReachable s l) (count pos : Nat) (dest : List Nat) :
    (pos ≤ l.length → ((l.drop pos).take count).length ≤ dest.length →
      copyOut s count pos dest = .ok ((l.drop pos).take count).length
        ((l.drop pos).take count ++ dest.drop ((l.drop pos).take count).length)) ∧
    (l.length < pos → copyOut s count pos dest = .thrown dest) := by
  have h := rep_of_reachable hs
  refine ⟨fun hp hd => copyOut_run h count hp dest hd, fun hp => ?_⟩
  unfold copyOut
  rw [if_pos (by have := h.1; omega)]

-- "hello" + " wo", insert in the middle, an insert that throws, pop
example : (Str.session (.cstr [104, 101, 108, 108, 111, 0, 9]) [.appendC [32, 119, 0], .insertC 5 [44, 0],
      .insertCN 99 [1] 1, .insertCN 0 [62, 63, 64] 2, .base .pop, .appendN 2 33, .plus [111]]).map
        (fun r => (r.1.contents, r.2)) =
    .ok (.ok [62, 63, 104, 101, 108, 108, 111, 44, 32, 33, 33, 111],
      [false, false, true, false, false, false, false]) := by
  decide +kernel
example : initOk (.cstr [104, 101, 108, 108, 111, 0, 9]) ∧ sopOk (.insertC 5 [44, 0]) ∧ sopOk (.insertCN 0 [62, 63, 64] 2) := by
  simp [initOk, sopOk]
example : ∃ s, StrReachable s [97, 98, 99, 98] :=
  strReachable_of (.count [97, 98, 99] 3) [.appendN 1 98] _ (by simp [initOk]) (by simp [sopOk]) (by decide +kernel)
example : (match Str.session (.cstr [97, 98, 99, 0]) [] with
    | .ok (s, _) => (copyOut s 99 1 [7, 7, 7]) | .error u => .ub u) = .ok 2 [98, 99, 7] := by decide +kernel
example : (match Str.session (.cstr [97, 98, 99, 0]) [] with
    | .ok (s, _) => (match substr s 1 99 with | .ok _ t => t.contents | .thrown _ => .ok [] | .ub u => .error u)
    | .error u => .error u) = .ok [98, 99] := by decide +kernel

/-! ## C19 -/

/-- C19, partial: if the string was not made by `String(n, c)` and no `insert(pos, cstr)` was used, and it was not
default constructed or is not empty, then `c_str()` is defined, leaves the string as it is and shows its characters
followed by NUL.  The full statement has none of these conditions; the next three theorems show that it is false. -/
theorem C19_c_str_partial (init : Str.Init) (ops : List SOp) (hi : initOk init) (hops : ∀ op ∈ ops, sopOk op)
    (hinit : ∀ n c, init ≠ .fill n c) (hins : ∀ pos buf, SOp.insertC pos buf ∉ ops)
    (hne : init ≠ .default ∨ (strRun ops (strInit init)).1 ≠ []) :
    ∃ s evs t, Str.session init ops = .ok (s, evs) ∧ s.contents = .ok (strRun ops (strInit init)).1 ∧
      cStr s = .ok () t ∧ t.contents = .ok (strRun ops (strInit init)).1 ∧
      cStrChars s = .ok ((strRun ops (strInit init)).1 ++ [0]) := by
  obtain ⟨s, hs, hr, hsp, hp⟩ := session_run init ops hi hops
  have hspare := hsp (by cases init <;> simp [initSpare] at hinit ⊢) (fun op hop => by
    cases op with
    | insertC pos buf => exact absurd hop (hins pos buf)
    | _ => rfl)
  have hlt : s.size < s.cap := by
    rcases hspare with h | h
    · rcases hne with hne | hne
      · rw [hp hne] at h; simp at h
      · have := (hr.block_of_pos hne).1
        rw [this] at h; simp at h
    · exact h
  obtain ⟨t, h1, h2, h3, _⟩ := cStr_run hr hlt
  refine ⟨s, _, t, hs, hr.contents, h1, h2.contents, ?_⟩
  unfold cStrChars; rw [h1]; exact h3

/-- C19 is false: on a default-constructed string `c_str()` writes through a null pointer. -/
theorem C19_default_ub : ∃ s evs, Str.session .default [] = .ok (s, evs) ∧ cStr s = .ub .nullPtr :=
  ⟨_, _, rfl, rfl⟩

/-- C19 is false: on any string made by `String(n, c)` `c_str()` writes behind the allocated block. -/
theorem C19_fill_ub (n c : Nat) : ∃ s evs, Str.session (.fill n c) [] = .ok (s, evs) ∧
    s.contents = .ok (List.replicate n c) ∧ cStr s = .ub .oob := by
  obtain ⟨t, h1, h2, h3, h4⟩ := fill_run n c {}
  refine ⟨t, [], ?_, h2.contents, cStr_oob h2 h3 (by rw [h2.1, h4]; simp)⟩
  simp only [Str.session, Str.Init.run, h1, Str.runOps]

/-- C19 is false: after `insert` of any non-empty C string into any string made from a C string, `c_str()` writes behind
the allocated block. -/
theorem C19_insert_ub (b1 b2 : List Nat) (h1 : 0 ∈ b1) (h2 : 0 ∈ b2) (hne : cChars b2 ≠ []) (pos : Nat)
    (hpos : pos ≤ (cChars b1).length) :
    ∃ s evs, Str.session (.cstr b1) [.insertC pos b2] = .ok (s, evs) ∧
      s.contents = .ok ((cChars b1).take pos ++ cChars b2 ++ (cChars b1).drop pos) ∧ cStr s = .ub .oob := by
  obtain ⟨u, hu, hur, hup, huc, _⟩ := ofCStr_run h1 {}
  obtain ⟨t, ht, htr, htp, htc⟩ := insertC_run hur hpos h2
  refine ⟨t, [false], ?_, htr.contents, cStr_oob htr (htp hup) ?_⟩
  · simp only [Str.session, Str.Init.run, hu, Str.runOps, SOp.run, ht]; rfl
  · have : 0 < (cChars b2).length := List.length_pos_iff.mpr hne
    rw [htc, htr.1, huc]; simp; omega

example : (match Str.session (.cstr [97, 0]) [.appendC [98, 0], .base (.push 99), .insertCN 1 [100] 1] with
    | .ok (s, _) => cStrChars s | .error u => .error u) = .ok [97, 100, 98, 99, 0] := by decide +kernel
example : (match Str.session (.cstr [97, 0]) [.insertC 0 [98, 0]] with
    | .ok (s, _) => cStrChars s | .error u => .error u) = .error .oob := by decide +kernel
example : 0 ∈ [98, 0] ∧ cChars [98, 0] ≠ [] ∧ 0 ≤ (cChars [97, 0]).length := by decide +kernel

/-! ## C20 -/

/-- C20, partial: if neither string is a proper prefix of the other, `compare` gives their lexicographic order.  The
full statement has no such condition and is false for prefixes. -/
theorem C20_compare_partial (s t : Str) (a b : List Nat) (hs : StrReachable s a) (ht : StrReachable t b)
    (h : a = b ∨ (¬ a <+: b ∧ ¬ b <+: a)) : Str.compare s t = .ok (lex a b) := by
  have h1 := rep_of_reachable hs
  unfold Str.compare
  rw [h1.1]
  exact cmpLoop_run h1 (rep_of_reachable ht) 0 0 a b (fun j hj => by simp [hj]) rfl h

/-- C20 is false: a string compares equal to every longer string it begins. -/
theorem C20_prefix_equal (s t : Str) (a b : List Nat) (hs : StrReachable s a) (ht : StrReachable t b)
    (h : a <+: b) (hne : a ≠ b) : Str.compare s t = .ok .eq ∧ lex a b = .lt := by
  have h1 := rep_of_reachable hs
  refine ⟨?_, ?_⟩
  · unfold Str.compare
    rw [h1.1]
    exact cmpLoop_prefix h1 (rep_of_reachable ht) 0 0 a (fun j hj => by simp [hj]) h
  · clear hs ht h1
    obtain ⟨z, rfl⟩ := h
    induction a with
    | nil =>
      cases z with
      | nil => exact absurd rfl hne
      | cons c z => rfl
    | cons x a ih =>
      simp only [List.cons_append, lex, Nat.lt_irrefl, if_false]
      exact ih (fun e => hne (by rw [List.cons_append, ← e]))

/-- C20 is false: comparing a string with a proper prefix of it that was just made from a C string reads a character
that was never written. -/
theorem C20_prefix_ub (s : Str) (a buf : List Nat) (hs : StrReachable s a) (hb : 0 ∈ buf) (h : cChars buf <+: a)
    (hne : cChars buf ≠ a) : ∃ t, ofCStr buf = .ok () t ∧ Str.compare s t = .error .deadRead := by
  have h1 := rep_of_reachable hs
  obtain ⟨t, ht, htr, htp, _, htc⟩ := ofCStr_run hb {}
  obtain ⟨z, rfl⟩ := h
  refine ⟨t, ht, ?_⟩
  unfold Str.compare
  rw [h1.1]
  exact cmpLoop_ub h1 htr htp htc 0 z (cChars buf) (by simp) rfl (Nat.zero_le _)
    (by rintro rfl; exact hne (by simp))

/-- C20, partial: `compare(pos, len, t)` throws exactly for `pos > size()` and otherwise orders the slice and `t`
lexicographically, if neither is a proper prefix of the other. -/
theorem C20_compare_pos_partial (s t : Str) (a b : List Nat) (hs : StrReachable s a) (ht : StrReachable t b)
    (pos len : Nat) :
    (a.length < pos → comparePos s pos len t = .ok none) ∧
    (pos ≤ a.length → (let c := (a.drop pos).take len; c = b ∨ (¬ c <+: b ∧ ¬ b <+: c)) →
      comparePos s pos len t = .ok (some (lex ((a.drop pos).take len) b))) := by
  have h1 := rep_of_reachable hs
  have hsz := h1.1
  unfold comparePos
  refine ⟨fun hp => by rw [if_pos (by omega)], fun hp hc => ?_⟩
  rw [if_neg (by omega)]
  have hn : (if len > s.size - pos then s.size - pos else len) = ((a.drop pos).take len).length := by
    simp; split <;> omega
  rw [hn, cmpLoop_run h1 (rep_of_reachable ht) pos 0 _ b (fun j hj => ?_) rfl hc]
  · rfl
  · obtain ⟨hlt, he⟩ := drop_take_get hj
    rw [he, Nat.add_zero, List.getElem?_eq_getElem hlt]

example : (match Str.session (.cstr [97, 98, 0]) [], Str.session (.cstr [97, 99, 99, 0]) [] with
    | .ok (s, _), .ok (t, _) => (Str.compare s t, Str.compare t s) | _, _ => (.error .oob, .error .oob)) =
    (.ok .lt, .ok .gt) := by decide +kernel
example : (match Str.session (.cstr [97, 98, 0]) [], Str.session (.cstr [97, 98, 99, 0]) [] with
    | .ok (s, _), .ok (t, _) => (Str.compare s t, Str.compare t s) | _, _ => (.error .oob, .error .oob)) =
    (.ok .eq, .error .deadRead) := by decide +kernel
example : ∃ s, StrReachable s [97, 98] := strReachable_of (.cstr [97, 98, 0]) [] _ (by simp [initOk]) (by simp) (by decide +kernel)
example : ¬ [97, 98] <+: [97, 99, 99] ∧ ¬ [97, 99, 99] <+: [97, 98] := by decide

/-! ## C21 -/

/-- C21 is false: `s += s` on any non-empty string ends in a read through a dangling reference: `push_back` grows the
block its argument lies in.  No number of loop rounds (`fuel`) lets it return. -/
theorem C21_self_append_ub (s : Str) (l : List Nat) (hs : StrReachable s l) (hne : l ≠ []) :
    (∃ N, ∀ fuel, N ≤ fuel → selfPlus fuel s = .ub .wildPtr) ∧ ∀ fuel t, selfPlus fuel s ≠ .ok () t := by
  have h := rep_of_reachable hs
  have hpos : 0 < l.length := List.length_pos_iff.mpr hne
  refine ⟨⟨s.cap - s.size + 1, fun fuel hf => selfPlus_ub _ h 0 hpos (Nat.le_refl _) fuel (by omega)⟩, ?_⟩
  have key : ∀ fuel i (s : Str) (l : List Nat), Rep .trivial s l → i < l.length → ∀ t, selfPlusLoop fuel i s ≠ .ok () t := by
    intro fuel
    induction fuel with
    | zero => intro i s l _ _ t; simp [selfPlusLoop]
    | succ fuel ih =>
      intro i s l h hi t
      have hsz := h.1
      have hle := h.size_le_cap
      unfold selfPlusLoop
      rw [if_pos (by omega)]
      by_cases hg : s.size + 1 ≥ s.cap
      · have : pushBackOwn .trivial i s = .ub .wildPtr := by
          unfold pushBackOwn
          rw [Cpp.bind_ok (Cpp.get_run _), Cpp.bind_ok (growPush_run h), Cpp.bind_ok (Cpp.get_run _), if_pos hg,
            if_pos (by simp [afterRealloc])]
        rw [Cpp.bind_ub this]; simp
      · obtain ⟨u, hu, hr, _⟩ := construct_back h (a := l[i]) (by omega)
        have hpush : pushBackOwn .trivial i s = .ok () u := by
          unfold pushBackOwn
          rw [Cpp.bind_ok (Cpp.get_run _), Cpp.bind_ok (growPush_run h), Cpp.bind_ok (Cpp.get_run _), if_neg hg,
            if_neg (by simp)]
          have := at_rep h hi
          unfold at_ at this
          rw [Cpp.bind_ok this, hu]
        rw [Cpp.bind_ok hpush]
        exact ih (i + 1) u _ hr (by simp; omega) t
  exact fun fuel t => key fuel 0 s l h hpos t

/-- C21, partial: `s += s` is right for the empty string. -/
theorem C21_self_append_empty_partial (s : Str) (hs : StrReachable s []) (fuel : Nat) :
    selfPlus (fuel + 1) s = .ok () s := by
  have := (rep_of_reachable hs).1
  simp only [selfPlus, selfPlusLoop]
  rw [if_neg (by simp at this; omega)]

example : ∃ s, StrReachable s [97, 98, 99] :=
  strReachable_of (.cstr [97, 98, 99, 0]) [.base (.reserve 9)] _ (by simp [initOk]) (by simp [sopOk]) (by decide +kernel)
example : (match Str.session (.cstr [97, 98, 99, 0]) [.base (.reserve 9)] with
    | .ok (s, _) => selfPlus 100 s | .error u => .ub u) = .ub .wildPtr := by decide +kernel
example : ∃ s, StrReachable s [] := ⟨_, .default, [], [], trivial, by simp, rfl, rfl⟩

/-! ## C22 -/

/-- C22, partial: `s == cstr` is exact for every string that was not default constructed or is not empty. -/
theorem C22_eq_cstr_partial (init : Str.Init) (ops : List SOp) (hi : initOk init) (hops : ∀ op ∈ ops, sopOk op)
    (hne : init ≠ .default ∨ (strRun ops (strInit init)).1 ≠ []) (buf : List Nat) (hb : 0 ∈ buf) :
    ∃ s evs, Str.session init ops = .ok (s, evs) ∧
      eqC (some buf) s = .ok (decide ((strRun ops (strInit init)).1 = cChars buf)) s ∧ eqC none s = .ok false s := by
  obtain ⟨s, hs, hr, hsp, hp⟩ := session_run init ops hi hops
  have hb' : s.ptr = .block := by
    rcases hne with h | h
    · exact hp h
    · exact (hr.block_of_pos h).1
  exact ⟨s, _, hs, eqC_run hr hb' hb, by simp [eqC, hb']⟩

/-- C22 is false: a default-constructed string is empty but not equal to `""` (nor to anything but a null pointer). -/
theorem C22_default_wrong (buf : List Nat) :
    ∃ s evs, Str.session .default [] = .ok (s, evs) ∧ s.contents = .ok [] ∧ eqC (some buf) s = .ok false s ∧
      eqC none s = .ok true s := ⟨_, _, rfl, rfl, rfl, rfl⟩

example : (match Str.session (.cstr [97, 98, 0]) [.base (.push 99)] with
    | .ok (s, _) => [eqC (some [97, 98, 99, 0, 7]) s, eqC (some [97, 98, 0]) s, eqC (some [97, 98, 100, 0]) s].map
        (fun o => match o with | .ok b _ => b | _ => false)
    | .error _ => []) = [true, false, false] := by decide +kernel
example : (0 : Nat) ∈ [97, 98, 99, 0, 7] := by decide

/-! ## C76 -/

/-- C76: `at(i)` returns the character at `i` and throws exactly for `i >= size()`; `front()` and `back()` return the
first and last character of a non-empty string. -/
theorem C76_at (s : Str) (l : List Nat) (hs : StrReachable s l) (i : Nat) :
    (∀ h : i < l.length, atChecked i s = .ok l[i] s) ∧ (l.length ≤ i → atChecked i s = .thrown s) ∧
    (∀ h : l ≠ [], front s = .ok (l.head h) s ∧ back s = .ok (l.getLast h) s) := by
  have h := rep_of_reachable hs
  have hsz := h.1
  refine ⟨fun hi => ?_, fun hi => ?_, fun hne => ⟨?_, ?_⟩⟩
  · unfold atChecked; rw [if_neg (by omega)]; exact at_rep h hi
  · unfold atChecked; rw [if_pos (by omega)]
  · have hpos : 0 < l.length := List.length_pos_iff.mpr hne
    unfold front
    rw [at_rep h hpos, List.head_eq_getElem]
  · have hpos : 0 < l.length := List.length_pos_iff.mpr hne
    unfold back
    rw [if_neg (by omega), hsz, at_rep h (by omega), List.getLast_eq_getElem]

example : ∃ s, StrReachable s [97, 98, 100] :=
  strReachable_of (.cstr [97, 98, 99, 0]) [.base .pop, .base (.push 100)] _ (by simp [initOk]) (by simp [sopOk])
    (by decide +kernel)

/-! ## C77 -/

open Prelude

/-- C77: a view made from a C string shows exactly its characters, and compares equal to a C string exactly if that has
the same characters. -/
theorem C77_view_of_cstr (blk : Nat) (buf : List Nat) (hb : 0 ∈ buf) {σ : Type} (st : σ) :
    ∃ v, viewOfCStr blk buf = .ok v ∧ v.contents st = .ok (cChars buf) st ∧
      (∀ other : List Nat, 0 ∈ other → viewEqC v (some other) st = .ok (decide (cChars buf = cChars other)) st) ∧
      viewEqC v none st = .ok false st := by
  obtain ⟨v, h1, h2, h3, h4, _⟩ := viewOfCStr_run (blk := blk) hb (σ := σ)
  refine ⟨v, h1, by rw [h2]; rfl, fun other ho => ?_, by simp [viewEqC, h4]⟩
  rw [viewEqC_run h4 ho h3 (fun j hj => by rw [Nat.zero_add]; exact cChars_get hj)]; rfl

/-- C77: a view made from a string shows its characters (`blk` is where the string keeps them, `none` if it has no
storage), and if the string has storage compares with C strings exactly. -/
theorem C77_view_of_string (s : Str) (l : List Nat) (hs : StrReachable s l) (blk : Option Nat)
    (hblk : s.ptr = .null ↔ blk = none) {σ : Type} (st : σ) :
    (viewOfString blk l).contents st = .ok l st ∧
    (l ≠ [] → ∀ other : List Nat, 0 ∈ other →
      viewEqC (viewOfString blk l) (some other) st = .ok (decide (l = cChars other)) st) := by
  have h := rep_of_reachable hs
  refine ⟨?_, fun hne other ho => ?_⟩
  · rw [viewOfString_run (fun hb => ?_)]
    · rfl
    · obtain ⟨_, hn | hn⟩ := h
      · exact hn.2.2.2
      · have := hblk.mpr hb; rw [hn.1] at this; simp at this
  · cases blk with
    | none =>
      have := hblk.mpr rfl
      rw [(h.block_of_pos hne).1] at this; simp at this
    | some b =>
      rw [viewEqC_run (v := viewOfString (some b) l) (loc := ⟨b, 0, l⟩) rfl ho rfl
        (fun j hj => by rw [Nat.zero_add, List.getElem?_eq_getElem hj])]; rfl

/-- C77 is false for comparing views: the view of a non-empty C string differs from the view `VectorView(p, n)` of the
same `n` characters at the same address, because the constructors set `_capacity` differently. -/
theorem C77_same_range_unequal (blk : Nat) (buf : List Nat) (hb : 0 ∈ buf) (hne : cChars buf ≠ []) {σ : Type} (st : σ) :
    ∃ v w, viewOfCStr blk buf = .ok v ∧ mkView .vector (some ⟨blk, 0, buf⟩) (cChars buf).length st = .ok w st ∧
      v.contents st = w.contents st ∧ v.eqv w st = .ok false st := by
  obtain ⟨v, h1, h2, h3, h4, h5, h6⟩ := viewOfCStr_run (blk := blk) hb (σ := σ)
  have hpos : 0 < (cChars buf).length := List.length_pos_iff.mpr hne
  refine ⟨v, ⟨.vector, some ⟨blk, 0, buf⟩, (cChars buf).length, some (cChars buf).length⟩, h1, by simp [mkView], ?_, ?_⟩
  · rw [h2]
    obtain ⟨tail, ht⟩ := cChars_prefix buf
    have := View.contents_ok (σ := σ) (v := ⟨.vector, some ⟨blk, 0, buf⟩, (cChars buf).length, some (cChars buf).length⟩)
      rfl (cChars buf) [] tail (by simpa using ht) rfl rfl
    rw [this]
  · simp only [View.eqv, h5, h4, h3, h6, samePtr, decide_true, Bool.and_self, beq_self_eq_true, if_true]
    have : (0 == (cChars buf).length) = false := by simp; omega
    simp [this]

example : (0 : Nat) ∈ [97, 98, 0, 99] ∧ cChars [97, 98, 0, 99] = [97, 98] := by decide
example : ∃ s, StrReachable s [97, 98] ∧ (s.ptr = .null ↔ some 7 = none) :=
  ⟨_, ⟨.cstr [97, 98, 0], [], [], by simp [initOk], by simp, rfl, rfl⟩, by decide⟩

end Props
end Efp
