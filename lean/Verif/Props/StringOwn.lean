import Verif.StringOwnLemmas

/-!
# Strings given a pointer into their own text (C134)

`s` is any string a client session produces, `l` its text, `off` an offset into it, and the argument of the call is
`s.c_str() + off`.  The text the pointer shows before the call is `cChars (l.drop off)` (up to the first NUL) or, with
a count, `piece l off n`.  `c_str()` itself needs room for the NUL (C19), hence `l.length < s.cap`.
-/

namespace Efp
namespace Props

open VecS Spec Str

/-- C134: `s.assign(s.c_str() + off)` leaves the text the pointer showed, for every offset. -/
theorem C134_assign (s : Str) (l : List Nat) (hs : StrReachable s l) (hc : l.length < s.cap) (off : Nat)
    (ho : off ≤ l.length) : ∃ t, assignOwn off s = .ok () t ∧ t.contents = .ok (cChars (l.drop off)) := by
  obtain ⟨u, hu, hterm, hucap, _⟩ := cStr_term (rep_of_reachable hs) hc
  have hlen := hterm.len ho
  have hrep := hterm.rep
  obtain ⟨hp, hcap, hsz, rest, hcells⟩ := hterm
  have hw := cChars_len_le (l.drop off)
  simp only [List.length_drop] at hw
  have hclear : VecS.clear .trivial u =
      .ok () { u with led := { u.led with gone := u.led.gone + l.length }, size := 0 } := by
    unfold VecS.clear
    rw [Cpp.bind_ok (destroyAll_trivial hrep), Cpp.modify_run]
  obtain ⟨t, ht, t1, t2, t3, t4⟩ := ownFront_ok (cChars (l.drop off)) off 0
    { u with led := { u.led with gone := u.led.gone + l.length }, size := 0 } hp hcap rfl (by simp only; omega)
    (fun i hi => by
      simp only [Nat.zero_add]
      rw [hcells, List.getElem?_append_left (by simp; omega), List.getElem?_map]
      have := cChars_get hi
      rw [List.getElem?_drop] at this
      rw [this]; rfl)
  refine ⟨t, ?_, ?_⟩
  · unfold assignOwn
    rw [Cpp.bind_ok hu, Cpp.bind_ok hclear]
    unfold appendPtr
    simp only
    rw [hlen]
    exact ht
  · refine (rep_block (k := .trivial) t1 (by omega) t2 (rest := u.cells.drop (cChars (l.drop off)).length) ?_ (by simp)).contents
    simpa using t4

/-- C134, partial: `s.append(s.c_str() + off)` doubles that part of the text if the capacity exceeds the size of the
result (or there is nothing to append); C134_append_ub says what happens otherwise. -/
theorem C134_append_partial (s : Str) (l : List Nat) (hs : StrReachable s l) (hc : l.length < s.cap) (off : Nat)
    (ho : off ≤ l.length) (hroom : cChars (l.drop off) = [] ∨ (l ++ cChars (l.drop off)).length < s.cap) :
    ∃ t, appendOwn off s = .ok () t ∧ t.contents = .ok (l ++ cChars (l.drop off)) := by
  obtain ⟨u, hu, hterm, hucap, _⟩ := cStr_term (rep_of_reachable hs) hc
  have hlen := hterm.len ho
  obtain ⟨t, ht, hr⟩ := ownPushes_ok (cChars (l.drop off)) hterm.rep off 0 (fun i hi => by
    have := cChars_get hi
    rw [List.getElem?_drop] at this
    rw [Nat.zero_add, this]) (by
      rw [hucap]
      rcases hroom with h | h
      · rw [h]; simpa using hc
      · simpa using h)
  refine ⟨t, ?_, hr.contents⟩
  unfold appendOwn
  rw [Cpp.bind_ok hu]
  unfold appendPtr
  rw [hlen]
  exact ht

/-- C134 is false of `append`: with less room, `push_back` replaces the block while the argument still points into it. -/
theorem C134_append_ub (s : Str) (l : List Nat) (hs : StrReachable s l) (hc : l.length < s.cap) (off : Nat)
    (ho : off ≤ l.length) (hne : cChars (l.drop off) ≠ []) (hroom : s.cap ≤ (l ++ cChars (l.drop off)).length) :
    appendOwn off s = .ub .wildPtr := by
  obtain ⟨u, hu, hterm, hucap, _⟩ := cStr_term (rep_of_reachable hs) hc
  have hlen := hterm.len ho
  have hw := cChars_len_le (l.drop off)
  simp only [List.length_drop] at hw
  simp only [List.length_append] at hroom
  unfold appendOwn
  rw [Cpp.bind_ok hu]
  unfold appendPtr
  rw [hlen]
  exact ownPushes_ub _ hterm.rep off 0 (List.length_pos_iff.mpr hne) (by omega) (by omega)

/-- C134: what `s.insert(pos, s.c_str() + off, n)` does, whenever the `n` characters are there: it throws for a position
beyond the end and then leaves the text alone; it reads through a dangling pointer if it has to make room; and otherwise
it puts `inserted l pos off n` in front of position `pos`. -/
theorem C134_insertN (s : Str) (l : List Nat) (hs : StrReachable s l) (hc : l.length < s.cap) (pos off n : Nat)
    (ho : off + n ≤ l.length) :
    (l.length < pos → ∃ t, insertOwnN pos off n s = .thrown t ∧ t.contents = .ok l) ∧
    (pos ≤ l.length → n = 0 → ∃ t, insertOwnN pos off n s = .ok () t ∧ t.contents = .ok l) ∧
    (pos ≤ l.length → 0 < n → s.cap ≤ l.length + n → insertOwnN pos off n s = .ub .wildPtr) ∧
    (pos ≤ l.length → l.length + n < s.cap → ∃ t, insertOwnN pos off n s = .ok () t ∧
      t.contents = .ok (l.take pos ++ inserted l pos off n ++ l.drop pos)) := by
  obtain ⟨u, hu, hterm, hucap, hled⟩ := cStr_term (rep_of_reachable hs) hc
  have hrep := hterm.rep
  have hsz := hrep.1
  have hp := hterm.1
  unfold insertOwnN
  simp only [Cpp.bind_ok hu]
  unfold insertPtrN
  refine ⟨fun hpos => ?_, fun hpos hn => ?_, fun hpos hn hroom => ?_, fun hpos hroom => ?_⟩
  · exact ⟨u, by rw [if_pos (by omega)], hrep.contents⟩
  · subst hn
    rw [if_neg (by omega), Cpp.bind_ok (reserve_run hrep _), if_neg (by omega)]
    obtain ⟨t, ht, hr⟩ := insertOwnAt_zero hrep hp (pos := pos) (off := off) (gen := u.led.alloc) hpos
    exact ⟨t, ht, hr.contents⟩
  · rw [if_neg (by omega), Cpp.bind_ok (reserve_run hrep _), if_pos (show u.size + n + 1 > u.cap by omega)]
    exact insertOwnAt_stale (rep_afterRealloc u l _ (by omega)) rfl hpos hn (by simp [afterRealloc]; omega)
      (by simp [afterRealloc])
  · rw [if_neg (by omega), Cpp.bind_ok (reserve_run hrep _), if_neg (by omega)]
    obtain ⟨t, ht, hr⟩ := insertOwnAt_run hrep hp hpos ho (by omega)
    exact ⟨t, ht, hr.contents⟩

/-- C134: the same for `s.insert(pos, s.c_str() + off)`, where the piece is the rest of the text up to a NUL; it needs one
slot less. -/
theorem C134_insert (s : Str) (l : List Nat) (hs : StrReachable s l) (hc : l.length < s.cap) (pos off n : Nat)
    (ho : off ≤ l.length) (hn : n = (cChars (l.drop off)).length) :
    (l.length < pos → ∃ t, insertOwn pos off s = .thrown t ∧ t.contents = .ok l) ∧
    (pos ≤ l.length → 0 < n → s.cap < l.length + n → insertOwn pos off s = .ub .wildPtr) ∧
    (pos ≤ l.length → l.length + n ≤ s.cap → ∃ t, insertOwn pos off s = .ok () t ∧
      t.contents = .ok (l.take pos ++ inserted l pos off n ++ l.drop pos)) := by
  obtain ⟨u, hu, hterm, hucap, hled⟩ := cStr_term (rep_of_reachable hs) hc
  have hrep := hterm.rep
  have hsz := hrep.1
  have hp := hterm.1
  have hlen := hterm.len ho
  rw [← hn] at hlen
  have hw := cChars_len_le (l.drop off)
  simp only [List.length_drop] at hw
  unfold insertOwn
  simp only [Cpp.bind_ok hu]
  unfold insertPtr
  refine ⟨fun hpos => ?_, fun hpos hn0 hroom => ?_, fun hpos hroom => ?_⟩
  · exact ⟨u, by rw [if_pos (by omega)], hrep.contents⟩
  · rw [if_neg (by omega), hlen]
    simp only
    rw [Cpp.bind_ok (reserve_run hrep _), if_pos (show u.size + n > u.cap by omega)]
    exact insertOwnAt_stale (rep_afterRealloc u l _ (by omega)) rfl hpos hn0 (by simp [afterRealloc]; omega)
      (by simp [afterRealloc])
  · rw [if_neg (by omega), hlen]
    simp only
    rw [Cpp.bind_ok (reserve_run hrep _), if_neg (show ¬ (u.size + n > u.cap) by omega)]
    obtain ⟨t, ht, hr⟩ := insertOwnAt_run hrep hp hpos (show off + n ≤ l.length by omega) (by omega)
    exact ⟨t, ht, hr.contents⟩

/-- C134, partial: inserting a piece of the own text in place gives the text with that piece inserted if the piece lies
in front of the position or starts at it; C134_insert_wrong and C134_insertN say what happens otherwise. -/
theorem C134_insert_partial (s : Str) (l : List Nat) (hs : StrReachable s l) (pos off n : Nat)
    (ho : off + n ≤ l.length) (hpos : pos ≤ l.length) (hroom : l.length + n < s.cap) (hr : off + n ≤ pos ∨ off = pos) :
    ∃ t, insertOwnN pos off n s = .ok () t ∧ t.contents = .ok (l.take pos ++ piece l off n ++ l.drop pos) := by
  obtain ⟨t, h1, h2⟩ := (C134_insertN s l hs (by omega) pos off n ho).2.2.2 hpos hroom
  rw [inserted_right ho hr] at h2
  exact ⟨t, h1, h2⟩

/-- C134 is false of `insert`, without any sign of an error: for a text of different characters and a piece that
starts in front of the position and reaches beyond it, or starts behind it, another text is inserted, however much room
there is. -/
theorem C134_insert_wrong (s : Str) (l : List Nat) (hs : StrReachable s l) (hd : l.Nodup) (pos off n : Nat)
    (hn : 0 < n) (ho : off + n ≤ l.length) (hpos : pos ≤ l.length) (hroom : l.length + n < s.cap)
    (hr : (off < pos ∧ pos < off + n) ∨ pos < off) :
    ∃ t r, insertOwnN pos off n s = .ok () t ∧ t.contents = .ok r ∧ r.length = l.length + n ∧
      r ≠ l.take pos ++ piece l off n ++ l.drop pos := by
  obtain ⟨t, h1, h2⟩ := (C134_insertN s l hs (by omega) pos off n ho).2.2.2 hpos hroom
  refine ⟨t, _, h1, h2, by simp [inserted_eq]; omega, fun he => ?_⟩
  have h3 := inserted_wrong (pos := pos) ho hn hd (by omega)
  apply h3
  rw [List.append_assoc, List.append_assoc] at he
  have h4 := (List.append_right_inj _).mp he
  exact (List.append_left_inj _).mp h4

/-- "abc" with room for 20 characters -/
private def abc : Except UB Str := (Str.session (.cstr [97, 98, 99, 0]) [.base (.reserve 20)]).map (·.1)

private def after (m : Cpp Str Unit) (s : Except UB Str) : Except UB (List Nat) :=
  match s with
  | .error u => .error u
  | .ok s => match m s with
    | .ok _ t => t.contents
    | .thrown _ => .error .oob
    | .ub u => .error u

private theorem reach (ops : List SOp) (c : Nat) (hops : ∀ op ∈ ops, sopOk op)
    (h : (Str.session (.cstr [97, 98, 99, 0]) ops).map (fun r => (r.1.contents, r.1.cap)) = .ok (.ok [97, 98, 99], c)) :
    ∃ s, StrReachable s [97, 98, 99] ∧ s.cap = c := by
  obtain ⟨⟨s, evs⟩, h1, h2⟩ := exists_of_map _ _ h
  obtain ⟨h3, h4⟩ := Prod.mk.inj h2
  exact ⟨s, ⟨.cstr [97, 98, 99, 0], ops, evs, by simp [initOk], hops, h1, h3⟩, h4⟩

example : ∃ s, StrReachable s [97, 98, 99] ∧ s.cap = 20 :=
  reach [.base (.reserve 20)] 20 (by simp [sopOk]) (by decide +kernel)
example : ∃ s, StrReachable s [97, 98, 99] ∧ s.cap = 4 := reach [] 4 (by simp) (by decide +kernel)
example : after (assignOwn 1) abc = .ok [98, 99] := by decide +kernel
example : after (appendOwn 1) abc = .ok [97, 98, 99, 98, 99] := by decide +kernel
example : after (appendOwn 1) ((Str.session (.cstr [97, 98, 99, 0]) []).map (·.1)) = .error .wildPtr := by decide +kernel
example : after (insertOwn 3 1) abc = .ok [97, 98, 99, 98, 99] := by decide +kernel
example : after (insertOwn 0 1) abc = .ok [98, 97, 97, 98, 99] := by decide +kernel
example : after (insertOwnN 1 0 2) abc = .ok [97, 97, 97, 98, 99] := by decide +kernel
example : [97, 98, 99].Nodup ∧ piece [97, 98, 99] 1 2 = [98, 99] ∧ inserted [97, 98, 99] 0 1 2 = [98, 97] ∧
    inserted [97, 98, 99] 1 0 2 = [97, 97] := by decide +kernel

end Props
end Efp
