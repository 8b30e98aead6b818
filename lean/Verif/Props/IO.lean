import Verif.IOLemmas

/-!
# Properties of files (C66, C67, C88)
-/

namespace Efp
namespace Props

open Efp.Spec Efp.Io

/-! ## C66 -/

/-- `read_line`: nothing when no byte is left; otherwise the bytes up to the next newline, which is consumed, or up to
the end of the file, for every content, position and line length. -/
theorem C66_read_line (s : Stream) (fuel : Nat) (hf : (remaining s).length < fuel) :
    (remaining s = [] → readLine fuel s = .ok none s) ∧
    (∀ line rest, remaining s = line ++ 10 :: rest → 10 ∉ line →
      ∃ b s', readLine fuel s = .ok (some b) s' ∧ b.contents = .ok line ∧ s'.bytes = s.bytes ∧
        s'.pos = s.pos + line.length + 1 ∧ remaining s' = rest) ∧
    (∀ line, remaining s = line → line ≠ [] → 10 ∉ line →
      ∃ b s', readLine fuel s = .ok (some b) s' ∧ b.contents = .ok line ∧ s'.bytes = s.bytes ∧
        s'.pos = s.pos + line.length ∧ remaining s' = []) := by
  refine ⟨fun h => readLine_none h (by omega), ?_, ?_⟩
  · intro line rest h hl
    obtain ⟨b, h1, h2, h3⟩ := readLine_nl hl h (fuel := fuel) (by rw [h] at hf; simp at hf; omega)
    exact ⟨b, _, h1, h2.1.contents, rfl, rfl, h3⟩
  · intro line h hne hl
    obtain ⟨b, h1, h2, h3⟩ := readLine_eof hl hne h (fuel := fuel) (by rw [h] at hf; omega)
    exact ⟨b, _, h1, h2.1.contents, rfl, rfl, h3⟩

/-- "ab", newline, "c": the first call reads "ab", the second "c" -/
example : ∃ b s', readLine 5 ⟨[97, 98, 10, 99], 0, none⟩ = .ok (some b) s' ∧ b.contents = .ok [97, 98] ∧ s'.pos = 3 :=
  have h := (C66_read_line ⟨[97, 98, 10, 99], 0, none⟩ 5 (by decide)).2.1 [97, 98] [99] rfl (by decide)
  let ⟨b, s', h1, h2, _, h3, _⟩ := h
  ⟨b, s', h1, h2, h3⟩

/-- `read_lines` reads to the end and returns the lines of what was left: as many strings as lines, in order, each
with the characters of its line; no line contains a newline, and with a newline after each they are the text, with a
newline added if the text did not end with one.  Missing from C66: the join differs from the contents in the last
newline (`C66_final_newline`), and the strings of empty lines are not usable (`C66_empty_line`). -/
theorem C66_read_lines_partial (s : Stream) (fuel : Nat) (hf : (remaining s).length < fuel) :
    ∃ V s' vs L, readLines fuel s = .ok V s' ∧ V.contents = .ok vs ∧ vs.map VecS.contents = L.map .ok ∧
      LinesOf L (remaining s) ∧ remaining s' = [] := by
  obtain ⟨s', V, ws, L, h1, h2, h3, h4, h5⟩ := readLines_run s fuel hf
  refine ⟨V, s', ws, L, h1, h2.contents, ?_, h4, h5⟩
  clear h1 h2 h4 h5
  induction h3 with
  | nil => rfl
  | cons h _ ih => simp [h.1, ih]

/-- A text has exactly one list of lines. -/
theorem C66_lines_unique (L M : List (List Nat)) (text : List Nat) (hL : LinesOf L text) (hM : LinesOf M text) : L = M :=
  Io.LinesOf.unique hL hM

/-- the lines of "ab", newline, newline, "c" -/
example : LinesOf [[97, 98], [], [99]] [97, 98, 10, 10, 99] := ⟨by decide, by decide⟩
/-- and of "ab", newline, "c", newline -/
example : LinesOf [[97, 98], [99]] [97, 98, 10, 99, 10] := ⟨by decide, by decide⟩

/-- If no line is empty, the returned lines can be destroyed. -/
theorem C66_no_empty_line_partial (s : Stream) (fuel : Nat) (hf : (remaining s).length < fuel) (L : List (List Nat))
    (hL : LinesOf L (remaining s)) (hne : [] ∉ L) :
    ∃ V s', readLines fuel s = .ok V s' ∧ ∃ V', dtorLines V = .ok () V' := by
  obtain ⟨s', V, ws, L', h1, h2, h3, h4, h5⟩ := readLines_run s fuel hf
  rw [Io.LinesOf.unique h4 hL] at h3
  obtain ⟨t, ht, -⟩ := VecS.dtor_run h2
  refine ⟨V, s', h1, t, ?_⟩
  unfold dtorLines
  rw [Cpp.bind_ok (dtors_ok h2 h3 0 V.size (by rw [h2.1]; omega) ?_)]
  · exact ht
  · intro j l _ _ hl hnil
    exact hne (hnil ▸ List.mem_of_getElem? hl)

example : ∃ V s', readLines 9 ⟨[97, 98, 10, 99, 10], 0, none⟩ = .ok V s' ∧ ∃ V', dtorLines V = .ok () V' :=
  C66_no_empty_line_partial _ 9 (by decide) [[97, 98], [99]] ⟨by decide, by decide⟩ (by decide)

/-- If some line is empty, destroying the returned lines is undefined behaviour: `value()` copies the string of an
empty line, which has no block, and the copy's data pointer is not initialised. -/
theorem C66_empty_line (s : Stream) (fuel : Nat) (hf : (remaining s).length < fuel) (L : List (List Nat))
    (hL : LinesOf L (remaining s)) (he : [] ∈ L) :
    ∃ V s', readLines fuel s = .ok V s' ∧ dtorLines V = .ub .wildPtr := by
  obtain ⟨s', V, ws, L', h1, h2, h3, h4, h5⟩ := readLines_run s fuel hf
  rw [Io.LinesOf.unique h4 hL] at h3
  refine ⟨V, s', h1, ?_⟩
  obtain ⟨k, hk, hke⟩ := List.mem_iff_getElem.mp he
  have hlen : ws.length = L.length := by
    clear h1 h2 h4 h5 hL hk hke he
    induction h3 with
    | nil => rfl
    | cons _ _ ih => simp [ih]
  unfold dtorLines
  exact Cpp.bind_ub (dtors_ub h2 h3 0 V.size (by rw [h2.1]; omega) k (by omega) (by rw [h2.1]; omega)
    (by rw [List.getElem?_eq_getElem hk, hke]))

example : ∃ V s', readLines 9 ⟨[97, 10, 10, 99, 10], 0, none⟩ = .ok V s' ∧ dtorLines V = .ub .wildPtr :=
  C66_empty_line _ 9 (by decide) [[97], [], [99]] ⟨by decide, by decide⟩ (by decide)

/-- The same for a client that calls `read_line` and then `value()` on an empty line. -/
theorem C66_empty_line_value (s : Stream) (fuel : Nat) (hf : 0 < fuel) (rest : List Nat)
    (hs : remaining s = 10 :: rest) :
    ∃ b s' v, readLine fuel s = .ok (some b) s' ∧ value b s' = .ok v s' ∧ VecS.dtor .trivial v = .ub .wildPtr := by
  obtain ⟨b, h1, h2, h3⟩ := readLine_nl (line := []) (t := rest) (by simp) (by simpa using hs) (fuel := fuel) hf
  obtain ⟨v, hv, ho⟩ := value_run (σ := Stream) h2
  refine ⟨b, _, v, h1, by rw [hv]; rfl, ?_⟩
  unfold VecS.dtor
  simp only [(ho.2.1 rfl).1]

example : remaining ⟨[97, 10, 10, 99], 2, none⟩ = 10 :: [99] := rfl

/-- A final newline is lost: a text that does not end with a newline and the same text with one are read as the same
lines, so the lines do not determine the contents. -/
theorem C66_final_newline (text : List Nat) (h0 : text ≠ []) (h1 : text.getLast? ≠ some 10) (fuel : Nat)
    (hf : text.length + 1 < fuel) :
    ∃ V s V' s' vs vs', readLines fuel ⟨text, 0, none⟩ = .ok V s ∧ readLines fuel ⟨text ++ [10], 0, none⟩ = .ok V' s' ∧
      V.contents = .ok vs ∧ V'.contents = .ok vs' ∧ vs.map VecS.contents = vs'.map VecS.contents := by
  have e1 : remaining ⟨text, 0, none⟩ = text := rfl
  have e2 : remaining ⟨text ++ [10], 0, none⟩ = text ++ [10] := rfl
  obtain ⟨V, s, vs, L, a1, a2, a3, a4, -⟩ := C66_read_lines_partial ⟨text, 0, none⟩ fuel (by rw [e1]; omega)
  obtain ⟨V', s', vs', L', b1, b2, b3, b4, -⟩ := C66_read_lines_partial ⟨text ++ [10], 0, none⟩ fuel
    (by rw [e2]; simpa using hf)
  refine ⟨V, s, V', s', vs, vs', a1, b1, a2, b2, ?_⟩
  rw [a3, b3]
  rw [e1] at a4
  rw [e2] at b4
  have : L = L' := by
    refine linesText_inj a4.1 b4.1 ?_
    rw [a4.2, b4.2, if_neg (by simp [h0, h1]), if_pos (by simp)]
  rw [this]

example : ([97, 10, 98] : List Nat) ≠ [] ∧ ([97, 10, 98] : List Nat).getLast? ≠ some 10 := by decide

/-- A read error is not distinguished from the end of the file: reading stops there as if the file ended. -/
theorem C66_read_error (bytes : List Nat) (e : Nat) (he : e < bytes.length) (fuel : Nat) (hf : 0 < fuel) :
    readLine fuel ⟨bytes, e, some e⟩ = .ok none ⟨bytes, e, some e⟩ ∧ bytes.drop e ≠ [] := by
  refine ⟨readLine_none ?_ hf, ?_⟩
  · simp only [remaining, List.drop_eq_nil_iff, List.length_take]; omega
  · rw [Ne, List.drop_eq_nil_iff]; omega

example : (2 : Nat) < ([97, 98, 99] : List Nat).length := by decide

/-! ## C67 -/

/-- For every history of opening (successful or not), move construction, move assignment to a `File` that holds no
file, successful closing and destruction, in any order and number, the program is free of undefined behaviour, every
variable that should hold a file holds an open one, and when all variables are gone every opened handle has been
closed exactly once.  Missing from C67: move assignment to a `File` that holds a file (`C67_assign_leaks`), a failing
close (`C67_failed_close`) and writing (`C67_mode_lost`). -/
theorem C67_handles_partial (ops : List Op) (st : List Status) (h : fileRun ops [] = some st) :
    ∃ w w', run ops {} = .ok () w ∧
      (∀ (x : Nat), st[x]? = some .holding → ∃ f n, w.vars[x]? = some (some f) ∧ f.file = some n ∧ n < w.opened ∧ n ∉ w.closed) ∧
      (∀ (x : Nat), st[x]? = some .empty → ∃ f, w.vars[x]? = some (some f) ∧ f.file = none) ∧
      (∀ (x y : Nat) f g n, w.vars[x]? = some (some f) → w.vars[y]? = some (some g) → f.file = some n → g.file = some n →
        x = y) ∧
      finish w = .ok () w' ∧ w'.opened = w.opened ∧ w'.closed.Perm (List.range w.opened) := by
  obtain ⟨w, h1, ha, ho⟩ := run_run ops start_agrees start_owned h
  obtain ⟨w', h2, h3, h4⟩ := finish_run ha ho
  refine ⟨w, w', h1, ?_, ?_, ?_, h2, h4, by rw [← h4]; simpa using h3⟩
  · intro x hx
    obtain ⟨o, hxo, hag⟩ := ha.get hx
    obtain ⟨f, n, rfl, hf⟩ := agrees_holding hag
    refine ⟨f, n, hxo, hf, ?_, ho.open_ hxo hf⟩
    have : n ∈ List.range w.opened := ho.mem_iff.mp (List.mem_append_left _ (mem_held hxo hf))
    simpa using this
  · intro x hx
    obtain ⟨o, hxo, hag⟩ := ha.get hx
    obtain ⟨f, rfl, hf⟩ := agrees_empty hag
    exact ⟨f, hxo, hf⟩
  · intro x y f g n hx hy hf hg
    rcases Nat.decEq x y with hne | rfl
    · exfalso
      have hnd : (held w.vars ++ (w.closed ++ [])).Nodup := ho.nodup_iff.mpr List.nodup_range
      have hnd := (List.nodup_append.mp hnd).1
      have h1 := held_set hx none
      have hy' : (w.vars.set x none)[y]? = some (some g) := by rw [List.getElem?_set_ne hne]; exact hy
      simp only [Option.bind_some, hf, Option.bind_none, Option.toList_some, Option.toList_none, List.nil_append] at h1
      have hnd' := h1.nodup_iff.mpr hnd
      exact (List.nodup_cons.mp hnd').1 (mem_held hy' hg)
    · rfl

/-- open two files, fail to open a third, move the first, move it back by assignment, close the second, destroy it:
the first is still held, and in the end both handles are closed -/
example : fileRun [.open_ [114] true, .open_ [119] true, .open_ [114] false, .move 0, .assign 0 3, .close 1 true,
    .destroy 1, .move 3] [] = some [.holding, .gone, .gone, .empty, .empty] := by decide

/-- Move assignment to a `File` that holds a file leaks that file: after every covered history, assigning one open
`File` to another leaves a handle that is never closed. -/
theorem C67_assign_leaks (ops : List Op) (st : List Status) (h : fileRun ops [] = some st) (x y : Nat) (hne : x ≠ y)
    (hx : st[x]? = some .holding) (hy : st[y]? = some .holding) :
    ∃ w w' n, run (ops ++ [.assign x y]) {} = .ok () w ∧ finish w = .ok () w' ∧ n < w'.opened ∧ n ∉ w'.closed := by
  obtain ⟨w, h1, ha, ho⟩ := run_run ops start_agrees start_owned h
  obtain ⟨w1, n, h2, ha2, ho2⟩ := assign_lost ha ho hne hx hy
  obtain ⟨w', h3, h4, h5⟩ := finish_run ha2 ho2
  refine ⟨w1, w', n, ?_, h3, ?_, ?_⟩
  · rw [run_append ops _ h1]
    unfold run
    rw [Cpp.bind_ok h2]
    rfl
  · have : n ∈ List.range w'.opened := h4.mem_iff.mp (by simp)
    simpa using this
  · have hnd : (w'.closed ++ [n]).Nodup := h4.nodup_iff.mpr List.nodup_range
    intro hc
    exact (List.nodup_append.mp hnd).2.2 n hc n (by simp) rfl

example : fileRun [.open_ [114] true, .open_ [119] true] [] = some [.holding, .holding] := by decide

/-- A failing `close` leaves the dangling handle in the object: closing again or destroying the object is undefined
behaviour, after every covered history. -/
theorem C67_failed_close (ops : List Op) (st : List Status) (h : fileRun ops [] = some st) (x : Nat)
    (hx : st[x]? = some .holding) (ok : Bool) :
    run (ops ++ [.close x false, .destroy x]) {} = .ub .wildPtr ∧
    run (ops ++ [.close x false, .close x ok]) {} = .ub .wildPtr := by
  obtain ⟨w, h1, ha, ho⟩ := run_run ops start_agrees start_owned h
  obtain ⟨o, hxo, hag⟩ := ha.get hx
  obtain ⟨f, n, rfl, hf⟩ := agrees_holding hag
  have hlt : x < w.vars.length := by
    rcases Nat.lt_or_ge x w.vars.length with h | h
    · exact h
    · rw [List.getElem?_eq_none h] at hxo; cases hxo
  have hc : (Op.close x false).run w = .ok () { w with closed := n :: w.closed, vars := w.vars.set x (some f) } := by
    have hcl : closeFile f false w = .ok (false, f) { w with closed := n :: w.closed } := by
      unfold closeFile
      simp only [hf]
      rw [Cpp.bind_ok (fclose_run (ho.open_ hxo hf) false)]
      rfl
    simp only [Op.run]
    rw [Cpp.bind_ok (var_run hxo), Cpp.bind_ok hcl, setVar_run]
  have hv : ({ w with closed := n :: w.closed, vars := w.vars.set x (some f) } : World).vars[x]? = some (some f) := by
    simp [hlt]
  have hfc : ∀ b : Bool, fclose n b { w with closed := n :: w.closed, vars := w.vars.set x (some f) } = .ub .wildPtr := by
    intro b; simp [fclose]
  constructor
  · rw [run_append ops _ h1]
    unfold run
    rw [Cpp.bind_ok hc]
    unfold run
    refine Cpp.bind_ub ?_
    simp only [Op.run]
    rw [Cpp.bind_ok (var_run hv)]
    refine Cpp.bind_ub ?_
    unfold dtor
    simp only [hf]
    exact Cpp.bind_ub (hfc _)
  · rw [run_append ops _ h1]
    unfold run
    rw [Cpp.bind_ok hc]
    unfold run
    refine Cpp.bind_ub ?_
    simp only [Op.run]
    rw [Cpp.bind_ok (var_run hv)]
    refine Cpp.bind_ub ?_
    unfold closeFile
    simp only [hf]
    exact Cpp.bind_ub (hfc _)

example : fileRun [.open_ [114] true] [] = some [.holding] := by decide

/-- The mode given to `open` is lost: whatever the history, covered or not, no `File` a program can get hold of has an
initialised mode, so every `write` to an open file is undefined behaviour. -/
theorem C67_mode_lost (ops : List Op) (w : World) (h : run ops {} = .ok () w) (x : Nat) (f : FileObj) (n : Nat)
    (hx : w.vars[x]? = some (some f)) (hf : f.file = some n) (data : List Nat) (cap : Nat) :
    run (ops ++ [.write x data cap]) {} = .ub .deadRead ∧ run (ops ++ [.writeStr x data cap]) {} = .ub .deadRead := by
  have hm : f.mode = none := run_modeless ops (by intro f hf; simp at hf) h f (List.mem_of_getElem? hx)
  have hb : isBinary f w = .ub .deadRead := by unfold isBinary; simp only [hm]
  constructor
  · rw [run_append ops _ h]
    unfold run
    refine Cpp.bind_ub ?_
    simp only [Op.run]
    rw [Cpp.bind_ok (var_run hx)]
    refine Cpp.bind_ub ?_
    unfold writeFile
    simp only [hf]
    exact Cpp.bind_ub hb
  · rw [run_append ops _ h]
    unfold run
    refine Cpp.bind_ub ?_
    simp only [Op.run]
    rw [Cpp.bind_ok (var_run hx)]
    refine Cpp.bind_ub ?_
    unfold writeString
    simp only [hf]
    exact Cpp.bind_ub hb

/-- the shortest such history: open a file, write to it -/
example : run [.open_ [119] true, .write 0 [97] 1] {} = .ub .deadRead :=
  (C67_mode_lost [.open_ [119] true] { opened := 1, vars := [some ⟨some 0, none⟩] } rfl 0 ⟨some 0, none⟩ 0 rfl rfl [97] 1).1

/-! ## C88 -/

/-- A closed or moved-from `File` is inert, after every covered history: writing, closing and destroying it touch no
stream and no other variable, write nothing and report failure; reading gives nothing.  Missing: `seek` and `tell`
(`C88_seek_tell`). -/
theorem C88_closed_file_partial (ops : List Op) (st : List Status) (h : fileRun ops [] = some st) (x : Nat)
    (hx : st[x]? = some .empty) (data : List Nat) (cap : Nat) (ok : Bool) :
    ∃ w f, run ops {} = .ok () w ∧ w.vars[x]? = some (some f) ∧
      writeFile f data cap w = .ok false w ∧ writeString f data cap w = .ok false w ∧
      closeFile f ok w = .ok (false, f) w ∧ dtor f w = .ok () w ∧
      (∀ (fuel : Nat) (s : Stream), readLineAny f.file.isSome fuel s = .ok none s) ∧
      run (ops ++ [.write x data cap]) {} = .ok () w ∧
      run (ops ++ [.destroy x]) {} = .ok () { w with vars := w.vars.set x none } := by
  obtain ⟨w, h1, ha, ho⟩ := run_run ops start_agrees start_owned h
  obtain ⟨o, hxo, hag⟩ := ha.get hx
  obtain ⟨f, rfl, hf⟩ := agrees_empty hag
  have e1 : writeFile f data cap w = .ok false w := by unfold writeFile; simp only [hf]; rfl
  have e2 : dtor f w = .ok () w := by unfold dtor; simp only [hf]; rfl
  refine ⟨w, f, h1, hxo, e1, ?_, ?_, e2, ?_, ?_, ?_⟩
  · unfold writeString; simp only [hf]; rfl
  · unfold closeFile; simp only [hf]; rfl
  · intro fuel s; rw [hf]; rfl
  · rw [run_append ops _ h1]
    unfold run
    simp only [Op.run]
    rw [Cpp.bind_ok (show _ = Out.ok () w from by rw [Cpp.bind_ok (var_run hxo), Cpp.bind_ok e1]; rfl)]
    rfl
  · rw [run_append ops _ h1]
    unfold run
    simp only [Op.run]
    rw [Cpp.bind_ok (show _ = Out.ok () { w with vars := w.vars.set x none } from by
      rw [Cpp.bind_ok (var_run hxo), Cpp.bind_ok e2, setVar_run])]
    rfl

/-- a closed file and a moved-from one -/
example : fileRun [.open_ [114] true, .open_ [114] true, .close 0 true, .move 1] [] = some [.empty, .empty, .holding] := by
  decide

/-- `seek` and `tell` on a `File` without a file pass a null `FILE*` to the C library, which is undefined. -/
theorem C88_seek_tell (s : Stream) (offset : Nat) : seek false offset s = .ub .nullPtr ∧ tell false s = .ub .nullPtr :=
  ⟨rfl, rfl⟩

/-- On an open file `seek` decides what is read next: after `seek(k)` the next `read_line` starts at byte `k`, and
`tell` reports the position; so lines can be read again, in any order. -/
theorem C88_seek_read (bytes : List Nat) (pos k : Nat) :
    ∃ s', seek true k ⟨bytes, pos, none⟩ = .ok true s' ∧ tell true s' = .ok k s' ∧ remaining s' = bytes.drop k := by
  refine ⟨⟨bytes, k, none⟩, rfl, rfl, rfl⟩

/-- `tell` after reading a line, then reading on, then `seek` back to the remembered place: the rest is read again. -/
theorem C88_tell_seek (bytes : List Nat) (s : Stream) (hs : s.bytes = bytes) (hb : s.bad = none) (k : Nat) (s1 : Stream)
    (hk : tell true s = .ok k s1) (t : Stream) (ht : t.bytes = bytes) (htb : t.bad = none) :
    ∃ t', seek true k t = .ok true t' ∧ remaining t' = remaining s := by
  cases hk
  refine ⟨{ t with pos := s.pos }, rfl, ?_⟩
  simp only [remaining, ht, hs, hb, htb]

example : ∃ t', seek true 2 ⟨[97, 10, 98], 3, none⟩ = .ok true t' ∧ remaining t' = [98] :=
  C88_tell_seek [97, 10, 98] ⟨[97, 10, 98], 2, none⟩ rfl rfl 2 _ rfl ⟨[97, 10, 98], 3, none⟩ rfl rfl

end Props
end Efp
