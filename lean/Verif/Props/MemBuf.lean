import Verif.Fmt.MemLemmas
import Verif.Fmt.OpsLemmas

/-!
# Properties of `memory_buffer` (C100, C106)
-/

namespace Efp
namespace Props

open Efp.Spec.MemBuf Efp.Fmt

/-- What a program can reach: it starts without buffers and calls what may be called.  It may go on after an
exception. -/
inductive Reach (fails : Nat → Nat → Bool) : MW → Prop
  | start : Reach fails MW.empty
  | step {w w' c} (h : Reach fails w) (hc : Legal w.text c) (hr : c.run fails w = .ok w' ∨ c.run fails w = .threw w') :
      Reach fails w'

theorem step_good (fails : Nat → Nat → Bool) (w : MW) (g : Good w) (c : Cmd) (hc : Legal w.text c) :
    (∃ w', c.run fails w = .ok w' ∧ Good w' ∧ Done w.text w'.text c) ∨
    (((∃ a n, fails a n = true) ∨ ¬ Modest maxSize w.text c) ∧
      ∃ w', c.run fails w = .threw w' ∧ Good w' ∧ Failed w.text w'.text c) := by
  have some_of : ∀ {i}, w.text i ≠ none → ∃ l, w.text i = some l := fun {i} h => by
    cases e : w.text i with
    | none => exact absurd e h
    | some l => exact ⟨l, rfl⟩
  cases c with
  | create i =>
    have hn : w.bufs i = none := by
      cases e : w.bufs i with
      | none => rfl
      | some b =>
        have := (text_some_iff g i).mpr (by rw [e]; nofun)
        exact absurd hc this
    obtain ⟨j1, j2⟩ := good_join g hn (inv_fresh g inlineSize (Nat.le_refl _) (List.replicate inlineSize none) List.length_replicate)
    refine .inl ⟨_, ?_, j1, j2⟩
    simp only [Cmd.run, MW.create, hn]
    rfl
  | destroy i =>
    obtain ⟨l, hl⟩ := some_of hc
    cases hb : w.bufs i with
    | none => exact absurd hb ((text_some_iff g i).mp hc)
    | some b =>
      obtain ⟨g1, _, g3⟩ := good_split g hb hl
      obtain ⟨m, h1, h2, h3⟩ := dealloc_ok g hb
      refine .inl ⟨w.without i b, ?_, g1, g3⟩
      simp only [Cmd.run, MW.destroy, hb]
      rw [h1, Run.then_ok, h2, h3]
      rfl
  | push i c =>
    obtain ⟨l, hl, hs⟩ := hc
    rcases on_ok g hl (Buf.pushBack (Mem.kind fails) c) (· = l ++ [some c])
      (fun x => x = l ∧ ((∃ a n, fails a n = true) ∨ maxSize < l.length + 1)) (fun F v hv => by
      rcases push_cases fails hv hs c with ⟨b', h1, h2⟩ | ⟨h1, h2⟩
      · exact .inl ⟨b', _, h1, h2, rfl⟩
      · exact .inr ⟨v, _, h2, hv, rfl, h1⟩) with ⟨w', old, h1, h2, h3, h4⟩ | ⟨w', old, h1, h2, h3, h4, h5⟩
    · exact .inl ⟨w', h1, h2, l, hl, by rw [h3, h4]⟩
    · refine .inr ⟨h5.imp id fun h hm => ?_, w', h1, h2, ?_⟩
      · have := hm l hl; omega
      · show w'.text = w.text
        rw [h3, h4, lists_set_self hl]
  | append i s =>
    obtain ⟨l, hl, hs⟩ := hc
    rcases on_ok g hl (Buf.append (Mem.kind fails) s) (· = l ++ s.map some)
      (fun x => x = l ∧ ((∃ a n, fails a n = true) ∨ maxSize < l.length + s.length)) (fun F v hv => by
      rcases append_cases fails hv s hs with ⟨b', h1, h2⟩ | ⟨h1, h2⟩
      · exact .inl ⟨b', _, h1, h2, rfl⟩
      · exact .inr ⟨v, _, h2, hv, rfl, h1⟩) with ⟨w', old, h1, h2, h3, h4⟩ | ⟨w', old, h1, h2, h3, h4, h5⟩
    · exact .inl ⟨w', h1, h2, l, hl, by rw [h3, h4]⟩
    · refine .inr ⟨h5.imp id fun h hm => ?_, w', h1, h2, ?_⟩
      · have := hm l hl; omega
      · show w'.text = w.text
        rw [h3, h4, lists_set_self hl]
  | reserve i n =>
    obtain ⟨l, hl⟩ := some_of hc.1
    rcases on_ok g hl (Buf.tryReserve (Mem.kind fails) n) (· = l)
      (fun x => x = l ∧ ((∃ a n, fails a n = true) ∨ maxSize < n)) (fun F v hv => by
      rcases tryReserve_cases fails hv n with ⟨b', h1, h2, _⟩ | ⟨h1, h2⟩
      · exact .inl ⟨b', _, h1, h2, rfl⟩
      · exact .inr ⟨v, _, h2, hv, rfl, h1.imp (fun h => ⟨_, _, h⟩) id⟩)
      with ⟨w', old, h1, h2, h3, h4⟩ | ⟨w', old, h1, h2, h3, h4, h5⟩
    · refine .inl ⟨w', h1, h2, ?_⟩
      show w'.text = w.text
      rw [h3, h4, lists_set_self hl]
    · refine .inr ⟨h5.imp id fun h hm => ?_, w', h1, h2, ?_⟩
      · have : n ≤ maxSize := hm
        omega
      · show w'.text = w.text
        rw [h3, h4, lists_set_self hl]
  | resize i n =>
    obtain ⟨l, hl⟩ := some_of hc.1
    rcases on_ok g hl (Buf.tryResize (Mem.kind fails) n) (fun x => ∃ more, more.length = n ∧ x = (l ++ more).take n)
      (fun x => x = l ∧ ((∃ a n, fails a n = true) ∨ maxSize < n)) (fun F v hv => by
      rcases resize_cases fails hv n with ⟨b', more, h1, h2, h3⟩ | ⟨h1, h2⟩
      · exact .inl ⟨b', _, h1, h3, more, h2, rfl⟩
      · exact .inr ⟨v, _, h2, hv, rfl, h1⟩)
      with ⟨w', old, h1, h2, h3, more, h4, h5⟩ | ⟨w', old, h1, h2, h3, h4, h5⟩
    · exact .inl ⟨w', h1, h2, l, more, hl, h4, by rw [h3, h5]⟩
    · refine .inr ⟨h5.imp id fun h hm => ?_, w', h1, h2, ?_⟩
      · have : n ≤ maxSize := hm
        omega
      · show w'.text = w.text
        rw [h3, h4, lists_set_self hl]
  | clear i =>
    obtain ⟨l, hl⟩ := some_of hc
    rcases on_ok g hl (fun v => .ok { v with size := 0 }) (· = []) (fun _ => False) (fun F v hv =>
      .inl ⟨_, _, rfl, inv_clear hv, rfl⟩) with ⟨w', old, h1, h2, h3, h4⟩ | ⟨_, _, _, _, _, h⟩
    · exact .inl ⟨w', h1, h2, by rw [h3, h4]; rfl⟩
    · exact h.elim
  | set i k c =>
    obtain ⟨l, hl, hk⟩ := hc
    rcases on_ok g hl (MW.setAt k c) (· = l.set k (some c)) (fun _ => False) (fun F v hv => by
      obtain ⟨b', h1, h2⟩ := inv_set hv hk c
      exact .inl ⟨b', _, h1, h2, rfl⟩) with ⟨w', old, h1, h2, h3, h4⟩ | ⟨_, _, _, _, _, h⟩
    · exact .inl ⟨w', h1, h2, l, hl, by rw [h3, h4]⟩
    · exact h.elim
  | format i o =>
    obtain ⟨l, hl, hs⟩ := hc
    rw [written_flatMap] at hs
    rcases on_ok g hl (runOps (Mem.kind fails) o) (· = l ++ (opsText o).map some)
      (fun x => ∃ s, x = l ++ s.map some ∧ s <+: opsText o ∧ ((∃ a n, fails a n = true) ∨
        ¬ (l.length + (opsText o).length ≤ maxSize ∧ ∀ n, .reserve n ∈ o → l.length + (opsText o).length + n ≤ maxSize)))
      (fun F v hv => by
      rcases format_cases fails hv o hs with ⟨b', h1, h2⟩ | ⟨b', s, h1, h2, h3, h4⟩
      · exact .inl ⟨b', _, h1, h2, rfl⟩
      · exact .inr ⟨b', _, h1, h3, s, rfl, h2, h4⟩) with ⟨w', old, h1, h2, h3, h4⟩ | ⟨w', old, h1, h2, h3, s, h4, h5, h6⟩
    · exact .inl ⟨w', h1, h2, l, hl, by rw [h3, h4, written_flatMap]⟩
    · refine .inr ⟨h6.imp id fun h hm => h ?_, w', h1, h2, l, s, hl, by rw [written_flatMap]; exact h5, by rw [h3, h4]⟩
      have := hm l hl
      rw [written_flatMap] at this
      exact this
  | moveCtor i j =>
    obtain ⟨l, hl⟩ := some_of hc.2
    have hi : w.bufs i = none := by
      cases e : w.bufs i with
      | none => rfl
      | some b => exact absurd hc.1 ((text_some_iff g i).mpr (by rw [e]; nofun))
    cases hj : w.bufs j with
    | none => exact absurd hj ((text_some_iff g j).mp hc.2)
    | some other =>
      obtain ⟨v, o', h1, h2, l', h3, h4⟩ := move_ok fails g hi hj 0 (inline := List.replicate inlineSize none)
        List.length_replicate hl
      refine .inl ⟨_, ?_, h2, l, hl, l', h3, h4⟩
      simp only [Cmd.run, MW.moveCtor, hi, hj, h1]
  | moveAssign i j =>
    obtain ⟨hij, hi, hj⟩ := hc
    obtain ⟨l, hl⟩ := some_of hj
    obtain ⟨k, hk⟩ := some_of hi
    cases hbi : w.bufs i with
    | none => exact absurd hbi ((text_some_iff g i).mp hi)
    | some b =>
    cases hbj : w.bufs j with
    | none => exact absurd hbj ((text_some_iff g j).mp hj)
    | some other =>
      obtain ⟨g1, g2, g3⟩ := good_split g hbi hk
      obtain ⟨m, h1, h2, h3⟩ := dealloc_ok g hbi
      have hj' : (w.without i b).bufs j = some other := (update_other _ _ (Ne.symm hij)).trans hbj
      have hl' : (w.without i b).text j = some l := by
        rw [g3]
        unfold Lists.set
        rw [if_neg (Ne.symm hij)]
        exact hl
      obtain ⟨v, o', e1, e2, l', e3, e4⟩ := move_ok fails g1 (update_same _ _ _) hj' b.size (g.buf i b hbi).2.2.1 hl'
      have ew : ∀ o v, ({ w.without i b with bufs := update (w.without i b).bufs j (some o) } : MW).back i v =
          ({ w with bufs := update w.bufs j (some o) } : MW).back i v := by
        intro o v
        unfold MW.back MW.without
        simp only [MW.mk.injEq, true_and]
        rw [update_comm _ hij, update_update]
      rw [ew] at e2 e4
      refine .inl ⟨_, ?_, e2, l, hl, l', e3, ?_⟩
      · simp only [Cmd.run, MW.moveAssign, if_neg hij, hbi, hbj, h1]
        have em : ∀ H N B, MW.move fails ⟨H, N, B⟩ b.size b.inline other =
            MW.move fails ⟨H, N, (w.without i b).bufs⟩ b.size b.inline other := fun _ _ _ => rfl
        rw [em, h2, h3]
        have e1' : MW.move fails ⟨(w.without i b).heap, w.next, (w.without i b).bufs⟩ b.size b.inline other = .ok (v, o') := e1
        rw [e1']
      · rw [e4, g3, lists_set_set]

theorem reach_good {fails : Nat → Nat → Bool} {w : MW} (h : Reach fails w) : Good w := by
  induction h with
  | start => exact good_empty
  | step h hc hr ih =>
    rcases step_good fails _ ih _ hc with ⟨w', h1, h2, _⟩ | ⟨_, w', h1, h2, _⟩
    · rcases hr with hr | hr
      · rw [h1] at hr; cases hr; exact h2
      · rw [h1] at hr; nomatch hr
    · rcases hr with hr | hr
      · rw [h1] at hr; nomatch hr
      · rw [h1] at hr; cases hr; exact h2

/-! ## C100 -/

/-- In every program over any number of buffers, with allocations that may fail at any point: a call that may be made
has no undefined behaviour.  It completes and does to the buffers what it does to lists, or it throws and leaves every
buffer as it was, where formatting may have written a part of its text. -/
theorem C100_lists (fails : Nat → Nat → Bool) (w : MW) (h : Reach fails w) (c : Cmd) (hc : Legal w.text c) :
    (∃ w', c.run fails w = .ok w' ∧ Done w.text w'.text c) ∨
    (∃ w', c.run fails w = .threw w' ∧ Failed w.text w'.text c) := by
  rcases step_good fails w (reach_good h) c hc with ⟨w', h1, _, h2⟩ | ⟨_, w', h1, _, h2⟩
  · exact .inl ⟨w', h1, h2⟩
  · exact .inr ⟨w', h1, h2⟩

/-- Without failing allocations, and below 2^63 elements, nothing throws. -/
theorem C100_completes (w : MW) (h : Reach (fun _ _ => false) w) (c : Cmd) (hc : Legal w.text c)
    (hm : Modest (2 ^ 63 - 1) w.text c) : ∃ w', c.run (fun _ _ => false) w = .ok w' ∧ Done w.text w'.text c := by
  rcases step_good _ w (reach_good h) c hc with ⟨w', h1, _, h2⟩ | ⟨h1, _⟩
  · exact ⟨w', h1, h2⟩
  · rcases h1 with ⟨_, _, h1⟩ | h1
    · nomatch h1
    · exact absurd hm h1

/-- Nothing leaks: at every point of every program every allocated block belongs to exactly one buffer that exists, so
there are none left when every buffer has been destroyed. -/
theorem C100_no_leak (fails : Nat → Nat → Bool) (w : MW) (h : Reach fails w) :
    (∀ p, w.heap p ≠ none → ∃ i b, w.bufs i = some b ∧ b.ptr = some p ∧
      ∀ j c, w.bufs j = some c → c.ptr = some p → j = i) ∧
    ((∀ i, w.text i = none) → ∀ p, w.heap p = none) := by
  have g := reach_good h
  refine ⟨fun p hp => ?_, fun ht p => ?_⟩
  · obtain ⟨_, i, b, h1, h2⟩ := g.owned p hp
    exact ⟨i, b, h1, h2, fun j c hj hc => g.once j i c b p hj h1 hc h2⟩
  · refine Decidable.byContradiction fun hp => ?_
    obtain ⟨_, i, b, h1, h2⟩ := g.owned p hp
    exact (text_some_iff g i).mpr (by rw [h1]; nofun) (ht i)

/-- Appending elements of the buffer itself (as with `b.append(b.data() + k, b.data() + k + n)`, or with
`b.push_back(b[k])` for one) appends copies of them, if the buffer still has room or its elements are in the object
itself.  Missing from C100: buffers on the heap without room (`C100_own_refuted`). -/
theorem C100_own_partial (fails : Nat → Nat → Bool) (w : MW) (h : Reach fails w) (i : Nat) (l : Cells) (hl : w.text i = some l)
    (k n : Nat) (hk : k + n ≤ l.length) (hn : l.length + n < 2 ^ 64) (b : MB) (hb : w.bufs i = some b)
    (hroom : b.size + n ≤ b.capacity ∨ b.ptr = none) :
    ((∃ w', w.on i (MW.appendOwn fails k n) = .ok w' ∧ w'.text = Lists.set w.text i (some (l ++ (l.drop k).take n))) ∨
      ∃ w', w.on i (MW.appendOwn fails k n) = .threw w' ∧ w'.text = w.text) ∧
    (n = 1 → w.on i (MW.pushOwn fails k) = w.on i (MW.appendOwn fails k n)) := by
  have g := reach_good h
  refine ⟨?_, ?_⟩
  · rcases on_view g hl (MW.appendOwn fails k n) (· = l ++ (l.drop k).take n) (· = l) (fun F v hv hi => by
      obtain ⟨b', hb', rfl⟩ := hv
      rw [hb] at hb'
      cases hb'
      rcases own_ok fails hi hk hn hroom with ⟨v', h1, h2⟩ | h1
      · exact .inl ⟨v', _, h1, h2, rfl⟩
      · exact .inr ⟨_, _, h1, hi, rfl⟩) with ⟨w', old, h1, h2, h3, h4⟩ | ⟨w', old, h1, h2, h3, h4⟩
    · exact .inl ⟨w', h1, by rw [h3, h4]⟩
    · exact .inr ⟨w', h1, by rw [h3, h4, lists_set_self hl]⟩
  · rintro rfl
    unfold MW.on
    rw [hb]
    simp only
    rw [own_one fails (good_split g hb hl).2.1 k (by omega)]

/-- A buffer on the heap that has to grow for it reads its own elements after freeing them: every such call is undefined
behaviour, and there is a program that makes one. -/
theorem C100_own_refuted :
    (∀ w, Reach (fun _ _ => false) w → ∀ i l b, w.text i = some l → w.bufs i = some b → b.ptr ≠ none → ∀ k n, 0 < n →
      k + n ≤ l.length → l.length + n ≤ 2 ^ 63 - 1 → b.capacity < b.size + n →
      w.on i (MW.appendOwn (fun _ _ => false) k n) = .ub ∧ (n = 1 → w.on i (MW.pushOwn (fun _ _ => false) k) = .ub)) ∧
    ∃ w, Reach (fun _ _ => false) w ∧ (∃ l, w.text 0 = some l ∧ l.length = 750 ∧ l[0]? = some (some 'a')) ∧
      w.on 0 (MW.pushOwn (fun _ _ => false) 0) = .ub := by
  have first : ∀ w, Reach (fun _ _ => false) w → ∀ i l b, w.text i = some l → w.bufs i = some b → b.ptr ≠ none → ∀ k n, 0 < n →
      k + n ≤ l.length → l.length + n ≤ 2 ^ 63 - 1 → b.capacity < b.size + n →
      w.on i (MW.appendOwn (fun _ _ => false) k n) = .ub ∧ (n = 1 → w.on i (MW.pushOwn (fun _ _ => false) k) = .ub) := by
    intro w h i l b hl hb hp k n hn hk hs hc
    have hi := (good_split (reach_good h) hb hl).2.1
    have hub := own_ub (k := k) hi hn hs hc hp
    unfold MW.on
    rw [hb]
    simp only
    refine ⟨by rw [hub]; rfl, ?_⟩
    rintro rfl
    rw [own_one _ hi k (by omega), hub]
    rfl
  refine ⟨first, ?_⟩
  obtain ⟨w1, h1, h2⟩ := C100_completes MW.empty .start (.create 0) rfl trivial
  have r1 : Reach (fun _ _ => false) w1 := .step .start (c := .create 0) rfl (.inl h1)
  have t1 : w1.text 0 = some [] := by
    have h2 : w1.text = _ := h2
    rw [h2]; rfl
  have l2 : Legal w1.text (.resize 0 750) := ⟨by rw [t1]; nofun, by decide⟩
  obtain ⟨w2, h3, l, more, h4, h5, h6⟩ := C100_completes w1 r1 (.resize 0 750) l2 (by show 750 ≤ _; decide)
  have r2 : Reach (fun _ _ => false) w2 := .step r1 l2 (.inl h3)
  have t2 : ∃ l, w2.text 0 = some l ∧ l.length = 750 := by
    refine ⟨_, by rw [h6]; rfl, ?_⟩
    rw [List.length_take, List.length_append]; omega
  obtain ⟨l', t2, t2'⟩ := t2
  have l3 : Legal w2.text (.set 0 0 'a') := ⟨l', t2, by omega⟩
  obtain ⟨w3, h7, l'', h8, h9⟩ := C100_completes w2 r2 (.set 0 0 'a') l3 trivial
  have r3 : Reach (fun _ _ => false) w3 := .step r2 l3 (.inl h7)
  rw [t2] at h8
  cases h8
  have t3 : w3.text 0 = some (l'.set 0 (some 'a')) := by rw [h9]; rfl
  refine ⟨w3, r3, ⟨_, t3, by rw [List.length_set]; exact t2', ?_⟩, ?_⟩
  · rw [List.getElem?_set_self (by omega)]
  · have hb : ∃ b, w3.bufs 0 = some b ∧ b.size = 750 ∧ b.capacity = 750 ∧ b.ptr = some 0 := by
      have e : (match Cmd.run (fun _ _ => false) MW.empty (.create 0) with
          | .ok w => match Cmd.run (fun _ _ => false) w (.resize 0 750) with
            | .ok w => match Cmd.run (fun _ _ => false) w (.set 0 0 'a') with
              | .ok w => (w.bufs 0).map fun b => (b.size, b.capacity, b.ptr)
              | _ => none
            | _ => none
          | _ => none) = some (750, 750, some 0) := by decide +kernel
      rw [h1] at e
      simp only [h3, h7] at e
      cases hb : w3.bufs 0 with
      | none => rw [hb] at e; nomatch e
      | some b =>
        rw [hb] at e
        simp only [Option.map_some, Option.some.injEq, Prod.mk.injEq] at e
        exact ⟨b, rfl, e⟩
    obtain ⟨b, hb, e1, e2, e3⟩ := hb
    exact (first w3 r3 0 _ b t3 hb (by rw [e3]; nofun) 0 1 (by decide) (by rw [List.length_set]; omega)
      (by rw [List.length_set, t2']; decide) (by omega)).2 rfl

/-- a program: two buffers, one with 600 elements moved into the other -/
example : (match Cmd.run (fun _ _ => false) MW.empty (.create 0) with
    | .ok w => match Cmd.run (fun _ _ => false) w (.resize 0 600) with
      | .ok w => match Cmd.run (fun _ _ => false) w (.moveCtor 1 0) with
        | .ok w => ((w.text 0).map List.length, (w.text 1).map List.length)
        | _ => (none, none)
      | _ => (none, none)
    | _ => (none, none)) = (some 0, some 600) := by decide +kernel
/-- with an allocation that fails, `resize` throws -/
example : (match Cmd.run (fun _ _ => true) MW.empty (.create 0) with
    | .ok w => match Cmd.run (fun _ _ => true) w (.resize 0 600) with
      | .threw w => (w.text 0).map List.length
      | _ => none
    | _ => none) = some 0 := by decide +kernel

/-! ## C106 -/

theorem vformat_cases (fails : Nat → Nat → Bool) (w : MW) (h : Reach fails w) (i : Nat) (hi : w.text i = none) (ops : List Op)
    (hs : (opsText ops).length < 2 ^ 64) :
    ∃ w', Reach fails w' ∧ w'.text = w.text ∧
      (vformatBuffer fails w i (.ok ops) = some (.text ((opsText ops).map some), w') ∨
        ((∃ a n, fails a n = true) ∨ ¬ Modest maxSize (Lists.set w.text i (some [])) (.format i ops)) ∧
          vformatBuffer fails w i (.ok ops) = some (.noMemory, w')) := by
  have same : ∀ x, Lists.set (Lists.set w.text i x) i none = w.text := fun x => by
    rw [lists_set_set]
    exact lists_set_self hi
  have gone : ∀ w2, Reach fails w2 → ∀ x, w2.text = Lists.set w.text i (some x) →
      ∃ w3, w2.destroy i = .ok w3 ∧ Reach fails w3 ∧ w3.text = w.text := by
    intro w2 r2 x hx
    have l3 : Legal w2.text (.destroy i) := by
      show w2.text i ≠ none
      rw [hx]
      unfold Lists.set
      rw [if_pos rfl]
      nofun
    rcases C100_lists fails w2 r2 (.destroy i) l3 with ⟨w3, h1, h2⟩ | ⟨_, _, h2⟩
    · refine ⟨w3, h1, .step r2 l3 (.inl h1), ?_⟩
      have h2 : w3.text = _ := h2
      rw [h2, hx, same]
    · exact h2.elim
  rcases C100_lists fails w h (.create i) hi with ⟨w1, h1, h2⟩ | ⟨_, _, h2⟩
  · have h2 : w1.text = Lists.set w.text i (some []) := h2
    have r1 : Reach fails w1 := .step h (c := .create i) hi (.inl h1)
    have t1 : w1.text i = some [] := by
      rw [h2]
      exact if_pos rfl
    have l2 : Legal w1.text (.format i ops) := ⟨[], t1, by rw [written_flatMap]; simpa using hs⟩
    have h1 : w.create i = .ok w1 := h1
    rcases step_good fails w1 (reach_good r1) (.format i ops) l2 with ⟨w2, h3, _, l, h4, h5⟩ | ⟨ht, w2, h3, _, l, s, h4, _, h5⟩
    · rw [t1] at h4
      cases h4
      rw [List.nil_append, written_flatMap, h2, lists_set_set] at h5
      obtain ⟨w3, h6, h7, h8⟩ := gone w2 (.step r1 l2 (.inl h3)) _ h5
      refine ⟨w3, h7, h8, .inl ?_⟩
      have t2 : w2.text i = some ((opsText ops).map some) := by
        rw [h5]
        exact if_pos rfl
      simp only [vformatBuffer, h1, h3, t2, h6]
    · rw [h2, lists_set_set] at h5
      obtain ⟨w3, h6, h7, h8⟩ := gone w2 (.step r1 l2 (.inr h3)) _ h5
      rw [h2] at ht
      refine ⟨w3, h7, h8, .inr ⟨ht, ?_⟩⟩
      simp only [vformatBuffer, h1, h3, h6]
  · exact h2.elim

/-- The text of the grammar does come out of the buffer that grows, for every program around it, and the buffer leaves
nothing behind; if an allocation fails, the call throws and leaves nothing behind either. -/
theorem C106_format (fails : Nat → Nat → Bool) (w : MW) (h : Reach fails w) (i : Nat) (hi : w.text i = none)
    (l : List (Option Str × Arg)) (hok : ∀ p ∈ l, Spec.Fmt.ArgOk p.2) (fmt text : Str) (hf : format fmt l = .ok text)
    (hs : text.length < 2 ^ 64) :
    ∃ w', Reach fails w' ∧ w'.text = w.text ∧
      (vformatBuffer fails w i (vformatToOps fmt (makeArgs l)) = some (.text (text.map some), w') ∨
        vformatBuffer fails w i (vformatToOps fmt (makeArgs l)) = some (.noMemory, w')) := by
  obtain ⟨ops, h1, rfl, _⟩ := (ops_of_format hok).1 _ hf
  rw [h1]
  obtain ⟨w', h2, h3, h4⟩ := vformat_cases fails w h i hi ops hs
  exact ⟨w', h2, h3, h4.imp id fun h => h.2⟩

/-- Without failing allocations, and below 2^62 bytes, it is always the text. -/
theorem C106_completes (w : MW) (h : Reach (fun _ _ => false) w) (i : Nat) (hi : w.text i = none)
    (l : List (Option Str × Arg)) (hok : ∀ p ∈ l, Spec.Fmt.ArgOk p.2) (fmt text : Str) (hf : format fmt l = .ok text)
    (hs : text.length < 2 ^ 62) :
    ∃ w', Reach (fun _ _ => false) w' ∧ w'.text = w.text ∧
      vformatBuffer (fun _ _ => false) w i (vformatToOps fmt (makeArgs l)) = some (.text (text.map some), w') := by
  obtain ⟨ops, h1, rfl, hx⟩ := (ops_of_format hok).1 _ hf
  rw [h1]
  obtain ⟨w', h2, h3, h4⟩ := vformat_cases _ w h i hi ops (by omega)
  refine ⟨w', h2, h3, h4.resolve_right fun h => ?_⟩
  rcases h.1 with ⟨_, _, h⟩ | h
  · nomatch h
  · refine h fun l hl => ?_
    have hl : some [] = some l := by
      rw [← hl]
      exact (if_pos rfl).symm
    cases hl
    have hm : maxSize = 2 ^ 63 - 1 := rfl
    rw [written_flatMap, List.length_nil, hm]
    have := exact_reserve hx
    exact ⟨by omega, fun n hn => by have := this n hn; omega⟩

/-- An error in the format string is reported. -/
theorem C106_error (fails : Nat → Nat → Bool) (w : MW) (i : Nat) (l : List (Option Str × Arg))
    (hok : ∀ p ∈ l, Spec.Fmt.ArgOk p.2) (fmt : Str) (m : String) (hf : format fmt l = .err m) :
    vformatBuffer fails w i (vformatToOps fmt (makeArgs l)) = some (.error m, w) := by
  rw [(ops_of_format hok).2 _ hf]; rfl

/-- a text longer than the storage inside the buffer -/
example : (match vformatBuffer (fun _ _ => false) MW.empty 0 (vformatToOps "{:>600}".toList (makeArgs [(none, .int 42)])) with
    | some (.text t, _) => t.drop 597
    | _ => []) = [some ' ', some '4', some '2'] := by decide +kernel

end Props
end Efp
