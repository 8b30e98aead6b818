import Verif.Fmt.ErrorLemmas
import Verif.Props.FmtInt

/-!
# Properties of the reports of system errors (C130)
-/

namespace Efp
namespace Props

open Efp.Spec.Fmt Efp.Spec.MemBuf Efp.Fmt

/-- `report_system_error` in any program, with allocations that may fail at any point: it neither throws nor ends the
program, leaves every buffer as it was and nothing allocated, and writes one line to `stderr`, as far as `stderr` takes
it.  The line is the text of the system error; if that cannot be made, or is too long for the buffer inside the object
and an allocation fails, it is the report that needs no memory. -/
theorem C130_report (fails : Nat → Nat → Bool) (w : MW) (h : Reach fails w) (i : Nat) (hi : w.text i = none) (code : Int)
    (hc : -2 ^ 31 ≤ code ∧ code < 2 ^ 31) (message : Str) (hm : Bytes message) (what : Option Str)
    (hw : ∀ t, what = some t → t ≠ [] ∧ t.length < 2 ^ 63) (takes : Nat) :
    ∃ w' line, reportSystemError fails w i what code message takes = some (w', (line ++ ['\n']).take takes) ∧
      w'.text = w.text ∧ (∀ p, w'.heap p ≠ none → ∃ j b, w'.bufs j = some b ∧ b.ptr = some p) ∧
      (what = some line ∨ line = errorLine message code ∧
        ∀ t, what = some t → 500 < t.length ∧ ∃ a n, fails a n = true) := by
  have g := reach_good h
  rcases step_good fails w g (.create i) hi with ⟨w1, h1, g1, h2⟩ | ⟨_, _, _, _, h2⟩
  · have h1 : w.create i = .ok w1 := h1
    have h2 : w1.text = Lists.set w.text i (some []) := h2
    have t1 : w1.text i = some [] := by rw [h2]; exact if_pos rfl
    have hb1 : ∀ b, w1.bufs i = some b → inlineSize ≤ b.capacity ∧ b.capacity ≤ 500 := by
      intro b hb
      unfold MW.create at h1
      split at h1
      · cases h1
        simp only [update_same, Option.some.injEq] at hb
        rw [← hb]
        exact ⟨Nat.le_refl _, Nat.le_refl _⟩
      · nomatch h1
    rcases on_view g1 t1 (formatSystemError fails what code message)
      (fun l => (∃ t, what = some t ∧ l = t.map some) ∨ l = (errorLine message code).map some ∧
        ∀ t, what = some t → 500 < t.length ∧ ∃ a n, fails a n = true) (fun _ => False) (fun F v hv hinv => by
      obtain ⟨b, hb, rfl⟩ := hv
      have hcap := hb1 b hb
      obtain ⟨b', l, k1, k2, k3⟩ := systemError_ok fails hinv hcap.1 hc hm what (fun t ht => by
        have : maxSize = 2 ^ 63 - 1 := rfl
        have := (hw t ht).2
        simp only [List.length_nil]; omega)
      refine .inl ⟨b', l, k1, k2, ?_⟩
      refine k3.imp (by simp only [List.nil_append]; exact id) (fun ⟨e1, e2⟩ => ⟨e1, fun t ht => ?_⟩)
      obtain ⟨e3, e4⟩ := e2 t ht
      have : (w1.view b).capacity = b.capacity := rfl
      have h500 : inlineSize = 500 := rfl
      simp only [List.length_nil] at e3
      exact ⟨by omega, e4⟩) with ⟨w2, l, k1, g2, k2, k3⟩ | ⟨_, _, _, _, _, k⟩
    · have t2 : w2.text i = some l := by rw [k2]; exact if_pos rfl
      rcases step_good fails w2 g2 (.destroy i) (by show w2.text i ≠ none; rw [t2]; nofun) with
        ⟨w3, h3, g3, h4⟩ | ⟨_, _, _, _, h4⟩
      · have h3 : w2.destroy i = .ok w3 := h3
        have h4 : w3.text = Lists.set w2.text i none := h4
        have line : ∃ line, l = line.map some ∧ line ≠ [] ∧ (what = some line ∨ line = errorLine message code ∧
            ∀ t, what = some t → 500 < t.length ∧ ∃ a n, fails a n = true) := by
          rcases k3 with ⟨t, e1, e2⟩ | ⟨e1, e2⟩
          · exact ⟨t, e2, (hw t e1).1, .inl e1⟩
          · refine ⟨_, e1, ?_, .inr ⟨rfl, e2⟩⟩
            unfold errorLine
            intro hn
            have : ("error ".toList ++ showIntDefault code).length = 0 ∨
                (message ++ ": ".toList ++ ("error ".toList ++ showIntDefault code)).length = 0 := by
              simp only at hn
              split at hn
              · exact .inr (by rw [hn]; rfl)
              · exact .inl (by rw [hn]; rfl)
            have l6 : "error ".toList.length = 6 := rfl
            simp only [List.length_append] at this
            omega
        obtain ⟨line, e1, e2, e3⟩ := line
        refine ⟨w3, line, ?_, ?_, fun p hp => (g3.owned p hp).2, e3⟩
        · unfold reportSystemError
          rw [h1]
          simp only
          rw [k1]
          simp only [Run.noexcept]
          rw [t2, h3, e1, Option.bind_some, FormatInt.mapM_some]
          simp only [Option.some.injEq, Prod.mk.injEq, true_and]
          have hpos : line.length ≠ 0 := fun h0 => e2 (List.length_eq_zero_iff.mp h0)
          unfold writeStderr
          rw [List.take_append]
          by_cases hlt : takes < line.length
          · rw [if_pos (.inr hlt), show takes - line.length = 0 by omega, List.take_zero, List.append_nil]
          · rw [if_neg (by omega), List.take_of_length_le (l := line) (by omega)]
        · rw [h4, k2, h2, lists_set_set, lists_set_set]
          exact lists_set_self hi
      · exact h4.elim
    · exact k.elim
  · exact h2.elim

/-- `format_system_error` on any buffer with the capacity of a new one: the text of the system error is appended to it,
or the report that needs no memory replaces what was in it.  Missing: buffers of less capacity, see
`C130_moved_from_fails`. -/
theorem C130_format_partial (fails : Nat → Nat → Bool) (w : MW) (h : Reach fails w) (i : Nat) (l : Cells)
    (hl : w.text i = some l) (b : MB) (hb : w.bufs i = some b) (hcap : 500 ≤ b.capacity) (code : Int)
    (hc : -2 ^ 31 ≤ code ∧ code < 2 ^ 31) (message : Str) (hm : Bytes message) (what : Option Str)
    (hw : ∀ t, what = some t → l.length + t.length < 2 ^ 63) :
    ∃ w' l', w.on i (formatSystemError fails what code message) = .ok w' ∧ w'.text = Lists.set w.text i (some l') ∧
      ((∃ t, what = some t ∧ l' = l ++ t.map some) ∨ l' = (errorLine message code).map some ∧
        ∀ t, what = some t → b.capacity < l.length + t.length ∧ ∃ a n, fails a n = true) := by
  rcases on_view (reach_good h) hl (formatSystemError fails what code message)
    (fun l' => (∃ t, what = some t ∧ l' = l ++ t.map some) ∨ l' = (errorLine message code).map some ∧
        ∀ t, what = some t → b.capacity < l.length + t.length ∧ ∃ a n, fails a n = true) (fun _ => False) (fun F v hv hinv => by
    obtain ⟨b', hb', rfl⟩ := hv
    rw [hb] at hb'
    cases hb'
    obtain ⟨b', l', k1, k2, k3⟩ := systemError_ok fails hinv hcap hc hm what (fun t ht => by
      have : maxSize = 2 ^ 63 - 1 := rfl
      have := hw t ht
      omega)
    exact .inl ⟨b', l', k1, k2, k3⟩) with ⟨w', l', k1, _, k2, k3⟩ | ⟨_, _, _, _, _, k⟩
  · exact ⟨w', l', k1, k2, k3⟩
  · exact k.elim

/-- A buffer that was moved from may have no capacity.  The report that should need no memory then allocates, and if
that fails the exception meets `noexcept` and ends the program. -/
theorem C130_moved_from_fails : ∃ (fails : Nat → Nat → Bool) (w : MW), Reach fails w ∧ w.text 0 = some [] ∧
    w.on 0 (formatSystemError fails none 2 "file".toList) = .ub := by
  have e : (match Cmd.run (fun a _ => decide (0 < a)) MW.empty (.create 0) with
      | .ok w => match Cmd.run (fun a _ => decide (0 < a)) w (.resize 0 600) with
        | .ok w => match Cmd.run (fun a _ => decide (0 < a)) w (.moveCtor 1 0) with
          | .ok w =>
            match w.text 0, w.on 0 (formatSystemError (fun a _ => decide (0 < a)) none 2 "file".toList) with
            | some [], .ub => true
            | _, _ => false
          | _ => false
        | _ => false
      | _ => false) = true := by decide +kernel
  refine ⟨fun a _ => decide (0 < a), ?_⟩
  cases h1 : Cmd.run (fun a _ => decide (0 < a)) MW.empty (.create 0) <;> simp only [h1, reduceCtorEq] at e
  rename_i w1
  have r1 : Reach (fun a _ => decide (0 < a)) w1 := .step .start (c := .create 0) rfl (.inl h1)
  have t1 : w1.text 0 = some [] := by
    rcases C100_lists _ MW.empty .start (.create 0) rfl with ⟨w, h2, h3⟩ | ⟨_, _, h3⟩
    · rw [h1] at h2
      cases h2
      have h3 : w1.text = _ := h3
      rw [h3]
      exact if_pos rfl
    · exact h3.elim
  cases h2 : Cmd.run (fun a _ => decide (0 < a)) w1 (.resize 0 600) <;> simp only [h2, reduceCtorEq] at e
  rename_i w2
  have l2 : Legal w1.text (.resize 0 600) := ⟨by rw [t1]; nofun, by decide⟩
  have r2 : Reach (fun a _ => decide (0 < a)) w2 := .step r1 l2 (.inl h2)
  have t2 : w2.text 1 = none ∧ w2.text 0 ≠ none := by
    rcases C100_lists _ w1 r1 _ l2 with ⟨w, h3, l, more, _, _, h4⟩ | ⟨w, h3, _⟩
    · rw [h2] at h3
      cases h3
      rw [h4]
      refine ⟨?_, by simp [Lists.set]⟩
      rcases C100_lists _ MW.empty .start (.create 0) rfl with ⟨w, h5, h6⟩ | ⟨_, _, h6⟩
      · rw [h1] at h5
        cases h5
        have h6 : w1.text = _ := h6
        show w1.text 1 = none
        rw [h6]
        rfl
      · exact h6.elim
    · rw [h2] at h3; nomatch h3
  cases h3 : Cmd.run (fun a _ => decide (0 < a)) w2 (.moveCtor 1 0) <;> simp only [h3, reduceCtorEq] at e
  rename_i w3
  refine ⟨w3, .step r2 (c := .moveCtor 1 0) t2 (.inl h3), ?_⟩
  split at e
  · rename_i h4 h5
    exact ⟨h4, h5⟩
  · nomatch e

/-- a message and an error code, without memory -/
example : (reportSystemError (fun _ _ => true) MW.empty 0 none 2 "cannot open".toList 100).map (·.2) =
    some "cannot open: error 2\n".toList := by decide +kernel
/-- a text of the system that does not fit and for which there is no memory -/
example : (reportSystemError (fun _ _ => true) MW.empty 0 (some (List.replicate 501 'x')) (-5) "cannot open".toList 100).map
    (·.2) = some "cannot open: error -5\n".toList := by decide +kernel
/-- a message that does not fit -/
example : errorLine (List.replicate 492 'x') 7 = "error 7".toList ∧
    errorLine (List.replicate 491 'x') 7 = List.replicate 491 'x' ++ ": error 7".toList := by decide +kernel
example : Bytes "cannot open".toList ∧ MW.empty.text 0 = none := ⟨by unfold Bytes; decide, rfl⟩
/-- a new buffer has the capacity -/
example : (match MW.create MW.empty 0 with
    | .ok w => (w.bufs 0).map (·.capacity)
    | _ => none) = some 500 := by decide +kernel

end Props
end Efp
