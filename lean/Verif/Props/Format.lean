import Verif.FormatLemmas
import Verif.Props.Vector
import Verif.Props.ArrVec
import Verif.Props.Array
import Verif.Props.Cyclic

/-!
# Properties of formatted sequences (C72)

`txt` is the formatter of the elements, an arbitrary function.
-/

namespace Efp
namespace Props

open Format Spec

variable {α : Type}

/-- **C72.**  Formatting a `Vector`, `ArrVec` or `Array` gives the bracketed list of its element texts and leaves
the sequence unchanged, after any history. -/
theorem C72_vector (txt : α → List Nat) {k : Kind} {s : VecS α} {l : List α} (h : VecReachable k s l) :
    ofVector txt s = .ok (listText (l.map txt)) s := ofVector_run txt (VecS.rep_of_reachable h).1

theorem C72_arrvec (txt : α → List Nat) {k : Kind} {n : Nat} {s : AvS α} {l : List α} (h : AvReachable k n s l) :
    ofArrVec txt s = .ok (listText (l.map txt)) s := ofArrVec_run txt (av_rep_of_reachable h)

theorem C72_array (txt : α → List Nat) {k : Kind} {n : Nat} {s : ArrS α} {l : List α} (h : ArrReachable k n s l) :
    ofArray txt s = .ok (listText (l.map txt)) s := ofArray_run txt (arr_rep_of_reachable h)

open Cyclic Cyc in
/-- **C72.**  Formatting a `Vcb` lists its window, oldest value first, after any pushes. -/
theorem C72_vcb (txt : α → List Nat) {n : Nat} (hn : 0 < n) (k : Kind) (d : α) (xs : List α) :
    ∃ s0 s, Vcb.mk0 n d = .ok () s0 ∧ Vcb.pushes k xs s0 = .ok () s ∧
      ofVcb txt s = .ok (listText ((lastN n d xs).map txt)) s := by
  obtain ⟨s0, s, vs, h1, h2, -, -, h3⟩ := vcb_state hn k d xs
  exact ⟨s0, s, h1, h2, ofVcb_run txt h3⟩

open Cyclic Cyc in
/-- **C72, partial:** formatting a non-empty `Vcq` lists its elements, oldest first, after any history. -/
theorem C72_vcq_partial (txt : α → List Nat) {n : Nat} (hn : 0 < n) (k : Kind) {ops : List (QOp α)} {q outs : List α}
    (hf : fifo n ops [] = some (q, outs)) (hne : q ≠ []) :
    ∃ s, Vcq.runOps k ops (Vcq.mk0 n) = .ok outs s ∧ ofVcq txt s = .ok (listText (q.map txt)) s := by
  obtain ⟨s, h1, -, h3, -, -⟩ := vcq_state hn k hf
  exact ⟨s, h1, ofVcq_run txt h3 hne⟩

open Cyclic Cyc in
/-- **C72 is false for an empty `Vcq`:** formatting reads elements that do not exist. -/
theorem C72_empty_vcq (txt : α → List Nat) {n : Nat} (hn : 0 < n) {ops : List (QOp α)} {outs : List α}
    (hf : fifo n ops [] = some ([], outs)) :
    ∃ s, Vcq.runOps .managed ops (Vcq.mk0 n) = .ok outs s ∧ ofVcq txt s = .ub .deadRead := by
  obtain ⟨s, h1, -, h3, -, -⟩ := vcq_state hn .managed hf
  exact ⟨s, h1, ofVcq_empty txt h3⟩

/-- **C72, partial:** the text determines the element texts of non-empty sequences when none of them contains the
separator. -/
theorem C72_determines_partial {ts us : List (List Nat)} (ht : ts ≠ []) (hu : us ≠ []) (hts : ∀ t ∈ ts, noSep t)
    (hus : ∀ u ∈ us, noSep u) (h : listText ts = listText us) : ts = us := by
  refine intercalate_inj ht hu hts hus ?_
  unfold listText at h
  rw [List.append_left_inj, List.append_right_inj] at h
  exact h

/-- **C72 is false for empty sequences:** an empty sequence and a sequence of one element with empty text (two
vectors of strings, say) are formatted alike. -/
theorem C72_ambiguous_empty : listText [] = listText [[]] ∧ noSep [] ∧ ([] : List (List Nat)) ≠ [[]] := by
  decide

-- [7, 12] in decimal
example : listText [[55], [49, 50]] = [91, 55, 44, 32, 49, 50, 93] := by decide
example : noSep [49, 44] ∧ noSep [32, 50] := by decide
example : ∃ s : VecS Nat, VecReachable .trivial s [1, 2, 3] ∧ ofVector (fun d => [48 + d]) s
    = .ok [91, 49, 44, 32, 50, 44, 32, 51, 93] s := by
  obtain ⟨s, h, _⟩ := VecS.reachable_example (α := Nat) (k := .trivial) none [.push 1, .push 2, .push 3] [1, 2, 3]
    (fun _ => true) (by simp) (by decide +kernel)
  exact ⟨s, h, C72_vector _ h⟩
example : fifo 2 [.push 1, .pop] [] = some ([], [1]) := rfl
example : fifo 2 [.push 1, .push 2, .push 3] [] = some ([2, 3], []) := rfl

end Props
end Efp
