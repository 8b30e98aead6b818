import Verif.Format
import Verif.VectorLemmas
import Verif.ArrVecLemmas
import Verif.ArrayLemmas
import Verif.CyclicLemmas
import Verif.Spec.Format

/-!
# Lemmas about the sequence formatters
-/

namespace Efp
namespace Format

open Efp.Spec

variable {σ α : Type}

theorem intercalate_nil (sep : List Nat) : sep.intercalate [] = [] := rfl
theorem intercalate_one (sep t : List Nat) : sep.intercalate [t] = t := by simp [List.intercalate]
theorem intercalate_cons (sep t u : List Nat) (ts : List (List Nat)) :
    sep.intercalate (t :: u :: ts) = t ++ sep ++ sep.intercalate (u :: ts) := by
  simp [List.intercalate, List.intersperse, List.flatten]

theorem joinLoop_run (txt : α → List Nat) (get : Nat → Cpp σ α) (l : List α) (i : Nat) (out : List Nat) (s : σ)
    (h : ∀ (j : Nat) (a : α), l[j]? = some a → get (i + j) s = .ok a s) :
    joinLoop txt get i l.length out s = .ok (out ++ (l.flatMap fun a => comma ++ txt a)) s := by
  induction l generalizing i out with
  | nil => simp [joinLoop]
  | cons a l ih =>
    simp only [List.length_cons, joinLoop]
    have h0 := h 0 a rfl
    rw [Nat.add_zero] at h0
    rw [Cpp.bind_ok h0, ih (i + 1)]
    · simp
    · intro j b hb
      have := h (j + 1) b (by simpa using hb)
      rw [show i + 1 + j = i + (j + 1) from by omega]
      exact this

theorem intercalate_flat (t : List Nat) (ts : List (List Nat)) :
    comma.intercalate (t :: ts) = t ++ ts.flatMap fun u => comma ++ u := by
  induction ts generalizing t with
  | nil => simp [intercalate_one]
  | cons u ts ih => rw [intercalate_cons, ih]; simp

/-- formatting a range reads its elements once each, in order, and writes the bracketed list -/
theorem bracketed_run (txt : α → List Nat) (get : Nat → Cpp σ α) (l : List α) (i : Nat) (s : σ)
    (h : ∀ (j : Nat) (a : α), l[j]? = some a → get (i + j) s = .ok a s) :
    bracketed txt get i l.length [] s = .ok (listText (l.map txt)) s := by
  unfold bracketed
  cases l with
  | nil => rfl
  | cons a l =>
    have h0 := h 0 a rfl
    rw [Nat.add_zero] at h0
    have h1 : join txt get i (a :: l).length ([] ++ [91]) s
        = .ok ([91] ++ txt a ++ (l.flatMap fun b => comma ++ txt b)) s := by
      simp only [List.length_cons, join, List.nil_append]
      rw [Cpp.bind_ok h0, joinLoop_run txt get l (i + 1)]
      intro j b hb
      have := h (j + 1) b (by simpa using hb)
      rw [show i + 1 + j = i + (j + 1) from by omega]
      exact this
    rw [Cpp.bind_ok h1]
    simp only [listText, List.map_cons]
    have e := intercalate_flat (txt a) (l.map txt)
    unfold comma at e
    rw [e, List.flatMap_map]
    simp [comma]

theorem bracketed_ub (txt : α → List Nat) (get : Nat → Cpp σ α) {i n : Nat} {u : UB} {s : σ} (hn : 0 < n)
    (h : get i s = .ub u) : bracketed txt get i n [] s = .ub u := by
  unfold bracketed
  obtain ⟨m, rfl⟩ : ∃ m, n = m + 1 := ⟨n - 1, by omega⟩
  exact Cpp.bind_ub (Cpp.bind_ub h)

/-! ## the five sequence types -/

theorem read_cell {i : Nat} {m : Mem α} {a : α} (h : m.cells[i]? = some (.live a)) : Mem.read i m = .ok a m := by
  unfold Mem.read; rw [h]

theorem live_get {l : List α} {rest : List (Cell α)} {i : Nat} {a : α} (h : l[i]? = some a) :
    (l.map Cell.live ++ rest)[i]? = some (.live a) := by
  have hi := (List.getElem?_eq_some_iff.mp h).1
  rw [List.getElem?_append_left (by simpa using hi), List.getElem?_map, h]; rfl

theorem ofVector_run (txt : α → List Nat) {k : Kind} {s : VecS α} {l : List α} (h : VecS.Rep k s l) :
    ofVector txt s = .ok (listText (l.map txt)) s := by
  unfold ofVector
  rw [h.1]
  refine bracketed_run txt _ l 0 s (fun j a ha => ?_)
  rw [Nat.zero_add]
  rcases h.2 with ⟨_, _, _, h0⟩ | ⟨hp, _, rest, hc, _⟩
  · rw [h0] at ha; simp at ha
  · exact VecS.onMem_ok hp (read_cell (by rw [hc]; exact live_get ha))

theorem ofArrVec_run (txt : α → List Nat) {k : Kind} {n : Nat} {s : AvS α} {l : List α} (h : AvS.Rep k n s l) :
    ofArrVec txt s = .ok (listText (l.map txt)) s := by
  unfold ofArrVec
  rw [h.size]
  refine bracketed_run txt _ l 0 s (fun j a ha => ?_)
  rw [Nat.zero_add]
  obtain ⟨rest, hc, _, _⟩ := h.cells
  exact AvS.onM_ok (read_cell (by rw [hc]; exact live_get ha))

theorem ofArray_run (txt : α → List Nat) {n : Nat} {s : ArrS α} {l : List α} (h : ArrS.Rep n s (some l)) :
    ofArray txt s = .ok (listText (l.map txt)) s := by
  unfold ofArray
  rw [h.n_eq, ← h.len_eq]
  refine bracketed_run txt _ l 0 s (fun j a ha => ?_)
  rw [Nat.zero_add]
  exact ArrS.onM_ok (read_cell (by rw [h.cells_eq]; simpa using live_get (rest := []) ha))

open Cyclic in
theorem ofVcb_run (txt : α → List Nat) {s : VcbS α} {vs w : List α} (h : Vcb.Rep s vs w w) :
    ofVcb txt s = .ok (listText (w.map txt)) s := by
  unfold ofVcb Vcb.size
  rw [← h.llo]
  refine bracketed_run txt _ w 0 s (fun i a ha => ?_)
  have hi' := (List.getElem?_eq_some_iff.mp ha).1
  have hl := h.llo
  have hoff := h.off
  rw [Nat.zero_add]
  unfold Vcb.at_
  refine Vcb.onMem_ok (read_cell ?_)
  rw [h.cells]
  refine Vcb.getElem?_live ?_
  by_cases hc : s.off + i < s.n
  · rw [← ha, ← h.lo i (by omega)]
    unfold wrap; rw [if_pos hc]
  · rw [← ha, ← h.hi i (by omega)]
    unfold wrap; rw [if_neg hc]
    congr 1; omega

open Cyclic in
theorem ofVcq_run (txt : α → List Nat) {k : Kind} {s : VcqS α} {l : List α} (h : Vcq.Rep k s l) (hne : l ≠ []) :
    ofVcq txt s = .ok (listText (l.map txt)) s := by
  have hpos : 0 < l.length := List.length_pos_iff.mpr hne
  have hle := h.le
  have hrd := h.rd
  have hend : Vcq.endOff s - s.rd = l.length := by
    have hw := h.wr
    rw [h.size] at hw
    unfold wrap at hw
    unfold Vcq.endOff
    split at hw <;> split <;> omega
  unfold ofVcq
  rw [hend]
  exact bracketed_run txt _ l s.rd s (fun j a ha => Vcq.onMem_ok (read_cell (h.window j a ha)))

open Cyclic in
theorem ofVcq_empty (txt : α → List Nat) {s : VcqS α} (h : Vcq.Rep .managed s []) : ofVcq txt s = .ub .deadRead := by
  have hrd := h.rd
  have hpos := h.pos
  have hend : Vcq.endOff s - s.rd = s.n := by
    have hw := h.wr
    rw [h.size] at hw
    unfold wrap at hw
    simp at hw
    unfold Vcq.endOff
    rw [if_pos hrd] at hw
    rw [if_neg (by omega)]
    omega
  unfold ofVcq
  rw [hend]
  refine bracketed_ub txt _ hpos ?_
  have hraw := (h.free rfl s.rd hrd (by simp)).1
  unfold Vcq.onMem Mem.read
  simp only [hraw]
  rfl

/-! ## the text determines the element texts -/

theorem noSep_split {t u x y : List Nat} (ht : noSep t) (hu : noSep u)
    (h : t ++ comma ++ x = u ++ comma ++ y) : t = u ∧ x = y := by
  have key : ∀ {t u x y : List Nat}, noSep u → t ++ comma ++ x = u ++ comma ++ y → ∀ z, u = t ++ z → t = u ∧ x = y := by
    intro t u x y hu h z hz
    subst hz
    rw [List.append_assoc, List.append_assoc, List.append_assoc, List.append_cancel_left_eq] at h
    match z, h with
    | [], h => exact ⟨by simp, by simpa [comma] using h⟩
    | [a], h => simp [comma] at h
    | a :: b :: z, h =>
      simp only [comma, List.cons_append, List.nil_append, List.cons.injEq] at h
      exact absurd ⟨t, z, by simp [h.1, h.2.1]⟩ hu
  have h' := h
  rw [List.append_assoc, List.append_assoc] at h'
  rcases List.append_eq_append_iff.mp h' with ⟨z, hz, _⟩ | ⟨z, hz, _⟩
  · exact key hu h z hz
  · have := key ht h.symm z hz
    exact ⟨this.1.symm, this.2.symm⟩

theorem intercalate_inj : ∀ {ts us : List (List Nat)}, ts ≠ [] → us ≠ [] → (∀ t ∈ ts, noSep t) → (∀ u ∈ us, noSep u) →
    comma.intercalate ts = comma.intercalate us → ts = us
  | [], _, h, _, _, _, _ => absurd rfl h
  | _, [], _, h, _, _, _ => absurd rfl h
  | [t], [u], _, _, _, _, h => by rw [intercalate_one, intercalate_one] at h; rw [h]
  | [t], u :: u' :: us, _, _, ht, _, h => by
    rw [intercalate_one, intercalate_cons] at h
    exact absurd ⟨u, comma.intercalate (u' :: us), h.symm⟩ (ht t (by simp))
  | t :: t' :: ts, [u], _, _, _, hu, h => by
    rw [intercalate_one, intercalate_cons] at h
    exact absurd ⟨t, comma.intercalate (t' :: ts), h⟩ (hu u (by simp))
  | t :: t' :: ts, u :: u' :: us, _, _, ht, hu, h => by
    rw [intercalate_cons, intercalate_cons] at h
    obtain ⟨h1, h2⟩ := noSep_split (ht t (by simp)) (hu u (by simp)) h
    have := intercalate_inj (by simp) (by simp) (fun x hx => ht x (List.mem_cons_of_mem _ hx))
      (fun x hx => hu x (List.mem_cons_of_mem _ hx)) h2
    rw [h1, this]

end Format
end Efp
