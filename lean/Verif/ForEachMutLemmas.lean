import Verif.PreludeRuns

/-!
# A mutating iteration that client code ends by throwing
-/

namespace Efp
namespace Prelude

variable {α ω : Type}

theorem mutLoop_thrown (f : Nat → List α → Cpp ω (List α)) (ass : List (Inp α)) (m lo : Nat)
    (hlo : ∀ as ∈ ass, lo + m ≤ as.vals.length) (cur : List (Inp α)) (w : ω) (yss : List (List α))
    (hy : yss.length = lo) (ht : cur.map Inp.ty = ass.map Inp.ty)
    (hvv : cur.map Inp.vals = overwrite yss (ass.map Inp.vals)) {ass' : List (Inp α)} {w' : ω}
    (h : forUp (forEachIxMutBody f) lo m (cur, w) = .thrown (ass', w')) :
    ∃ j zss w1, j < m ∧ (List.range' lo j).mapM (fun i => f i (row i (ass.map Inp.vals))) w = .ok zss w1 ∧
      f (lo + j) (row (lo + j) (ass.map Inp.vals)) w1 = .thrown w' ∧ ass'.map Inp.ty = ass.map Inp.ty ∧
      ass'.map Inp.vals = overwrite (yss ++ zss) (ass.map Inp.vals) := by
  induction m generalizing lo cur w yss with
  | zero => cases h
  | succ m ih =>
    have hcur : ∀ as ∈ cur, lo < as.vals.length := by
      intro as ha
      obtain ⟨j, hj, he⟩ := List.getElem_of_mem ha
      have h1 : (cur.map Inp.vals)[j]? = some as.vals := by simp [hj, he]
      have h2 := overwrite_length yss (ass.map Inp.vals) j
      rw [← hvv, h1] at h2
      cases h3 : (ass.map Inp.vals)[j]? with
      | none => rw [h3] at h2; simp at h2
      | some l =>
        rw [h3] at h2
        simp at h2 h3
        obtain ⟨b, hb, rfl⟩ := h3
        have := hlo b (List.mem_of_getElem? hb)
        omega
    have hrow : row lo (cur.map Inp.vals) = row lo (ass.map Inp.vals) := by
      rw [hvv, row_overwrite _ _ _ (by omega)]
    have hbody : forEachIxMutBody f lo (cur, w) =
        (do let ys ← onW2 (f lo (row lo (ass.map Inp.vals)))
            Cpp.modify (fun t : List (Inp α) × ω => (writeBack lo ys t.1, t.2))) (cur, w) := by
      unfold forEachIxMutBody forEachMutBody
      simp only
      rw [nths_ok hcur, pure_bind, hrow]
    rw [forUp_succ] at h
    cases hs : f lo (row lo (ass.map Inp.vals)) w with
    | ok ys w1 =>
      have h1 : onW2 (f lo (row lo (ass.map Inp.vals))) (cur, w) = .ok ys (cur, w1) := by
        unfold onW2; simp only [hs]; rfl
      have h2 : forEachIxMutBody f lo (cur, w) = .ok () (writeBack lo ys cur, w1) := by
        rw [hbody, Cpp.bind_ok h1]
      rw [Cpp.bind_ok h2] at h
      obtain ⟨j, zss, w2, g1, g2, g3, g4, g5⟩ := ih (lo + 1) (fun as ha => by have := hlo as ha; omega) (writeBack lo ys cur) w1
        (yss ++ [ys]) (by simp [hy]) ((writeBack_ty lo ys cur).trans ht)
        (by rw [writeBack_vals, hvv, ← hy, overwrite_snoc]) h
      refine ⟨j + 1, ys :: zss, w2, by omega, ?_, ?_, g4, by simpa using g5⟩
      · rw [List.range'_succ, List.mapM_cons, Cpp.bind_ok hs, Cpp.bind_ok g2]; rfl
      · rw [show lo + (j + 1) = lo + 1 + j by omega]; exact g3
    | thrown w1 =>
      have h1 : onW2 (f lo (row lo (ass.map Inp.vals))) (cur, w) = .thrown (cur, w1) := by
        unfold onW2; simp only [hs]; rfl
      have h2 : forEachIxMutBody f lo (cur, w) = .thrown (cur, w1) := by
        rw [hbody, Cpp.bind_thrown h1]
      rw [Cpp.bind_thrown h2] at h
      cases h
      exact ⟨0, [], w, by omega, rfl, hs, ht, by simpa using hvv⟩
    | ub u =>
      have h1 : onW2 (f lo (row lo (ass.map Inp.vals))) (cur, w) = .ub u := by
        unfold onW2; simp only [hs]; rfl
      have h2 : forEachIxMutBody f lo (cur, w) = .ub u := by
        rw [hbody, Cpp.bind_ub h1]
      rw [Cpp.bind_ub h2] at h
      cases h

end Prelude
end Efp
