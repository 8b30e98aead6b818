import Verif.Spec.Pipeline
import Verif.PreludeRuns
import Verif.ViewLemmas

/-! Lemmas about expressions built from the list functions. -/

namespace Efp
namespace Prelude

open Spec (pipeList pipeTy pipeOk sizesFit viewed isName letLists letsOk Named)

variable {α ω : Type}

theorem valid_of {t : SeqTy} {l : List α} {b : Nat} {nl : Bool} (hh : Holds t l.length) (hs : sizesFit t l)
    (hn : nl = true → t = .vector ∧ l = []) : (⟨t, l, b, nl⟩ : Inp α).valid := by
  refine ⟨?_, hn⟩
  obtain ⟨h1, h2⟩ := hs
  cases t with
  | array m => exact ⟨hh, h2⟩
  | arrVec m => exact ⟨hh, h2⟩
  | vector => exact h1

theorem Res.asArg_run {r : Res α} {bs : List α} {t : SeqTy} (hd : Done .trivial r bs) (ht : r.ty = t)
    (hh : Holds t bs.length) (hs : sizesFit t bs) (n : Nat) (s : ω) :
    ∃ as, r.asArg n s = .ok (as, n + 1) s ∧ as.valid ∧ as.vals = bs ∧ as.ty = t ∧ as.blk = n := by
  refine ⟨⟨r.ty, bs, n, r.isNull⟩, ?_, ?_, rfl, ht, rfl⟩
  · unfold Res.asArg; rw [hd.contents]; rfl
  · subst ht
    refine valid_of hh hs ?_
    intro hn
    cases r with
    | array a => simp [Res.isNull] at hn
    | arrVec a => simp [Res.isNull] at hn
    | vector a =>
      refine ⟨rfl, ?_⟩
      have hp : a.ptr = .null := by simpa [Res.isNull] using hn
      obtain ⟨_, h | h⟩ := (hd : VecS.Rep _ a bs)
      · exact h.2.2.2
      · rw [hp] at h; cases h.1

theorem View.asArg_run {v : View α} {as : Inp α} {l : List α} {t : SeqTy} {off : Nat} (ha : as.valid)
    (hp : v.ptr = addPtr (data as) off) (hc : (v.contents : Cpp ω (List α)) = pure l) (ht : v.ty = t)
    (hl : as.vals = [] → l = []) (hh : Holds t l.length) (hs : sizesFit t l) (n : Nat) (s : ω) :
    ∃ bs, v.asArg n s = .ok (bs, n) s ∧ bs.valid ∧ bs.vals = l ∧ bs.ty = t ∧ (l ≠ [] → bs.blk = as.blk) := by
  refine ⟨⟨v.ty, l, (v.ptr.map Loc.blk).getD 0, v.ptr.isNone && v.ty == .vector⟩, ?_, ?_, rfl, ht, ?_⟩
  · unfold View.asArg; rw [hc]; rfl
  · subst ht
    refine valid_of hh hs ?_
    intro hn
    simp only [Bool.and_eq_true, Option.isNone_iff_eq_none, beq_iff_eq] at hn
    refine ⟨hn.2, hl ?_⟩
    have : data as = none := by
      have := hn.1
      rw [hp] at this
      unfold addPtr at this
      simpa using this
    exact (data_null ha this).2
  · intro hne
    cases hd : data as with
    | none => exact absurd (hl (data_null ha hd).2) hne
    | some loc =>
      rw [hp, hd]
      unfold data at hd
      split at hd
      · cases hd
      · cases hd; rfl

theorem zip_rows (f : α → α → α) (d : α) (a b : List α) :
    (rows [a, b]).map (binary f d) = List.zipWith f a b := by
  apply List.ext_getElem?
  intro i
  simp only [rows, shortest, List.map_map, List.getElem?_map, List.getElem?_zipWith]
  by_cases hi : i < min a.length b.length
  · rw [List.getElem?_range hi]
    have h1 : i < a.length := by omega
    have h2 : i < b.length := by omega
    simp [row, List.getElem?_eq_getElem h1, List.getElem?_eq_getElem h2, binary]
  · rw [List.getElem?_eq_none (by simpa using by omega)]
    by_cases h1 : i < a.length
    · have h2 : ¬ i < b.length := by omega
      rw [List.getElem?_eq_none (l := b) (by omega)]
      cases a[i]? <;> rfl
    · rw [List.getElem?_eq_none (l := a) (by omega)]
      rfl

theorem one_rows (f : α → α) (d : α) (a : List α) : (rows [a]).map (unary1 f d) = a.map f := by
  rw [row_singleton, List.map_map]; rfl

theorem mapM_pureC {γ β : Type} (f : γ → β) (l : List γ) :
    (l.mapM (fun x => pure (f x)) : Cpp ω (List β)) = pure (l.map f) := by
  induction l with
  | nil => rfl
  | cons x l ih => rw [List.mapM_cons, ih]; rfl

theorem fits_holds {t : SeqTy} {m : Nat} (h : Fits .trivial t m) : Holds t m := by
  cases t with
  | array => exact Eq.symm h
  | arrVec => exact h.1
  | vector => trivial

/-- what evaluation gives -/
def Evals (d : α) (env : List (Option (Inp α))) (ts : List SeqTy) (ls : List (List α)) (e : Pipe α) (n : Nat) (s : ω) : Prop :=
  ∃ as n', e.eval d env n s = .ok (as, n') s ∧ as.valid ∧ as.vals = pipeList ls e ∧ as.ty = pipeTy ts e ∧ n ≤ n' ∧
    (as.vals ≠ [] → if isName (viewed e) = true then as.blk < env.length else n ≤ as.blk)

theorem bindOk {σ β γ : Type} {x : Cpp σ β} {f : β → Cpp σ γ} {s s' : σ} {b : β} (h : x s = .ok b s') :
    (x >>= f) s = f b s' := by
  show Cpp.bind x f s = _
  unfold Cpp.bind
  rw [h]

theorem eval_all (d : α) {env : List (Option (Inp α))} {ts : List SeqTy} {ls : List (List α)} (hE : Named env ts ls)
    (e : Pipe α) (he : pipeOk ts ls e) (n : Nat) (s : ω) : Evals d env ts ls e n s := by
  induction e generalizing n with
  | var i =>
    have hi : i < env.length := by rw [← hE.lists]; exact he
    obtain ⟨as, h1, h2, h3, h4, h5⟩ := hE.holds i hi
    refine ⟨as, n, ?_, h2, ?_, ?_, Nat.le_refl _, fun hne => ?_⟩
    · simp only [Pipe.eval]
      rw [List.getElem?_eq_getElem hi, h1]; rfl
    · simp [pipeList, List.getD_eq_getElem?_getD, h5]
    · simp [pipeTy, List.getD_eq_getElem?_getD, h4]
    · simpa [viewed, isName] using h3 hne
  | map f e ih =>
    obtain ⟨as, n', h1, h2, h3, h4, h5, _⟩ := ih he.1 n
    have hg := map_gives (k := .trivial) d (fun xs => (pure (unary1 f d xs) : Cpp ω α)) (ass := [as]) (by simp)
      (by simpa using h2) (.inl rfl) s
    rw [mapM_pureC, List.map_cons, List.map_nil, List.map_cons, List.map_nil, one_rows, h3, h4] at hg
    obtain ⟨r, g1, g2, g3⟩ := hg
    have hh : Holds (pipeTy ts (.map f e)) (pipeList ls (.map f e)).length := by
      have := fits_holds (naryTy_fits (k := .trivial) (ass := [as]) (by simp) (by simpa using h2) (.inl rfl))
      simp only [List.map_cons, List.map_nil, h4] at this
      rw [minLength_eq (by simp) (by simpa using h2)] at this
      simpa [pipeList, pipeTy, shortest, h3] using this
    obtain ⟨bs, k1, k2, k3, k4, k5⟩ := Res.asArg_run (ω := ω) g2 g3 hh he.2 n' s
    refine ⟨bs, n' + 1, ?_, k2, k3, k4, by omega, fun _ => ?_⟩
    · simp only [Pipe.eval]
      rw [bindOk h1]
      simp only []
      rw [bindOk g1]
      exact k1
    · simp only [viewed, isName, Bool.false_eq_true, if_false]; omega
  | zip f a b iha ihb =>
    obtain ⟨as, n1, a1, a2, a3, a4, a5, _⟩ := iha he.1 n
    obtain ⟨bs, n2, b1, b2, b3, b4, b5, _⟩ := ihb he.2.1 n1
    have hval : ∀ x ∈ [as, bs], x.valid := by
      intro x hx
      rcases List.mem_cons.1 hx with rfl | hx
      · exact a2
      · simp at hx; subst hx; exact b2
    have hg := map_gives (k := .trivial) d (fun xs => (pure (binary f d xs) : Cpp ω α)) (ass := [as, bs]) (by simp)
      hval (.inl rfl) s
    rw [mapM_pureC] at hg
    simp only [List.map_cons, List.map_nil] at hg
    rw [zip_rows, a3, a4, b3, b4] at hg
    obtain ⟨r, g1, g2, g3⟩ := hg
    have hh : Holds (pipeTy ts (.zip f a b)) (pipeList ls (.zip f a b)).length := by
      have := fits_holds (naryTy_fits (k := .trivial) (ass := [as, bs]) (by simp) hval (.inl rfl))
      rw [minLength_eq (by simp) hval] at this
      simp only [List.map_cons, List.map_nil, a4, b4] at this
      simpa [pipeList, pipeTy, shortest, a3, b3] using this
    obtain ⟨cs, k1, k2, k3, k4, k5⟩ := Res.asArg_run (ω := ω) g2 g3 hh he.2.2 n2 s
    refine ⟨cs, n2 + 1, ?_, k2, k3, k4, by omega, fun _ => ?_⟩
    · simp only [Pipe.eval]
      rw [bindOk a1]
      simp only []
      rw [bindOk b1]
      simp only []
      rw [bindOk g1]
      exact k1
    · simp only [viewed, isName, Bool.false_eq_true, if_false]; omega
  | filter p e ih =>
    obtain ⟨as, n', h1, h2, h3, h4, h5, _⟩ := ih he.1 n
    have hg := filter_gives (k := .trivial) h2 d (fun a => (pure (p a) : Cpp ω Bool)) s
    rw [filterCalls_pure, h3, h4] at hg
    obtain ⟨r, g1, g2, g3⟩ := hg
    have hh : Holds (pipeTy ts (.filter p e)) (pipeList ls (.filter p e)).length := by
      have h := filterTy_ok h2
      have hl := List.length_filter_le p as.vals
      rw [h3] at hl
      rw [h4, h3] at h
      simp only [pipeTy, pipeList]
      cases ht : filterTy (pipeTy ts e) with
      | array m => exact absurd ht (h.1 m)
      | arrVec m => have := h.2 m ht; show _ ≤ m; omega
      | vector => trivial
    obtain ⟨bs, k1, k2, k3, k4, k5⟩ := Res.asArg_run (ω := ω) g2 g3 hh he.2.2 n' s
    refine ⟨bs, n' + 1, ?_, k2, k3, k4, by omega, fun _ => ?_⟩
    · simp only [Pipe.eval]
      rw [bindOk h1]
      simp only []
      rw [bindOk g1]
      exact k1
    · simp only [viewed, isName, Bool.false_eq_true, if_false]; omega
  | append a b iha ihb =>
    obtain ⟨as, n1, a1, a2, a3, a4, a5, _⟩ := iha he.1 n
    obtain ⟨bs, n2, b1, b2, b3, b4, b5, _⟩ := ihb he.2.1 n1
    have hval : ∀ x ∈ [as, bs], x.valid := by
      intro x hx
      rcases List.mem_cons.1 hx with rfl | hx
      · exact a2
      · simp at hx; subst hx; exact b2
    have hg := append_gives (k := .trivial) d (List.Perm.refl [as, bs]) hval (.inl rfl) s
    simp only [List.map_cons, List.map_nil, List.flatten_cons, List.flatten_nil, List.append_nil, a3, a4, b3, b4] at hg
    obtain ⟨r, g1, g2, g3⟩ := hg
    have hh : Holds (pipeTy ts (.append a b)) (pipeList ls (.append a b)).length := by
      have := fits_holds (appendTy_fits (k := .trivial) hval (.inl rfl))
      rw [sum_eq] at this
      simp only [List.map_cons, List.map_nil, a4, b4, List.sum_cons, List.sum_nil, Nat.add_zero, length, a3, b3] at this
      simpa [pipeList, pipeTy] using this
    obtain ⟨cs, k1, k2, k3, k4, k5⟩ := Res.asArg_run (ω := ω) g2 g3 hh he.2.2 n2 s
    refine ⟨cs, n2 + 1, ?_, k2, k3, k4, by omega, fun _ => ?_⟩
    · simp only [Pipe.eval]
      rw [bindOk a1]
      simp only []
      rw [bindOk b1]
      simp only []
      rw [bindOk g1]
      exact k1
    · simp only [viewed, isName, Bool.false_eq_true, if_false]; omega
  | fromFunction m f =>
    have hg := fromFunction_gives (k := .trivial) d m (fun i => (pure (f i) : Cpp ω α)) (.inl rfl) s
    rw [mapM_pureC] at hg
    obtain ⟨r, g1, g2, g3⟩ := hg
    have hh : Holds (pipeTy ts (.fromFunction m f)) (pipeList ls (.fromFunction m f)).length := by
      cases m <;> simp [pipeTy, pipeList, fromFunctionTy, Holds, NArg.val]
    obtain ⟨bs, k1, k2, k3, k4, k5⟩ := Res.asArg_run (ω := ω) g2 g3 hh he n s
    refine ⟨bs, n + 1, ?_, k2, k3, k4, by omega, fun _ => ?_⟩
    · simp only [Pipe.eval]
      rw [bindOk g1]
      exact k1
    · simp only [viewed, isName, Bool.false_eq_true, if_false]; omega
  | take m e ih =>
    obtain ⟨as, n', h1, h2, h3, h4, h5, h6⟩ := ih he.1 n
    obtain ⟨v, v1, v2, v3, v4, v5⟩ := take_run (ω := ω) h2 m s
    rw [h4] at v2
    rw [h3] at v5
    have hh : Holds (pipeTy ts (.take m e)) (pipeList ls (.take m e)).length := by
      have := takeTy_holds h2 m
      rw [h3, h4] at this
      simpa [pipeTy, pipeList] using this
    obtain ⟨bs, k1, k2, k3, k4, k5⟩ := View.asArg_run (ω := ω) (off := 0) (l := (pipeList ls e).take m.val)
      h2 (by rw [addPtr_zero]; exact v4) v5 v2 (by rw [h3]; intro h; rw [h]; simp) hh he.2 n' s
    refine ⟨bs, n', ?_, k2, k3, k4, h5, fun hne => ?_⟩
    · simp only [Pipe.eval]
      rw [bindOk h1]
      simp only []
      rw [bindOk v1]
      exact k1
    · rw [k3] at hne
      rw [k5 hne]
      exact h6 (by rw [h3]; intro h; rw [h] at hne; simp at hne)
  | drop m e ih =>
    obtain ⟨as, n', h1, h2, h3, h4, h5, h6⟩ := ih he.1 n
    obtain ⟨v, v1, v2, v3, v4, v5⟩ := drop_run (ω := ω) h2 m s
    rw [h4] at v2
    rw [h3] at v5
    have hh : Holds (pipeTy ts (.drop m e)) (pipeList ls (.drop m e)).length := by
      have := dropTy_holds h2 m
      rw [h3, h4] at this
      simpa [pipeTy, pipeList] using this
    obtain ⟨bs, k1, k2, k3, k4, k5⟩ := View.asArg_run (ω := ω) (l := (pipeList ls e).drop m.val)
      h2 v4 v5 v2 (by rw [h3]; intro h; rw [h]; simp) hh he.2 n' s
    refine ⟨bs, n', ?_, k2, k3, k4, h5, fun hne => ?_⟩
    · simp only [Pipe.eval]
      rw [bindOk h1]
      simp only []
      rw [bindOk v1]
      exact k1
    · rw [k3] at hne
      rw [k5 hne]
      exact h6 (by rw [h3]; intro h; rw [h] at hne; simp at hne)
  | tail e ih =>
    obtain ⟨as, n', h1, h2, h3, h4, h5, h6⟩ := ih he.1 n
    have hne0 : as.vals ≠ [] := by rw [h3]; exact he.2.1
    have hpos : 0 < as.vals.length := List.length_pos_iff.2 hne0
    obtain ⟨v, v1, v2, v3, v4, v5⟩ := mkView_run (ω := ω) h2 1 (as.vals.length - 1) (tailTy_holds h2 hne0) (by omega) s
    rw [h4] at v2
    have hl : (as.vals.drop 1).take (as.vals.length - 1) = (pipeList ls e).tail := by
      rw [List.take_of_length_le (by simp), h3]; simp
    rw [hl] at v5
    have hh : Holds (pipeTy ts (.tail e)) (pipeList ls (.tail e)).length := by
      have := tailTy_holds h2 hne0
      rw [h3, h4] at this
      simpa [pipeTy, pipeList] using this
    obtain ⟨bs, k1, k2, k3, k4, k5⟩ := View.asArg_run (ω := ω) (l := (pipeList ls e).tail)
      h2 v4 v5 v2 (by rw [h3]; intro h; rw [h]; rfl) hh he.2.2 n' s
    refine ⟨bs, n', ?_, k2, k3, k4, h5, fun hne => ?_⟩
    · simp only [Pipe.eval]
      rw [bindOk h1]
      simp only []
      have v1' : Prelude.tail as s = .ok v s := by
        unfold Prelude.tail
        rw [if_neg (by unfold length; omega)]
        exact v1
      rw [bindOk v1']
      exact k1
    · rw [k3] at hne
      rw [k5 hne]
      exact h6 hne0
  | init e ih =>
    obtain ⟨as, n', h1, h2, h3, h4, h5, h6⟩ := ih he.1 n
    have hne0 : as.vals ≠ [] := by rw [h3]; exact he.2.1
    have hpos : 0 < as.vals.length := List.length_pos_iff.2 hne0
    obtain ⟨v, v1, v2, v3, v4, v5⟩ := mkView_run (ω := ω) h2 0 (as.vals.length - 1) (tailTy_holds h2 hne0) (by omega) s
    rw [h4] at v2
    have hl : (as.vals.drop 0).take (as.vals.length - 1) = (pipeList ls e).dropLast := by
      rw [List.dropLast_eq_take, h3]; simp
    rw [hl] at v5
    have hh : Holds (pipeTy ts (.init e)) (pipeList ls (.init e)).length := by
      have := tailTy_holds h2 hne0
      rw [h3, h4] at this
      simpa [pipeTy, pipeList] using this
    obtain ⟨bs, k1, k2, k3, k4, k5⟩ := View.asArg_run (ω := ω) (l := (pipeList ls e).dropLast)
      h2 v4 v5 v2 (by rw [h3]; intro h; rw [h]; rfl) hh he.2.2 n' s
    refine ⟨bs, n', ?_, k2, k3, k4, h5, fun hne => ?_⟩
    · simp only [Pipe.eval]
      rw [bindOk h1]
      simp only []
      have v1' : Prelude.init as s = .ok v s := by
        unfold Prelude.init
        rw [if_neg (by unfold length; omega)]
        rw [addPtr_zero] at v1
        exact v1
      rw [bindOk v1']
      exact k1
    · rw [k3] at hne
      rw [k5 hne]
      exact h6 hne0

/-- a definition: the new name holds the list, unless it is a view of a temporary -/
theorem bindTo_run (d : α) {env : List (Option (Inp α))} {ts : List SeqTy} {ls : List (List α)} (hE : Named env ts ls)
    (e : Pipe α) (he : pipeOk ts ls e) (s : ω) :
    (e.owns = true ∨ isName (viewed e) = true →
      ∃ as, e.bindTo d env s = .ok (some as) s ∧ as.valid ∧ (as.vals ≠ [] → as.blk < env.length + 1) ∧ as.ty = pipeTy ts e ∧
        as.vals = pipeList ls e) ∧
    (e.owns = false → isName (viewed e) = false → pipeList ls e ≠ [] → e.bindTo d env s = .ok none s) := by
  obtain ⟨as, n', h1, h2, h3, h4, h5, h6⟩ := eval_all d hE e he env.length s
  constructor
  · intro hcase
    by_cases ho : e.owns = true
    · refine ⟨{ as with blk := env.length }, ?_, h2, fun _ => Nat.lt_succ_self _, h4, h3⟩
      unfold Pipe.bindTo
      rw [bindOk h1]
      simp only [ho, if_true]; rfl
    · have hv : isName (viewed e) = true := hcase.resolve_left ho
      by_cases hnil : as.vals = []
      · refine ⟨as, ?_, h2, fun h => absurd hnil h, h4, h3⟩
        unfold Pipe.bindTo
        rw [bindOk h1]
        simp only [ho, Bool.false_eq_true, if_false, hnil, List.isEmpty_nil, Bool.true_or, if_true]; rfl
      · have hb : as.blk < env.length := by have := h6 hnil; rwa [if_pos hv] at this
        refine ⟨as, ?_, h2, fun _ => by omega, h4, h3⟩
        unfold Pipe.bindTo
        rw [bindOk h1]
        simp only [ho, Bool.false_eq_true, if_false, hb, decide_true, Bool.or_true, if_true]; rfl
  · intro ho hv hne
    rw [← h3] at hne
    have hb : env.length ≤ as.blk := by have := h6 hne; rwa [if_neg (by simp [hv])] at this
    unfold Pipe.bindTo
    rw [bindOk h1]
    have : as.vals.isEmpty = false := by simpa using hne
    simp only [ho, Bool.false_eq_true, if_false, this, Bool.false_or, decide_eq_true_eq]
    rw [if_neg (by omega)]; rfl

theorem Named.snoc {env : List (Option (Inp α))} {ts : List SeqTy} {ls : List (List α)} (hE : Named env ts ls) {as : Inp α}
    (hv : as.valid) (hb : as.vals ≠ [] → as.blk < env.length + 1) : Named (env ++ [some as]) (ts ++ [as.ty]) (ls ++ [as.vals]) := by
  refine ⟨by simp [hE.types], by simp [hE.lists], fun i hi => ?_⟩
  have h1 := hE.types
  have h2 := hE.lists
  simp only [List.length_append, List.length_cons, List.length_nil] at hi ⊢
  by_cases hlt : i < env.length
  · obtain ⟨bs, k1, k2, k3, k4, k5⟩ := hE.holds i hlt
    refine ⟨bs, by rw [List.getElem_append_left hlt]; exact k1, k2, fun h => by have := k3 h; omega, ?_, ?_⟩
    · rw [List.getElem?_append_left (by omega)]; exact k4
    · rw [List.getElem?_append_left (by omega)]; exact k5
  · have hi' : i = env.length := by omega
    subst hi'
    refine ⟨as, by simp, hv, hb, ?_, ?_⟩
    · rw [← h1]; simp
    · rw [← h2]; simp

theorem runAll_run (d : α) (es : List (Pipe α)) {env : List (Option (Inp α))} {ts : List SeqTy} {ls : List (List α)}
    (hE : Named env ts ls) (he : letsOk ts ls es) (s : ω) :
    ∃ env' ts', Pipe.runAll d es env s = .ok env' s ∧ Named env' ts' (letLists ls es) := by
  induction es generalizing env ts ls with
  | nil => exact ⟨env, ts, rfl, hE⟩
  | cons e es ih =>
    obtain ⟨h1, h2, h3⟩ := he
    obtain ⟨as, k1, k2, k3, k4, k5⟩ := (bindTo_run d hE e h1 s).1 h2
    have hE' := Named.snoc hE k2 k3
    rw [k4, k5] at hE'
    obtain ⟨env', ts', g1, g2⟩ := ih hE' h3
    refine ⟨env', ts', ?_, g2⟩
    simp only [Pipe.runAll]
    rw [bindOk k1]
    exact g1

theorem readName_run {env : List (Option (Inp α))} {ts : List SeqTy} {ls : List (List α)} (hE : Named env ts ls) {i : Nat}
    {l : List α} (hi : ls[i]? = some l) (s : ω) : Pipe.readName env i s = .ok l s := by
  have hlt : i < env.length := by
    rw [← hE.lists]
    exact (List.getElem?_eq_some_iff.1 hi).1
  obtain ⟨as, k1, _, _, _, k5⟩ := hE.holds i hlt
  unfold Pipe.readName
  rw [List.getElem?_eq_getElem hlt, k1]
  rw [k5] at hi
  cases hi
  rfl

end Prelude
end Efp
