import Verif.Meta
import Verif.Callable
import Verif.EnumLemmas
import Verif.Spec.Meta

/-!
# Lemmas about the model of meta.hpp, `compose` and `func_ptr`
-/

namespace Efp.Meta

open Efp.Spec.Meta

variable {ν β σ : Type}

theorem makeIndexSequence_eq (n : Nat) (ns : List Nat) :
    makeIndexSequence n ns = List.range n ++ ns := by
  induction n generalizing ns with
  | zero => simp [makeIndexSequence]
  | succ n ih => simp [makeIndexSequence, ih, List.range_succ]

theorem mkTuple_eq (as : List ν) : mkTuple as = (List.range as.length).zip as := by
  simp [mkTuple, makeIndexSequence_eq]

theorem find_zip (as : List ν) (k i : Nat) :
    (((List.range' k as.length).zip as).find? fun l => l.1 == k + i).map (·.2) = as[i]? := by
  induction as generalizing k i with
  | nil => simp
  | cons a as ih =>
    simp only [List.length_cons, List.range'_succ, List.zip_cons_cons, List.find?_cons]
    cases i with
    | zero => simp
    | succ i =>
      have h : (k == k + (i + 1)) = false := by simp
      rw [h]
      have e : k + (i + 1) = k + 1 + i := by omega
      simp only [e]
      rw [ih (k + 1) i]
      simp

theorem tget_mkTuple (as : List ν) (i : Nat) : tget i (mkTuple as) = as[i]? := by
  have := find_zip as 0 i
  rw [mkTuple_eq, List.range_eq_range']
  simpa [tget] using this

theorem map_zip (as : List ν) (k i : Nat) (x : ν) :
    ((List.range' k as.length).zip as).map (fun l => if l.1 == k + i then (l.1, x) else l)
      = (List.range' k as.length).zip (as.set i x) := by
  induction as generalizing k i with
  | nil => simp
  | cons a as ih =>
    cases i with
    | zero =>
      simp only [List.length_cons, List.range'_succ, List.zip_cons_cons, List.map_cons, Nat.add_zero,
        beq_self_eq_true, if_true, List.set_cons_zero, List.cons.injEq, true_and]
      have : ∀ l ∈ (List.range' (k + 1) as.length).zip as, (if l.1 == k then (l.1, x) else l) = l := by
        intro l hl
        have := (List.of_mem_zip hl).1
        rw [List.mem_range'_1] at this
        have : ¬ l.1 = k := by omega
        simp [this]
      exact (List.map_congr_left this).trans (List.map_id _)
    | succ i =>
      simp only [List.length_cons, List.range'_succ, List.zip_cons_cons, List.map_cons,
        List.set_cons_succ, List.cons.injEq]
      have h : (k == k + (i + 1)) = false := by simp
      rw [h]
      have e : k + (i + 1) = k + 1 + i := by omega
      simp only [e, Bool.false_eq_true, if_false, true_and]
      exact ih (k + 1) i

theorem tset_mkTuple (as : List ν) (i : Nat) (x : ν) :
    tset i x (mkTuple as) = mkTuple (as.set i x) := by
  have := map_zip as 0 i x
  rw [mkTuple_eq, mkTuple_eq, List.length_set, List.range_eq_range']
  simpa [tset] using this

theorem compare_eq (eq ne : Nat → ν → ν → Bool) (hne : ∀ i x y, ne i x y = !eq i x y)
    (as bs : List ν) (n : Nat) (ha : n ≤ as.length) (hb : n ≤ bs.length) :
    ∃ r, compare eq ne n (mkTuple as) (mkTuple bs) = some r
      ∧ (r = true ↔ ∀ (i : Nat) (x y : ν), i < n → as[i]? = some x → bs[i]? = some y → eq i x y = true) := by
  match n with
  | 0 => exact ⟨true, rfl, by simp⟩
  | 1 =>
    obtain ⟨x, hx⟩ : ∃ x, as[0]? = some x := ⟨as[0], List.getElem?_eq_getElem ha⟩
    obtain ⟨y, hy⟩ : ∃ y, bs[0]? = some y := ⟨bs[0], List.getElem?_eq_getElem hb⟩
    refine ⟨eq 0 x y, by simp [compare, tget_mkTuple, hx, hy], ?_⟩
    constructor
    · intro h i x' y' hi hx' hy'
      have : i = 0 := by omega
      subst this
      rw [hx] at hx'; rw [hy] at hy'
      cases hx'; cases hy'
      exact h
    · intro h
      exact h 0 x y (by omega) hx hy
  | i + 2 =>
    obtain ⟨x, hx⟩ : ∃ x, as[i + 1]? = some x := ⟨as[i + 1], List.getElem?_eq_getElem (by omega)⟩
    obtain ⟨y, hy⟩ : ∃ y, bs[i + 1]? = some y := ⟨bs[i + 1], List.getElem?_eq_getElem (by omega)⟩
    obtain ⟨r, hr, hiff⟩ := compare_eq eq ne hne as bs (i + 1) (by omega) (by omega)
    by_cases h : eq (i + 1) x y = true
    · refine ⟨r, ?_, ?_⟩
      · rw [compare]
        simp only [tget_mkTuple, hx, hy, hne, h]
        exact hr
      · rw [hiff]
        constructor
        · intro hall j x' y' hj hx' hy'
          by_cases hj' : j = i + 1
          · subst hj'
            rw [hx] at hx'; rw [hy] at hy'
            cases hx'; cases hy'
            exact h
          · exact hall j x' y' (by omega) hx' hy'
        · intro hall j x' y' hj hx' hy'
          exact hall j x' y' (by omega) hx' hy'
    · refine ⟨false, ?_, ?_⟩
      · rw [compare]
        simp [tget_mkTuple, hx, hy, hne, h]
      · constructor
        · intro hf; cases hf
        · intro hall
          exact absurd (hall (i + 1) x y (by omega) hx hy) h

theorem mapM_get (as : List ν) :
    (List.range as.length).mapM (fun i => tget i (mkTuple as)) = some as := by
  have key : ∀ (l : List Nat), (∀ i ∈ l, i < as.length) →
      l.mapM (fun i => tget i (mkTuple as)) = some (l.filterMap (fun i => as[i]?)) := by
    intro l
    induction l with
    | nil => intro; rfl
    | cons i l ih =>
      intro h
      have hi := h i (by simp)
      simp only [List.mapM_cons, tget_mkTuple, List.getElem?_eq_getElem hi, List.filterMap_cons] at ih ⊢
      rw [ih (fun j hj => h j (by simp [hj]))]
      rfl
  rw [key _ (by simp)]
  congr 1
  apply List.ext_getElem?
  intro i
  have : (List.range as.length).filterMap (fun i => as[i]?)
      = (List.range as.length).pmap (fun i h => as[i]'h) (by simp) := by
    have gen : ∀ (l : List Nat) (h : ∀ i ∈ l, i < as.length),
        l.filterMap (fun i => as[i]?) = l.pmap (fun i h => as[i]'h) h := by
      intro l h
      induction l with
      | nil => rfl
      | cons i l ih =>
        have hi := h i (by simp)
        simp only [List.filterMap_cons, List.getElem?_eq_getElem hi, List.pmap_cons]
        rw [ih (fun j hj => h j (by simp [hj]))]
    exact gen _ _
  rw [this]
  by_cases hi : i < as.length
  · rw [List.getElem?_pmap]
    simp [hi]
  · have h1 : as[i]? = none := List.getElem?_eq_none (by omega)
    rw [h1, List.getElem?_eq_none]
    simp; omega

/-! ## folds -/

theorem foldl_pure (f : β → ν → β) (a : β) (l : List ν) :
    foldl (fun a b => some (f a b)) a l = some (l.foldl f a) := by
  induction l generalizing a with
  | nil => rfl
  | cons b l ih => simp [foldl, ih]

theorem foldl_and (a : Bool) (l : List Bool) : l.foldl (fun a b => a && b) a = (a && l.all id) := by
  induction l generalizing a with
  | nil => simp
  | cons b l ih => simp [ih, Bool.and_assoc]

theorem foldl_or (a : Bool) (l : List Bool) : l.foldl (fun a b => a || b) a = (a || l.any id) := by
  induction l generalizing a with
  | nil => simp
  | cons b l ih => simp [ih, Bool.or_assoc]

theorem foldl_max (a : Int) (l : List Int) :
    let r := l.foldl (fun a b => max (fun x y => decide (x > y)) a b) a
    (r = a ∨ r ∈ l) ∧ a ≤ r ∧ ∀ x ∈ l, x ≤ r := by
  induction l generalizing a with
  | nil => simp
  | cons b l ih =>
    simp only [List.foldl_cons]
    have h := ih (max (fun x y => decide (x > y)) a b)
    simp only at h
    obtain ⟨h1, h2, h3⟩ := h
    have hm : (max (fun x y => decide (x > y)) a b = a ∧ b ≤ a)
        ∨ (max (fun x y => decide (x > y)) a b = b ∧ a ≤ b) := by
      by_cases hab : a > b
      · left; simp [max, hab]; omega
      · right; simp [max, hab]; omega
    refine ⟨?_, ?_, ?_⟩
    · rcases h1 with h1 | h1
      · rcases hm with ⟨hm, _⟩ | ⟨hm, _⟩
        · left; rw [h1, hm]
        · right; rw [h1, hm]; simp
      · right; simp [h1]
    · rcases hm with ⟨hm, _⟩ | ⟨hm, _⟩ <;> rw [hm] at h2 ⊢ <;> omega
    · intro x hx
      rcases List.mem_cons.mp hx with rfl | hx
      · rcases hm with ⟨hm, _⟩ | ⟨hm, _⟩ <;> rw [hm] at h2 ⊢ <;> omega
      · exact h3 x hx

theorem foldl_min (a : Int) (l : List Int) :
    let r := l.foldl (fun a b => min (fun x y => decide (x < y)) a b) a
    (r = a ∨ r ∈ l) ∧ r ≤ a ∧ ∀ x ∈ l, r ≤ x := by
  induction l generalizing a with
  | nil => simp
  | cons b l ih =>
    simp only [List.foldl_cons]
    have h := ih (min (fun x y => decide (x < y)) a b)
    simp only at h
    obtain ⟨h1, h2, h3⟩ := h
    have hm : (min (fun x y => decide (x < y)) a b = a ∧ a ≤ b)
        ∨ (min (fun x y => decide (x < y)) a b = b ∧ b ≤ a) := by
      by_cases hab : a < b
      · left; simp [min, hab]; omega
      · right; simp [min, hab]; omega
    refine ⟨?_, ?_, ?_⟩
    · rcases h1 with h1 | h1
      · rcases hm with ⟨hm, _⟩ | ⟨hm, _⟩
        · left; rw [h1, hm]
        · right; rw [h1, hm]; simp
      · right; simp [h1]
    · rcases hm with ⟨hm, _⟩ | ⟨hm, _⟩ <;> rw [hm] at h2 ⊢ <;> omega
    · intro x hx
      rcases List.mem_cons.mp hx with rfl | hx
      · rcases hm with ⟨hm, _⟩ | ⟨hm, _⟩ <;> rw [hm] at h2 ⊢ <;> omega
      · exact h3 x hx

theorem foldl_exact (A : NumTy) (f : Int → Int → Int) (a : Int) (l : List Int)
    (h : ∀ x ∈ partials f a l, A.lo ≤ x ∧ x ≤ A.hi) :
    foldl (fun a b => A.reduce (f a b)) a l = some (l.foldl f a) := by
  induction l generalizing a with
  | nil => rfl
  | cons b l ih =>
    have h0 := h (f a b) (by simp [partials])
    simp only [foldl, NumTy.reduce, h0, and_self, if_true, List.foldl_cons]
    exact ih (f a b) (fun x hx => h x (by simp [partials, hx]))

theorem foldl_trap (A : NumTy) (hA : A.over = .trap) (f : Int → Int → Int) (a : Int) (l : List Int)
    (h : ∃ x ∈ partials f a l, ¬ (A.lo ≤ x ∧ x ≤ A.hi)) :
    foldl (fun a b => A.reduce (f a b)) a l = none := by
  induction l generalizing a with
  | nil => obtain ⟨x, hx, _⟩ := h; simp [partials] at hx
  | cons b l ih =>
    by_cases h0 : A.lo ≤ f a b ∧ f a b ≤ A.hi
    · simp only [foldl, NumTy.reduce, h0, and_self, if_true]
      apply ih
      obtain ⟨x, hx, hn⟩ := h
      rcases List.mem_cons.mp hx with rfl | hx
      · exact absurd h0 hn
      · exact ⟨x, hx, hn⟩
    · simp [foldl, NumTy.reduce, h0, hA]

/-- reduction of unsigned types is reduction modulo the number of values -/
theorem reduce_mod (A : NumTy) (hA : A.over = .wrap) (h0 : A.lo = 0) (x : Int) :
    A.reduce x = some (x % (A.hi + 1)) := by
  simp only [NumTy.reduce, hA, h0]
  split
  · rename_i h
    rw [Int.emod_eq_of_lt h.1 (by omega)]
  · simp

theorem foldl_wrap (A : NumTy) (hA : A.over = .wrap) (h0 : A.lo = 0) (f : Int → Int → Int)
    (hf : ∀ x y, f (x % (A.hi + 1)) y % (A.hi + 1) = f x y % (A.hi + 1)) (a : Int) (l : List Int) :
    ∃ r, foldl (fun a b => A.reduce (f a b)) a l = some r
      ∧ r % (A.hi + 1) = l.foldl f a % (A.hi + 1) ∧ (l ≠ [] → r = l.foldl f a % (A.hi + 1)) := by
  have cong : ∀ (l : List Int) (x y : Int), x % (A.hi + 1) = y % (A.hi + 1) →
      l.foldl f x % (A.hi + 1) = l.foldl f y % (A.hi + 1) := by
    intro l
    induction l with
    | nil => intro x y h; simpa using h
    | cons b l ih =>
      intro x y h
      simp only [List.foldl_cons]
      exact ih _ _ (by rw [← hf x b, h, hf y b])
  induction l generalizing a with
  | nil => exact ⟨a, rfl, rfl, by simp⟩
  | cons b l ih =>
    obtain ⟨r, hr, hm, hne⟩ := ih (f a b % (A.hi + 1))
    have hc := cong l (f a b % (A.hi + 1)) (f a b) (Int.emod_emod_of_dvd _ (Int.dvd_refl _))
    refine ⟨r, ?_, ?_, ?_⟩
    · rw [foldl, reduce_mod A hA h0]
      exact hr
    · rw [hm, hc]; rfl
    · intro _
      cases l with
      | nil =>
        simp only [foldl, Option.some.injEq] at hr
        rw [← hr]; rfl
      | cons c l => rw [hne (by simp), hc]; rfl

end Efp.Meta

namespace Efp.Callable

open Efp.Spec.Meta

variable {ν σ τ : Type}

/-! ## compose -/

theorem compose_call (fns : Fns σ ν) (f : Nat) (fs : List Nat) (g : ν → Cpp σ ν)
    (gs : List (ν → Cpp σ ν)) (h : (f :: fs).map (fun i => fns[i]?) = (g :: gs).map (fun k => some (some k)))
    (x : ν) : (compose f fs).call fns x = chain g gs x := by
  induction fs generalizing f g gs with
  | nil =>
    cases gs with
    | nil =>
      simp only [List.map_cons, List.map_nil, List.cons.injEq, and_true] at h
      simp [compose, Composed.call, callRef, chain, h]
    | cons g' gs => simp at h
  | cons f' fs ih =>
    cases gs with
    | nil => simp at h
    | cons g' gs =>
      simp only [List.map_cons, List.cons.injEq] at h
      have := ih f' g' gs (by simp only [List.map_cons, List.cons.injEq]; exact h.2)
      simp only [compose, Composed.call, callRef, chain, h.1, this]

/-! ## func_ptr -/

variable [DecidableEq τ]

theorem crun_cons {op : COp τ ν} {ops : List (COp τ ν)} {s s' : CState τ ν}
    (h : crun (op :: ops) s = .ok () s') :
    ∃ s₁, op.run s = .ok () s₁ ∧ crun ops s₁ = .ok () s' := by
  rw [crun] at h
  cases h1 : op.run s with
  | ok u s₁ => exact ⟨s₁, rfl, by rw [Cpp.bind_ok h1] at h; exact h⟩
  | thrown s₁ => rw [Cpp.bind_thrown h1] at h; cases h
  | ub u => rw [Cpp.bind_ub h1] at h; cases h

theorem crun_append {ops₁ ops₂ : List (COp τ ν)} {s s' : CState τ ν}
    (h : crun (ops₁ ++ ops₂) s = .ok () s') :
    ∃ s₁, crun ops₁ s = .ok () s₁ ∧ crun ops₂ s₁ = .ok () s' := by
  induction ops₁ generalizing s with
  | nil => exact ⟨s, rfl, h⟩
  | cons op ops₁ ih =>
    obtain ⟨s₁, h1, h2⟩ := crun_cons h
    obtain ⟨s₂, h3, h4⟩ := ih h2
    exact ⟨s₂, by rw [crun, Cpp.bind_ok h1]; exact h3, h4⟩

theorem run_register {k : Nat} {s s₁ : CState τ ν} (h : (COp.register k).run s = .ok () s₁) :
    ∃ t f, s.objs[k]? = some (some (t, f))
      ∧ s₁ = { s with inner := fun u => if u = t then some k else s.inner u } := by
  simp only [COp.run, Cpp.bind_run, funcPtr] at h
  split at h
  · rename_i b s₂ hb
    split at hb
    · rename_i t f hk
      cases hb
      cases h
      exact ⟨_, f, hk, rfl⟩
    · cases hb
  · cases h
  · cases h

theorem run_call {t : τ} {x : ν} {s s₁ : CState τ ν} (h : (COp.call t x).run s = .ok () s₁) :
    s₁ = s := by
  simp only [COp.run, Cpp.bind_run, callPtr] at h
  split at h
  · rename_i b s₂ hb
    cases h
    split at hb
    · cases hb
    · split at hb
      · cases hb; rfl
      · cases hb
  · cases h
  · cases h

/-- the state only contains objects that were defined, under their numbers -/
def Known (s : CState τ ν) (D : List (τ × (ν → ν))) : Prop :=
  s.objs.length = D.length ∧ ∀ (i : Nat) (b : τ × (ν → ν)), s.objs[i]? = some (some b) → D[i]? = some b

theorem known_step {op : COp τ ν} {s s₁ : CState τ ν} {D : List (τ × (ν → ν))} (hk : Known s D)
    (h : op.run s = .ok () s₁) : Known s₁ (D ++ defined [op]) := by
  cases op with
  | define t f =>
    cases h
    refine ⟨by simp [defined, hk.1], fun i b hb => ?_⟩
    simp only [defined]
    rw [List.getElem?_append] at hb ⊢
    rw [hk.1] at hb
    split at hb
    · rename_i hlt
      rw [if_pos hlt]
      exact hk.2 i b hb
    · rename_i hlt
      rw [if_neg hlt]
      rw [List.getElem?_singleton] at hb ⊢
      split at hb
      · rename_i he; rw [if_pos he]; simpa using hb
      · cases hb
  | kill k =>
    cases h
    refine ⟨by simp [defined, hk.1], fun i b hb => ?_⟩
    simp only [defined, List.append_nil]
    rw [List.getElem?_set] at hb
    split at hb
    · split at hb <;> simp at hb
    · exact hk.2 i b hb
  | register k =>
    obtain ⟨t, f, _, rfl⟩ := run_register h
    simpa [Known, defined] using hk
  | call t x =>
    have := run_call h
    subst this
    simpa [Known, defined] using hk

theorem defined_cons (op : COp τ ν) (ops : List (COp τ ν)) :
    defined (op :: ops) = defined [op] ++ defined ops := by
  cases op <;> rfl

theorem defined_append (ops₁ ops₂ : List (COp τ ν)) :
    defined (ops₁ ++ ops₂) = defined ops₁ ++ defined ops₂ := by
  induction ops₁ with
  | nil => rfl
  | cons op ops ih =>
    rw [List.cons_append, defined_cons, ih, defined_cons op ops, List.append_assoc]

theorem known_run {ops : List (COp τ ν)} {s s' : CState τ ν} {D : List (τ × (ν → ν))} (hk : Known s D)
    (h : crun ops s = .ok () s') : Known s' (D ++ defined ops) := by
  induction ops generalizing s D with
  | nil => cases h; simpa [defined] using hk
  | cons op ops ih =>
    obtain ⟨s₁, h1, h2⟩ := crun_cons h
    have := ih (known_step hk h1) h2
    rwa [List.append_assoc, ← defined_cons] at this

/-- a registration stays in force as long as no other object of the type is registered and the object
lives -/
theorem registered_run {ops : List (COp τ ν)} {s s' : CState τ ν} {D : List (τ × (ν → ν))}
    (hk : Known s D) (h : crun ops s = .ok () s') {t : τ} {f : ν → ν} {i : Nat}
    (hi : s.objs[i]? = some (some (t, f))) (hin : s.inner t = some i)
    (hother : ∀ j f', COp.register j ∈ ops → (D ++ defined ops)[j]? = some (t, f') → j = i)
    (hkill : COp.kill i ∉ ops) :
    s'.objs[i]? = some (some (t, f)) ∧ s'.inner t = some i := by
  induction ops generalizing s D with
  | nil => cases h; exact ⟨hi, hin⟩
  | cons op ops ih =>
    obtain ⟨s₁, h1, h2⟩ := crun_cons h
    have hk₁ := known_step hk h1
    have hD : D ++ defined (op :: ops) = D ++ defined [op] ++ defined ops := by
      rw [defined_cons, List.append_assoc]
    refine ih hk₁ h2 ?_ ?_ ?_ (fun hm => hkill (by simp [hm]))
    · cases op with
      | define u g =>
        cases h1
        show (s.objs ++ _)[i]? = _
        rw [List.getElem?_append_left (List.getElem?_eq_some_iff.mp hi).1]
        exact hi
      | kill k =>
        cases h1
        have : k ≠ i := fun e => hkill (by simp [e])
        show (s.objs.set k none)[i]? = _
        rw [List.getElem?_set_ne this]
        exact hi
      | register k => obtain ⟨_, _, _, rfl⟩ := run_register h1; exact hi
      | call u x => have := run_call h1; subst this; exact hi
    · cases op with
      | define u g => cases h1; exact hin
      | kill k => cases h1; exact hin
      | register k =>
        obtain ⟨u, g, hkk, rfl⟩ := run_register h1
        show (if t = u then some k else s.inner t) = some i
        split
        · rename_i e
          subst e
          have := hother k g (by simp) (by
            rw [List.getElem?_append_left (by rw [← hk.1]; exact (List.getElem?_eq_some_iff.mp hkk).1)]
            exact hk.2 k _ hkk)
          rw [this]
        · exact hin
      | call u x => have := run_call h1; subst this; exact hin
    · intro j f' hj hd
      exact hother j f' (by simp [hj]) (by rw [hD]; exact hd)

end Efp.Callable
