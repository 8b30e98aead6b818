import Verif.Spec.Enum

/-!
# Lemmas about the `Enum` model
-/

namespace Efp.Enum

open Efp.Spec.Enum

variable {τ ν α β σ : Type}

/-! ## Compile-time helpers -/

theorem findImpl_findIdx (P : τ → Bool) (Ts : List τ) (k : Nat) :
    findImpl P k Ts = (Ts.findIdx? P).map (· + k) := by
  induction Ts generalizing k with
  | nil => simp [findImpl]
  | cons t ts ih =>
    simp only [findImpl, List.findIdx?_cons, ih]
    split
    · simp
    · simp only [Option.map_map]
      congr 1
      funext x
      simp only [Function.comp_apply]
      omega

theorem packAt_eq (n : Nat) (As : List τ) : packAt n As = As[n]? := by
  induction As generalizing n with
  | nil => cases n <;> simp [packAt]
  | cons t ts ih => cases n <;> simp [packAt, ih]

theorem findImpl_eq [DecidableEq τ] (t : τ) (As : List τ) (n : Nat) :
    findImpl (fun u => t == u) n As = if t ∈ As then some (n + As.idxOf t) else none := by
  induction As generalizing n with
  | nil => simp [findImpl]
  | cons u us ih =>
    simp only [findImpl, ih, List.idxOf_cons, List.mem_cons]
    by_cases h : t = u
    · subst h; simp
    · have h' : ¬ u = t := fun e => h e.symm
      simp only [beq_iff_eq, h, h', beq_eq_false_iff_ne.mpr h', if_false, false_or, cond_false]
      split
      · congr 1; omega
      · rfl

theorem altIndex_eq [DecidableEq τ] (As : List τ) (t : τ) :
    altIndex As t = if t ∈ As then some (As.idxOf t) else none := by
  simp [altIndex, findImpl_eq]

theorem power2_small {n : Nat} (h1 : 1 ≤ n) (h2 : n ≤ 128) :
    ∃ s, power2Ceiling n 2 = some s ∧ hasSwitch s = true ∧ n ≤ s + 1 := by
  unfold power2Ceiling
  by_cases c1 : 2 ≥ n
  · exact ⟨1, by simp [c1], by decide, by omega⟩
  rw [if_neg c1]; unfold power2Ceiling
  by_cases c2 : 2 * 2 % 256 ≥ n
  · exact ⟨3, by rw [if_pos c2], by decide, by omega⟩
  rw [if_neg c2]; unfold power2Ceiling
  by_cases c3 : 2 * 2 % 256 * 2 % 256 ≥ n
  · exact ⟨7, by rw [if_pos c3], by decide, by omega⟩
  rw [if_neg c3]; unfold power2Ceiling
  by_cases c4 : 2 * 2 % 256 * 2 % 256 * 2 % 256 ≥ n
  · exact ⟨15, by rw [if_pos c4], by decide, by omega⟩
  rw [if_neg c4]; unfold power2Ceiling
  by_cases c5 : 2 * 2 % 256 * 2 % 256 * 2 % 256 * 2 % 256 ≥ n
  · exact ⟨31, by rw [if_pos c5], by decide, by omega⟩
  rw [if_neg c5]; unfold power2Ceiling
  by_cases c6 : 2 * 2 % 256 * 2 % 256 * 2 % 256 * 2 % 256 * 2 % 256 ≥ n
  · exact ⟨63, by rw [if_pos c6], by decide, by omega⟩
  rw [if_neg c6]; unfold power2Ceiling
  have c7 : 2 * 2 % 256 * 2 % 256 * 2 % 256 * 2 % 256 * 2 % 256 * 2 % 256 ≥ n := by omega
  exact ⟨127, by rw [if_pos c7], by decide, by omega⟩

theorem power2_large (n p : Nat) (hn : 129 ≤ n)
    (hp : p = 0 ∨ p = 2 ∨ p = 4 ∨ p = 8 ∨ p = 16 ∨ p = 32 ∨ p = 64 ∨ p = 128) :
    power2Ceiling n p = none := by
  cases h : power2Ceiling n p with
  | none => rfl
  | some r =>
    exfalso
    have := power2Ceiling.partial_correctness n
      (fun p _ =>
        (p = 0 ∨ p = 2 ∨ p = 4 ∨ p = 8 ∨ p = 16 ∨ p = 32 ∨ p = 64 ∨ p = 128) → False)
      (by
        intro f ih p r hr hp
        split at hr
        · omega
        · exact ih _ r hr (by omega)) p r h
    exact this hp

theorem switchLabels_small {n : Nat} (h1 : 1 ≤ n) (h2 : n ≤ 128) :
    ∃ l, switchLabels n = some l ∧ n ≤ l := by
  obtain ⟨s, hs, h, hl⟩ := power2_small h1 h2
  refine ⟨s + 1, ?_, hl⟩
  have : n ≠ 0 := by omega
  simp [switchLabels, hs, h, this]

theorem switchLabels_zero : switchLabels 0 = none := by
  unfold switchLabels
  split <;> simp

theorem switchLabels_large {n : Nat} (h : 129 ≤ n) : switchLabels n = none := by
  simp [switchLabels, power2_large n 2 h (by simp)]

theorem enumSwitch_run {As : List τ} (h1 : 1 ≤ As.length) (h2 : As.length ≤ 128) {i : Nat}
    (hi : i < As.length) (c : Nat → Cpp σ β) : enumSwitch As i c = c i := by
  have hm : altNum As = As.length := Nat.mod_eq_of_lt (by omega)
  obtain ⟨l, hl, hle⟩ := switchLabels_small h1 h2
  unfold enumSwitch
  rw [hm, hl]
  simp only
  rw [if_pos (by omega), if_pos hi]

/-! ## One object -/

theorem members_slot {As : List τ} {i : Nat} {t : τ} (h : As[i]? = some t) (x : ν) :
    (members As (i, x)).slot = some (t, x) := by
  simp [members, h]

theorem readAs_slot [DecidableEq τ] {t : τ} {x : ν} {e : Raw τ ν} (h : e.slot = some (t, x)) (s : σ) :
    readAs t e s = .ok x s := by
  simp [readAs, h]

/-! ## Variables -/

theorem useVar_ok {w : World τ α} {i : Nat} {v : Var τ α} (h : w.vars[i]? = some (some v)) :
    useVar i w = .ok v w := by
  simp [useVar, World.var, h]

/-- the world after an object was destroyed in variable `self` -/
theorem destroyCase_ok [DecidableEq τ] {As : List τ} {w : World τ α} {self i : Nat} {v : Var τ α}
    {t : τ} {x : Option α} (hv : w.vars[self]? = some (some v)) (ht : As[i]? = some t)
    (hs : v.e.slot = some (t, x)) :
    destroyCase As self i w = .ok ()
      { w with
        vars := w.vars.set self (some { v with e := { v.e with slot := none } })
        gone := w.gone ++ [v.oid] } := by
  simp only [destroyCase, Cpp.bind_ok (useVar_ok hv), packAt_eq, ht, hs, if_true, Cpp.modify,
    World.put]

theorem construct_ok {w : World τ α} {self : Nat} {v : Var τ α} (hv : w.vars[self]? = some (some v))
    (t : τ) (x : Option α) :
    construct self t x false w = .ok ()
      { w with
        vars := w.vars.set self (some { e := { v.e with slot := some (t, x) }, oid := w.next })
        next := w.next + 1 } := by
  simp [construct, Cpp.bind_ok (useVar_ok hv), World.put]

theorem construct_thr {w : World τ α} {self : Nat} {v : Var τ α} (hv : w.vars[self]? = some (some v))
    (t : τ) (x : Option α) : construct self t x true w = .thrown w := by
  simp [construct, Cpp.bind_ok (useVar_ok hv)]

theorem setIndex_ok {w : World τ α} {self : Nat} {v : Var τ α} (hv : w.vars[self]? = some (some v))
    (i : Nat) :
    setIndex self i w = .ok ()
      { w with vars := w.vars.set self (some { v with e := { v.e with index := i } }) } := by
  simp [setIndex, Cpp.bind_ok (useVar_ok hv), World.put]

theorem copyCase_eq [DecidableEq τ] {As : List τ} {w : World τ α} {self other i : Nat} {o : Var τ α}
    {t : τ} {x : Option α} (ho : w.vars[other]? = some (some o)) (ht : As[i]? = some t)
    (hs : o.e.slot = some (t, x)) (thr : Bool) :
    copyCase As self other thr i w = construct self t x thr w := by
  simp only [copyCase, Cpp.bind_ok (useVar_ok ho), packAt_eq, ht, Cpp.bind_ok (readAs_slot hs w)]

theorem moveCase_thr [DecidableEq τ] {kind : τ → Kind} {As : List τ} {w : World τ α}
    {self other i : Nat} {o v : Var τ α}
    {t : τ} {x : Option α} (ho : w.vars[other]? = some (some o)) (ht : As[i]? = some t)
    (hs : o.e.slot = some (t, x)) (hv : w.vars[self]? = some (some v)) :
    moveCase kind As self other true i w = .thrown w := by
  simp only [moveCase, Cpp.bind_ok (useVar_ok ho), packAt_eq, ht, Cpp.bind_ok (readAs_slot hs w),
    Cpp.bind_thrown (construct_thr hv t x)]

theorem moveCase_ok [DecidableEq τ] {kind : τ → Kind} {As : List τ} {w : World τ α}
    {self other i : Nat} {o v : Var τ α}
    {t : τ} {x : Option α} (ho : w.vars[other]? = some (some o)) (ht : As[i]? = some t)
    (hs : o.e.slot = some (t, x)) (hv : w.vars[self]? = some (some v)) :
    moveCase kind As self other false i w = .ok ()
      { w with
        vars := (w.vars.set self (some { e := { v.e with slot := some (t, x) }, oid := w.next })).set
          other (some { o with e := { o.e with slot := some (t, movedFrom (kind t) x) } })
        next := w.next + 1 } := by
  simp only [moveCase, Cpp.bind_ok (useVar_ok ho), packAt_eq, ht, Cpp.bind_ok (readAs_slot hs w),
    Cpp.bind_ok (construct_ok hv t x), Cpp.modify, World.put]

/-! ## The store of the specification and the world of the model -/

/-- the invariant: the variables are what the specification says, and every object ever made is either
living in exactly one variable or was destroyed exactly once -/
structure Rep [DecidableEq τ] (As : List τ) (S : Store α) (w : World τ α) : Prop where
  vars : w.vars.map (Option.map Var.e) = S.map (Option.map (members As))
  inv : ∀ (k : Nat) (c : Nat × Option α), S[k]? = some (some c) →
    ∃ t, As[c.1]? = some t ∧ As.idxOf t = c.1
  ids : (living w ++ w.gone).Perm (List.range w.next)

theorem Rep.len [DecidableEq τ] {As : List τ} {S : Store α} {w : World τ α} (h : Rep As S w) :
    w.vars.length = S.length := by
  have := congrArg List.length h.vars
  simpa using this

theorem Rep.get [DecidableEq τ] {As : List τ} {S : Store α} {w : World τ α} (h : Rep As S w) {k : Nat}
    {c : Nat × Option α} (hk : S[k]? = some (some c)) :
    ∃ v t, w.vars[k]? = some (some v) ∧ As[c.1]? = some t ∧ v.e.index = c.1
      ∧ v.e.slot = some (t, c.2) ∧ v.e = members As c ∧ As.idxOf t = c.1 := by
  obtain ⟨t, ht, hi⟩ := h.inv k c hk
  have h1 : (w.vars.map (Option.map Var.e))[k]? = (S.map (Option.map (members As)))[k]? := by
    rw [h.vars]
  rw [List.getElem?_map, List.getElem?_map, hk] at h1
  simp only [Option.map_some] at h1
  cases hv : w.vars[k]? with
  | none => simp [hv] at h1
  | some o =>
    cases o with
    | none => simp [hv] at h1
    | some v =>
      simp only [hv, Option.map_some, Option.some.injEq] at h1
      exact ⟨v, t, rfl, ht, by rw [h1]; rfl, by rw [h1]; exact members_slot ht c.2, h1, hi⟩

theorem living_append (w : World τ α) (o : Option (Var τ α)) (n : Nat) (g : List Nat) :
    living { vars := w.vars ++ [o], next := n, gone := g }
      = living w ++ (o.map Var.oid).toList := by
  cases o <;> simp [living]

theorem set_perm {γ : Type} {l : List γ} {k : Nat} (h : k < l.length) (a : γ) :
    (l.set k a).Perm (a :: l.eraseIdx k) := by
  induction l generalizing k with
  | nil => simp at h
  | cons b l ih =>
    cases k with
    | zero => simp
    | succ k =>
      simp only [List.set_cons_succ, List.eraseIdx_cons_succ]
      exact ((ih (by simpa using h)).cons b).trans (List.Perm.swap _ _ _)

theorem get_perm {γ : Type} {l : List γ} {k : Nat} (h : k < l.length) :
    (l[k] :: l.eraseIdx k).Perm l := by
  have := (set_perm h l[k]).symm
  rwa [List.set_getElem_self] at this

theorem living_set {vs : List (Option (Var τ α))} {k : Nat} {v : Var τ α}
    (h : vs[k]? = some (some v)) (o : Option (Var τ α)) :
    ((vs.set k o).filterMap (Option.map Var.oid) ++ [v.oid]).Perm
      (vs.filterMap (Option.map Var.oid) ++ (o.map Var.oid).toList) := by
  obtain ⟨hk, hv⟩ := List.getElem?_eq_some_iff.mp h
  have p1 := (set_perm hk o).filterMap (Option.map Var.oid)
  have p2 := (get_perm hk).filterMap (Option.map Var.oid)
  rw [hv] at p2
  simp only [List.filterMap_cons, Option.map_some] at p1 p2
  refine (p1.append_right _).trans ?_
  refine List.Perm.trans ?_ (p2.append_right _)
  cases o with
  | none => simpa using List.perm_append_singleton v.oid (List.filterMap _ (vs.eraseIdx k))
  | some u =>
    simp only [Option.map_some, Option.toList_some, List.cons_append]
    refine ((List.perm_append_singleton v.oid _).cons _).trans ?_
    refine (List.Perm.swap _ _ _).trans ?_
    exact ((List.perm_append_singleton u.oid _).symm).cons _

/-- a content that can be stored: an alternative which is the first of its type -/
def Fits [DecidableEq τ] (As : List τ) (i : Nat) : Prop := ∃ t, As[i]? = some t ∧ As.idxOf t = i

section rep

variable [DecidableEq τ] {As : List τ} {S : Store α} {w : World τ α}

theorem inv_push (hi : ∀ (k : Nat) (c : Nat × Option α), S[k]? = some (some c) → Fits As c.1)
    {o : Option (Nat × Option α)} (ho : ∀ c, o = some c → Fits As c.1) :
    ∀ (k : Nat) (c : Nat × Option α), (S ++ [o])[k]? = some (some c) → Fits As c.1 := by
  intro k c hk
  rw [List.getElem?_append] at hk
  split at hk
  · exact hi k c hk
  · rw [List.getElem?_singleton] at hk
    split at hk
    · exact ho c (by simpa using hk)
    · simp at hk

theorem inv_set (hi : ∀ (k : Nat) (c : Nat × Option α), S[k]? = some (some c) → Fits As c.1)
    {o : Option (Nat × Option α)} (ho : ∀ c, o = some c → Fits As c.1) (j : Nat) :
    ∀ (k : Nat) (c : Nat × Option α), (S.set j o)[k]? = some (some c) → Fits As c.1 := by
  intro k c hk
  rw [List.getElem?_set] at hk
  split at hk
  · split at hk
    · exact ho c (by simpa using hk)
    · simp at hk
  · exact hi k c hk

theorem Rep.push (h : Rep As S w) (c : Nat × Option α) (hc : Fits As c.1) :
    Rep As (S ++ [some c]) 
      { vars := w.vars ++ [some { e := members As c, oid := w.next }],
        next := w.next + 1, gone := w.gone } where
  vars := by simp [h.vars]
  inv := inv_push h.inv (by intro c' hc'; cases hc'; exact hc)
  ids := by
    rw [living_append, List.range_succ]
    simp only [Option.map_some, Option.toList_some, List.append_assoc]
    refine List.Perm.trans ?_ (h.ids.append_right _)
    rw [List.append_assoc]
    exact List.Perm.append_left _ List.perm_append_comm

theorem Rep.pushNone (h : Rep As S w) :
    Rep As (S ++ [none]) { vars := w.vars ++ [none], next := w.next, gone := w.gone } where
  vars := by simp [h.vars]
  inv := inv_push h.inv (by intro c' hc'; cases hc')
  ids := by
    rw [living_append]
    simpa using h.ids

theorem Rep.setNew (h : Rep As S w) {k : Nat} {v : Var τ α} (hv : w.vars[k]? = some (some v))
    (c : Nat × Option α) (hc : Fits As c.1) :
    Rep As (S.set k (some c)) 
      { vars := w.vars.set k (some { e := members As c, oid := w.next }),
        next := w.next + 1, gone := w.gone ++ [v.oid] } where
  vars := by simp [List.map_set, h.vars]
  inv := inv_set h.inv (by intro c' hc'; cases hc'; exact hc) k
  ids := by
    rw [List.range_succ]
    refine List.Perm.trans ?_ (h.ids.append_right _)
    have := living_set hv (some { e := members As c, oid := w.next })
    simp only [Option.map_some, Option.toList_some] at this
    have h2 := (this.append_right w.gone)
    simp only [living, List.append_assoc] at h2 ⊢
    refine (List.Perm.append_left _ List.perm_append_comm).trans (h2.trans ?_)
    exact List.Perm.append_left _ List.perm_append_comm

theorem Rep.setSame (h : Rep As S w) {k : Nat} {v : Var τ α} (hv : w.vars[k]? = some (some v))
    (c : Nat × Option α) (hc : Fits As c.1) :
    Rep As (S.set k (some c)) 
      { vars := w.vars.set k (some { e := members As c, oid := v.oid }),
        next := w.next, gone := w.gone } where
  vars := by simp [List.map_set, h.vars]
  inv := inv_set h.inv (by intro c' hc'; cases hc'; exact hc) k
  ids := by
    refine List.Perm.trans ?_ h.ids
    have := living_set hv (some { e := members As c, oid := v.oid })
    simp only [Option.map_some, Option.toList_some] at this
    exact ((List.perm_append_right_iff _).mp this).append_right _

theorem Rep.setNone (h : Rep As S w) {k : Nat} {v : Var τ α} (hv : w.vars[k]? = some (some v)) :
    Rep As (S.set k none) { vars := w.vars.set k none, next := w.next, gone := w.gone ++ [v.oid] } where
  vars := by simp [List.map_set, h.vars]
  inv := inv_set h.inv (by intro c' hc'; cases hc') k
  ids := by
    refine List.Perm.trans ?_ h.ids
    have := (living_set hv none).append_right w.gone
    simp only [Option.map_none, Option.toList_none, List.append_nil, List.append_assoc] at this
    simp only [living]
    exact (List.Perm.append_left _ List.perm_append_comm).trans this

theorem members_afterMove (kind : τ → Kind) {c : Nat × Option α} {t : τ} (ht : As[c.1]? = some t) :
    members As (afterMove kind As c)
      = { index := c.1, slot := some (t, movedFrom (kind t) c.2) } := by
  simp only [afterMove, ht, members, Option.map_some, movedFrom]
  cases kind t <;> simp

theorem afterMove_fst (kind : τ → Kind) (c : Nat × Option α) : (afterMove kind As c).1 = c.1 := by
  simp only [afterMove]
  split <;> rfl

theorem members_eq {c : Nat × Option α} {t : τ} (ht : As[c.1]? = some t) :
    members As c = { index := c.1, slot := some (t, c.2) } := by
  simp [members, ht]

theorem fits_idxOf {t : τ} (h : t ∈ As) : Fits As (As.idxOf t) :=
  ⟨t, by rw [List.getElem?_eq_getElem (List.idxOf_lt_length_of_mem h), List.getElem_idxOf], rfl⟩

theorem fits_lt {i : Nat} (h : Fits As i) : i < As.length := by
  obtain ⟨t, ht, _⟩ := h
  exact (List.getElem?_eq_some_iff.mp ht).1

theorem vars_lt {k : Nat} {v : Option (Var τ α)} (h : w.vars[k]? = some v) : k < w.vars.length :=
  (List.getElem?_eq_some_iff.mp h).1

/-- running a constructor body that constructs one object in the new variable -/
theorem declare_construct (i : Nat) (t : τ) (x : Option α) :
    declare i (fun self => construct self t x false) w = .ok ()
      { vars := w.vars ++ [some { e := { index := i, slot := some (t, x) }, oid := w.next }],
        next := w.next + 1, gone := w.gone } := by
  simp only [declare]
  rw [construct_ok (v := { e := { index := i, slot := none }, oid := 0 }) (by simp)]
  simp

theorem declare_thr (i : Nat) (t : τ) (x : Option α) :
    declare i (fun self => construct self t x true) w = .thrown
      { vars := w.vars ++ [none], next := w.next, gone := w.gone } := by
  simp only [declare]
  rw [construct_thr (v := { e := { index := i, slot := none }, oid := 0 }) (by simp)]
  simp [World.put]

theorem ctorDefault_rep (h : Rep As S w) (h1 : 1 ≤ As.length) (dv : α) :
    ∃ w', ctorDefault As dv false w = .ok () w' ∧ Rep As (S ++ [some (0, some dv)]) w' := by
  cases As with
  | nil => simp at h1
  | cons t ts =>
    simp only [ctorDefault, List.head?_cons]
    rw [declare_construct]
    refine ⟨_, rfl, ?_⟩
    have := h.push (0, some dv) ⟨t, by simp, by simp⟩
    rwa [members_eq (t := t) (by simp)] at this

theorem ctorDefault_thr (h : Rep As S w) (h1 : 1 ≤ As.length) (dv : α) :
    ∃ w', ctorDefault As dv true w = .thrown w' ∧ Rep As (S ++ [none]) w' := by
  cases As with
  | nil => simp at h1
  | cons t ts =>
    simp only [ctorDefault, List.head?_cons]
    rw [declare_thr]
    exact ⟨_, rfl, h.pushNone⟩

theorem ctorVal_ok {t : τ} (ht : t ∈ As) (h2 : As.length ≤ 128) (x : α) :
    ctorVal As t x false w = .ok ()
      { vars := w.vars ++ [some { e := members As (As.idxOf t, some x), oid := w.next }],
        next := w.next + 1, gone := w.gone } := by
  have hf := fits_idxOf ht
  have hl := fits_lt hf
  simp only [ctorVal, altIndex_eq, ht, if_true]
  rw [Nat.mod_eq_of_lt (by omega), declare_construct]
  obtain ⟨u, hu, hi⟩ := hf
  have : As[As.idxOf t]? = some t := by
    rw [List.getElem?_eq_getElem hl, List.getElem_idxOf]
  rw [members_eq (c := (As.idxOf t, some x)) this]

theorem ctorVal_thr {t : τ} (ht : t ∈ As) (x : α) :
    ctorVal As t x true w = .thrown { vars := w.vars ++ [none], next := w.next, gone := w.gone } := by
  simp only [ctorVal, altIndex_eq, ht, if_true]
  rw [declare_thr]

theorem ctorCopy_rep (h : Rep As S w) (h1 : 1 ≤ As.length) (h2 : As.length ≤ 128) {j : Nat}
    {c : Nat × Option α} (hj : S[j]? = some (some c)) :
    (∃ w', ctorCopy As j false w = .ok () w' ∧ Rep As (S ++ [some c]) w')
    ∧ ∃ w', ctorCopy As j true w = .thrown w' ∧ Rep As (S ++ [none]) w' := by
  obtain ⟨v, t, hv, ht, hvi, hvs, hve, hi⟩ := h.get hj
  have hl := vars_lt hv
  have hc : Fits As c.1 := ⟨t, ht, hi⟩
  have key : ∀ thr, ctorCopy As j thr w
      = declare c.1 (fun self => construct self t c.2 thr) w := by
    intro thr
    simp only [ctorCopy, Cpp.bind_ok (useVar_ok hv), hvi]
    simp only [declare, enumSwitch_run h1 h2 (fits_lt hc)]
    rw [copyCase_eq (o := v) (x := c.2) (by
      show (w.vars ++ _)[j]? = _
      rw [List.getElem?_append_left hl, hv]) ht hvs]
  constructor
  · rw [key, declare_construct]
    refine ⟨_, rfl, ?_⟩
    have := h.push c hc
    rwa [members_eq ht] at this
  · rw [key, declare_thr]
    exact ⟨_, rfl, h.pushNone⟩

theorem ctorMove_rep (h : Rep As S w) (kind : τ → Kind) (h1 : 1 ≤ As.length) (h2 : As.length ≤ 128)
    {j : Nat} {c : Nat × Option α} (hj : S[j]? = some (some c)) :
    (∃ w', ctorMove kind As j false w = .ok () w'
      ∧ Rep As (S.set j (some (afterMove kind As c)) ++ [some c]) w')
    ∧ ∃ w', ctorMove kind As j true w = .thrown w' ∧ Rep As (S ++ [none]) w' := by
  obtain ⟨v, t, hv, ht, hvi, hvs, hve, hi⟩ := h.get hj
  have hl := vars_lt hv
  have hc : Fits As c.1 := ⟨t, ht, hi⟩
  have hv' : (w.vars ++ [some { e := { index := c.1, slot := none }, oid := 0 }])[j]? = some (some v) := by
    rw [List.getElem?_append_left hl, hv]
  constructor
  · simp only [ctorMove, Cpp.bind_ok (useVar_ok hv), hvi]
    simp only [declare, enumSwitch_run h1 h2 (fits_lt hc)]
    rw [moveCase_ok (o := v) (x := c.2) (v := { e := { index := c.1, slot := none }, oid := 0 })
      hv' ht hvs (by simp)]
    refine ⟨_, rfl, ?_⟩
    have hm := members_afterMove kind ht
    have := (h.setSame hv (afterMove kind As c) (by rw [afterMove_fst]; exact hc)).push c hc
    rw [hm, members_eq ht] at this
    have e : ((w.vars ++ [some ({ e := { index := c.1, slot := none }, oid := 0 } : Var τ α)]).set w.vars.length
        (some { e := { index := c.1, slot := some (t, c.2) }, oid := w.next })).set j
        (some { e := { v.e with slot := some (t, movedFrom (kind t) c.2) }, oid := v.oid })
        = w.vars.set j (some { e := { index := c.1, slot := some (t, movedFrom (kind t) c.2) }, oid := v.oid })
          ++ [some { e := { index := c.1, slot := some (t, c.2) }, oid := w.next }] := by
      simp [List.set_append_left _ _ hl, hvi]
    simp only [e]
    exact this
  · simp only [ctorMove, Cpp.bind_ok (useVar_ok hv), hvi]
    simp only [declare, enumSwitch_run h1 h2 (fits_lt hc)]
    rw [moveCase_thr (o := v) (x := c.2) (v := { e := { index := c.1, slot := none }, oid := 0 })
      hv' ht hvs (by simp)]
    refine ⟨_, rfl, ?_⟩
    simpa [World.put] using h.pushNone

/-- the world in the middle of an assignment: the old value is destroyed, `_index` is set -/
theorem assign_mid (h : Rep As S w) (h1 : 1 ≤ As.length) (h2 : As.length ≤ 128) {i : Nat}
    {c : Nat × Option α} (hi : S[i]? = some (some c)) :
    ∃ v, w.vars[i]? = some (some v) ∧ v.e.index = c.1
      ∧ enumSwitch As v.e.index (destroyCase As i) w = .ok ()
        { vars := w.vars.set i (some { v with e := { v.e with slot := none } }),
          next := w.next, gone := w.gone ++ [v.oid] } := by
  obtain ⟨v, t, hv, ht, hvi, hvs, hve, hf⟩ := h.get hi
  refine ⟨v, hv, hvi, ?_⟩
  rw [hvi, enumSwitch_run h1 h2 (fits_lt ⟨t, ht, hf⟩), destroyCase_ok hv ht hvs]

theorem assignCopy_ok (h : Rep As S w) (h1 : 1 ≤ As.length) (h2 : As.length ≤ 128) {i j : Nat}
    (hij : i ≠ j) {ci c : Nat × Option α} (hi : S[i]? = some (some ci)) (hj : S[j]? = some (some c)) :
    ∃ w', assignCopy As i j false w = .ok () w' ∧ Rep As (S.set i (some c)) w' := by
  obtain ⟨v, hv, hvi, hd⟩ := assign_mid h h1 h2 hi
  obtain ⟨o, t, ho, ht, hoi, hos, hoe, hf⟩ := h.get hj
  have hl := vars_lt hv
  have hc : Fits As c.1 := ⟨t, ht, hf⟩
  simp only [assignCopy, ne_eq, hij, not_false_eq_true, if_true]
  rw [Cpp.bind_ok (useVar_ok hv), Cpp.bind_ok hd,
    Cpp.bind_ok (useVar_ok (v := o) (by simp [List.getElem?_set, hij, ho])),
    Cpp.bind_ok (setIndex_ok (v := { v with e := { v.e with slot := none } })
      (by simp [List.getElem?_set, hl]) _),
    hoi, enumSwitch_run h1 h2 (fits_lt hc),
    copyCase_eq (o := o) (x := c.2) (t := t) (by simp [List.getElem?_set, hij, ho]) ht hos,
    construct_ok (v := { v with e := { index := c.1, slot := none } }) (by simp [List.getElem?_set, hl])]
  refine ⟨_, rfl, ?_⟩
  have := h.setNew hv c hc
  rw [members_eq ht] at this
  simp only [List.set_set]
  exact this

theorem assignMove_ok (h : Rep As S w) (kind : τ → Kind) (h1 : 1 ≤ As.length) (h2 : As.length ≤ 128)
    {i j : Nat} (hij : i ≠ j) {ci c : Nat × Option α} (hi : S[i]? = some (some ci))
    (hj : S[j]? = some (some c)) :
    ∃ w', assignMove kind As i j false w = .ok () w'
      ∧ Rep As ((S.set i (some c)).set j (some (afterMove kind As c))) w' := by
  obtain ⟨v, hv, hvi, hd⟩ := assign_mid h h1 h2 hi
  obtain ⟨o, t, ho, ht, hoi, hos, hoe, hf⟩ := h.get hj
  have hl := vars_lt hv
  have hc : Fits As c.1 := ⟨t, ht, hf⟩
  simp only [assignMove, ne_eq, hij, not_false_eq_true, if_true]
  rw [Cpp.bind_ok (useVar_ok hv), Cpp.bind_ok hd,
    Cpp.bind_ok (useVar_ok (v := o) (by simp [List.getElem?_set, hij, ho])),
    Cpp.bind_ok (setIndex_ok (v := { v with e := { v.e with slot := none } })
      (by simp [List.getElem?_set, hl]) _),
    hoi, enumSwitch_run h1 h2 (fits_lt hc),
    moveCase_ok (o := o) (x := c.2) (t := t) (v := { v with e := { index := c.1, slot := none } })
      (by simp [List.getElem?_set, hij, ho]) ht hos (by simp [List.getElem?_set, hl])]
  refine ⟨_, rfl, ?_⟩
  have h3 := h.setNew hv c hc
  have h4 := h3.setSame (k := j) (v := o) (by simp [List.getElem?_set, hij, ho])
    (afterMove kind As c) (by rw [afterMove_fst]; exact hc)
  rw [members_afterMove kind ht, members_eq ht] at h4
  simp only [List.set_set, hoi]
  exact h4

theorem assign_self (h : Rep As S w) (kind : τ → Kind) {i : Nat} {c : Nat × Option α}
    (hi : S[i]? = some (some c)) (thr : Bool) :
    assignCopy As i i thr w = .ok () w ∧ assignMove kind As i i thr w = .ok () w := by
  obtain ⟨v, t, hv, -⟩ := h.get hi
  simp [assignCopy, assignMove, Cpp.bind_ok (useVar_ok hv)]

theorem dtor_ok (h : Rep As S w) (h1 : 1 ≤ As.length) (h2 : As.length ≤ 128) {i : Nat}
    {c : Nat × Option α} (hi : S[i]? = some (some c)) :
    ∃ w', dtor As i w = .ok () w' ∧ Rep As (S.set i none) w' := by
  obtain ⟨v, hv, hvi, hd⟩ := assign_mid h h1 h2 hi
  simp only [dtor]
  rw [Cpp.bind_ok (useVar_ok hv), Cpp.bind_ok hd]
  refine ⟨_, rfl, ?_⟩
  have := h.setNone hv
  simp only [World.put, List.set_set]
  exact this

theorem step_ok (h : Rep As S w) (kind : τ → Kind) (dv : α) (h1 : 1 ≤ As.length)
    (h2 : As.length ≤ 128) {op : Op τ α} {S' : Store α} {b : Bool}
    (hs : step kind As dv S op = some (S', b)) :
    ∃ w', op.run kind As dv w = (if b then .thrown w' else .ok () w') ∧ Rep As S' w' := by
  cases op with
  | dflt thr =>
    simp only [step, Option.some.injEq, Prod.mk.injEq] at hs
    obtain ⟨rfl, rfl⟩ := hs
    cases thr
    · exact ctorDefault_rep h h1 dv
    · exact ctorDefault_thr h h1 dv
  | ofVal t x thr =>
    simp only [step] at hs
    split at hs
    · rename_i ht
      simp only [Option.some.injEq, Prod.mk.injEq] at hs
      obtain ⟨rfl, rfl⟩ := hs
      cases thr
      · exact ⟨_, ctorVal_ok ht h2 x, h.push _ (fits_idxOf ht)⟩
      · exact ⟨_, ctorVal_thr ht x, h.pushNone⟩
    · cases hs
  | copy j thr =>
    simp only [step] at hs
    split at hs
    · rename_i c hj
      simp only [Option.some.injEq, Prod.mk.injEq] at hs
      obtain ⟨rfl, rfl⟩ := hs
      cases thr
      · exact (ctorCopy_rep h h1 h2 hj).1
      · exact (ctorCopy_rep h h1 h2 hj).2
    · cases hs
  | move j thr =>
    simp only [step] at hs
    split at hs
    · rename_i c hj
      cases thr
      · simp only [Bool.false_eq_true, if_false, Option.some.injEq, Prod.mk.injEq] at hs
        obtain ⟨rfl, rfl⟩ := hs
        exact (ctorMove_rep h kind h1 h2 hj).1
      · simp only [if_true, Option.some.injEq, Prod.mk.injEq] at hs
        obtain ⟨rfl, rfl⟩ := hs
        exact (ctorMove_rep h kind h1 h2 hj).2
    · cases hs
  | assign i j thr =>
    simp only [step] at hs
    split at hs
    · rename_i ci c hi hj
      split at hs
      · rename_i e
        subst e
        simp only [Option.some.injEq, Prod.mk.injEq] at hs
        obtain ⟨rfl, rfl⟩ := hs
        exact ⟨w, (assign_self h kind hi thr).1, h⟩
      · rename_i e
        cases thr
        · simp only [Bool.false_eq_true, if_false, Option.some.injEq, Prod.mk.injEq] at hs
          obtain ⟨rfl, rfl⟩ := hs
          exact assignCopy_ok h h1 h2 e hi hj
        · cases hs
    · cases hs
  | moveAssign i j thr =>
    simp only [step] at hs
    split at hs
    · rename_i ci c hi hj
      split at hs
      · rename_i e
        subst e
        simp only [Option.some.injEq, Prod.mk.injEq] at hs
        obtain ⟨rfl, rfl⟩ := hs
        exact ⟨w, (assign_self h kind hi thr).2, h⟩
      · rename_i e
        cases thr
        · simp only [Bool.false_eq_true, if_false, Option.some.injEq, Prod.mk.injEq] at hs
          obtain ⟨rfl, rfl⟩ := hs
          exact assignMove_ok h kind h1 h2 e hi hj
        · cases hs
    · cases hs
  | assignVal i t x thr thr' =>
    simp only [step] at hs
    split at hs
    · rename_i ci hi
      split at hs
      · rename_i ht
        simp only [Op.run, assignVal]
        cases thr
        · simp only [Bool.false_eq_true, if_false] at hs
          cases thr'
          · simp only [Bool.false_eq_true, if_false, Option.some.injEq, Prod.mk.injEq] at hs
            obtain ⟨rfl, rfl⟩ := hs
            rw [ctorVal_ok ht h2 x]
            have hp := h.push (As.idxOf t, some x) (fits_idxOf ht)
            have hlt : i < S.length := (List.getElem?_eq_some_iff.mp hi).1
            have hne : i ≠ w.vars.length := by rw [h.len]; omega
            obtain ⟨w₂, hw₂, hr₂⟩ := assignMove_ok hp kind h1 h2 hne (ci := ci)
              (c := (As.idxOf t, some x))
              (by rw [List.getElem?_append_left hlt, hi]) (by rw [h.len]; simp)
            obtain ⟨w₃, hw₃, hr₃⟩ := dtor_ok hr₂ h1 h2 (i := w.vars.length)
              (c := afterMove kind As (As.idxOf t, some x)) (by
                rw [h.len, List.getElem?_set_self (by simp)])
            refine ⟨w₃, ?_, ?_⟩
            · simp only [hw₂, hw₃, Bool.false_eq_true, if_false]
            · rw [h.len] at hr₃
              simpa [List.set_append_left _ _ hlt] using hr₃
          · simp at hs
        · simp only [if_true, Option.some.injEq, Prod.mk.injEq] at hs
          obtain ⟨rfl, rfl⟩ := hs
          rw [ctorVal_thr ht x]
          exact ⟨_, rfl, h.pushNone⟩
      · cases hs
    · cases hs
  | kill i =>
    simp only [step] at hs
    split at hs
    · rename_i c hi
      simp only [Option.some.injEq, Prod.mk.injEq] at hs
      obtain ⟨rfl, rfl⟩ := hs
      exact dtor_ok h h1 h2 hi
    · cases hs

theorem exec_ok (kind : τ → Kind) (dv : α) (h1 : 1 ≤ As.length) (h2 : As.length ≤ 128)
    {ops : List (Op τ α)} {S' : Store α} {l : List Bool} (h : Rep As S w)
    (hs : run kind As dv ops S = some (S', l)) :
    ∃ w', exec kind As dv ops w = .ok l w' ∧ Rep As S' w' := by
  induction ops generalizing S w l with
  | nil =>
    simp only [run, Option.some.injEq, Prod.mk.injEq] at hs
    obtain ⟨rfl, rfl⟩ := hs
    exact ⟨w, rfl, h⟩
  | cons op ops ih =>
    simp only [run] at hs
    split at hs
    · cases hs
    · rename_i S₁ b hb
      obtain ⟨w₁, hw₁, hr₁⟩ := step_ok h kind dv h1 h2 hb
      cases hrun : run kind As dv ops S₁ with
      | none => simp [hrun] at hs
      | some p =>
        obtain ⟨S₂, l₂⟩ := p
        simp only [hrun, Option.map_some, Option.some.injEq, Prod.mk.injEq] at hs
        obtain ⟨rfl, rfl⟩ := hs
        obtain ⟨w₂, hw₂, hr₂⟩ := ih hr₁ hrun
        refine ⟨w₂, ?_, hr₂⟩
        cases b
        · simp only [exec, hw₁, Bool.false_eq_true, if_false, Cpp.bind_ok hw₂, Cpp.pure_run]
        · simp only [exec, hw₁, if_true, Cpp.bind_ok hw₂, Cpp.pure_run]

theorem rep_nil : Rep (α := α) As [] {} where
  vars := by simp
  inv := by simp
  ids := by simp [living]

end rep

/-! ## Overload resolution -/

section resolve

variable {rank : τ → τ → Option Nat} {bs : List (Branch τ)} {t : τ}

theorem resolve_some {b : Nat} (h : resolve rank bs t = some b) :
    ∃ c, bs[b]?.bind (cost rank t) = some c
      ∧ ∀ j d, j ≠ b → bs[j]?.bind (cost rank t) = some d → c < d := by
  have h1 := List.find?_some h
  split at h1
  · cases h1
  · rename_i c hc
    refine ⟨c, hc, fun j d hj hd => ?_⟩
    rw [List.all_eq_true] at h1
    have hlt : j < bs.length := by
      cases hb : bs[j]? with
      | none => simp [hb] at hd
      | some x => exact (List.getElem?_eq_some_iff.mp hb).1
    have := h1 j (List.mem_range.mpr hlt)
    simpa [hj, hd] using this

theorem resolve_isSome {b c : Nat} (hb : bs[b]?.bind (cost rank t) = some c)
    (h : ∀ j d, j ≠ b → bs[j]?.bind (cost rank t) = some d → c < d) :
    (resolve rank bs t).isSome = true := by
  rw [resolve, List.find?_isSome]
  have hlt : b < bs.length := by
    cases hx : bs[b]? with
    | none => simp [hx] at hb
    | some x => exact (List.getElem?_eq_some_iff.mp hx).1
  refine ⟨b, List.mem_range.mpr hlt, ?_⟩
  simp only [hb]
  rw [List.all_eq_true]
  intro j _
  by_cases hj : j = b
  · simp [hj]
  · cases hd : bs[j]?.bind (cost rank t) with
    | none => simp
    | some d => simp [h j d hj hd]

theorem cost_pat {b : Nat} {p : τ} (h : bs[b]? = some (.pat p)) :
    bs[b]?.bind (cost rank t) = (rank p t).map (2 * ·) := by
  simp [h, cost]

theorem cost_wild {b : Nat} (h : bs[b]? = some .wild) : bs[b]?.bind (cost rank t) = some 1 := by
  simp [h, cost]

theorem cost_cases {b c : Nat} (h : bs[b]?.bind (cost rank t) = some c) :
    (bs[b]? = some .wild ∧ c = 1) ∨ ∃ p r, bs[b]? = some (.pat p) ∧ rank p t = some r ∧ c = 2 * r := by
  cases hb : bs[b]? with
  | none => simp [hb] at h
  | some x =>
    cases x with
    | wild => left; simp [hb, cost] at h; exact ⟨rfl, h.symm⟩
    | pat p =>
      right
      simp only [hb, Option.bind_some, cost, Option.map_eq_some_iff] at h
      obtain ⟨r, hr, hc⟩ := h
      exact ⟨p, r, rfl, hr, hc.symm⟩

theorem resolve_selected (hr : Ranks rank) {b : Nat} (h : resolve rank bs t = some b) :
    Selected rank bs t b ∧ ∀ b', Selected rank bs t b' → b' = b := by
  obtain ⟨c, hc, hmin⟩ := resolve_some h
  have own : ∀ j, bs[j]? = some (.pat t) → j = b := by
    intro j hj
    apply Classical.byContradiction
    intro hne
    have := hmin j 0 hne (by rw [cost_pat hj, (hr t t).mpr rfl]; rfl)
    omega
  have rk : ∀ {p r}, Branch.pat t ∉ bs → ∀ {j : Nat}, bs[j]? = some (.pat p) → rank p t = some r → 1 ≤ r := by
    intro p r hn j hj hrr
    cases r with
    | zero => exact absurd (List.mem_of_getElem? ((hr p t).mp hrr ▸ hj)) hn
    | succ r => omega
  constructor
  · by_cases hown : Branch.pat t ∈ bs
    · obtain ⟨j, hj⟩ := List.getElem?_of_mem hown
      exact .inl (own j hj ▸ hj)
    · rcases cost_cases hc with ⟨hw, rfl⟩ | ⟨p, r, hp, hrr, rfl⟩
      · exact .inr (.inl ⟨hown, hw⟩)
      · refine .inr (.inr ⟨hown, fun hw => ?_, p, r, hp, hrr, fun j q d hj hq hd => ?_⟩)
        · obtain ⟨j, hj⟩ := List.getElem?_of_mem hw
          have hjb : j ≠ b := fun e => by rw [e, hp] at hj; cases hj
          have h1 := hmin j 1 hjb (cost_wild hj)
          have h2 := rk hown hp hrr
          omega
        · have := hmin j (2 * d) hj (by rw [cost_pat hq, hd]; rfl)
          omega
  · intro b' hs
    rcases hs with hs | ⟨hown, hw⟩ | ⟨hown, hnw, p, c', hp, hrr, hbest⟩
    · exact own b' hs
    · apply Classical.byContradiction
      intro hne
      have h1 := hmin b' 1 hne (cost_wild hw)
      rcases cost_cases hc with ⟨_, rfl⟩ | ⟨p, r, hp, hrr, rfl⟩
      · omega
      · have := rk hown hp hrr; omega
    · apply Classical.byContradiction
      intro hne
      have h1 := hmin b' (2 * c') hne (by rw [cost_pat hp, hrr]; rfl)
      rcases cost_cases hc with ⟨hw, _⟩ | ⟨q, r, hq, hqr, rfl⟩
      · exact hnw (List.mem_of_getElem? hw)
      · have := hbest b q r (fun e => hne e.symm) hq hqr
        omega

theorem getElem?_branches {ps : List τ} {w : Bool} {j : Nat} {x : Branch τ}
    (h : (branches ps w)[j]? = some x) :
    (∃ q, ps[j]? = some q ∧ x = .pat q) ∨ (j = ps.length ∧ w = true ∧ x = .wild) := by
  simp only [branches, List.getElem?_append, List.length_map] at h
  split at h
  · left
    rw [List.getElem?_map] at h
    cases hq : ps[j]? with
    | none => simp [hq] at h
    | some q => simp [hq] at h; exact ⟨q, rfl, h.symm⟩
  · cases w
    · simp at h
    · right
      simp only [if_true, List.getElem?_singleton] at h
      split at h
      · simp at h; exact ⟨by omega, rfl, h.symm⟩
      · simp at h

theorem resolve_branches [DecidableEq τ] (hr : Ranks rank) {As ps : List τ} {w : Bool}
    (h : WellWritten As ps w) {t : τ} (ht : t ∈ As) : (resolve rank (branches ps w) t).isSome = true := by
  by_cases hm : t ∈ ps
  · have hlt : ps.idxOf t < ps.length := List.idxOf_lt_length_of_mem hm
    have hb : (branches ps w)[ps.idxOf t]? = some (.pat t) := by
      rw [branches, List.getElem?_append_left (by simpa using hlt), List.getElem?_map,
        List.getElem?_eq_getElem hlt, List.getElem_idxOf]
      rfl
    refine resolve_isSome (b := ps.idxOf t) (c := 0) (by rw [cost_pat hb, (hr t t).mpr rfl]; rfl) ?_
    intro j d hj hd
    rcases cost_cases hd with ⟨_, rfl⟩ | ⟨q, r, hq, hqr, rfl⟩
    · omega
    · cases r with
      | zero =>
        exfalso
        have hqt := (hr q t).mp hqr
        subst hqt
        rcases getElem?_branches hq with ⟨q', hq', he⟩ | ⟨_, _, he⟩
        · cases he
          apply hj
          obtain ⟨hjl, hje⟩ := List.getElem?_eq_some_iff.mp hq'
          have := h.nodup.idxOf_getElem j hjl
          rw [hje] at this
          exact this.symm
        · cases he
      | succ r => omega
  · have hw : w = true := by
      cases w
      · exact absurd (h.cover rfl t ht) hm
      · rfl
    subst hw
    have hb : (branches ps true)[ps.length]? = some .wild := by
      simp [branches]
    refine resolve_isSome (b := ps.length) (c := 1) (cost_wild hb) ?_
    intro j d hj hd
    rcases cost_cases hd with ⟨hwj, rfl⟩ | ⟨q, r, hq, hqr, rfl⟩
    · rcases getElem?_branches hwj with ⟨_, _, he⟩ | ⟨hl, _, _⟩
      · cases he
      · exact absurd hl hj
    · cases r with
      | zero =>
        exfalso
        have hqt := (hr q t).mp hqr
        subst hqt
        rcases getElem?_branches hq with ⟨q', hq', he⟩ | ⟨_, _, he⟩
        · cases he; exact hm (List.mem_of_getElem? hq')
        · cases he
      | succ r => omega

theorem patternCheck_branches (hr : Ranks rank) {As ps : List τ} {w : Bool} (hsub : ∀ p ∈ ps, p ∈ As)
    (hs : w = true ∨ ps ≠ []) : patternCheck rank As (branches ps w) = true := by
  have hrel : ∀ p ∈ As, relevant rank As (.pat p) = true := by
    intro p hp
    simp only [relevant, List.any_eq_true]
    exact ⟨p, hp, by simp [Branch.invocable, (hr p p).mpr rfl]⟩
  induction ps with
  | nil =>
    rcases hs with rfl | hs
    · simp [branches, patternCheck, Branch.isWild]
    · simp at hs
  | cons p ps ih =>
    have hp := hrel p (hsub p (by simp))
    cases hx : branches ps w with
    | nil =>
      have : branches (p :: ps) w = [.pat p] := by
        simpa [branches] using hx
      simp [this, patternCheck, hp]
    | cons b bs =>
      have e : branches (p :: ps) w = .pat p :: b :: bs := by
        rw [← hx]; simp [branches]
      have := ih (fun q hq => hsub q (by simp [hq])) (by
        cases w
        · right; intro e; subst e; simp [branches] at hx
        · left; rfl)
      rw [e, patternCheck, hp, ← hx, this]
      · simp [Branch.isWild]
      · simp

end resolve

/-! ## A variable of a program -/

theorem contains_spec [DecidableEq τ] {kind : τ → Kind} {As : List τ} {dv : α} {v : Var τ α} {i : Nat}
    {x : Option α} (h1 : 1 ≤ As.length) (h2 : As.length ≤ 128) (h : Contains kind As dv v i x) :
    ∃ t, As[i]? = some t ∧ As.idxOf t = i ∧ v.e = { index := i, slot := some (t, x) } := by
  obtain ⟨ops, S, l, w, k, hr, he, hv, hS⟩ := h
  obtain ⟨w', hw', hrep⟩ := exec_ok kind dv h1 h2 rep_nil hr
  rw [he] at hw'
  cases hw'
  obtain ⟨v', t, hv', ht, -, -, hm, hi⟩ := hrep.get hS
  rw [hv] at hv'
  cases hv'
  exact ⟨t, ht, hi, by rw [hm, members_eq ht]⟩

theorem getT_eq [DecidableEq τ] {As : List τ} {e : Raw τ ν} {i : Nat} {t u : τ} {x : ν}
    (he : e = { index := i, slot := some (t, x) }) (ht : As[i]? = some t) (hi : As.idxOf t = i)
    (hu : u ∈ As) (s : σ) :
    getT As u e s = if u = t then .ok x s else .thrown s := by
  subst he
  simp only [getT, altIndex_eq, hu, if_true]
  by_cases h : u = t
  · subst h
    simp [hi, readAs]
  · have hne : ¬ i = As.idxOf u := by
      intro e
      apply h
      have h1 := List.getElem_idxOf (List.idxOf_lt_length_of_mem hu)
      obtain ⟨hlt, h3⟩ := List.getElem?_eq_some_iff.mp ht
      subst e
      exact h1.symm.trans h3
    simp [h, hne]

theorem getI_eq [DecidableEq τ] {As : List τ} {e : Raw τ ν} {i j : Nat} {t : τ} {x : ν}
    (he : e = { index := i, slot := some (t, x) }) (ht : As[i]? = some t) (s : σ) :
    getI As j e s = if j = i then .ok x s else .thrown s := by
  subst he
  by_cases h : i = j
  · subst h
    simp [getI, packAt_eq, ht, readAs]
  · have h' : ¬ j = i := fun e => h e.symm
    simp [getI, h, h']

end Efp.Enum
