import Verif.PreludeManaged
import Verif.ViewLemmas

/-!
# Properties of the list functions (C42-C47, C51-C55)

An argument sequence `as : Inp α` is any existing `Array`, `ArrVec`, `Vector` or view (`as.valid`: its length fits
its static type); `as.vals` are its elements.  Client functions run on a world `ω`; they may change it, throw or
be undefined.  `Yields (call w) (spec w)` says: if the specification computes the list `bs` and ends in world
`w'`, the call returns an object whose elements are `bs`, in the same world; if client code throws or is
undefined in the specification, the call does the same.  So the specification also fixes how often, in which order
and with which arguments client code is called.  `k` is the kind of the result's elements.
-/

namespace Efp
namespace Props

open Prelude

variable {α β γ ω : Type}

/-! ### facts about the specification vocabulary -/

/-- one list: the rows are its elements -/
theorem rows_one (l : List α) : rows [l] = l.map (fun a => [a]) := row_singleton l

/-- the rows of several lists: as many as the shortest list has elements ... -/
theorem rows_length (ls : List (List α)) : (rows ls).length = shortest ls := by simp [rows]

/-- ... and row `i` holds the `i`-th element of each list -/
theorem rows_get (ls : List (List α)) (i : Nat) (hi : i < shortest ls) :
    ∃ r, (rows ls)[i]? = some r ∧ r.length = ls.length ∧ ∀ (j : Nat) (l : List α), ls[j]? = some l → r[j]? = l[i]? := by
  refine ⟨row i ls, by simp [rows, hi], ?_⟩
  have hall := shortest_le ls
  have hi' : ∀ l ∈ ls, i < l.length := fun l hl => Nat.lt_of_lt_of_le hi (hall l hl)
  clear hall hi
  unfold row
  induction ls with
  | nil => exact ⟨rfl, by simp⟩
  | cons m ls ih =>
    have hm := hi' m (by simp)
    obtain ⟨h1, h2⟩ := ih (fun l hl => hi' l (by simp [hl]))
    rw [List.filterMap_cons, List.getElem?_eq_getElem hm]
    refine ⟨by simp [h1], ?_⟩
    intro j l hj
    cases j with
    | zero => simp at hj; subst hj; simp [hm]
    | succ j => simpa using h2 j l (by simpa using hj)

theorem mapM_pure (f : γ → β) (l : List γ) : (l.mapM (fun x => pure (f x)) : Cpp ω (List β)) = pure (l.map f) := by
  induction l with
  | nil => rfl
  | cons x l ih => rw [List.mapM_cons, ih]; rfl

theorem mapM_recording (g : γ → β) (l : List γ) (w : List γ) :
    (l.mapM (recording g)) w = .ok (l.map g) (w ++ l) := by
  induction l generalizing w with
  | nil => simp
  | cons x l ih =>
    rw [List.mapM_cons]
    have h1 : recording g x w = .ok (g x) (w ++ [x]) := rfl
    rw [Cpp.bind_ok h1, Cpp.bind_ok (ih _)]
    simp

/-! ### C42 -/

/-- C42: `map`, for trivially copyable results, or any results if all arguments have static size (other
results: C55) -/
theorem C42_map (k : Kind) (d : β) (f : List α → Cpp ω β) (ass : List (Inp α)) (hne : ass ≠ [])
    (hv : ∀ as ∈ ass, as.valid) (hk : k = .trivial ∨ ∀ as ∈ ass, as.ty.isStaticSize = true) (w : ω) :
    Yields (map k d f ass w) ((rows (ass.map Inp.vals)).mapM f w) :=
  (map_gives d f hne hv hk w).yields

/-- C42: `map_with_index` passes the index -/
theorem C42_map_with_index (k : Kind) (d : β) (f : Nat → List α → Cpp ω β) (ass : List (Inp α)) (hne : ass ≠ [])
    (hv : ∀ as ∈ ass, as.valid) (hk : k = .trivial ∨ ∀ as ∈ ass, as.ty.isStaticSize = true) (w : ω) :
    Yields (mapWithIndex k d f ass w)
      ((List.range (shortest (ass.map Inp.vals))).mapM (fun i => f i (row i (ass.map Inp.vals))) w) :=
  (mapWithIndex_gives d f hne hv hk w).yields

/-- C42 for a pure function: length of the shortest argument, element `i` is `f` of the `i`-th elements -/
theorem C42_map_pure (k : Kind) (d : β) (g : List α → β) (ass : List (Inp α)) (hne : ass ≠ [])
    (hv : ∀ as ∈ ass, as.valid) (hk : k = .trivial ∨ ∀ as ∈ ass, as.ty.isStaticSize = true) (w : ω) :
    ∃ r bs, map k d (fun xs => pure (g xs)) ass w = .ok r w ∧ r.contents = .ok bs ∧
      bs.length = shortest (ass.map Inp.vals) ∧
      ∀ i, i < bs.length → bs[i]? = some (g (row i (ass.map Inp.vals))) := by
  have h := C42_map k d (fun xs => pure (g xs)) ass hne hv hk w
  rw [mapM_pure] at h
  obtain ⟨r, h1, h2⟩ := h
  refine ⟨r, _, h1, h2, by simp [rows], ?_⟩
  intro i hi
  simp [rows] at hi ⊢
  simp [hi]

/-- C42: a recording function sees exactly the rows, once each, in increasing order -/
theorem C42_map_calls (k : Kind) (d : β) (g : List α → β) (ass : List (Inp α)) (hne : ass ≠ [])
    (hv : ∀ as ∈ ass, as.valid) (hk : k = .trivial ∨ ∀ as ∈ ass, as.ty.isStaticSize = true) :
    ∃ r, map k d (recording g) ass [] = .ok r (rows (ass.map Inp.vals)) ∧
      r.contents = .ok ((rows (ass.map Inp.vals)).map g) := by
  have h := C42_map k d (recording g) ass hne hv hk []
  rw [mapM_recording, List.nil_append] at h
  exact h

/-- C42: `map(id, as)` has the elements of `as` -/
theorem C42_map_id (k : Kind) (d : α) (as : Inp α) (hv : as.valid)
    (hk : k = .trivial ∨ as.ty.isStaticSize = true) (w : ω) :
    ∃ r, map k d (fun xs => pure (unary id xs d)) [as] w = .ok r w ∧ r.contents = .ok as.vals := by
  have h := C42_map k d (fun xs => (pure (unary id xs d) : Cpp ω α)) [as] (by simp) (by simpa using hv)
    (hk.imp id (by simp)) w
  rw [mapM_pure] at h
  have e : (rows ([as].map Inp.vals)).map (fun xs => unary id xs d) = as.vals := by
    rw [List.map_cons, List.map_nil, rows_one, List.map_map]
    exact (List.map_congr_left (fun a _ => rfl)).trans (List.map_id _)
  rw [e] at h
  exact h

/-- C42: mapping `g` over the result of mapping `f` has the elements of mapping `g ∘ f`.  `bs` are the elements
of the intermediate result, an object of static type `r.ty`. -/
theorem C42_map_map (d : β) (e : γ) (f : α → β) (g : β → γ) (as : Inp α) (hv : as.valid) (w : ω) :
    ∃ r bs q q', map .trivial d (fun xs => pure (unary f xs d)) [as] w = .ok r w ∧ r.contents = .ok bs ∧
      map .trivial e (fun xs => pure (unary g xs e)) [⟨r.ty, bs, 0, false⟩] w = .ok q w ∧
      map .trivial e (fun xs => pure (unary (fun a => g (f a)) xs e)) [as] w = .ok q' w ∧
      q.contents = q'.contents ∧ q.contents = .ok (as.vals.map (fun a => g (f a))) := by
  have h1 := map_gives (k := .trivial) d (fun xs => (pure (unary f xs d) : Cpp ω β)) (ass := [as]) (by simp)
    (by simpa using hv) (.inl rfl) w
  have e1 : (rows ([as].map Inp.vals)).map (fun xs => unary f xs d) = as.vals.map f := by
    rw [List.map_cons, List.map_nil, rows_one, List.map_map]; rfl
  rw [mapM_pure, e1] at h1
  obtain ⟨r, h2, h3, h4⟩ := h1
  have hty : r.ty = as.ty ∨ (r.ty = .vector ∧ as.vals.length < dyn) := by
    rw [h4]
    rcases ty_cases hv with ⟨m, a1, a2, a3⟩ | ⟨m, a1, a2, a3⟩ | ⟨a1, a3⟩
    · left
      simp [naryTy, a1, static_array a3, minimum, SeqTy.ctSize]; omega
    · left
      simp [naryTy, a1, static_arrVec, staticCap_arrVec a3, minimum, SeqTy.ctCap]; omega
    · left
      simp [naryTy, a1, static_vector, staticCap_vector]
  have hv2 : (⟨r.ty, as.vals.map f, 0, false⟩ : Inp β).valid := by
    refine ⟨?_, by simp⟩
    rcases hty with hty | ⟨hty, hl⟩
    · have := hv.1
      simp only [hty]
      revert this
      cases as.ty <;> simp
    · simp only [hty, List.length_map]; exact hl
  have h5 := C42_map .trivial e (fun xs => (pure (unary g xs e) : Cpp ω γ)) [⟨r.ty, as.vals.map f, 0, false⟩] (by simp)
    (by simpa using hv2) (.inl rfl) w
  have e2 : (rows ([(⟨r.ty, as.vals.map f, 0, false⟩ : Inp β)].map Inp.vals)).map (fun xs => unary g xs e) =
      as.vals.map (fun a => g (f a)) := by
    rw [List.map_cons, List.map_nil, rows_one, List.map_map, List.map_map]; rfl
  rw [mapM_pure, e2] at h5
  have h6 := C42_map .trivial e (fun xs => (pure (unary (fun a => g (f a)) xs e) : Cpp ω γ)) [as] (by simp)
    (by simpa using hv) (.inl rfl) w
  have e3 : (rows ([as].map Inp.vals)).map (fun xs => unary (fun a => g (f a)) xs e) =
      as.vals.map (fun a => g (f a)) := by
    rw [List.map_cons, List.map_nil, rows_one, List.map_map]; rfl
  rw [mapM_pure, e3] at h6
  obtain ⟨q, h7, h8⟩ := h5
  obtain ⟨q', h9, h10⟩ := h6
  exact ⟨r, _, q, q', h2, h3.contents, h7, h9, h8.trans h10.symm, h8⟩

example : ∀ as ∈ [(⟨.vector, [1, 2, 3], 0, false⟩ : Inp Nat), ⟨.array 2, [10, 20], 1, false⟩], as.valid := by decide
example : ∃ r, map .trivial 0 (fun xs => pure xs.sum)
    [(⟨.vector, [1, 2, 3], 0, false⟩ : Inp Nat), ⟨.array 2, [10, 20], 1, false⟩] () = .ok r () ∧
    r.ty = .vector ∧ r.contents = .ok [11, 22] := ⟨_, rfl, by decide, by decide⟩

/-! ### C43 -/

/-- C43: `filter` calls the predicate once per element in order and keeps the accepted ones; for every
element kind, and without ever overflowing its result -/
theorem C43_filter (k : Kind) (d : α) (p : α → Cpp ω Bool) (as : Inp α) (hv : as.valid) (w : ω) :
    Yields (filter k d p as w) (filterCalls p as.vals w) := (filter_gives hv d p w).yields

/-- C43 for a pure predicate -/
theorem C43_filter_pure (k : Kind) (d : α) (q : α → Bool) (as : Inp α) (hv : as.valid) (w : ω) :
    ∃ r, filter k d (fun a => pure (q a)) as w = .ok r w ∧ r.contents = .ok (as.vals.filter q) := by
  have h := C43_filter k d (fun a => (pure (q a) : Cpp ω Bool)) as hv w
  rw [filterCalls_pure] at h
  exact h

example : ∃ r, filter .managed 0 (fun a => pure (a % 2 == 0)) (⟨.arrVec 4, [1, 2, 3, 4], 0, false⟩ : Inp Nat) () = .ok r () ∧
    r.ty = .arrVec 4 ∧ r.contents = .ok [2, 4] := ⟨_, rfl, by decide, by decide⟩

/-! ### C44 -/

/-- C44: `foldl` and `foldr` are the list folds, calls of client code included -/
theorem C44_folds (as : Inp α) (f : β → α → Cpp ω β) (g : α → β → Cpp ω β) (z : β) (w : ω) :
    foldl f z as w = as.vals.foldlM f z w ∧ foldr g z as w = as.vals.foldrM g z w := by
  rw [foldl_eq, foldr_eq]; exact ⟨rfl, rfl⟩

theorem foldlM_pure (f : β → α → β) (z : β) (l : List α) :
    (l.foldlM (fun b a => pure (f b a)) z : Cpp ω β) = pure (l.foldl f z) := by
  induction l generalizing z with
  | nil => rfl
  | cons a l ih => rw [List.foldlM_cons, pure_bind, ih]; rfl

theorem foldrM_pure (f : α → β → β) (z : β) (l : List α) :
    (l.foldrM (fun a b => pure (f a b)) z : Cpp ω β) = pure (l.foldr f z) := by
  induction l with
  | nil => rfl
  | cons a l ih => rw [List.foldrM_cons, ih, pure_bind]; rfl

/-- C44 for pure functions -/
theorem C44_folds_pure (as : Inp α) (f : β → α → β) (g : α → β → β) (z : β) (w : ω) :
    foldl (fun b a => pure (f b a)) z as w = .ok (as.vals.foldl f z) w ∧
    foldr (fun a b => pure (g a b)) z as w = .ok (as.vals.foldr g z) w := by
  obtain ⟨h1, h2⟩ := C44_folds as (fun b a => (pure (f b a) : Cpp ω β)) (fun a b => pure (g a b)) z w
  rw [h1, h2, foldlM_pure, foldrM_pure]; exact ⟨rfl, rfl⟩

example : foldr (fun a b => pure (a - b)) 1 (⟨.vector, [10, 4, 2], 0, false⟩ : Inp Int) () = .ok 7 () := rfl

/-! ### C45 -/

/-- C45, the part that holds: when the compiler evaluates the arguments left to right -/
theorem C45_append_left_to_right_partial (k : Kind) (d : α) (ass : List (Inp α)) (hv : ∀ as ∈ ass, as.valid)
    (hk : k = .trivial ∨ ∀ as ∈ ass, as.ty.isStaticSize = true) (w : ω) :
    ∃ r, append k d ass ass w = .ok r w ∧ r.contents = .ok (ass.map Inp.vals).flatten :=
  (append_gives d (List.Perm.refl _) hv hk w).yields

/-- what `append` computes for every evaluation order: the arguments concatenated in THAT order -/
theorem C45_append_any_order (k : Kind) (d : α) (order ass : List (Inp α)) (ho : order.Perm ass)
    (hv : ∀ as ∈ ass, as.valid) (hk : k = .trivial ∨ ∀ as ∈ ass, as.ty.isStaticSize = true) (w : ω) :
    ∃ r, append k d order ass w = .ok r w ∧ r.contents = .ok (order.map Inp.vals).flatten :=
  (append_gives d ho hv hk w).yields

/-- C45 is false: for any two arguments that do not commute there is a permitted evaluation order under which
`append(as, bs)` is not `as` followed by `bs`. -/
theorem C45_append_order_dependent (d : α) (as bs : Inp α) (ha : as.valid) (hb : bs.valid)
    (hne : as.vals ++ bs.vals ≠ bs.vals ++ as.vals) (w : ω) :
    ∃ order, order.Perm [as, bs] ∧ ∃ r, append .trivial d order [as, bs] w = .ok r w ∧
      r.contents ≠ .ok (as.vals ++ bs.vals) := by
  refine ⟨[bs, as], List.Perm.swap .., ?_⟩
  obtain ⟨r, h1, h2⟩ := C45_append_any_order .trivial d [bs, as] [as, bs] (List.Perm.swap ..)
    (by simp [ha, hb]) (.inl rfl) w
  refine ⟨r, h1, ?_⟩
  rw [h2]
  intro h
  simp at h
  exact hne h.symm

example : ∃ r, append .trivial 0 [⟨.array 1, [3], 0, false⟩, ⟨.array 2, [1, 2], 0, false⟩]
    [(⟨.array 2, [1, 2], 0, false⟩ : Inp Nat), ⟨.array 1, [3], 0, false⟩] () = .ok r () ∧
    r.ty = .array 3 ∧ r.contents = .ok [3, 1, 2] := ⟨_, rfl, by decide, by decide⟩

/-! ### C46 -/

/-- C46: `concat` -/
theorem C46_concat (k : Kind) (d : α) (ass : Inp2 α) (hv : ass.valid)
    (hk : k = .trivial ∨ (ass.outer.isStaticSize = true ∧ ass.inner.isStaticSize = true)) (w : ω) :
    ∃ r, concat k d ass w = .ok r w ∧ r.contents = .ok (ass.rows.map Inp.vals).flatten :=
  (concat_gives d hv hk w).yields

/-- C46: `intercalate`.  `hst` leaves out one case, in which the claim is false (next theorem): an
`Array<.., 0>` of arrays joined with a non-empty array. -/
theorem C46_intercalate_partial (k : Kind) (d : α) (dl : Inp α) (ass : Inp2 α) (hd : dl.valid) (hv : ass.valid)
    (hst : ass.outer = .array 0 → dl.ty.isStaticSize = true → ass.inner.isStaticSize = true → dl.vals = [])
    (hk : k = .trivial ∨
      (dl.ty.isStaticSize = true ∧ ass.outer.isStaticSize = true ∧ ass.inner.isStaticSize = true)) (w : ω) :
    ∃ r, intercalate k d dl ass w = .ok r w ∧
      r.contents = .ok (List.intercalate dl.vals (ass.rows.map Inp.vals)) :=
  (intercalate_gives d hd hv hst hk w).yields

/-- C46 is false for `intercalate` on an empty static list: the result type is an array of `2^64 - n` elements
(`n ≥ 2` the delimiter's length), so the result is not empty. -/
theorem C46_intercalate_static_empty (k : Kind) (d : α) (dl : Inp α) (n m : Nat) (ht : dl.ty = .array n)
    (hd : dl.valid) (hn : 2 ≤ n) (hm : m < dyn) (w : ω) :
    ∃ r bs, intercalate k d dl ⟨.array 0, .array m, []⟩ w = .ok r w ∧ r.contents = .ok bs ∧
      bs.length = 2 ^ 64 - n := by
  have hnd : n < dyn := by have := hd.1; rw [ht] at this; exact this.2
  have hty : intercalateTy dl.ty (.array 0) (.array m) = .array (2 ^ 64 - n) := by
    unfold intercalateTy
    rw [ht, if_pos (by simp [static_array hnd, static_array hm, static_array (show 0 < dyn by decide)])]
    simp only [SeqTy.ctSize, Nat.zero_mul, sub64]
    rw [if_neg (by omega)]
    rfl
  obtain ⟨u, hu, hr⟩ := ArrS.mk0_run (2 ^ 64 - n) d
  refine ⟨.array u, List.replicate (2 ^ 64 - n) d, ?_, hr.contents, by simp⟩
  unfold intercalate withResult
  rw [show (⟨.array 0, .array m, []⟩ : Inp2 α).outer = .array 0 from rfl,
    show (⟨.array 0, .array m, []⟩ : Inp2 α).inner = .array m from rfl, hty]
  simp only [Res.make, hu, Out.mapState]
  rw [if_pos (show length (⟨.array 0, .array m, []⟩ : Inp2 α).seq = 0 from rfl)]
  rfl

example : ∃ r, intercalate .trivial 0 (⟨.vector, [0, 0], 0, false⟩ : Inp Nat)
    ⟨.vector, .vector, [⟨.vector, [1], 0, false⟩, ⟨.vector, [2, 3], 0, false⟩, ⟨.vector, [], 0, false⟩]⟩ () = .ok r () ∧
    r.contents = .ok [1, 0, 0, 2, 3, 0, 0] :=
  C46_intercalate_partial .trivial 0 _ _ (by decide) (by decide) (by decide) (.inl rfl) ()
example : ∃ r, concat .trivial 0
    (⟨.array 2, .arrVec 3, [⟨.arrVec 3, [1], 0, false⟩, ⟨.arrVec 3, [2, 3], 0, false⟩]⟩ : Inp2 Nat) () = .ok r () ∧
    r.ty = .arrVec 6 ∧ r.contents = .ok [1, 2, 3] := ⟨_, rfl, by decide, by decide⟩
example : (⟨.array 2, .arrVec 3, [⟨.arrVec 3, [1], 0, false⟩, ⟨.arrVec 3, [2, 3], 0, false⟩]⟩ : Inp2 Nat).valid := by
  decide

/-! ### C47 -/

/-- C47: `from_function` -/
theorem C47_from_function (k : Kind) (d : β) (n : NArg) (f : Nat → Cpp ω β)
    (hk : k = .trivial ∨ ∃ m, n = .ct m) (w : ω) :
    Yields (fromFunction k d n f w) ((List.range n.val).mapM f w) := (fromFunction_gives d n f hk w).yields

/-- C47 for a pure function -/
theorem C47_from_function_pure (k : Kind) (d : β) (n : NArg) (g : Nat → β)
    (hk : k = .trivial ∨ ∃ m, n = .ct m) (w : ω) :
    ∃ r, fromFunction k d n (fun i => pure (g i)) w = .ok r w ∧ r.contents = .ok ((List.range n.val).map g) := by
  have h := C47_from_function k d n (fun i => (pure (g i) : Cpp ω β)) hk w
  rw [mapM_pure] at h
  exact h

example : ∃ r, fromFunction .managed 0 (.ct 3) (fun i => pure (i * i)) () = .ok r () ∧ r.ty = .array 3 ∧
    r.contents = .ok [0, 1, 4] := ⟨_, rfl, by decide, by decide⟩

/-! ### C51 -/

/-- C51: `find_index` and `find` with any predicate (calls stop at the first match) -/
theorem C51_find (p : α → Cpp ω Bool) (as : Inp α) (w : ω) :
    findIndex p as w = firstMatch p as.vals w ∧
    find p as w = (do let r ← firstMatch p as.vals; pure r.isSome) w := by
  rw [findIndex_eq, find_eq]; exact ⟨rfl, rfl⟩

/-- C51 for pure predicates: `find_index` is the first accepted position, nothing exactly when none is
accepted, and `find` is true exactly when one is -/
theorem C51_find_pure (q : α → Bool) (as : Inp α) (w : ω) :
    (∃ o, findIndex (fun a => pure (q a)) as w = .ok o w ∧
      (o = none ↔ ∀ a ∈ as.vals, q a = false) ∧
      (∀ i, o = some i ↔ (∃ a, as.vals[i]? = some a ∧ q a = true) ∧
        ∀ j a, j < i → as.vals[j]? = some a → q a = false)) ∧
    (∃ b, find (fun a => pure (q a)) as w = .ok b w ∧ (b = true ↔ ∃ a ∈ as.vals, q a = true)) := by
  obtain ⟨h1, h2⟩ := C51_find (fun a => (pure (q a) : Cpp ω Bool)) as w
  rw [firstMatch_pure] at h1 h2
  refine ⟨⟨_, h1, ?_, ?_⟩, ⟨_, h2, ?_⟩⟩
  · simp
  · intro i
    rw [List.findIdx?_eq_some_iff_getElem]
    constructor
    · rintro ⟨h, h3, h4⟩
      refine ⟨⟨as.vals[i], by simp [h], h3⟩, ?_⟩
      intro j a hj ha
      obtain ⟨h5, rfl⟩ := List.getElem?_eq_some_iff.mp ha
      simpa using h4 j hj
    · rintro ⟨⟨a, h3, h4⟩, h5⟩
      obtain ⟨h, rfl⟩ := List.getElem?_eq_some_iff.mp h3
      refine ⟨h, h4, ?_⟩
      intro j hj
      have := h5 j as.vals[j] hj (by simp)
      simp [this]
  · simp [List.findIdx?_isSome]

/-- C51: `elem` and `elem_index` are `find` and `find_index` for equality with `a` -/
theorem C51_elem (eq : α → α → Bool) (a : α) (as : Inp α) (w : ω) :
    elem eq a as w = find (fun x => pure (eq x a)) as w ∧
    elemIndex eq a as w = findIndex (fun x => pure (eq x a)) as w := ⟨rfl, rfl⟩

theorem indices_spec (q : α → Bool) (l : List α) (off : Nat) :
    (((l.zipIdx off).filter (fun x => q x.1)).map Prod.snd).Pairwise (· < ·) ∧
    ∀ i, i ∈ ((l.zipIdx off).filter (fun x => q x.1)).map Prod.snd ↔
      off ≤ i ∧ ∃ a, l[i - off]? = some a ∧ q a = true := by
  constructor
  · have h : ((l.zipIdx off).map Prod.snd).Pairwise (· < ·) := by
      rw [List.zipIdx_map_snd]
      exact List.pairwise_lt_range'
    refine h.sublist ?_
    exact List.Sublist.map _ List.filter_sublist
  · intro i
    simp only [List.mem_map, List.mem_filter, Prod.exists, List.mem_zipIdx_iff_le_and_getElem?_sub]
    constructor
    · rintro ⟨a, j, ⟨⟨h1, h2⟩, h3⟩, rfl⟩; exact ⟨h1, a, h2, h3⟩
    · rintro ⟨h1, a, h2, h3⟩; exact ⟨a, i, ⟨⟨h1, h2⟩, h3⟩, rfl⟩

/-- C51: `find_indices` with any predicate, called once per element in order -/
theorem C51_find_indices (p : α → Cpp ω Bool) (as : Inp α) (hv : as.valid) (w : ω) :
    Yields (findIndices p as w)
      ((do let r ← filterCalls (fun q : α × Nat => p q.1) as.vals.zipIdx; pure (r.map Prod.snd)) w) :=
  (findIndices_gives hv p w).yields

/-- C51 for pure predicates: all accepted positions, increasing -/
theorem C51_find_indices_pure (q : α → Bool) (as : Inp α) (hv : as.valid) (w : ω) :
    ∃ r is, findIndices (fun a => pure (q a)) as w = .ok r w ∧ r.contents = .ok is ∧
      is.Pairwise (· < ·) ∧ ∀ i, i ∈ is ↔ ∃ a, as.vals[i]? = some a ∧ q a = true := by
  have h := C51_find_indices (fun a => (pure (q a) : Cpp ω Bool)) as hv w
  rw [filterCalls_pure (fun x : α × Nat => q x.1)] at h
  obtain ⟨r, h1, h2⟩ := h
  obtain ⟨h3, h4⟩ := indices_spec q as.vals 0
  exact ⟨r, _, h1, h2, h3, fun i => by simpa using h4 i⟩

/-- C51: `elem_indices` gives the positions of the elements equal to `a`, increasing -/
theorem C51_elem_indices (eq : α → α → Bool) (a : α) (as : Inp α) (hv : as.valid) (w : ω) :
    ∃ r is, elemIndices eq a as w = .ok r w ∧ r.contents = .ok is ∧
      is.Pairwise (· < ·) ∧ ∀ i, i ∈ is ↔ ∃ x, as.vals[i]? = some x ∧ eq a x = true :=
  C51_find_indices_pure (fun x => eq a x) as hv w

example : elemIndex (· == ·) 2 (⟨.vector, [1, 2, 3, 2], 0, false⟩ : Inp Nat) () = .ok (some 1) () := rfl
example : elem (· == ·) 5 (⟨.vector, [1, 2, 3, 2], 0, false⟩ : Inp Nat) () = .ok false () := rfl
example : ∃ r, elemIndices (· == ·) 2 (⟨.array 4, [1, 2, 3, 2], 0, false⟩ : Inp Nat) () = .ok r () ∧
    r.contents = .ok [1, 3] := ⟨_, rfl, by decide⟩

/-! ### C52 -/

/-- the combinations: exactly the lists taking one element from each list ... -/
theorem combos_mem (ls : List (List α)) (c : List α) :
    c ∈ combos ls ↔ c.length = ls.length ∧ ∀ (j : Nat) (l : List α), ls[j]? = some l → ∃ a ∈ l, c[j]? = some a := by
  induction ls generalizing c with
  | nil => simp [combos]
  | cons l ls ih =>
    simp only [combos, List.mem_flatMap, List.mem_map]
    constructor
    · rintro ⟨a, ha, c', hc', rfl⟩
      obtain ⟨h1, h2⟩ := (ih c').mp hc'
      refine ⟨by simp [h1], ?_⟩
      intro j m hj
      cases j with
      | zero => simp at hj; subst hj; exact ⟨a, ha, by simp⟩
      | succ j => simpa using h2 j m (by simpa using hj)
    · rintro ⟨h1, h2⟩
      cases c with
      | nil => simp at h1
      | cons a c =>
        obtain ⟨a', ha', he⟩ := h2 0 l (by simp)
        simp at he
        subst he
        exact ⟨a, ha', c, (ih c).mpr ⟨by simpa using h1, fun j m hj => by simpa using h2 (j + 1) m (by simpa using hj)⟩, rfl⟩

/-- ... and as many as the product of the lengths -/
theorem combos_count (ls : List (List α)) : (combos ls).length = (ls.map List.length).foldl (· * ·) 1 :=
  combos_length ls

/-- lexicographic order on index tuples, the first component deciding first -/
inductive LexLt : List Nat → List Nat → Prop
  | head {a b : Nat} {as bs : List Nat} : a < b → LexLt (a :: as) (b :: bs)
  | tail {a : Nat} {as bs : List Nat} : LexLt as bs → LexLt (a :: as) (a :: bs)

/-- combinations of indices come in strictly increasing lexicographic order (so each exactly once, the last
component changing fastest) -/
theorem combos_lex (ns : List Nat) : (combos (ns.map List.range)).Pairwise LexLt := by
  induction ns with
  | nil => simp [combos]
  | cons n ns ih =>
    simp only [List.map_cons, combos]
    rw [List.pairwise_flatMap]
    refine ⟨?_, ?_⟩
    · intro a _
      rw [List.pairwise_map]
      exact ih.imp (fun h => LexLt.tail h)
    · refine List.Pairwise.imp ?_ List.pairwise_lt_range
      intro a b hab x hx y hy
      obtain ⟨x', _, rfl⟩ := List.mem_map.mp hx
      obtain ⟨y', _, rfl⟩ := List.mem_map.mp hy
      exact LexLt.head hab

theorem combos_map (g : α → β) (ls : List (List α)) :
    combos (ls.map (List.map g)) = (combos ls).map (List.map g) := by
  induction ls with
  | nil => rfl
  | cons l ls ih =>
    simp only [List.map_cons, combos, ih, List.map_flatMap, List.flatMap_map, List.map_map]
    rfl

/-- combinations of elements come in the order of their index tuples -/
theorem combos_indices (ls : List (List α)) : ∃ ps : List (List (α × Nat)),
    ps.map (List.map Prod.fst) = combos ls ∧
    (∀ p ∈ ps, ∀ (j : Nat) (l : List α) (x : α × Nat), ls[j]? = some l → p[j]? = some x → l[x.2]? = some x.1) ∧
    (ps.map (List.map Prod.snd)).Pairwise LexLt := by
  refine ⟨combos (ls.map List.zipIdx), ?_, ?_, ?_⟩
  · rw [← combos_map, List.map_map]
    congr 1
    conv => rhs; rw [← List.map_id ls]
    refine List.map_congr_left (fun l _ => ?_)
    simp [Function.comp]
  · intro p hp j l x hj hx
    obtain ⟨h1, h2⟩ := (combos_mem _ _).mp hp
    obtain ⟨a, ha, h3⟩ := h2 j l.zipIdx (by simp [hj])
    rw [hx] at h3
    cases h3
    have := List.mem_zipIdx_iff_getElem?.mp ha
    exact this
  · rw [← combos_map, List.map_map]
    have : ls.map (List.map Prod.snd ∘ List.zipIdx) = (ls.map List.length).map List.range := by
      rw [List.map_map]
      refine List.map_congr_left (fun l _ => ?_)
      simp [Function.comp, List.zipIdx_map_snd, List.range_eq_range']
    rw [this]
    exact combos_lex _

/-- C52: `cartesian_for_each` calls its function on every combination, in that order -/
theorem C52_cartesian_for_each (f : List α → Cpp ω Unit) (ass : List (Inp α)) (hne : ass ≠ [])
    (hv : ∀ as ∈ ass, as.valid) (w : ω) :
    cartesianForEach f ass w = forM (combos (ass.map Inp.vals)) f w := by
  rw [cartesianForEach_eq f hne hv]

/-- C52: `cartesian_for_index` likewise, on index tuples -/
theorem C52_cartesian_for_index (f : List Nat → Cpp ω Unit) (ns : List Nat) (hne : ns ≠ []) (w : ω) :
    cartesianForIndex f ns w = forM (combos (ns.map List.range)) f w := by
  rw [cartesianForIndex_eq f hne]

/-- C52: `cartesian_map` has one element per combination, in that order (results as in C42) -/
theorem C52_cartesian_map (k : Kind) (d : β) (f : List α → Cpp ω β) (ass : List (Inp α)) (hne : ass ≠ [])
    (hv : ∀ as ∈ ass, as.valid) (hk : k = .trivial ∨ ∀ as ∈ ass, as.ty.isStaticSize = true) (w : ω) :
    Yields (cartesianMap k d f ass w) ((combos (ass.map Inp.vals)).mapM f w) :=
  (cartesianMap_gives d f hne hv hk w).yields

/-- C52 for a pure function: product length -/
theorem C52_cartesian_map_pure (k : Kind) (d : β) (g : List α → β) (ass : List (Inp α)) (hne : ass ≠ [])
    (hv : ∀ as ∈ ass, as.valid) (hk : k = .trivial ∨ ∀ as ∈ ass, as.ty.isStaticSize = true) (w : ω) :
    ∃ r bs, cartesianMap k d (fun xs => pure (g xs)) ass w = .ok r w ∧ r.contents = .ok bs ∧
      bs = (combos (ass.map Inp.vals)).map g ∧
      bs.length = (ass.map (fun as => as.vals.length)).foldl (· * ·) 1 := by
  have h := C52_cartesian_map k d (fun xs => (pure (g xs) : Cpp ω β)) ass hne hv hk w
  rw [mapM_pure] at h
  obtain ⟨r, h1, h2⟩ := h
  refine ⟨r, _, h1, h2, rfl, ?_⟩
  rw [List.length_map, combos_count, List.map_map]
  rfl

example : combos [[1, 2], [10, 20, 30]] = [[1, 10], [1, 20], [1, 30], [2, 10], [2, 20], [2, 30]] := rfl
example : ∃ r, cartesianMap .trivial 0 (fun xs => pure xs.sum)
    [(⟨.array 2, [1, 2], 0, false⟩ : Inp Nat), ⟨.arrVec 3, [10, 20], 1, false⟩] () = .ok r () ∧
    r.ty = .arrVec 6 ∧ r.contents = .ok [11, 21, 12, 22] := ⟨_, rfl, by decide, by decide⟩

/-! ### C53 -/

/-- C53: the reading iterations -/
theorem C53_for_each (f : List α → Cpp ω Unit) (g : Nat → List α → Cpp ω Unit) (h : Nat → Cpp ω Unit) (n : Nat)
    (ass : List (Inp α)) (hne : ass ≠ []) (hv : ∀ as ∈ ass, as.valid) (w : ω) :
    forEach f ass w = forM (rows (ass.map Inp.vals)) f w ∧
    forEachWithIndex g ass w = forM (List.range (shortest (ass.map Inp.vals)))
      (fun i => g i (row i (ass.map Inp.vals))) w ∧
    forIndex h n w = forM (List.range n) h w := by
  rw [forEach_eq hne hv, forEachWithIndex_eq hne hv, forIndex_eq]
  exact ⟨rfl, rfl, rfl⟩

/-- C53: `for_each_mut`.  The function maps the referenced elements to their new values.  The calls are those of
`mapM` over the rows; afterwards element `i` of argument `j` is the `j`-th value returned for row `i`, if there was
such a call, and otherwise unchanged. -/
theorem C53_for_each_mut (f : List α → Cpp ω (List α)) (ass : List (Inp α)) (hne : ass ≠ [])
    (hv : ∀ as ∈ ass, as.valid) (w : ω) :
    match (rows (ass.map Inp.vals)).mapM f w with
    | .ok yss w' => ∃ ass', forEachMut f (ass, w) = .ok () (ass', w') ∧ ass'.map Inp.ty = ass.map Inp.ty ∧
        ass'.map Inp.vals = overwrite yss (ass.map Inp.vals)
    | .thrown w' => ∃ ass', forEachMut f (ass, w) = .thrown (ass', w')
    | .ub u => forEachMut f (ass, w) = .ub u := by
  have h := forEachMut_sim f hne hv w
  unfold MutSim at h
  simp only [List.nil_append] at h
  revert h
  cases (rows (ass.map Inp.vals)).mapM f w <;> exact id

/-- C53: `for_each_with_index_mut`, likewise -/
theorem C53_for_each_with_index_mut (f : Nat → List α → Cpp ω (List α)) (ass : List (Inp α)) (hne : ass ≠ [])
    (hv : ∀ as ∈ ass, as.valid) (w : ω) :
    match (List.range (shortest (ass.map Inp.vals))).mapM (fun i => f i (row i (ass.map Inp.vals))) w with
    | .ok yss w' => ∃ ass', forEachWithIndexMut f (ass, w) = .ok () (ass', w') ∧ ass'.map Inp.ty = ass.map Inp.ty ∧
        ass'.map Inp.vals = overwrite yss (ass.map Inp.vals)
    | .thrown w' => ∃ ass', forEachWithIndexMut f (ass, w) = .thrown (ass', w')
    | .ub u => forEachWithIndexMut f (ass, w) = .ub u := by
  have h := forEachWithIndexMut_sim f hne hv w
  unfold MutSim at h
  simp only [List.nil_append] at h
  revert h
  cases (List.range (shortest (ass.map Inp.vals))).mapM (fun i => f i (row i (ass.map Inp.vals))) w <;> exact id

/-- C53 for one sequence and a pure function: every element is replaced by its image -/
theorem C53_for_each_mut_one (g : α → α) (d : α) (as : Inp α) (hv : as.valid) (w : ω) :
    ∃ as', forEachMut (fun xs => pure [unary g xs d]) ([as], w) = .ok () ([as'], w) ∧ as'.ty = as.ty ∧
      as'.vals = as.vals.map g := by
  have h := C53_for_each_mut (fun xs => (pure [unary g xs d] : Cpp ω (List α))) [as] (by simp) (by simpa using hv) w
  rw [List.map_cons, List.map_nil, rows_one, mapM_pure, List.map_map] at h
  obtain ⟨ass', h1, h2, h3⟩ := h
  match ass', h1, h2, h3 with
  | [], _, h2, _ => cases h2
  | _ :: _ :: _, _, h2, _ => simp at h2
  | [as'], h1, h2, h3 =>
    refine ⟨as', h1, by simpa using h2, ?_⟩
    have h4 : as'.vals = as.vals.mapIdx (fun i a =>
        (((as.vals.map (fun a => [unary g [a] d]))[i]?).bind (fun ys => ys[0]?)).getD a) := by
      simpa [overwrite, Function.comp_def] using h3
    rw [h4]
    apply List.ext_getElem?
    intro i
    simp only [List.getElem?_mapIdx, List.getElem?_map]
    cases hx : as.vals[i]? with
    | none => rfl
    | some a => simp [unary]

example : overwrite [[7, 8], [9, 6]] [[1, 2, 3], [10, 20]] = [[7, 9, 3], [8, 6]] := rfl
example : ∃ ass', forEachMut (fun xs => pure (xs.map (· + 1)))
    ([(⟨.vector, [1, 2, 3], 0, false⟩ : Inp Nat), ⟨.array 2, [10, 20], 1, false⟩], ()) = .ok () (ass', ()) ∧
    ass'.map Inp.vals = [[2, 3, 3], [11, 21]] := ⟨_, rfl, rfl⟩

/-! ### C54 -/

/-- C54: the static size or capacity chosen for a result always suffices for the number of elements the call
produces: `map`, `map_with_index`; `filter`, `find_indices`; `append`; `concat`; `cartesian_map`; `from_function`;
`take`, `drop`; `tail`, `init`. -/
theorem C54_result_types_suffice (ass : List (Inp α)) (hne : ass ≠ []) (hv : ∀ as ∈ ass, as.valid) (as : Inp α)
    (ha : as.valid) (q : α → Bool) (xss : Inp2 α) (hx : xss.valid) (n : NArg) :
    Holds (naryTy (ass.map Inp.ty)) (rows (ass.map Inp.vals)).length ∧
    Holds (filterTy as.ty) (as.vals.filter q).length ∧
    Holds (appendTy (ass.map Inp.ty)) (ass.map Inp.vals).flatten.length ∧
    Holds (concatTy xss.outer xss.inner) (xss.rows.map Inp.vals).flatten.length ∧
    Holds (cartesianTy (ass.map Inp.ty)) (combos (ass.map Inp.vals)).length ∧
    Holds (fromFunctionTy n) n.val ∧
    Holds (takeTy n as.ty) (as.vals.take n.val).length ∧
    Holds (dropTy n as.ty) (as.vals.drop n.val).length ∧
    (as.vals ≠ [] → Holds (tailTy as.ty) as.vals.tail.length ∧ Holds (tailTy as.ty) as.vals.dropLast.length) := by
  have fh : ∀ {t m}, Fits .trivial t m → Holds t m := by
    intro t m h
    cases t with
    | array => exact Eq.symm h
    | arrVec => exact h.1
    | vector => trivial
  refine ⟨?_, ?_, ?_, ?_, ?_, ?_, ?_, ?_, ?_⟩
  · rw [rows_length, ← minLength_eq hne hv]; exact naryTy_holds hne hv
  · have h := filterTy_ok ha
    have hl := List.length_filter_le q as.vals
    cases ht : filterTy as.ty with
    | array m => exact absurd ht (h.1 m)
    | arrVec m => have := h.2 m ht; show _ ≤ m; omega
    | vector => trivial
  · have := fh (appendTy_fits hv (.inl rfl))
    rw [sum_eq] at this
    rw [List.length_flatten, List.map_map]
    exact this
  · have := fh (concatTy_fits hx (.inl rfl))
    rw [List.length_flatten, List.map_map]
    exact this
  · rw [combos_length, List.map_map]; exact cartesianTy_holds hv
  · cases n <;> simp [fromFunctionTy, Holds, NArg.val]
  · rw [List.length_take]; exact takeTy_holds ha n
  · rw [List.length_drop]; exact dropTy_holds ha n
  · intro hne
    refine ⟨?_, ?_⟩
    · rw [List.length_tail]; exact tailTy_holds ha hne
    · rw [List.length_dropLast]; exact tailTy_holds ha hne

/-- C54 for `intercalate` of a non-empty list (see C46 for the empty one): the type suffices -/
theorem C54_intercalate (dl : Inp α) (xss : Inp2 α) (hd : dl.valid) (hx : xss.valid) (hne : xss.rows ≠ []) :
    Holds (intercalateTy dl.ty xss.outer xss.inner) (List.intercalate dl.vals (xss.rows.map Inp.vals)).length := by
  have h := intercalateTy_fits (k := .trivial) hd hx hne (.inl rfl)
  have hl : (List.intercalate dl.vals (xss.rows.map Inp.vals)).length =
      (xss.rows.map length).sum + (xss.rows.length - 1) * length dl := by
    obtain ⟨pre, x, hpx⟩ := List.eq_nil_or_concat xss.rows |>.resolve_left hne
    rw [hpx]
    simp only [List.concat_eq_append, List.map_append, List.map_cons, List.map_nil, intercalate_snoc]
    simp only [List.length_append, List.length_flatMap, List.sum_append, List.sum_cons, List.sum_nil,
      List.length_cons, List.length_nil, Nat.add_zero, Nat.zero_add, Nat.add_sub_cancel, List.map_map]
    have : ∀ l : List (Inp α), (l.map ((fun l => l.length + dl.vals.length) ∘ Inp.vals)).sum =
        (l.map length).sum + l.length * length dl := by
      intro l
      induction l with
      | nil => simp
      | cons a l ih =>
        simp only [List.map_cons, List.sum_cons, ih, List.length_cons, Nat.add_mul, Function.comp, length]
        omega
    have h2 := this pre
    simp only [Function.comp_def] at h2 ⊢
    rw [h2]
    simp only [length]
    omega
  rw [hl]
  revert h
  cases intercalateTy dl.ty xss.outer xss.inner <;> simp [Fits, Holds]
  exact Eq.symm

/-- C54: hence, for trivially copyable elements, none of these calls throws unless client code does -/
theorem C54_no_capacity_error (d : β) (e : α) (f : List α → Cpp ω β) (hf : ∀ xs w, ∀ w', f xs w ≠ .thrown w')
    (p : α → Cpp ω Bool) (hp : ∀ a w, ∀ w', p a w ≠ .thrown w') (h : Nat → Cpp ω β) (hh : ∀ i w, ∀ w', h i w ≠ .thrown w')
    (ass : List (Inp α)) (hne : ass ≠ []) (hv : ∀ as ∈ ass, as.valid) (as : Inp α) (ha : as.valid)
    (xss : Inp2 α) (hx : xss.valid) (n : NArg) (w w' : ω) :
    map .trivial d f ass w ≠ .thrown w' ∧ filter .trivial e p as w ≠ .thrown w' ∧
    append .trivial e ass ass w ≠ .thrown w' ∧ concat .trivial e xss w ≠ .thrown w' ∧
    cartesianMap .trivial d f ass w ≠ .thrown w' ∧ fromFunction .trivial d n h w ≠ .thrown w' := by
  have nt : ∀ {γ δ : Type} (g : γ → Cpp ω δ), (∀ x w, ∀ w', g x w ≠ .thrown w') →
      ∀ (l : List γ) (w w' : ω), l.mapM g w ≠ .thrown w' := by
    intro γ δ g hg l
    induction l with
    | nil => intro w w'; simp
    | cons x l ih =>
      intro w w'
      rw [List.mapM_cons]
      cases hx : g x w with
      | ok b w1 =>
        rw [Cpp.bind_ok hx]
        cases hl : l.mapM g w1 with
        | ok bs w2 => rw [Cpp.bind_ok hl]; simp
        | thrown w2 => exact absurd hl (ih _ _)
        | ub u => rw [Cpp.bind_ub hl]; simp
      | thrown w1 => exact absurd hx (hg _ _ _)
      | ub u => rw [Cpp.bind_ub hx]; simp
  have nf : ∀ (l : List α) (w w' : ω), filterCalls p l w ≠ .thrown w' := by
    intro l
    induction l with
    | nil => intro w w'; simp [filterCalls]
    | cons x l ih =>
      intro w w'
      unfold filterCalls
      cases hx : p x w with
      | ok b w1 =>
        rw [Cpp.bind_ok hx]
        cases hl : filterCalls p l w1 with
        | ok bs w2 => rw [Cpp.bind_ok hl]; simp
        | thrown w2 => exact absurd hl (ih _ _)
        | ub u => rw [Cpp.bind_ub hl]; simp
      | thrown w1 => exact absurd hx (hp _ _ _)
      | ub u => rw [Cpp.bind_ub hx]; simp
  have key : ∀ {δ : Type} {o : Out ω (Res δ)} {spec : Out ω (List δ)}, Yields o spec →
      (∀ w', spec ≠ .thrown w') → ∀ w', o ≠ .thrown w' := by
    intro δ o spec hy hs w'
    cases hspec : spec with
    | ok bs w1 =>
      rw [hspec] at hy
      obtain ⟨r, h1, _⟩ := hy
      rw [h1]; simp
    | thrown w1 => exact absurd hspec (hs w1)
    | ub u =>
      rw [hspec] at hy
      have : o = .ub u := hy
      rw [this]; simp
  refine ⟨key (C42_map .trivial d f ass hne hv (.inl rfl) w) (fun _ => nt f hf _ _ _) _,
    key (C43_filter .trivial e p as ha w) (fun _ => nf _ _ _) _, ?_, ?_,
    key (C52_cartesian_map .trivial d f ass hne hv (.inl rfl) w) (fun _ => nt f hf _ _ _) _,
    key (C47_from_function .trivial d n h (.inl rfl) w) (fun _ => nt h hh _ _ _) _⟩
  · obtain ⟨r, h1, _⟩ := C45_append_left_to_right_partial .trivial e ass hv (.inl rfl) w
    rw [h1]; simp
  · obtain ⟨r, h1, _⟩ := C46_concat .trivial e xss hx (.inl rfl) w
    rw [h1]; simp

/-- C54: nor does `intercalate` of a non-empty list -/
theorem C54_intercalate_no_capacity_error (d : α) (dl : Inp α) (xss : Inp2 α) (hd : dl.valid) (hx : xss.valid)
    (hne : xss.rows ≠ []) (w w' : ω) : intercalate .trivial d dl xss w ≠ .thrown w' := by
  obtain ⟨r, h1, _⟩ := C46_intercalate_partial .trivial d dl xss hd hx (by
    intro h
    have h2 := hx.1.1
    rw [h] at h2
    exact absurd (List.length_eq_zero_iff.mp h2.1) hne) (.inl rfl) w
  rw [h1]; simp

example : (⟨.array 2, .arrVec 3, [⟨.arrVec 3, [1], 0, false⟩, ⟨.arrVec 3, [2, 3], 0, false⟩]⟩ : Inp2 Nat).valid ∧
    intercalateTy (.array 2) (.array 2) (.arrVec 3) = .arrVec 8 ∧ appendTy [.array 2, .array 3] = .array 5 ∧
    naryTy [.array 3, .array 5] = .array 3 ∧ naryTy [.array 3, .arrVec 2] = .arrVec 2 := by decide

/-! ### C55 -/

/-- C55, the part that holds: with statically sized arguments the result is an `Array`, whose elements are
constructed before they are assigned, and every run gives the specified elements. -/
theorem C55_static_results_partial (d : β) (f : List α → Cpp ω β) (g : Nat → List α → Cpp ω β) (h : Nat → Cpp ω β)
    (m : Nat) (ass : List (Inp α)) (hne : ass ≠ []) (hv : ∀ as ∈ ass, as.valid)
    (hs : ∀ as ∈ ass, as.ty.isStaticSize = true) (w : ω) :
    Yields (map .managed d f ass w) ((rows (ass.map Inp.vals)).mapM f w) ∧
    Yields (mapWithIndex .managed d g ass w)
      ((List.range (shortest (ass.map Inp.vals))).mapM (fun i => g i (row i (ass.map Inp.vals))) w) ∧
    Yields (fromFunction .managed d (.ct m) h w) ((List.range m).mapM h w) ∧
    Yields (cartesianMap .managed d f ass w) ((combos (ass.map Inp.vals)).mapM f w) :=
  ⟨C42_map _ d f ass hne hv (.inr hs) w, C42_map_with_index _ d g ass hne hv (.inr hs) w,
    C47_from_function _ d (.ct m) h (.inr ⟨m, rfl⟩) w, C52_cartesian_map _ d f ass hne hv (.inr hs) w⟩

/-- C55 is false for `ArrVec` and `Vector` results: EVERY such call that produces an element assigns it to
storage in which no object lives. -/
theorem C55_dynamic_results_assign_to_raw (d : β) (f : List α → β) (g : Nat → List α → β) (h : Nat → β) (n : Nat)
    (hn : 0 < n) (ass : List (Inp α)) (hne : ass ≠ []) (hv : ∀ as ∈ ass, as.valid)
    (hdyn : ∃ as ∈ ass, as.ty.isStaticSize = false) (hnonempty : ∀ as ∈ ass, as.vals ≠ []) (w : ω) :
    map .managed d (fun xs => pure (f xs)) ass w = .ub .deadAssign ∧
    mapWithIndex .managed d (fun i xs => pure (g i xs)) ass w = .ub .deadAssign ∧
    fromFunction .managed d (.rt n) (fun i => pure (h i)) w = .ub .deadAssign ∧
    cartesianMap .managed d (fun xs => pure (f xs)) ass w = .ub .deadAssign := by
  have hpos : 0 < shortest (ass.map Inp.vals) := by
    have := shortest_mem (ls := ass.map Inp.vals) (by simpa using hne)
    obtain ⟨l, hl, he⟩ := List.mem_map.mp this
    obtain ⟨as, has, rfl⟩ := List.mem_map.mp hl
    rw [← he]
    exact List.length_pos_iff.mpr (hnonempty as has)
  have hc : ∃ c cs, combos (ass.map Inp.vals) = c :: cs := by
    have : ∀ ls : List (List α), (∀ l ∈ ls, l ≠ []) → combos ls ≠ [] := by
      intro ls
      induction ls with
      | nil => simp [combos]
      | cons l ls ih =>
        intro hl
        have h1 := ih (fun m hm => hl m (by simp [hm]))
        have h2 := hl l (by simp)
        cases l with
        | nil => exact absurd rfl h2
        | cons a l => simp [combos, h1]
    have := this (ass.map Inp.vals) (by
      intro l hl
      obtain ⟨as, has, rfl⟩ := List.mem_map.mp hl
      exact hnonempty as has)
    exact List.exists_cons_of_ne_nil this
  obtain ⟨c, cs, hcs⟩ := hc
  exact ⟨map_managed hne hv hdyn hpos (w' := w) rfl, mapWithIndex_managed hne hv hdyn hpos (w' := w) rfl,
    fromFunction_managed hn (w' := w) rfl, cartesianMap_managed hne hv hdyn hcs (w' := w) rfl⟩

example : map .managed 0 (fun xs => pure xs.sum) [(⟨.vector, [1, 2, 3], 0, false⟩ : Inp Nat)] () = .ub .deadAssign := rfl
example : ∃ r, map .managed 0 (fun xs => pure (xs.sum + 1)) [(⟨.array 2, [1, 2], 0, false⟩ : Inp Nat)] () = .ok r () ∧
    r.contents = .ok [2, 3] := ⟨_, rfl, by decide⟩

end Props
end Efp
