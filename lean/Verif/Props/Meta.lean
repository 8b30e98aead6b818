import Verif.MetaLemmas
import Mathlib.Tactic.Order

/-!
# Properties of meta.hpp, `compose` and `func_ptr` (C62-C65, C79-C81)
-/

namespace Efp.Props

open Efp.Meta Efp.Spec.Meta Efp.Callable

variable {ν β σ τ : Type}

/-! ## C62: Tuple -/

/-- **C62.**  Component `i` of `tuple(xs...)` is `xs_i`, for every arity; there is no component beyond
the arity. -/
theorem C62_get (xs : List ν) (i : Nat) :
    tget i (mkTuple xs) = xs[i]? ∧ tfst (mkTuple xs) = xs[0]? ∧ tsnd (mkTuple xs) = xs[1]? :=
  ⟨tget_mkTuple xs i, tget_mkTuple xs 0, tget_mkTuple xs 1⟩

/-- **C62.**  Assigning through `get<i>` gives the tuple with exactly component `i` replaced. -/
theorem C62_assign (xs : List ν) (i j : Nat) (x : ν) :
    tset i x (mkTuple xs) = mkTuple (xs.set i x)
    ∧ tget j (tset i x (mkTuple xs)) = if i = j then (if i < xs.length then some x else none) else xs[j]? := by
  refine ⟨tset_mkTuple xs i x, ?_⟩
  rw [tset_mkTuple, tget_mkTuple, List.getElem?_set]

/-- **C62.**  Two tuples of the same arity are equal exactly when all their components are equal by
their own `==` (whose `!=` is the negation); `!=` is the negation. -/
theorem C62_equality (eq ne : Nat → ν → ν → Bool) (hne : ∀ i x y, ne i x y = !eq i x y)
    (xs ys : List ν) (h : xs.length = ys.length) :
    ∃ r, teq eq ne xs.length (mkTuple xs) (mkTuple ys) = some r
      ∧ tne eq ne xs.length (mkTuple xs) (mkTuple ys) = some (!r)
      ∧ (r = true ↔ ∀ (i : Nat) (x y : ν), xs[i]? = some x → ys[i]? = some y → eq i x y = true) := by
  obtain ⟨r, hr, hiff⟩ := compare_eq eq ne hne xs ys xs.length (Nat.le_refl _) (by omega)
  refine ⟨r, hr, by rw [tne, teq, hr]; rfl, hiff.trans ?_⟩
  constructor
  · intro hall i x y hx hy
    exact hall i x y (List.getElem?_eq_some_iff.mp hx).1 hx hy
  · intro hall i x y _ hx hy
    exact hall i x y hx hy

/-- **C62.**  `match(f)` on a tuple calls `f` with the components in order. -/
theorem C62_match (f : List ν → β) (xs : List ν) : tmatch f xs.length (mkTuple xs) = some (f xs) := by
  rw [tmatch, makeIndexSequence_eq, List.append_nil, mapM_get]
  rfl

example : tget 2 (mkTuple [10, 20, 30]) = some 30 ∧ tget 3 (mkTuple [10, 20, 30]) = none := by decide
example : teq (fun _ x y => x == y) (fun _ x y => x != y) 3 (mkTuple [1, 2, 3]) (mkTuple [1, 5, 3])
    = some false := by decide
example : tmatch (fun l => l.sum) 3 (mkTuple [1, 2, 3]) = some 6 := by decide

/-! ## C63: compile-time folds and type lookups -/

/-- **C63.**  `_all` and `_any` over any pack. -/
theorem C63_all_any (bs : List Bool) :
    all bs = some (bs.all id) ∧ any bs = some (bs.any id) := by
  refine ⟨?_, ?_⟩
  · rw [all, foldl_pure, foldl_and]; simp
  · rw [any, foldl_pure, foldl_or]; simp

/-- **C63.**  `_maximum` and `_minimum` over any non-empty pack of values of an integer type are the
greatest and the least value. -/
theorem C63_maximum_minimum (A : NumTy) (xs : List Int) (hne : xs ≠ [])
    (hx : ∀ x ∈ xs, A.lo ≤ x ∧ x ≤ A.hi) :
    (∃ r, maximum A.lo xs = some r ∧ r ∈ xs ∧ ∀ x ∈ xs, x ≤ r)
    ∧ ∃ r, minimum A.hi xs = some r ∧ r ∈ xs ∧ ∀ x ∈ xs, r ≤ x := by
  obtain ⟨y, hy⟩ := List.exists_mem_of_ne_nil xs hne
  constructor
  · obtain ⟨h1, h2, h3⟩ := foldl_max A.lo xs
    refine ⟨_, by rw [maximum, foldl_pure], ?_, h3⟩
    rcases h1 with h1 | h1
    · have := h3 y hy
      have h4 := hx y hy
      rw [h1] at this ⊢
      have : A.lo = y := by omega
      rw [this]; exact hy
    · exact h1
  · obtain ⟨h1, h2, h3⟩ := foldl_min A.hi xs
    refine ⟨_, by rw [minimum, foldl_pure], ?_, h3⟩
    rcases h1 with h1 | h1
    · have := h3 y hy
      have h4 := hx y hy
      rw [h1] at this ⊢
      have : A.hi = y := by omega
      rw [this]; exact hy
    · exact h1

/-- **C63 is false for floating-point packs.**  There `NumericLimits<A>::min()` is the least *positive*
value `m`; for a pack of values below it (negative ones, say) `_maximum` returns `m`, which is not in
the pack. -/
theorem C63_float_maximum (m : Int) (xs : List Int) (hx : ∀ x ∈ xs, x < m) :
    maximum m xs = some m ∧ m ∉ xs := by
  refine ⟨?_, fun hm => by have := hx m hm; omega⟩
  obtain ⟨h1, h2, h3⟩ := foldl_max m xs
  rw [maximum, foldl_pure]
  rcases h1 with h1 | h1
  · rw [h1]
  · have := hx _ h1
    omega

/-- **C63.**  `_sum` and `_product` are the mathematical sum and product whenever every partial result
is representable; for signed types they are otherwise rejected by the compiler; for unsigned types
they are the mathematical result modulo the number of values of the type. -/
theorem C63_sum_product (A : NumTy) (xs : List Int) :
    ((∀ x ∈ partials (· + ·) 0 xs, A.lo ≤ x ∧ x ≤ A.hi) → sum A xs = some (xs.foldl (· + ·) 0))
    ∧ ((∀ x ∈ partials (· * ·) 1 xs, A.lo ≤ x ∧ x ≤ A.hi) → product A xs = some (xs.foldl (· * ·) 1))
    ∧ (A.over = .trap → (∃ x ∈ partials (· + ·) 0 xs, ¬ (A.lo ≤ x ∧ x ≤ A.hi)) → sum A xs = none)
    ∧ (A.over = .trap → (∃ x ∈ partials (· * ·) 1 xs, ¬ (A.lo ≤ x ∧ x ≤ A.hi)) → product A xs = none)
    ∧ (A.over = .wrap → A.lo = 0 → xs ≠ [] → sum A xs = some (xs.foldl (· + ·) 0 % (A.hi + 1)))
    ∧ (A.over = .wrap → A.lo = 0 → xs ≠ [] → product A xs = some (xs.foldl (· * ·) 1 % (A.hi + 1))) := by
  refine ⟨foldl_exact A _ 0 xs, foldl_exact A _ 1 xs, fun h => foldl_trap A h _ 0 xs,
    fun h => foldl_trap A h _ 1 xs, fun h h0 hne => ?_, fun h h0 hne => ?_⟩
  · obtain ⟨r, hr, _, h2⟩ := foldl_wrap A h h0 (· + ·) (by intro x y; simp) 0 xs
    rw [sum, hr, h2 hne]
  · obtain ⟨r, hr, _, h2⟩ := foldl_wrap A h h0 (· * ·)
      (by intro x y; simp [Int.mul_emod]) 1 xs
    rw [product, hr, h2 hne]

/-- **C63.**  `PackAt` is the n-th type; `Find` is the position of the first type that satisfies the
predicate, and does not compile when there is none. -/
theorem C63_lookup (Ts : List τ) (P : τ → Bool) (n : Nat) :
    Efp.Enum.packAt n Ts = Ts[n]?
    ∧ Efp.Enum.findImpl P 0 Ts = Ts.findIdx? P := by
  refine ⟨Efp.Enum.packAt_eq n Ts, ?_⟩
  rw [Efp.Enum.findImpl_findIdx P Ts 0]
  simp

/-- **C63 (alternative counts up to 128).**  `power_2_ceiling(n)` is one less than the least power of
two that is at least `n` and at least 2. -/
theorem C63_power_2_ceiling_partial (n : Nat) (h1 : 1 ≤ n) (h2 : n ≤ 128) :
    ∃ p, Efp.Enum.power2Ceiling n 2 = some (p - 1) ∧ IsPow2 p ∧ n ≤ p ∧ 2 ≤ p
      ∧ ∀ q, IsPow2 q → n ≤ q → 2 ≤ q → p ≤ q := by
  have least : ∀ (k : Nat), (n ≤ 2 ^ k) → (2 ^ k < 2 * n ∨ k = 1) → ∀ q, IsPow2 q → n ≤ q → 2 ≤ q → 2 ^ k ≤ q := by
    intro k hk hm q ⟨j, hj⟩ hq h2
    subst hj
    apply Nat.pow_le_pow_right (by omega)
    apply Classical.byContradiction
    intro hlt
    have hle : j + 1 ≤ k := by omega
    have h3 := Nat.pow_le_pow_right (show 0 < 2 by omega) hle
    rw [Nat.pow_succ] at h3
    rcases hm with hm | rfl
    · omega
    · have : j = 0 := by omega
      subst this
      simp at h2
  have main : ∀ p k, p = 2 ^ k → Efp.Enum.power2Ceiling n 2 = some (p - 1) → n ≤ p → 2 ≤ p →
      (p < 2 * n ∨ k = 1) →
      ∃ p, Efp.Enum.power2Ceiling n 2 = some (p - 1) ∧ IsPow2 p ∧ n ≤ p ∧ 2 ≤ p
        ∧ ∀ q, IsPow2 q → n ≤ q → 2 ≤ q → p ≤ q := by
    intro p k hp hc hn h2 hm
    subst hp
    exact ⟨_, hc, ⟨k, rfl⟩, hn, h2, least k hn hm⟩
  unfold Efp.Enum.power2Ceiling at main ⊢
  by_cases c1 : 2 ≥ n
  · exact main 2 1 rfl (by rw [if_pos c1]) c1 (by omega) (.inr rfl)
  rw [if_neg c1] at main ⊢; unfold Efp.Enum.power2Ceiling at main ⊢
  by_cases c2 : 2 * 2 % 256 ≥ n
  · exact main 4 2 rfl (by rw [if_pos c2]) (by omega) (by omega) (.inl (by omega))
  rw [if_neg c2] at main ⊢; unfold Efp.Enum.power2Ceiling at main ⊢
  by_cases c3 : 2 * 2 % 256 * 2 % 256 ≥ n
  · exact main 8 3 rfl (by rw [if_pos c3]) (by omega) (by omega) (.inl (by omega))
  rw [if_neg c3] at main ⊢; unfold Efp.Enum.power2Ceiling at main ⊢
  by_cases c4 : 2 * 2 % 256 * 2 % 256 * 2 % 256 ≥ n
  · exact main 16 4 rfl (by rw [if_pos c4]) (by omega) (by omega) (.inl (by omega))
  rw [if_neg c4] at main ⊢; unfold Efp.Enum.power2Ceiling at main ⊢
  by_cases c5 : 2 * 2 % 256 * 2 % 256 * 2 % 256 * 2 % 256 ≥ n
  · exact main 32 5 rfl (by rw [if_pos c5]) (by omega) (by omega) (.inl (by omega))
  rw [if_neg c5] at main ⊢; unfold Efp.Enum.power2Ceiling at main ⊢
  by_cases c6 : 2 * 2 % 256 * 2 % 256 * 2 % 256 * 2 % 256 * 2 % 256 ≥ n
  · exact main 64 6 rfl (by rw [if_pos c6]) (by omega) (by omega) (.inl (by omega))
  rw [if_neg c6] at main ⊢; unfold Efp.Enum.power2Ceiling at main ⊢
  have c7 : 2 * 2 % 256 * 2 % 256 * 2 % 256 * 2 % 256 * 2 % 256 * 2 % 256 ≥ n := by omega
  exact main 128 7 rfl (by rw [if_pos c7]) (by omega) (by omega) (.inl (by omega))

/-- **C63 is false for 129 to 255.**  There the recursion of `power_2_ceiling` never ends. -/
theorem C63_power_2_ceiling_diverges (n : Nat) (h : 129 ≤ n) : Efp.Enum.power2Ceiling n 2 = none :=
  Efp.Enum.power2_large n 2 h (by simp)

example : maximum (-128) [-5, 7, 3] = some 7 ∧ minimum 127 [-5, 7, 3] = some (-5) := by decide
example : maximum 1 [-5, -7] = some 1 := by decide
example : sum ⟨0, 255, .wrap⟩ [200, 100] = some 44 ∧ sum ⟨-2147483648, 2147483647, .trap⟩ [200, 100] = some 300
    ∧ sum ⟨-128, 127, .trap⟩ [100, 100] = none := by decide
example : Efp.Enum.findImpl (fun t => t == 7) 0 [3, 7, 7] = some 1 := by decide

/-! ## C64, C81: compose -/

/-- **C64.**  If the function objects are alive, calling `compose(f₁, ..., fₙ)` is
`f₁ (f₂ (... (fₙ x)))`: the last function runs first, effects included, for every chain length. -/
theorem C64_compose (fns : Fns σ ν) (f : Nat) (fs : List Nat) (g : ν → Cpp σ ν)
    (gs : List (ν → Cpp σ ν))
    (h : (f :: fs).map (fun i => fns[i]?) = (g :: gs).map (fun k => some (some k))) (x : ν) :
    (compose f fs).call fns x = chain g gs x :=
  compose_call fns f fs g gs h x

/-- **C64.**  Composition is associative: `compose(compose(f, g), h)`, `compose(f, compose(g, h))` and
`compose(f, g, h)` behave alike (while all function objects, the inner compositions included, are
alive). -/
theorem C64_associative (fns : Fns σ ν) (f g h l r : Nat) (F G H : ν → Cpp σ ν)
    (hf : fns[f]? = some (some F)) (hg : fns[g]? = some (some G)) (hh : fns[h]? = some (some H))
    (hl : fns[l]? = some (some (fun x => (compose f [g]).call fns x)))
    (hr : fns[r]? = some (some (fun x => (compose g [h]).call fns x))) (x : ν) :
    (compose l [h]).call fns x = (compose f [g, h]).call fns x
    ∧ (compose f [r]).call fns x = (compose f [g, h]).call fns x := by
  have e1 := compose_call fns f [g, h] F [G, H] (by simp [hf, hg, hh]) x
  have e2 := compose_call fns l [h] (fun x => (compose f [g]).call fns x) [H] (by simp [hl, hh]) x
  have e3 := compose_call fns f [r] F [fun x => (compose g [h]).call fns x] (by simp [hf, hr]) x
  have e4 : (fun x => (compose f [g]).call fns x) = fun x => chain F [G] x := by
    funext y; exact compose_call fns f [g] F [G] (by simp [hf, hg]) y
  have e5 : (fun x => (compose g [h]).call fns x) = fun x => chain G [H] x := by
    funext y; exact compose_call fns g [h] G [H] (by simp [hg, hh]) y
  rw [e1, e2, e3, e4, e5]
  refine ⟨?_, ?_⟩
  · funext s
    simp only [chain, Cpp.bind_run]
    cases H x s <;> rfl
  · funext s
    simp only [chain]

/-- **C81 is false.**  A composition keeps references only: once any of its function objects is gone
(for instance a lambda written in the call of `compose`, which dies at the end of that statement),
calling it is undefined behaviour if the functions applied before return normally. -/
theorem C81_dangling (fns : Fns σ ν) (f : Nat) (fs : List Nat) (g : ν → Cpp σ ν)
    (gs : List (ν → Cpp σ ν)) (hdead : fns[f]? = some none)
    (h : fs.map (fun i => fns[i]?) = (g :: gs).map (fun k => some (some k))) (x y : ν) (s s' : σ)
    (hrun : chain g gs x s = .ok y s') :
    (compose f fs).call fns x s = .ub .wildPtr := by
  cases fs with
  | nil => simp at h
  | cons f' fs =>
    have e := compose_call fns f' fs g gs h x
    simp only [compose, Composed.call, e]
    rw [Cpp.bind_ok hrun]
    simp [callRef, hdead]

/-- **C81, the part that holds.**  While every function object is alive a stored composition can be
called any number of times, later registrations and deaths of *other* objects included. -/
theorem C81_alive_partial (fns fns' : Fns σ ν) (f : Nat) (fs : List Nat) (g : ν → Cpp σ ν)
    (gs : List (ν → Cpp σ ν))
    (h : (f :: fs).map (fun i => fns[i]?) = (g :: gs).map (fun k => some (some k)))
    (hsame : ∀ i ∈ f :: fs, fns'[i]? = fns[i]?) (x : ν) :
    (compose f fs).call fns' x = chain g gs x := by
  apply compose_call
  rw [← h]
  exact List.map_congr_left fun i hi => hsame i hi

example : (compose 0 [1, 2]).call (σ := List Nat) (ν := Nat)
    [some fun x => do Cpp.modify (· ++ [0]); pure (x + 1),
     some fun x => do Cpp.modify (· ++ [1]); pure (x * 2),
     some fun x => do Cpp.modify (· ++ [2]); pure (x * x)] 3 [] = .ok 19 [2, 1, 0] := by decide
example : (compose 0 [1]).call (σ := Unit) (ν := Nat) [none, some fun x => pure (x * 2)] 3 ()
    = .ub .wildPtr := by decide

/-! ## C65: func_ptr -/

section func_ptr

variable [DecidableEq τ]

/-- **C65 is false.**  Two function objects of the same closure type share one C function pointer: in
every state, the pointer obtained from the first calls the second once that is registered too. -/
theorem C65_last_registration_wins (s : CState τ ν) (i j : Nat) (t : τ) (f g : ν → ν) (x : ν)
    (hi : s.objs[i]? = some (some (t, f))) (hj : s.objs[j]? = some (some (t, g))) :
    ∃ s', (do let p ← funcPtr i; let _ ← funcPtr j; callPtr p x) s = .ok (g x) s' := by
  refine ⟨{ s with inner := fun u => if u = t then some j else if u = t then some i else s.inner u }, ?_⟩
  simp [Cpp.bind_run, funcPtr, hi, hj, callPtr]

/-- **C65, the part that holds.**  In every client program: after `func_ptr` was called on object `i`,
its pointer keeps calling that very object's function as long as no *other* object of the same closure
type is registered and the object is alive. -/
theorem C65_own_function_partial (ops₁ ops₂ : List (COp τ ν)) (i : Nat) (t : τ) (f : ν → ν)
    (s : CState τ ν) (h : crun (ops₁ ++ .register i :: ops₂) {} = .ok () s)
    (hi : (defined ops₁)[i]? = some (t, f))
    (hother : ∀ j f', COp.register j ∈ ops₂ → (defined (ops₁ ++ ops₂))[j]? = some (t, f') → j = i)
    (hkill : COp.kill i ∉ ops₂) (x : ν) :
    callPtr t x s = .ok (f x) s := by
  obtain ⟨s₁, h1, h2⟩ := crun_append h
  have hk₁ : Known s₁ (defined ops₁) := by
    have h0 : Known ({} : CState τ ν) [] := ⟨rfl, fun i b hb => by simp at hb⟩
    simpa using known_run h0 h1
  obtain ⟨s₂, h3, h4⟩ := crun_cons h2
  obtain ⟨u, g, hobj, rfl⟩ := run_register h3
  have hdef := hk₁.2 i _ hobj
  rw [hi] at hdef
  cases hdef
  have hk₂ : Known ({ s₁ with inner := fun u => if u = t then some i else s₁.inner u } : CState τ ν)
      (defined ops₁) := ⟨hk₁.1, hk₁.2⟩
  have := registered_run hk₂ h4 hobj (by simp)
    (by intro j f' hj hd; exact hother j f' hj (by rw [defined_append]; exact hd)) hkill
  simp [callPtr, this.1, this.2]

/-- a program with two closure types, interleaved registrations and the death of another object -/
def cProgram : List (COp Nat Nat) :=
  [.define 0 (· + 1), .define 1 (· * 2), .define 0 (· + 100)]

example : ∃ s, crun (cProgram ++ .register 0 :: [.register 1, .kill 2, .call 0 4]) {} = .ok () s
    ∧ callPtr 0 4 s = .ok 5 s := by
  refine ⟨_, rfl, ?_⟩
  rfl

example : ∃ s, crun (cProgram ++ .register 0 :: [.register 2]) {} = .ok () s
    ∧ callPtr 0 4 s = .ok 104 s := by
  refine ⟨_, rfl, ?_⟩
  rfl

end func_ptr

/-! ## C79: swap -/

/-- **C79.**  `swap(a, b)` of two objects exchanges their contents, whatever they are, and `swap(a, a)`
of an object with itself keeps it, for trivial and resource-owning types alike. -/
theorem C79_swap (k : Kind) (m : List (Cell ν)) (i j : Nat) (a b : Cell ν) (ha : a ≠ .raw) (hb : b ≠ .raw)
    (hi : m[i]? = some a) (hj : m[j]? = some b) :
    swap k i j m = .ok () ((m.set i b).set j a) := by
  have hii : i < m.length := (List.getElem?_eq_some_iff.mp hi).1
  have hjj : j < m.length := (List.getElem?_eq_some_iff.mp hj).1
  have c1 : cellAt i m = .ok a m := by
    cases a with
    | raw => exact absurd rfl ha
    | live x => simp [cellAt, hi]
    | moved => simp [cellAt, hi]
  simp only [swap]
  rw [Cpp.bind_ok c1, Cpp.bind_ok (Cpp.modify_run _ _)]
  by_cases hij : i = j
  · subst hij
    rw [hi] at hj
    cases hj
    have hne : afterMove k a ≠ .raw := by cases k <;> simp [afterMove, ha]
    have c2 : cellAt i (m.set i (afterMove k a)) = .ok (afterMove k a) (m.set i (afterMove k a)) := by
      generalize hc : afterMove k a = c at hne
      cases c with
      | raw => exact absurd rfl hne
      | live x => simp [cellAt, hii]
      | moved => simp [cellAt, hii]
    rw [Cpp.bind_ok c2, Cpp.bind_ok (Cpp.modify_run _ _)]
    simp
  · have c2 : cellAt j (m.set i (afterMove k a)) = .ok b (m.set i (afterMove k a)) := by
      have : (m.set i (afterMove k a))[j]? = some b := by rw [List.getElem?_set_ne hij, hj]
      cases b with
      | raw => exact absurd rfl hb
      | live x => simp [cellAt, this]
      | moved => simp [cellAt, this]
    rw [Cpp.bind_ok c2, Cpp.bind_ok (Cpp.modify_run _ _), Cpp.modify_run]
    congr 1
    apply List.ext_getElem?
    intro n
    simp only [List.getElem?_set, List.length_set]
    grind

example : swap .managed 0 2 [.live 1, .live 2, .live 3] = .ok () [.live 3, .live 2, .live 1] := by decide

/-! ## C80: max, min and clamp -/

/-- **C80.**  For values with a total order, `max` and `min` return the greater and the lesser argument
and `clamp(lower, upper, x)` with `lower ≤ upper` is in the bounds and is `x` when `x` is. -/
theorem C80_clamp {ν : Type} [LinearOrder ν] (lower upper x : ν) (h : lower ≤ upper) :
    lower ≤ clamp (fun a b => decide (a < b)) (fun a b => decide (a > b)) lower upper x
    ∧ clamp (fun a b => decide (a < b)) (fun a b => decide (a > b)) lower upper x ≤ upper
    ∧ (lower ≤ x → x ≤ upper →
        clamp (fun a b => decide (a < b)) (fun a b => decide (a > b)) lower upper x = x)
    ∧ (x < lower → clamp (fun a b => decide (a < b)) (fun a b => decide (a > b)) lower upper x = lower)
    ∧ (upper < x → clamp (fun a b => decide (a < b)) (fun a b => decide (a > b)) lower upper x = upper) := by
  simp only [clamp, decide_eq_true_eq, gt_iff_lt]
  refine ⟨?_, ?_, ?_, ?_, ?_⟩ <;> (try intros) <;> split <;> (try split) <;> order

/-- **C80.**  `max` and `min` are the least upper and the greatest lower bound of their arguments. -/
theorem C80_max_min {ν : Type} [LinearOrder ν] (a b : ν) :
    (max (fun x y => decide (x > y)) a b = a ∨ max (fun x y => decide (x > y)) a b = b)
    ∧ a ≤ max (fun x y => decide (x > y)) a b ∧ b ≤ max (fun x y => decide (x > y)) a b
    ∧ (min (fun x y => decide (x < y)) a b = a ∨ min (fun x y => decide (x < y)) a b = b)
    ∧ min (fun x y => decide (x < y)) a b ≤ a ∧ min (fun x y => decide (x < y)) a b ≤ b := by
  simp only [Efp.Meta.max, Efp.Meta.min, decide_eq_true_eq, gt_iff_lt]
  refine ⟨?_, ?_, ?_, ?_, ?_, ?_⟩ <;> split <;> first | exact Or.inl rfl | exact Or.inr rfl | order

example : clamp (fun a b => decide (a < b)) (fun a b => decide (a > b)) (-3 : Int) 5 9 = 5 := by decide

end Efp.Props
