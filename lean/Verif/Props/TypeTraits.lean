import Verif.TypeTraits

/-!
# Forwarding and questions about types (C164, C165)

Vocabulary: a type is a `Core` with qualifiers and perhaps a reference; an expression has a type without reference and is an lvalue or
not.  `deduced e` is the `A` of a parameter `A&& a` for the argument `e`.
-/

namespace Efp.Props

open Efp.TypeTraits

/-! ## C164 -/

/-- **C164, forwarding.**  A function template with a parameter `A&& a` that passes on `forward<A>(a)` passes on an expression of the
type and value category of its argument, whatever the argument. -/
theorem C164_forward (e : Expr) (h : e.ty.ref = .none) : forward (deduced e) = e := by
  obtain ⟨⟨core, c, v, r⟩, l⟩ := e
  obtain rfl : r = .none := h
  cases l <;> rfl

/-- **C164, moving.**  `move(e)` is an rvalue of the type of `e`; a constant stays constant. -/
theorem C164_move (e : Expr) (h : e.ty.ref = .none) : move e = ⟨e.ty, false⟩ := by
  obtain ⟨⟨core, c, v, r⟩, l⟩ := e
  obtain rfl : r = .none := h
  cases l <;> rfl

/-- **C164, removing.**  `CVRefRemoved` gives the type without reference and qualifiers; `CVRemoved` leaves references alone. -/
theorem C164_removed (t : Ty) :
    cvRefRemoved t = { core := t.core } ∧
    cvRemoved t = (if t.ref = .none then { core := t.core } else t) ∧
    isLvalueReference t = decide (t.ref = .lvalue) := by
  obtain ⟨core, c, v, r⟩ := t
  cases r <;> exact ⟨rfl, rfl, rfl⟩

-- a constant lvalue and a temporary
example : forward (deduced ⟨{ core := .scalar 1, isConst := true }, true⟩) = ⟨{ core := .scalar 1, isConst := true }, true⟩ ∧
    deduced ⟨{ core := .scalar 1 }, false⟩ = { core := .scalar 1 } := by decide

/-! ## C165 -/

/-- the ways in which an object of the type, or a function, can be called -/
def callsOf (t : Ty) : List Sig :=
  match t.core with
  | .func s => [s]
  | .funcPtr s => [s]
  | .cls _ calls => calls
  | _ => []

/-- `T()` compiles: the type can be default constructed (`void` apart) -/
def DefaultConstructible (dflt : Nat → Bool) (t : Ty) : Prop := t.core ≠ .void ∧ (valueInit dflt t).isSome

/-- **C165, parameters.**  `Arguments<F>` is right for function pointers and for classes with one call operator, given by value or
reference, whose signature has neither `volatile` nor a reference nor (since C++17) `noexcept`. -/
theorem C165_arguments_partial (cpp17 : Bool) (t : Ty) (s : Sig) (hc : callsOf t = [s])
    (ht : (∃ n, t.core = .cls n [s]) ∨ (t.core = .funcPtr s ∧ t.isConst = false ∧ t.isVolatile = false ∧ s.isConst = false))
    (hv : s.isVolatile = false) (hr : s.ref = .none) (hn : cpp17 = false ∨ s.isNoexcept = false) :
    arguments cpp17 t = some s.params ∧ (isWildCard cpp17 t = true ↔ s.params = []) := by
  have hp : plainSig cpp17 s = true := by
    unfold plainSig
    rw [hv, hr]
    rcases hn with hn | hn <;> simp [hn]
  have h : arguments cpp17 t = some s.params := by
    obtain ⟨core, c, v, r⟩ := t
    rcases ht with ⟨n, hcore⟩ | ⟨hcore, hc1, hc2, hc3⟩
    · obtain rfl : core = _ := hcore
      simp [arguments, argumentsImpl, referenceRemoved, hp]
    · obtain rfl : core = _ := hcore
      obtain rfl : c = false := hc1
      obtain rfl : v = false := hc2
      simp [arguments, argumentsImpl, referenceRemoved, hp, hc3]
  exact ⟨h, by simp [isWildCard, h]⟩

/-- **C165, parameters.**  Whatever `Arguments<F>` gives are the parameters of the only way to call `F`, or of a member function for a
pointer to one. -/
theorem C165_arguments_sound (cpp17 : Bool) (t : Ty) (ps : List Nat) (h : arguments cpp17 t = some ps) :
    ∃ s, (callsOf t = [s] ∨ t.core = .memPtr s) ∧ s.params = ps := by
  obtain ⟨core, c, v, r⟩ := t
  simp only [arguments, argumentsImpl, referenceRemoved] at h
  split at h
  · rename_i s _
    by_cases hp : plainSig cpp17 s = true
    · rw [if_pos hp] at h; exact ⟨s, .inl rfl, Option.some.inj h⟩
    · rw [if_neg hp] at h; exact nomatch h
  · rename_i s _
    have h : (if (!c && !v && plainSig cpp17 s && !s.isConst) = true then some s.params else none) = some ps := h
    by_cases hp : (!c && !v && plainSig cpp17 s && !s.isConst) = true
    · rw [if_pos hp] at h; exact ⟨s, .inl rfl, Option.some.inj h⟩
    · rw [if_neg hp] at h; exact nomatch h
  · rename_i s _
    have h : (if (!c && !v && plainSig cpp17 s) = true then some s.params else none) = some ps := h
    by_cases hp : (!c && !v && plainSig cpp17 s) = true
    · rw [if_pos hp] at h; exact ⟨s, .inr rfl, Option.some.inj h⟩
    · rw [if_neg hp] at h; exact nomatch h
  · exact nomatch h

/-- **C165, call operators.**  `HasCallOperator<A>` is true exactly for classes with one call operator, not for references to them. -/
theorem C165_call_operator_partial (t : Ty) : hasCallOperator t = true ↔ t.ref = .none ∧ ∃ n s, t.core = .cls n [s] := by
  obtain ⟨core, c, v, r⟩ := t
  constructor
  · intro h
    simp only [hasCallOperator] at h
    split at h
    · exact ⟨rfl, _, _, rfl⟩
    · exact nomatch h
  · rintro ⟨hr, n, s, hc⟩
    obtain rfl : r = _ := hr
    obtain rfl : core = _ := hc
    rfl

/-- **C165, constants.**  `IsCtConst<A>` is true exactly for compile-time constants and references to them without qualifiers. -/
theorem C165_ct_const_partial (t : Ty) :
    isCtConst t = true ↔ (∃ a, t.core = .ctConst a) ∧ t.isConst = false ∧ t.isVolatile = false := by
  obtain ⟨core, c, v, r⟩ := t
  cases core <;> cases r <;> simp [isCtConst]

/-- **C165, default construction.**  `IsDefaultConstructible<A>` is true for `void` and for no other type. -/
theorem C165_default_only_void (dflt : Nat → Bool) (t : Ty) :
    isDefaultConstructible dflt t = true ↔ t.core = .void ∧ t.ref = .none := by
  obtain ⟨core, c, v, r⟩ := t
  cases core <;> cases r <;> simp [isDefaultConstructible, valueInit]

/-- **C165, function pointers.**  `FuncToFuncPtr` turns a function type into the pointer with the same signature and changes no other
type. -/
theorem C165_func_ptr (cpp17 : Bool) (t : Ty) :
    ((∀ s, t.core ≠ .func s) → funcToFuncPtr cpp17 t = t) ∧
    (∀ ps, t = { core := .func { params := ps } } → funcToFuncPtr cpp17 t = { core := .funcPtr { params := ps } }) := by
  constructor
  · intro h
    obtain ⟨core, c, v, r⟩ := t
    cases core with
    | func s => exact absurd rfl (h s)
    | _ => cases r <;> rfl
  · rintro ps rfl
    cases cpp17 <;> rfl

/-- **C165 is false in general.**  No type that can be default constructed is said to be; a class with two call operators is said to
have none; since C++17 a `noexcept` lambda without parameters has no known parameters and is no wild card of `match`; a constant
`CtConst` is said not to be one; a function has no known parameters. -/
theorem C165_refuted :
    (∀ (dflt : Nat → Bool) (t : Ty), DefaultConstructible dflt t → isDefaultConstructible dflt t = false) ∧
    DefaultConstructible (fun _ => true) { core := .scalar 0 } ∧
    (∃ t : Ty, callsOf t ≠ [] ∧ hasCallOperator t = false ∧ t.ref = .none) ∧
    (∃ t : Ty, callsOf t = [{ params := [], isConst := true, isNoexcept := true }] ∧ arguments true t = none ∧
      isWildCard true t = false) ∧
    (∃ t : Ty, (∃ a, t.core = .ctConst a) ∧ isCtConst t = false) ∧
    (∃ (t : Ty) (s : Sig), callsOf t = [s] ∧ s = { params := [1] } ∧ arguments true t = none ∧ arguments false t = none) := by
  refine ⟨fun dflt t h => ?_, ⟨by decide, rfl⟩, ⟨{ core := .cls 0 [{ params := [1] }, { params := [2] }] }, by decide, rfl, rfl⟩,
    ⟨{ core := .cls 0 [{ params := [], isConst := true, isNoexcept := true }] }, rfl, rfl, rfl⟩,
    ⟨{ core := .ctConst 3, isConst := true }, ⟨3, rfl⟩, rfl⟩, ⟨{ core := .func { params := [1] } }, _, rfl, rfl, rfl, rfl⟩⟩
  cases hd : isDefaultConstructible dflt t with
  | false => rfl
  | true => exact absurd ((C165_default_only_void dflt t).1 hd).1 h.1

-- a reference to a constant lambda with parameters 1 and 2
example : arguments true { core := .cls 0 [{ params := [1, 2], isConst := true }], isConst := true, ref := .lvalue } = some [1, 2] ∧
    callsOf { core := .cls 0 [{ params := [1, 2], isConst := true }], isConst := true, ref := .lvalue } =
      [{ params := [1, 2], isConst := true }] := by decide

end Efp.Props
