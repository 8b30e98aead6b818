import Verif.Core

/-!
# Model of `compose` (include/efp/prelude.hpp) and `func_ptr` (include/efp/c_utility.hpp)

Both keep *references* to function objects, so the model has a store of function objects whose
lifetimes can end.
-/

namespace Efp.Callable

variable {ν σ : Type}

/-! ## compose -/

/-- Function objects by number; `none` once the object's lifetime has ended.  A call may have effects
on a state `σ`.  All arguments and results are taken from one carrier `ν`; the innermost function may
be given a list of arguments packed into one value. -/
abbrev Fns (σ ν : Type) := List (Option (ν → Cpp σ ν))

/-- A value of type `Composed<Fs...>`, prelude.hpp 24-50: a reference to the first function and, by
value, the composition of the others. -/
inductive Composed where
  | one (f : Nat)
  | more (f : Nat) (fs : Composed)
  deriving DecidableEq, Repr

/-- call through the reference member `f`: undefined when the object is gone -/
def callRef (fns : Fns σ ν) (f : Nat) (x : ν) : Cpp σ ν :=
  match fns[f]? with
  | some (some g) => g x
  | _ => Cpp.ub .wildPtr

/-- `Composed::operator()`, prelude.hpp 33-36 and 46-49. -/
def Composed.call (fns : Fns σ ν) : Composed → ν → Cpp σ ν
  | .one f, x => callRef fns f x
  | .more f fs, x => do
    let y ← fs.call fns x
    callRef fns f y

/-- `compose(f, fs...)`, prelude.hpp 52-61, with the constructors 31 and 44: the arguments are
references to function objects. -/
def compose : Nat → List Nat → Composed
  | f, [] => .one f
  | f, g :: gs => .more f (compose g gs)

/-! ## func_ptr -/

/-- Function objects for C callbacks: the name of their closure type and what they compute; `none` when
their lifetime has ended. -/
abbrev Objs (τ ν : Type) := List (Option (τ × (ν → ν)))

/-- Program state: the objects and, per closure type, the static `LambdaPointer<F>::inner_ptr`
(c_utility.hpp 36-40), initially null. -/
structure CState (τ ν : Type) where
  objs : Objs τ ν := []
  inner : τ → Option Nat := fun _ => none

variable {τ : Type} [DecidableEq τ]

/-- definition of a function object of closure type `t` -/
def newObj (t : τ) (f : ν → ν) : Cpp (CState τ ν) Nat := fun s =>
  .ok s.objs.length { s with objs := s.objs ++ [some (t, f)] }

/-- end of the lifetime of object `i` -/
def killObj (i : Nat) : Cpp (CState τ ν) Unit := fun s =>
  .ok () { s with objs := s.objs.set i none }

/-- `func_ptr(f)`, c_utility.hpp 42-49, for the living object `i`: the pointer is `Helper::call` of the
closure type, so it is represented by the name of the type. -/
def funcPtr (i : Nat) : Cpp (CState τ ν) τ := fun s =>
  match s.objs[i]? with
  | some (some (t, _)) => .ok t { s with inner := fun u => if u = t then some i else s.inner u }
  | _ => .ub .wildPtr

/-- calling the C function pointer: `Helper::call`, c_utility.hpp 29-34 -/
def callPtr (t : τ) (x : ν) : Cpp (CState τ ν) ν := fun s =>
  match s.inner t with
  | none => .ub .nullPtr
  | some i =>
    match s.objs[i]? with
    | some (some (_, f)) => .ok (f x) s
    | _ => .ub .wildPtr

/-- A step of a client program. -/
inductive COp (τ ν : Type) where
  /-- a function object is defined; it gets the next number -/
  | define (t : τ) (f : ν → ν)
  /-- its lifetime ends -/
  | kill (i : Nat)
  /-- `func_ptr` is called on object `i` -/
  | register (i : Nat)
  /-- a pointer obtained from an object of closure type `t` is called -/
  | call (t : τ) (x : ν)

/-- run one step (c_utility.hpp 29-49, cited at each function) -/
def COp.run : COp τ ν → Cpp (CState τ ν) Unit
  | .define t f => do let _ ← newObj t f; pure ()
  | .kill i => killObj i
  | .register i => do let _ ← funcPtr i; pure ()
  | .call t x => do let _ ← callPtr t x; pure ()

/-- run a program (no line of c_utility.hpp: this is the client) -/
def crun : List (COp τ ν) → Cpp (CState τ ν) Unit
  | [] => pure ()
  | op :: ops => do op.run; crun ops

end Efp.Callable
