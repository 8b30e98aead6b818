import Verif.Core

/-!
# Questions about types (include/efp/meta.hpp)

A C++ type in normal form: a reference or none, the two qualifiers, and what is left.  Template specialisations are chosen by matching
this form.
-/

namespace Efp.TypeTraits

/-- no reference, `&` or `&&` -/
inductive Ref where
  | none
  | lvalue
  | rvalue
  deriving DecidableEq, Repr

/-- a function signature: the parameter types by name, and what may follow the parameter list (`const`, `volatile`, a reference and
`noexcept`) -/
structure Sig where
  params : List Nat
  isConst : Bool := false
  isVolatile : Bool := false
  ref : Ref := .none
  isNoexcept : Bool := false
  deriving DecidableEq, Repr

/-- a type without reference and top-level qualifiers -/
inductive Core where
  | void
  | scalar (name : Nat)
  /-- a class and the signatures of its call operators (templates left out) -/
  | cls (name : Nat) (calls : List Sig)
  /-- `CtConst<A, a>`, meta.hpp 22-23 -/
  | ctConst (a : Int)
  | func (s : Sig)
  | funcPtr (s : Sig)
  | memPtr (s : Sig)
  deriving DecidableEq, Repr

/-- a type -/
structure Ty where
  core : Core
  isConst : Bool := false
  isVolatile : Bool := false
  ref : Ref := .none
  deriving DecidableEq, Repr

/-- `ReferenceRemoved<A>`, meta.hpp 108-109 -/
def referenceRemoved (t : Ty) : Ty := { t with ref := .none }

/-- `ConstRemoved<A>`, meta.hpp 112-113: nothing happens to references -/
def constRemoved (t : Ty) : Ty := if t.ref = .none then { t with isConst := false } else t

/-- `VoletileRemoved<A>`, meta.hpp 116-117 -/
def volatileRemoved (t : Ty) : Ty := if t.ref = .none then { t with isVolatile := false } else t

/-- `CVRemoved<A>`, meta.hpp 120-121 -/
def cvRemoved (t : Ty) : Ty := volatileRemoved (constRemoved t)

/-- `CVRefRemoved<A>`, meta.hpp 124-125 -/
def cvRefRemoved (t : Ty) : Ty := cvRemoved (referenceRemoved t)

/-- `IsLvalueReference<A>`, meta.hpp 148-152 -/
def isLvalueReference (t : Ty) : Bool := match t.ref with
  | .lvalue => true
  | _ => false

/-- `A&&` with reference collapsing -/
def rvalueRefAdded (t : Ty) : Ty := match t.ref with
  | .lvalue => t
  | _ => { t with ref := .rvalue }

/-- the value category of an expression: `true` for an lvalue; its type has no reference -/
structure Expr where
  ty : Ty
  lvalue : Bool
  deriving DecidableEq, Repr

/-- the call of a function that returns `t`, a reference type -/
def callExpr (t : Ty) : Expr := ⟨{ t with ref := .none }, isLvalueReference t⟩

/-- the template argument `A` deduced for a parameter `A&& a` from the argument `e` -/
def deduced (e : Expr) : Ty := if e.lvalue then { e.ty with ref := .lvalue } else e.ty

/-- the expression `efp::forward<A>(a)`, meta.hpp 155-164: `static_cast<A&&>(a)` returned as `A&&` -/
def forward (a : Ty) : Expr := callExpr (rvalueRefAdded a)

/-- the expression `efp::move(e)`, meta.hpp 167-170, `A` deduced from `e` -/
def move (e : Expr) : Expr := callExpr (rvalueRefAdded (referenceRemoved (deduced e)))

/-- `IsCtConst<A>`, meta.hpp 74-88: the specialisations for references, then that for `CtConst`, which has no qualifiers -/
def isCtConst (t : Ty) : Bool :=
  let u := match t.ref with
    | .none => t
    | _ => { t with ref := .none }
  match u.core with
  | .ctConst _ => !u.isConst && !u.isVolatile
  | _ => false

/-- `HasCallOperator<A>`, meta.hpp 368-381: is `&A::operator()` an expression of one type?  Not for references, not if there are
several call operators. -/
def hasCallOperator (t : Ty) : Bool :=
  match t.ref, t.core with
  | .none, .cls _ [_] => true
  | _, _ => false

/-- does the signature match `R (...)(Args...)`: since C++17 `noexcept` is part of the type -/
def plainSig (cpp17 : Bool) (s : Sig) : Bool :=
  !s.isVolatile && decide (s.ref = .none) && !(cpp17 && s.isNoexcept)

/-- `ArgumentsImpl<F>`, meta.hpp 714-736; `none` is `Unsupported` -/
def argumentsImpl (cpp17 : Bool) (t : Ty) : Option (List Nat) :=
  match t.ref, t.core with
  -- 719-721 with 728-736: `&F::operator()` of one type
  | .none, .cls _ [s] => if plainSig cpp17 s then some s.params else none
  -- 723-726: a function pointer without qualifiers
  | .none, .funcPtr s => if !t.isConst && !t.isVolatile && plainSig cpp17 s && !s.isConst then some s.params else none
  -- 728-736: a pointer to a member function
  | .none, .memPtr s => if !t.isConst && !t.isVolatile && plainSig cpp17 s then some s.params else none
  -- 714-717
  | _, _ => none

/-- `Arguments<F>`, meta.hpp 739-740 -/
def arguments (cpp17 : Bool) (t : Ty) : Option (List Nat) := argumentsImpl cpp17 (referenceRemoved t)

/-- `IsWildCard<F>`, enum.hpp 148-149 -/
def isWildCard (cpp17 : Bool) (t : Ty) : Bool := decide (arguments cpp17 t = some [])

/-- the expression `A()`: its type, or `none` if it does not compile; `dflt n` says whether class `n` has a default constructor.  An
expression of a type that is not a class has no qualifiers. -/
def valueInit (dflt : Nat → Bool) (t : Ty) : Option Ty :=
  match t.ref, t.core with
  | .none, .void => some { core := .void }
  | .none, .scalar n => some { core := .scalar n }
  | .none, .cls n calls => if dflt n then some { t with core := .cls n calls } else none
  | .none, .ctConst a => some { t with core := .ctConst a }
  | .none, .funcPtr s => some { core := .funcPtr s }
  | .none, .memPtr s => some { core := .memPtr s }
  | _, _ => none

/-- `IsDefaultConstructible<A>`, meta.hpp 762-766: the second argument is `void`, so the specialisation is chosen if `decltype(A())`
is `void` -/
def isDefaultConstructible (dflt : Nat → Bool) (t : Ty) : Bool := decide (valueInit dflt t = some { core := .void })

/-- `FuncToFuncPtr<A>`, meta.hpp 464-502: a function type (without qualifiers) becomes a pointer, the rest stays -/
def funcToFuncPtr (cpp17 : Bool) (t : Ty) : Ty :=
  match t.ref, t.core with
  | .none, .func s => if plainSig cpp17 s && !s.isConst then { core := .funcPtr s } else t
  | _, _ => t

end Efp.TypeTraits
