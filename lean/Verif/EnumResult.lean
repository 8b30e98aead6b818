import Verif.Enum

/-!
# What `match` returns (include/efp/enum.hpp 393-407, 451-462)

The result type of `match` and of every `Case<i>::call` is what the branch for the *first* alternative returns; what another branch
returns is converted to it.  Reference and cv qualifiers of values are not distinguished; a reference is a `const T&`.
-/

namespace Efp.Enum

variable {τ ν β : Type}

/-- the return type of a branch: by value or by reference -/
inductive RetTy (τ : Type) where
  | value (t : τ)
  | cref (t : τ)
  deriving DecidableEq, Repr

/-- the type without the reference -/
def RetTy.base : RetTy τ → τ
  | .value t => t
  | .cref t => t

/-- what the caller of `match` has: a value, a reference to the object at `loc` (with its value), or a reference to a temporary that
has ceased to exist -/
inductive Got (β : Type) where
  | value (v : β)
  | ref (loc : Nat) (v : β)
  | dangling
  deriving DecidableEq, Repr

/-- The return statement of `Case<i>::call`, enum.hpp 457-460, in a function with result type `to`, for an expression of type `from`.
A branch gives the location (of no meaning for a result by value) and the value.  `conv t s` is the implicit conversion of a value of
type `s` to type `t`. -/
def returnAs [DecidableEq τ] (conv : τ → τ → β → β) (to «from» : RetTy τ) (r : Nat × β) : Got β :=
  match to, «from» with
  | .value t, f => .value (conv t f.base r.2)
  | .cref t, .cref s => if s = t then .ref r.1 r.2 else .dangling
  | .cref _, .value _ => .dangling

/-- The result type of `match`: `InvokeResult<Overloaded<...>, A>` and `decltype(declval<Overloaded>()(declval<A>()))`, enum.hpp 397 and
457, `A` being the first alternative.  `ret b` is the return type of branch `b`. -/
def resultTy (rank : τ → τ → Option Nat) (As : List τ) (bs : List (Branch τ)) (ret : Nat → RetTy τ) : Option (RetTy τ) :=
  match As.head? with
  | none => none
  | some t => (resolve rank bs t).map ret

/-- every `Case<i>` compiles: the result of the branch it calls converts to the result type (`convertible t s`: a value of type `s`
converts to type `t`), enum.hpp 457-460 -/
def returnsCompile (convertible : τ → τ → Bool) (rank : τ → τ → Option Nat) (As : List τ) (bs : List (Branch τ)) (ret : Nat → RetTy τ)
    (to : RetTy τ) : Bool :=
  As.all fun t => match resolve rank bs t with
    | none => false
    | some b => convertible to.base (ret b).base

/-- `match(f, fs...)`, enum.hpp 393-407, with the return types of the branches -/
def matchRet [DecidableEq τ] (convertible : τ → τ → Bool) (conv : τ → τ → β → β) (rank : τ → τ → Option Nat) (As : List τ)
    (bs : List (Branch τ)) (ret : Nat → RetTy τ) (fns : Nat → ν → Nat × β) (e : Raw τ ν) : Cpp (List (Nat × ν)) (Got β) :=
  match resultTy rank As bs ret with
  | none => Cpp.ub .diverge
  | some to =>
    if returnsCompile convertible rank As bs ret to then
      matchOp rank As bs (fun b x => returnAs conv to (ret b) (fns b x)) e
    else Cpp.ub .diverge

end Efp.Enum
