import Verif.Core

/-!
# Model of `Enum` (include/efp/enum.hpp) and `Maybe` (include/efp/maybe.hpp)

Types are represented by names of a type `τ`; an alternative list `A, As...` is a list of names.  A
stored object is a pair of the name of its dynamic type and its value, so that reading or destroying
the storage as another type is visible as undefined behaviour.  Values live in one carrier `ν`.

Compile-time computation is modelled too: an alternative list for which `EnumSwitch` cannot be
instantiated has the outcome `.ub .diverge` ("there is no program") in every operation using it.
-/

namespace Efp.Enum

variable {τ ν β σ : Type}

/-! ## Compile-time helpers -/

/-- `PackAt<n, Args...>`, meta.hpp 321-337: `none` stands for the fallback type `void*`. -/
def packAt : Nat → List τ → Option τ
  | _, [] => none
  | 0, t :: _ => some t
  | n + 1, _ :: ts => packAt n ts

/-- `detail::FindImpl<n, P, Args...>`, meta.hpp 341-349: `none` when the empty pack is reached (the
primary template has no `value`, a compile error at the use). -/
def findImpl (P : τ → Bool) : Nat → List τ → Option Nat
  | _, [] => none
  | n, t :: ts => if P t then some n else findImpl P (n + 1) ts

/-- `AltIndex<Alt>` = `Find<IsSameUnary<Alt>::Binded, A, As...>`, enum.hpp 227-233 and 410-411,
meta.hpp 351-353. -/
def altIndex [DecidableEq τ] (As : List τ) (t : τ) : Option Nat := findImpl (fun u => t == u) 0 As

/-- `constexpr uint8_t power_2_ceiling(uint8_t n, uint8_t power = 2)`, enum.hpp 10-13: returns the
power of two *minus one*; both parameters are 8-bit, so `power << 1` wraps.  `none`: the recursion
never ends. -/
def power2Ceiling (n power : Nat) : Option Nat :=
  if power ≥ n then some ((power + 255) % 256) else power2Ceiling n (power * 2 % 256)
partial_fixpoint

/-- `alt_num`, enum.hpp 240: `uint8_t` initialised from `sizeof...(As) + 1`. -/
def altNum (As : List τ) : Nat := As.length % 256

/-- is there a specialisation `_EnumSwitch<stamp, ...>` (enum.hpp 31-128)? -/
def hasSwitch (stamp : Nat) : Bool := [1, 3, 7, 15, 31, 63, 127, 255].contains stamp

/-- number of `case` labels of `EnumSwitch<alt_num, ...>` (enum.hpp 141-142 with 15-27 and 34-128), or
`none` when the alias cannot be instantiated: the recursion does not end, there is no specialisation,
or `alt_num` is 0 so that `Case<alt_num - 1>` is not a `uint8_t` constant. -/
def switchLabels (n : Nat) : Option Nat :=
  match power2Ceiling n 2 with
  | none => none
  | some s => if hasSwitch s && n != 0 then some (s + 1) else none

/-- `EnumSwitch<alt_num, Case, Args...>::call(index, args...)`, enum.hpp 27 and 31-142: label `i`
runs `Case<i < alt_num ? i : alt_num - 1>`, the default label throws. -/
def enumSwitch (As : List τ) (index : Nat) (case : Nat → Cpp σ β) : Cpp σ β :=
  match switchLabels (altNum As) with
  | none => Cpp.ub .diverge
  | some labels =>
    if index < labels then case (if index < altNum As then index else altNum As - 1) else Cpp.throw

/-! ## One `EnumBase` object -/

/-- The two members of `EnumBase`, enum.hpp 479-482: `_index` and the object living in `_storage`
(`none`: no object). -/
structure Raw (τ ν : Type) where
  index : Nat
  slot : Option (τ × ν)
  deriving DecidableEq, Repr

/-- `*reinterpret_cast<const Alt*>(&_storage)` read as an object of type `t`. -/
def readAs [DecidableEq τ] (t : τ) (e : Raw τ ν) : Cpp σ ν :=
  match e.slot with
  | none => Cpp.ub .deadRead
  | some (u, x) => if u = t then pure x else Cpp.ub .deadRead

/-- `get<Alt>()` (const and non-const), enum.hpp 319-335.  The reference is modelled by the value it
refers to. -/
def getT [DecidableEq τ] (As : List τ) (t : τ) (e : Raw τ ν) : Cpp σ ν :=
  match altIndex As t with
  | none => Cpp.ub .diverge
  | some j => if e.index ≠ j then Cpp.throw else readAs t e

/-- `get<i>()` (const and non-const), enum.hpp 337-353. -/
def getI [DecidableEq τ] (As : List τ) (i : Nat) (e : Raw τ ν) : Cpp σ ν :=
  if e.index ≠ i then Cpp.throw
  else match packAt i As with
    | none => Cpp.ub .diverge
    | some t => readAs t e

/-- `move<Alt>()`, enum.hpp 364-371.  It only casts: the object is not changed by the call itself.
(The const overloads 355-362 and 373-380 cast `const` away in a `reinterpret_cast` and cannot be
instantiated; they are not modelled.) -/
def moveT [DecidableEq τ] (As : List τ) (t : τ) (e : Raw τ ν) : Cpp σ ν :=
  match altIndex As t with
  | none => Cpp.ub .diverge
  | some j => if e.index ≠ j then Cpp.throw else readAs t e

/-- `move<i>()`, enum.hpp 382-389. -/
def moveI [DecidableEq τ] (As : List τ) (i : Nat) (e : Raw τ ν) : Cpp σ ν :=
  if e.index ≠ i then Cpp.throw
  else match packAt i As with
    | none => Cpp.ub .diverge
    | some t => readAs t e

/-- `index()`, enum.hpp 315-317. -/
def indexOf (e : Raw τ ν) : Nat := e.index

/-- `EqCase<i>::call`, enum.hpp 441-449; `eq t` is the `operator==` of type `t`. -/
def eqCase [DecidableEq τ] (As : List τ) (eq : τ → ν → ν → Bool) (a b : Raw τ ν) (i : Nat) :
    Cpp σ Bool :=
  match packAt i As with
  | none => Cpp.ub .diverge
  | some t => do
    let x ← readAs t a
    let y ← readAs t b
    pure (eq t x y)

/-- `operator==`, enum.hpp 299-309. -/
def eqOp [DecidableEq τ] (As : List τ) (eq : τ → ν → ν → Bool) (a b : Raw τ ν) : Cpp σ Bool :=
  if a.index ≠ b.index then pure false
  else enumSwitch As a.index (eqCase As eq a b)

/-- `operator!=`, enum.hpp 311-313. -/
def neOp [DecidableEq τ] (As : List τ) (eq : τ → ν → ν → Bool) (a b : Raw τ ν) : Cpp σ Bool := do
  let r ← eqOp As eq a b
  pure !r

/-- Converting constructors `EnumBase(const Alt&)` and `EnumBase(Alt&&)` seen from the finished
object, enum.hpp 289-297: `_index(AltIndex<Alt>::value)` is an 8-bit conversion. -/
def ofVal [DecidableEq τ] (As : List τ) (t : τ) (x : ν) : Option (Raw τ ν) :=
  (altIndex As t).map fun j => { index := j % 256, slot := some (t, x) }

/-! ## `match` -/

/-- A branch of `match`: a callable with one parameter of the given type, or a callable without
parameters (`IsWildCard`, enum.hpp 146-149).  Callables with a templated parameter are not modelled;
reference and cv qualifiers of the parameter are not distinguished. -/
inductive Branch (τ : Type) where
  | pat (param : τ)
  | wild
  deriving DecidableEq, Repr

/-- `IsWildCard<F>`, enum.hpp 148-149. -/
def Branch.isWild : Branch τ → Bool
  | .wild => true
  | .pat _ => false

/-- `IsInvocable<F, Alt>` for an original branch (a wild card itself takes no argument), used at
enum.hpp 465-467.  `rank p t` is the rank of the implicit conversion from an argument of type `t` to a
parameter of type `p` (`some 0`: exact match, `none`: not convertible). -/
def Branch.invocable (rank : τ → τ → Option Nat) (t : τ) : Branch τ → Bool
  | .wild => false
  | .pat p => (rank p t).isSome

/-- `IsRelevantBranch<F>`, enum.hpp 465-467. -/
def relevant (rank : τ → τ → Option Nat) (As : List τ) (b : Branch τ) : Bool :=
  As.any fun t => b.invocable rank t

/-- `PatternCheck<F, Fs...>`, enum.hpp 469-476: wild cards only in last position. -/
def patternCheck (rank : τ → τ → Option Nat) (As : List τ) : List (Branch τ) → Bool
  | [] => false
  | [b] => relevant rank As b || b.isWild
  | b :: bs => relevant rank As b && !b.isWild && patternCheck rank As bs

/-- Cost of calling branch `b` of `Overloaded` with an argument of type `t` (enum.hpp 151-184 and
196-224): conversions are ordered by rank; `WildCardWrapper::operator()` is a template with an exact
match, so it loses only against a non-template exact match.  `none`: not viable. -/
def cost (rank : τ → τ → Option Nat) (t : τ) : Branch τ → Option Nat
  | .wild => some 1
  | .pat p => (rank p t).map (2 * ·)

/-- C++ overload resolution in `overloaded(arg)` over the branches inherited by `Overloaded<...>`
(enum.hpp 218-224): the branch strictly better than every other viable one; `none` when there is no
viable branch (then only `BadParam`, 186-194, is left, whose constructor is a failing `static_assert`)
or when the call is ambiguous. -/
def resolve (rank : τ → τ → Option Nat) (bs : List (Branch τ)) (t : τ) : Option Nat :=
  (List.range bs.length).find? fun i =>
    match bs[i]?.bind (cost rank t) with
    | none => false
    | some c => (List.range bs.length).all fun j =>
        j == i || match bs[j]?.bind (cost rank t) with
          | none => true
          | some d => decide (c < d)

/-- Everything the compiler checks before `match` exists: `PatternCheck` (enum.hpp 398), the switch,
and every `Case<i>` (451-462) having a viable branch. -/
def matchCompiles (rank : τ → τ → Option Nat) (As : List τ) (bs : List (Branch τ)) : Bool :=
  patternCheck rank As bs && (switchLabels (altNum As)).isSome
    && As.all fun t => (resolve rank bs t).isSome

/-- `Match<Pattern>::Case<i>::call`, enum.hpp 451-462: `overloaded(self->get<Alt>())`.  The state is
the log of branch calls (number of the branch, argument). -/
def matchCase [DecidableEq τ] (rank : τ → τ → Option Nat) (As : List τ) (bs : List (Branch τ))
    (fns : Nat → ν → β) (e : Raw τ ν) (i : Nat) : Cpp (List (Nat × ν)) β :=
  match packAt i As with
  | none => Cpp.ub .diverge
  | some t => do
    let x ← getT As t e
    match resolve rank bs t with
    | none => Cpp.ub .diverge
    | some b => do
      Cpp.modify (· ++ [(b, x)])
      pure (fns b x)

/-- `match(f, fs...)`, enum.hpp 393-407.  `fns b` is the function computed by branch `b` (a wild card
ignores its argument); the result type is the common type `β`. -/
def matchOp [DecidableEq τ] (rank : τ → τ → Option Nat) (As : List τ) (bs : List (Branch τ))
    (fns : Nat → ν → β) (e : Raw τ ν) : Cpp (List (Nat × ν)) β :=
  if matchCompiles rank As bs then enumSwitch As e.index (matchCase rank As bs fns e)
  else Cpp.ub .diverge

/-! ## Variables and lifetimes

A program with any number of `Enum<As...>` variables.  Every object ever constructed in a storage gets
a fresh number; the numbers of destroyed objects are recorded.  Values are `Option α`: `none` is the
unspecified value of a moved-from object. -/

/-- an `Enum` variable: its members and the number of the object in its storage -/
structure Var (τ α : Type) where
  e : Raw τ (Option α)
  oid : Nat
  deriving DecidableEq, Repr

/-- all variables (`none`: the variable's lifetime has ended, or its constructor threw) -/
structure World (τ α : Type) where
  vars : List (Option (Var τ α)) := []
  next : Nat := 0
  gone : List Nat := []
  deriving DecidableEq, Repr

variable {α : Type}

/-- access to a living variable -/
def World.var (w : World τ α) (i : Nat) : Option (Var τ α) := (w.vars[i]?).join

/-- overwrite variable `i` -/
def World.put (w : World τ α) (i : Nat) (v : Option (Var τ α)) : World τ α :=
  { w with vars := w.vars.set i v }

/-- use of the living variable `i` -/
def useVar (i : Nat) : Cpp (World τ α) (Var τ α) := fun w =>
  match w.var i with
  | none => .ub .deadRead
  | some v => .ok v w

/-- `DestroyCase<i>::call(self)`, enum.hpp 432-439. -/
def destroyCase [DecidableEq τ] (As : List τ) (self i : Nat) : Cpp (World τ α) Unit := do
  let v ← useVar self
  match packAt i As, v.e.slot with
  | some t, some (u, _) =>
    if u = t then
      Cpp.modify fun w => { w.put self (some { v with e := { v.e with slot := none } }) with
        gone := w.gone ++ [v.oid] }
    else Cpp.ub .deadDestroy
  | _, _ => Cpp.ub .deadDestroy

/-- placement `new (self->_storage) Alt {x}`: an object of type `t` with a fresh number; `thr` says
that the constructor throws.  An object already living there would be overwritten (and its number
lost). -/
def construct (self : Nat) (t : τ) (x : Option α) (thr : Bool) : Cpp (World τ α) Unit := do
  let v ← useVar self
  if thr then Cpp.throw
  else Cpp.modify fun w => { w.put self (some { e := { v.e with slot := some (t, x) }, oid := w.next })
    with next := w.next + 1 }

/-- `CopyCase<i>::call(self, other)`, enum.hpp 413-421.  Copying a moved-from object gives an object
with unspecified value; the brace initialisation `Alt {x}` is taken as a copy construction. -/
def copyCase [DecidableEq τ] (As : List τ) (self other : Nat) (thr : Bool) (i : Nat) :
    Cpp (World τ α) Unit := do
  let o ← useVar other
  match packAt i As with
  | none => Cpp.ub .diverge
  | some t => do
    let x ← readAs t o.e
    construct self t x thr

/-- what moving leaves in the source: the value for trivial types, an unspecified one otherwise -/
def movedFrom (k : Kind) (x : Option α) : Option α :=
  match k with
  | .trivial => x
  | .managed => none

/-- `MoveCase<i>::call(self, other)`, enum.hpp 423-430.  A throwing move leaves the source as it
was. -/
def moveCase [DecidableEq τ] (kind : τ → Kind) (As : List τ) (self other : Nat) (thr : Bool) (i : Nat) :
    Cpp (World τ α) Unit := do
  let o ← useVar other
  match packAt i As with
  | none => Cpp.ub .diverge
  | some t => do
    let x ← readAs t o.e
    construct self t x thr
    Cpp.modify fun w =>
      w.put other (some { o with e := { o.e with slot := some (t, movedFrom (kind t) x) } })

/-- `_index = i` -/
def setIndex (self i : Nat) : Cpp (World τ α) Unit := do
  let v ← useVar self
  Cpp.modify fun w => w.put self (some { v with e := { v.e with index := i } })

/-- begin the lifetime of a new variable with the given `_index` and empty storage, run the rest of
its constructor; if that throws the variable never existed -/
def declare (index : Nat) (body : Nat → Cpp (World τ α) Unit) : Cpp (World τ α) Unit := fun w =>
  let self := w.vars.length
  match body self { w with vars := w.vars ++ [some { e := { index := index, slot := none }, oid := 0 }] }
  with
  | .ok _ w' => .ok () w'
  | .thrown w' => .thrown (w'.put self none)
  | .ub u => .ub u

/-- `EnumBase()`, enum.hpp 242-245; `dv` is the value of `A{}`. -/
def ctorDefault (As : List τ) (dv : α) (thr : Bool) : Cpp (World τ α) Unit :=
  declare 0 fun self =>
    match As.head? with
    | none => Cpp.ub .diverge
    | some t => construct self t (some dv) thr

/-- `EnumBase(const EnumBase& other)`, enum.hpp 247-249. -/
def ctorCopy [DecidableEq τ] (As : List τ) (other : Nat) (thr : Bool) : Cpp (World τ α) Unit := do
  let o ← useVar other
  declare o.e.index fun self => enumSwitch As o.e.index (copyCase As self other thr)

/-- `EnumBase(EnumBase&& other)`, enum.hpp 264-270. -/
def ctorMove [DecidableEq τ] (kind : τ → Kind) (As : List τ) (other : Nat) (thr : Bool) :
    Cpp (World τ α) Unit := do
  let o ← useVar other
  declare o.e.index fun self => enumSwitch As o.e.index (moveCase kind As self other thr)

/-- `EnumBase(const Alt&)` and `EnumBase(Alt&&)`, enum.hpp 289-297. -/
def ctorVal [DecidableEq τ] (As : List τ) (t : τ) (x : α) (thr : Bool) : Cpp (World τ α) Unit :=
  match altIndex As t with
  | none => Cpp.ub .diverge
  | some j => declare (j % 256) fun self => construct self t (some x) thr

/-- `operator=(const EnumBase& other)`, enum.hpp 251-262. -/
def assignCopy [DecidableEq τ] (As : List τ) (self other : Nat) (thr : Bool) :
    Cpp (World τ α) Unit := do
  if self ≠ other then do
    let v ← useVar self
    enumSwitch As v.e.index (destroyCase As self)
    let o ← useVar other
    setIndex self o.e.index
    enumSwitch As o.e.index (copyCase As self other thr)
  else do
    let _ ← useVar self
    pure ()

/-- `operator=(EnumBase&& other)`, enum.hpp 272-283. -/
def assignMove [DecidableEq τ] (kind : τ → Kind) (As : List τ) (self other : Nat) (thr : Bool) :
    Cpp (World τ α) Unit := do
  if self ≠ other then do
    let v ← useVar self
    enumSwitch As v.e.index (destroyCase As self)
    let o ← useVar other
    setIndex self o.e.index
    enumSwitch As o.e.index (moveCase kind As self other thr)
  else do
    let _ ← useVar self
    pure ()

/-- `~EnumBase()`, enum.hpp 285-287, and the end of the variable's lifetime. -/
def dtor [DecidableEq τ] (As : List τ) (self : Nat) : Cpp (World τ α) Unit := do
  let v ← useVar self
  enumSwitch As v.e.index (destroyCase As self)
  Cpp.modify fun w => w.put self none

/-- `e = x` for a value `x` of type `t`: a temporary is built by the converting constructor (289-297),
move-assigned (272-283) and destroyed (285-287).  `thr` concerns the construction of the temporary,
`thr'` the move into the variable; the temporary is destroyed in every case. -/
def assignVal [DecidableEq τ] (kind : τ → Kind) (As : List τ) (self : Nat) (t : τ) (x : α)
    (thr thr' : Bool) : Cpp (World τ α) Unit := fun w =>
  let tmp := w.vars.length
  match ctorVal As t x thr w with
  | .ok _ w₁ =>
    match assignMove kind As self tmp thr' w₁ with
    | .ok _ w₂ => dtor As tmp w₂
    | .thrown w₂ =>
      match dtor As tmp w₂ with
      | .ok _ w₃ => .thrown w₃
      | r => r
    | .ub u => .ub u
  | r => r

/-- The statements of a program with `Enum<As...>` variables.  Variables are numbered in the order of
their declaration; `thr` flags say whether the element constructor run by the statement throws. -/
inductive Op (τ α : Type) where
  /-- `Enum e;` -/
  | dflt (thr : Bool)
  /-- `Enum e = x;` with `x` of type `t` -/
  | ofVal (t : τ) (x : α) (thr : Bool)
  /-- `Enum e = ej;` -/
  | copy (j : Nat) (thr : Bool)
  /-- `Enum e = move(ej);` -/
  | move (j : Nat) (thr : Bool)
  /-- `ei = ej;` -/
  | assign (i j : Nat) (thr : Bool)
  /-- `ei = move(ej);` -/
  | moveAssign (i j : Nat) (thr : Bool)
  /-- `ei = x;` with `x` of type `t` -/
  | assignVal (i : Nat) (t : τ) (x : α) (thr thr' : Bool)
  /-- end of the lifetime of `ei` -/
  | kill (i : Nat)
  deriving DecidableEq, Repr

/-- the member function called by a statement (enum.hpp 242-297, cited at each of them) -/
def Op.run [DecidableEq τ] (kind : τ → Kind) (As : List τ) (dv : α) : Op τ α → Cpp (World τ α) Unit
  | .dflt thr => ctorDefault As dv thr
  | .ofVal t x thr => ctorVal As t x thr
  | .copy j thr => ctorCopy As j thr
  | .move j thr => ctorMove kind As j thr
  | .assign i j thr => assignCopy As i j thr
  | .moveAssign i j thr => assignMove kind As i j thr
  | .assignVal i t x thr thr' => Efp.Enum.assignVal kind As i t x thr thr'
  | .kill i => dtor As i

/-- A program whose statements each catch the exceptions they raise; the result lists which of them
threw (no line of enum.hpp: this is the client). -/
def exec [DecidableEq τ] (kind : τ → Kind) (As : List τ) (dv : α) :
    List (Op τ α) → Cpp (World τ α) (List Bool)
  | [] => pure []
  | op :: ops => fun w =>
    match op.run kind As dv w with
    | .ub u => .ub u
    | .ok _ w' => (exec kind As dv ops >>= fun l => pure (false :: l)) w'
    | .thrown w' => (exec kind As dv ops >>= fun l => pure (true :: l)) w'

/-! ## `Maybe<A>` = `Enum<Nothing, A>` (maybe.hpp 14-94)

`tN` names the type `Nothing` with its only value `nv`; `A` is named `tA`. -/

/-- The alternative list of `Maybe<A>`, maybe.hpp 16-17. -/
def maybeAlts (tN tA : τ) : List τ := [tN, tA]

/-- conversion of a value of type `t` to `Maybe<A>` by the inherited constructors, maybe.hpp 28-29 -/
def toMaybe [DecidableEq τ] (tN tA t : τ) (x : ν) : Cpp σ (Raw τ ν) :=
  match ofVal (maybeAlts tN tA) t x with
  | none => Cpp.ub .diverge
  | some e => pure e

/-- `is_nothing()`, maybe.hpp 31-33. -/
def isNothing (e : Raw τ ν) : Bool := e.index == 0

/-- `has_value()`, maybe.hpp 35-37, and `operator bool`, 52-54. -/
def hasValue (e : Raw τ ν) : Bool := e.index == 1

/-- `value()`, maybe.hpp 39-42. -/
def value [DecidableEq τ] (tN tA : τ) (e : Raw τ ν) : Cpp σ ν := getT (maybeAlts tN tA) tA e

/-- `move()`, maybe.hpp 44-46 (the const overload 48-50 cannot be instantiated). -/
def moveM [DecidableEq τ] (tN tA : τ) (e : Raw τ ν) : Cpp σ ν := moveT (maybeAlts tN tA) tA e

/-- `fmap`: member 61-67 and free function 104-110 of maybe.hpp.  `f` has result type `tB`. -/
def fmap [DecidableEq τ] (tN tA tB : τ) (nv : ν) (f : ν → ν) (e : Raw τ ν) : Cpp σ (Raw τ ν) :=
  if hasValue e then do
    let x ← value tN tA e
    toMaybe tN tB tB (f x)
  else toMaybe tN tB tN nv

/-- `pure`: static member 56-59 and free function 113-116 of maybe.hpp. -/
def pureM [DecidableEq τ] (tN tA : τ) (a : ν) : Cpp σ (Raw τ ν) := toMaybe tN tA tA a

/-- `ap`: member 69-75 and free function 118-124 of maybe.hpp.  `mf` is a `Maybe<F>` whose stored
value `g` acts as the function `app g` with result type `tB`. -/
def ap [DecidableEq τ] (tN tF tA tB : τ) (nv : ν) (app : ν → ν → ν) (mf ma : Raw τ ν) :
    Cpp σ (Raw τ ν) :=
  if hasValue mf && hasValue ma then do
    let g ← value tN tF mf
    let x ← value tN tA ma
    toMaybe tN tB tB (app g x)
  else toMaybe tN tB tN nv

/-- `bind`: member 77-84, `operator>>=` 86-93 and free function 128-135 of maybe.hpp.  `f` returns a
`Maybe<B>`. -/
def bindM [DecidableEq τ] (tN tA tB : τ) (nv : ν) (e : Raw τ ν) (f : ν → Cpp σ (Raw τ ν)) :
    Cpp σ (Raw τ ν) :=
  if hasValue e then do
    let x ← value tN tA e
    f x
  else toMaybe tN tB tN nv

end Efp.Enum
