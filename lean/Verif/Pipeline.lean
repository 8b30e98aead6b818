import Verif.View

/-!
# Expressions built from the list functions of prelude.hpp, and variables initialised with them

The functions are those of `Prelude.lean` and `View.lean`; here they are nested.  A function that returns a container returns a new
object with its own block; nested in an expression it is a temporary, which dies at the end of the full expression.  A function
that returns a view points into the block of its argument.  Elements are trivial; the arguments of `append` are taken from left
to right (see C45).  `filter` of a view is left out (its element type is const).
-/

namespace Efp
namespace Prelude

variable {α ω : Type}

/-- an expression over named containers -/
inductive Pipe (α : Type) where
  | var (i : Nat)
  | map (f : α → α) (e : Pipe α)
  /-- `map(f, a, b)` -/
  | zip (f : α → α → α) (a b : Pipe α)
  | filter (p : α → Bool) (e : Pipe α)
  | append (a b : Pipe α)
  | fromFunction (n : NArg) (f : Nat → α)
  | take (n : NArg) (e : Pipe α)
  | drop (n : NArg) (e : Pipe α)
  | tail (e : Pipe α)
  | init (e : Pipe α)

/-- the expression is a container of its own, not a view -/
def Pipe.owns : Pipe α → Bool
  | .take _ _ | .drop _ _ | .tail _ | .init _ => false
  | _ => true

/-- `data(res) == nullptr` (sequence.hpp 557, 1001-1009) -/
def Res.isNull : Res α → Bool
  | .vector s => s.ptr = .null
  | _ => false

/-- a result object as an argument: its block is number `n` -/
def Res.asArg (r : Res α) (n : Nat) : Cpp ω (Inp α × Nat) :=
  match r.contents with
  | .ok bs => pure (⟨r.ty, bs, n, r.isNull⟩, n + 1)
  | .error u => Cpp.ub u

/-- a view as an argument (sequence.hpp 1101-1139, 1226-1264, 1382-1416).  A null pointer is remembered for `VectorView` only: in
the other views it stands for an empty sequence and no function looks at it. -/
def View.asArg (v : View α) (n : Nat) : Cpp ω (Inp α × Nat) := do
  let bs ← v.contents
  pure (⟨v.ty, bs, (v.ptr.map Loc.blk).getD 0, v.ptr.isNone && v.ty == .vector⟩, n)

/-- a client function of two arguments as a function of an argument pack; `d` is never returned -/
def binary (f : α → α → α) (d : α) : List α → α
  | [a, b] => f a b
  | _ => d

/-- a client function of one argument as a function of an argument pack; `d` is never returned -/
def unary1 (f : α → α) (d : α) : List α → α
  | [a] => f a
  | _ => d

/-- evaluation of an expression (prelude.hpp 63-508, 513-829); `n` is the number of the next block, `d` a default-constructed
element.  A name without a value is a view of an object that has died; naming it counts as reading it. -/
def Pipe.eval (d : α) (env : List (Option (Inp α))) : Pipe α → Nat → Cpp ω (Inp α × Nat)
  | .var i, n => match env[i]? with
    | some (some as) => pure (as, n)
    | _ => Cpp.ub .wildPtr
  | .map f e, n => do
    let (as, n) ← e.eval d env n
    let r ← Prelude.map .trivial d (fun xs => pure (unary1 f d xs)) [as]
    r.asArg n
  | .zip f a b, n => do
    let (as, n) ← a.eval d env n
    let (bs, n) ← b.eval d env n
    let r ← Prelude.map .trivial d (fun xs => pure (binary f d xs)) [as, bs]
    r.asArg n
  | .filter p e, n => do
    let (as, n) ← e.eval d env n
    let r ← Prelude.filter .trivial d (fun a => pure (p a)) as
    r.asArg n
  | .append a b, n => do
    let (as, n) ← a.eval d env n
    let (bs, n) ← b.eval d env n
    let r ← Prelude.append .trivial d [as, bs] [as, bs]
    r.asArg n
  | .fromFunction m f, n => do
    let r ← Prelude.fromFunction .trivial d m (fun i => pure (f i))
    r.asArg n
  | .take m e, n => do
    let (as, n) ← e.eval d env n
    let v ← Prelude.take m as
    v.asArg n
  | .drop m e, n => do
    let (as, n) ← e.eval d env n
    let v ← Prelude.drop m as
    v.asArg n
  | .tail e, n => do
    let (as, n) ← e.eval d env n
    let v ← Prelude.tail as
    v.asArg n
  | .init e, n => do
    let (as, n) ← e.eval d env n
    let v ← Prelude.init as
    v.asArg n

/-- `auto x = e;` (prelude.hpp 63-508, 513-829, sequence.hpp 1011-1416): `x` is the name after those of `env`.  Container number
`i` is block `i`, and the temporaries have higher numbers; a container moves into `x`, a view keeps its pointer while the
temporaries die.  A copy of a view counts as a copy of what it shows. -/
def Pipe.bindTo (d : α) (env : List (Option (Inp α))) (e : Pipe α) : Cpp ω (Option (Inp α)) := do
  let (as, _) ← e.eval d env env.length
  if e.owns then pure (some { as with blk := env.length })
  else if as.vals.isEmpty || decide (as.blk < env.length) then pure (some as)
  else pure none

/-- a sequence of definitions `auto x0 = e0; auto x1 = e1; ..` (prelude.hpp 63-508, 513-829) -/
def Pipe.runAll (d : α) : List (Pipe α) → List (Option (Inp α)) → Cpp ω (List (Option (Inp α)))
  | [], env => pure env
  | e :: es, env => do
    let x ← e.bindTo d env
    Pipe.runAll d es (env ++ [x])

/-- a client reads all elements of name `i` (sequence.hpp 113-115, 332-334, 676-678, 1029-1035, 1168-1174, 1307-1313) -/
def Pipe.readName (env : List (Option (Inp α))) (i : Nat) : Cpp ω (List α) :=
  match env[i]? with
  | some (some as) => pure as.vals
  | _ => Cpp.ub .wildPtr

end Prelude
end Efp
