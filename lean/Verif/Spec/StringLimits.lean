import Verif.StringLimits
import Verif.Spec.VectorLimits
import Verif.Spec.String

/-!
# Specification of strings when memory is short

A string is its text and its capacity.  One call gives: did it throw, the capacity and the text afterwards.
-/

namespace Efp.Spec

open Str Lim StrLim

/-- the arguments of the call are values of `size_t` and arrays of fewer than half the bytes of the address space -/
def StrArgFits (p : Plat) : SOp → Prop
  | .base op => ArgFits p op
  | .appendC buf | .assignC buf => buf.length * p.esz < 2 ^ (p.w - 1)
  | .insertC pos buf => pos < 2 ^ p.w ∧ buf.length * p.esz < 2 ^ (p.w - 1)
  | .insertCN pos buf n => pos < 2 ^ p.w ∧ n < 2 ^ p.w ∧ buf.length * p.esz < 2 ^ (p.w - 1)
  | .appendN n _ | .assignN n _ => n < 2 ^ p.w
  | .plus w => w.length * p.esz < 2 ^ (p.w - 1)

/-- the same for constructors; `String(n, c)` must not ask for more bytes than `size_t` can hold -/
def InitFits (p : Plat) : Str.Init → Prop
  | .default => True
  | .cstr buf | .count buf _ => buf.length * p.esz < 2 ^ (p.w - 1)
  | .fill n _ => n * p.esz < 2 ^ p.w

/-- appending the characters `w` one by one, from turn `i`: a block of `2n + 1` slots is needed (2 for the empty
string) whenever the character would fill the capacity, and without it the call stops there -/
def pushAll (p : Plat) (av : Memory) : (w : List Nat) → (i cap : Nat) → List Nat → Bool × Nat × List Nat
  | [], _, cap, l => (false, cap, l)
  | c :: w, i, cap, l =>
    if cap ≤ l.length + 1 then
      let n := if l.length = 0 then 2 else 2 * l.length + 1
      if av i (n * p.esz) then pushAll p av w (i + 1) n (l ++ [c]) else (true, cap, l)
    else pushAll p av w (i + 1) cap (l ++ [c])

/-- one block of `n` slots for the new text `l'` is needed if the capacity is below `n` -/
def grow (p : Plat) (av : Memory) (n cap : Nat) (l l' : List Nat) : Bool × Nat × List Nat :=
  if cap < n then if av 0 (n * p.esz) then (false, n, l') else (true, cap, l) else (false, cap, l')

/-- one inherited call -/
def baseStep (p : Plat) (av : Memory) (op : VecS.Op Nat) (cap : Nat) (l : List Nat) : Bool × Nat × List Nat :=
  match vecStep op l with
  | none => (true, cap, l)
  | some l' =>
    match wanted ({ VecS.mk0 {} with size := l.length, cap := cap } : Str) op with
    | none => (false, cap, l')
    | some n => if av 0 (n * p.esz) then (false, n, l') else (true, cap, l)

/-- one call -/
def limStep (p : Plat) (av : Memory) (op : SOp) (cap : Nat) (l : List Nat) : Bool × Nat × List Nat :=
  match op with
  | .base op => baseStep p av op cap l
  | .appendC buf => pushAll p av (cChars buf) 0 cap l
  | .appendN n c => pushAll p av (List.replicate n c) 0 cap l
  | .assignC buf => pushAll p av (cChars buf) 0 cap []
  | .assignN n c => pushAll p av (List.replicate n c) 0 cap []
  | .insertC pos buf =>
    if pos ≤ l.length then
      grow p av (l.length + (cChars buf).length) cap l (l.take pos ++ cChars buf ++ l.drop pos)
    else (true, cap, l)
  | .insertCN pos buf n =>
    if pos ≤ l.length then grow p av (l.length + n + 1) cap l (l.take pos ++ buf.take n ++ l.drop pos)
    else (true, cap, l)
  | .plus w =>
    if av 0 ((w.length + 1) * p.esz) then pushAll p (fun i => av (i + 1)) w 0 cap l else (true, cap, l)

/-- a history: final capacity and text, and for each call whether it threw -/
def limRun (p : Plat) : List (SOp × Memory) → Nat → List Nat → Nat × List Nat × List Bool
  | [], cap, l => (cap, l, [])
  | (op, av) :: ops, cap, l =>
    let r := limStep p av op cap l
    let q := limRun p ops r.2.1 r.2.2
    (q.1, q.2.1, r.1 :: q.2.2)

/-- a constructor: the slots it allocates for its text; `none` when it allocates nothing -/
def initSlots : Str.Init → Option Nat
  | .default => none
  | .cstr buf => some ((cChars buf).length + 1)
  | .count _ n => some (n + 1)
  | .fill n _ => some n

/-- What a call that throws may leave of the text `l`.  `insert` and the inherited calls leave it alone, `append` and
`+=` may have appended a proper beginning of what they were given, and `assign` has thrown the text away. -/
def leftBy (op : SOp) (l l' : List Nat) : Prop :=
  match op with
  | .base _ | .insertC _ _ | .insertCN _ _ _ => l' = l
  | .appendC buf => ∃ n < (cChars buf).length, l' = l ++ (cChars buf).take n
  | .appendN m c => ∃ n < m, l' = l ++ List.replicate n c
  | .assignC buf => ∃ n < (cChars buf).length, l' = (cChars buf).take n
  | .assignN m c => ∃ n < m, l' = List.replicate n c
  | .plus w => l' = l ∨ ∃ n < w.length, l' = l ++ w.take n

/-- `s` is a string with text `l` that some session of valid calls leaves, on some machine -/
def StrLimReachable (p : Plat) (s : Str) (l : List Nat) : Prop :=
  ∃ i avail calls threw, initOk i ∧ InitFits p i ∧ Possible p avail ∧
    (∀ c ∈ calls, sopOk c.1 ∧ StrArgFits p c.1 ∧ ∀ j, Possible p (c.2 j)) ∧
    StrLim.session p avail i calls = .ok (some (s, threw)) ∧ s.contents = .ok l

end Efp.Spec
