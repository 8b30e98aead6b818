import Verif.Fmt.Dragonbox

/-!
# Model of the arbitrary-precision integers of `format_dragon` (fmt/format.h 3060-3334)

The bigits, of 32 bits, are a list with the least significant one first; the storage is a `memory_buffer` (see
`Verif.Fmt.Memory`), whose allocations do not fail here.  Sums of sizes and exponents are far below the range of `int`.
-/

namespace Efp
namespace Fmt

open Dragonbox

/-- `bigint`, format.h 3060-3071 -/
structure Bigint where
  bigits : List Nat := []
  exp : Nat := 0
  deriving DecidableEq, Repr

namespace Bigint

/-- `num_bigits`, format.h 3179-3181 -/
def numBigits (a : Bigint) : Nat := a.bigits.length + a.exp

/-- the loop of `assign`, format.h 3147-3150; `fuel` bounds the number of turns -/
def assignLoop : (fuel n : Nat) → Res (List Nat)
  | 0, _ => .ub
  | fuel + 1, n =>
    if n / 2 ^ 32 = 0 then .ok [n % 2 ^ 32]
    else do
      let r ← assignLoop fuel (n / 2 ^ 32)
      .ok (n % 2 ^ 32 :: r)

/-- `operator=` for integers, format.h 3173-3177 and 3142-3153: at most four bigits, which fit in the object -/
def ofNat (n : Nat) : Res Bigint := do
  assert (n > 0)
  let l ← assignLoop 4 n
  .ok ⟨l, 0⟩

/-- the loop of `multiply` for 32 bits, format.h 3112-3119 -/
def multiplyLoop (value : Nat) : List Nat → (carry : Nat) → List Nat
  | [], carry => if carry ≠ 0 then [carry] else []
  | b :: r, carry =>
    let result := (b * value + carry) % 2 ^ 64
    result % 2 ^ 32 :: multiplyLoop value r (result / 2 ^ 32 % 2 ^ 32)

/-- `operator*=` for integers of 32 bits, format.h 3200-3205 and 3110-3120 -/
def mul (a : Bigint) (value : Nat) : Res Bigint := do
  assert (value > 0)
  .ok { a with bigits := multiplyLoop value a.bigits 0 }

/-- the last loop of `multiply` for 128 bits, format.h 3136-3139 -/
def pushCarry : (fuel carry : Nat) → Res (List Nat)
  | 0, carry => if carry ≠ 0 then .ub else .ok []
  | fuel + 1, carry =>
    if carry ≠ 0 then do
      let r ← pushCarry fuel (carry / 2 ^ 32)
      .ok (carry % 2 ^ 32 :: r)
    else .ok []

/-- the loop of `multiply` for 128 bits, format.h 3131-3139 -/
def multiplyWideLoop (lower upper : Nat) : List Nat → (carry : Nat) → Res (List Nat)
  | [], carry => pushCarry 4 carry
  | b :: r, carry => do
    let result := (lower * b + carry % 2 ^ 32) % 2 ^ 128
    let carry := (upper * b % 2 ^ 128 * 2 ^ 32 + result / 2 ^ 32 + carry / 2 ^ 32) % 2 ^ 128
    let r ← multiplyWideLoop lower upper r carry
    .ok (result % 2 ^ 32 :: r)

/-- `operator*=` for integers of 128 bits, format.h 3200-3205 and 3122-3140 -/
def mulWide (a : Bigint) (value : Nat) : Res Bigint := do
  assert (value > 0)
  let l ← multiplyWideLoop (value % 2 ^ 64) (value / 2 ^ 64) a.bigits 0
  .ok { a with bigits := l }

/-- the loop of `operator<<=`, format.h 3189-3196 -/
def shiftLoop (shift : Nat) : List Nat → (carry : Nat) → List Nat
  | [], carry => if carry ≠ 0 then [carry] else []
  | b :: r, carry => (b * 2 ^ shift % 2 ^ 32 + carry) % 2 ^ 32 :: shiftLoop shift r (b / 2 ^ (32 - shift))

/-- `operator<<=`, format.h 3183-3198 -/
def shiftLeft (a : Bigint) (shift : Int) : Res Bigint := do
  assert (shift ≥ 0)
  let exp := a.exp + shift.toNat / 32
  let shift := shift.toNat % 32
  .ok (if shift = 0 then { a with exp := exp } else ⟨shiftLoop shift a.bigits 0, exp⟩)

/-- the loop of `compare`, format.h 3211-3222, from the most significant bigits down -/
def compareLoop : List Nat → List Nat → Int
  | [], [] => 0
  | _ :: _, [] => 1
  | [], _ :: _ => -1
  | a :: r, b :: s => if a ≠ b then (if a > b then 1 else -1) else compareLoop r s

/-- `compare`, format.h 3207-3224 -/
def compare (lhs rhs : Bigint) : Int :=
  if lhs.numBigits ≠ rhs.numBigits then (if lhs.numBigits > rhs.numBigits then 1 else -1)
  else compareLoop lhs.bigits.reverse rhs.bigits.reverse

/-- `get_bigit`, format.h 3237-3239 -/
def getBigit (a : Bigint) (i : Nat) : Nat := if i ≥ a.exp ∧ i < a.numBigits then a.bigits.getD (i - a.exp) 0 else 0

/-- the loop of `add_compare`, format.h 3240-3252: `n` turns, the last one with index `minExp` -/
def addCompareLoop (lhs1 lhs2 rhs : Bigint) (minExp : Nat) : (n borrow : Nat) → Int
  | 0, borrow => if borrow ≠ 0 then -1 else 0
  | n + 1, borrow =>
    let sum := getBigit lhs1 (minExp + n) + getBigit lhs2 (minExp + n)
    let r := getBigit rhs (minExp + n)
    if sum > r + borrow then 1
    else if r + borrow - sum > 1 then -1
    else addCompareLoop lhs1 lhs2 rhs minExp n ((r + borrow - sum) * 2 ^ 32 % 2 ^ 64)

/-- `add_compare`, format.h 3226-3253 -/
def addCompare (lhs1 lhs2 rhs : Bigint) : Int :=
  let maxLhs := max lhs1.numBigits lhs2.numBigits
  if maxLhs + 1 < rhs.numBigits then -1
  else if maxLhs > rhs.numBigits then 1
  else
    let minExp := min (min lhs1.exp lhs2.exp) rhs.exp
    addCompareLoop lhs1 lhs2 rhs minExp (rhs.numBigits - minExp) 0

/-- `remove_leading_zeros`, format.h 3090-3095, on the bigits in reverse -/
def dropZeros : List Nat → List Nat
  | [] => []
  | [b] => [b]
  | b :: c :: r => if b = 0 then dropZeros (c :: r) else b :: c :: r

/-- the cross-product terms of one bigit of a square, format.h 3287-3290 and 3296-3297: `n` terms from `i` and `j` on -/
def crossSum (l : List Nat) : (n i j sum : Nat) → Nat
  | 0, _, _, sum => sum
  | n + 1, i, j, sum => crossSum l n (i + 1) (j - 1) ((sum + l.getD i 0 * l.getD j 0 % 2 ^ 64) % 2 ^ 128)

/-- the two loops of `square`, format.h 3284-3300, with `n` bigits of the result to go -/
def squareLoop (l : List Nat) : (n index sum : Nat) → List Nat
  | 0, _, _ => []
  | n + 1, index, sum =>
    let sum :=
      if index < l.length then crossSum l (index + 1) 0 index sum
      else crossSum l (l.length - (index - (l.length - 1))) (index - (l.length - 1)) (l.length - 1) sum
    sum % 2 ^ 32 :: squareLoop l n (index + 1) (sum / 2 ^ 32)

/-- `square`, format.h 3278-3303 -/
def square (a : Bigint) : Bigint :=
  ⟨(dropZeros (squareLoop a.bigits (2 * a.bigits.length) 0 0).reverse).reverse, a.exp * 2⟩

/-- the search for the top bit in `assign_pow10`, format.h 3261-3263 -/
def topBit (exp : Nat) : (fuel bitmask : Nat) → Res Nat
  | 0, _ => .ub
  | fuel + 1, bitmask => if exp ≥ bitmask then topBit exp fuel (bitmask * 2) else .ok bitmask

/-- the last loop of `assign_pow10`, format.h 3269-3274 -/
def powLoop (exp : Nat) : (fuel bitmask : Nat) → (a : Bigint) → Res Bigint
  | 0, _, _ => .ub
  | fuel + 1, bitmask, a =>
    if bitmask ≠ 0 then do
      let a := a.square
      let a ← if exp &&& bitmask ≠ 0 then a.mul 5 else .ok a
      powLoop exp fuel (bitmask / 2) a
    else .ok a

/-- `assign_pow10`, format.h 3256-3276 -/
def pow10 (exp : Int) : Res Bigint := do
  assert (exp ≥ 0)
  if exp = 0 then ofNat 1
  else
    let bitmask ← topBit exp.toNat 31 1
    let a ← ofNat 5
    let a ← powLoop exp.toNat 32 (bitmask / 2 / 2) a
    a.shiftLeft exp

/-- `align`, format.h 3307-3317 -/
def align (a other : Bigint) : Bigint :=
  if a.exp ≤ other.exp then a
  else ⟨List.replicate (a.exp - other.exp) 0 ++ a.bigits, other.exp⟩

/-- `subtract_bigits`, format.h 3084-3088: the bigits and the borrow -/
def subtractBigits (l : List Nat) (index other borrow : Nat) : Res (List Nat × Nat) :=
  match l[index]? with
  | none => .ub
  | some b =>
    let result := (b + 2 ^ 64 - other + 2 ^ 64 - borrow) % 2 ^ 64
    .ok (l.set index (result % 2 ^ 32), result / 2 ^ 63)

/-- the first loop of `subtract_aligned`, format.h 3103-3104 -/
def subtractLoop : List Nat → (l : List Nat) → (i borrow : Nat) → Res (List Nat × Nat × Nat)
  | [], l, i, borrow => .ok (l, i, borrow)
  | b :: r, l, i, borrow => do
    let (l, borrow) ← subtractBigits l i b borrow
    subtractLoop r l (i + 1) borrow

/-- the second loop of `subtract_aligned`, format.h 3105-3106; `fuel` bounds the number of turns -/
def borrowLoop (i : Nat) : (fuel : Nat) → (l : List Nat) → (borrow : Nat) → Res (List Nat)
  | 0, _, _ => .ub
  | fuel + 1, l, borrow =>
    if borrow > 0 then do
      let (l, borrow) ← subtractBigits l i 0 borrow
      borrowLoop i fuel l borrow
    else .ok l

/-- `subtract_aligned`, format.h 3097-3108 -/
def subtractAligned (a other : Bigint) : Res Bigint := do
  assert (other.exp ≥ a.exp)
  assert (compare a other ≥ 0)
  let (l, i, borrow) ← subtractLoop other.bigits a.bigits (other.exp - a.exp) 0
  let l ← borrowLoop i (2 ^ 33) l borrow
  .ok { a with bigits := (dropZeros l.reverse).reverse }

/-- the loop of `divmod_assign`, format.h 3327-3331; `fuel` bounds the number of turns, the quotient is an `int` -/
def divmodLoop (divisor : Bigint) : (fuel : Nat) → (a : Bigint) → (quotient : Nat) → Res (Nat × Bigint)
  | 0, _, _ => .ub
  | fuel + 1, a, quotient => do
    let a ← a.subtractAligned divisor
    if compare a divisor ≥ 0 then divmodLoop divisor fuel a (quotient + 1) else .ok (quotient + 1, a)

/-- `divmod_assign`, format.h 3319-3333: the quotient and the remainder -/
def divmodAssign (a divisor : Bigint) : Res (Nat × Bigint) :=
  if compare a divisor < 0 then .ok (0, a)
  else do
    assert (divisor.bigits.getLast? ≠ none ∧ divisor.bigits.getLast? ≠ some 0)
    divmodLoop divisor (2 ^ 31) (a.align divisor) 0

end Bigint
end Fmt
end Efp
