import Verif.Fmt.Write

/-!
# Model of the shortest-digits conversion of floating-point numbers (fmt/format-inl.h 165-1381, fmt/format.h 391-520,
1642-1765)

`to_decimal` turns the bits of a positive finite `float` or `double` into a decimal significand and exponent.  Unsigned
integers are natural numbers below a power of two, with explicit reduction where the code computes modulo that power;
`int` is `Int`; a product outside of 32 bits is `ub`, the sums are of numbers far smaller.  A shift by a negative amount or by the width of the
type or more is `ub`, and so is a failed `EFP_FMT_ASSERT`, an index outside of a table and a loop that does not end.
The configuration is the default one: `__int128` is there, the table of powers is the compressed one
(`EFP_FMT_USE_FULL_CACHE_DRAGONBOX` is 0) and nothing is evaluated at compile time.
-/

namespace Efp
namespace Fmt

/-- `EFP_FMT_ASSERT`, core.h 338-348: a failed assertion aborts or, with `NDEBUG`, is ignored; here it is `ub` -/
def assert (c : Prop) [Decidable c] : Res Unit := if c then .ok () else .ub

/-- a result of type `int`: no overflow -/
def cint (v : Int) : Res Int := if -2147483648 ≤ v ∧ v < 2147483648 then .ok v else .ub

/-- `x << n` in an unsigned type of `w` bits -/
def shl (w x : Nat) (n : Int) : Res Nat := if 0 ≤ n ∧ n < w then .ok (x * 2 ^ n.toNat % 2 ^ w) else .ub

/-- `x >> n` in an unsigned type of `w` bits -/
def shr (w x : Nat) (n : Int) : Res Nat := if 0 ≤ n ∧ n < w then .ok (x / 2 ^ n.toNat) else .ub

/-- `uint128_fallback`, format.h 391-407 -/
structure U128 where
  hi : Nat
  lo : Nat
  deriving DecidableEq, Repr

/-- `operator+=(uint64_t)` of `uint128_fallback`, format.h 494-517: addition with carry -/
def U128.add64 (a : U128) (n : Nat) : U128 :=
  ⟨(a.hi + (a.lo + n) / 2 ^ 64) % 2 ^ 64, (a.lo + n) % 2 ^ 64⟩

namespace Dragonbox

/-- `umul128`, format.h 1643-1646 -/
def umul128 (x y : Nat) : U128 := ⟨x * y / 2 ^ 64 % 2 ^ 64, x * y % 2 ^ 64⟩

/-- `umul128` without a 128-bit type, format.h 1652-1669 -/
def umul128Fallback (x y : Nat) : U128 :=
  let a := x / 2 ^ 32
  let b := x % 2 ^ 32
  let c := y / 2 ^ 32
  let d := y % 2 ^ 32
  let ac := a * c % 2 ^ 64
  let bc := b * c % 2 ^ 64
  let ad := a * d % 2 ^ 64
  let bd := b * d % 2 ^ 64
  let intermediate := (bd / 2 ^ 32 + ad % 2 ^ 32 + bc % 2 ^ 32) % 2 ^ 64
  ⟨(ac + intermediate / 2 ^ 32 + ad / 2 ^ 32 + bc / 2 ^ 32) % 2 ^ 64,
    (intermediate * 2 ^ 32 + bd % 2 ^ 32) % 2 ^ 64⟩

/-- `floor_log10_pow2`, format.h 1676-1680 -/
def floorLog10Pow2 (e : Int) : Res Int := do
  assert (e ≤ 2620 ∧ e ≥ -2620)
  let p ← cint (e * 315653)
  .ok (p >>> 20)

/-- `floor_log2_pow10`, format.h 1682-1685 -/
def floorLog2Pow10 (e : Int) : Res Int := do
  assert (e ≤ 1233 ∧ e ≥ -1233)
  let p ← cint (e * 1741647)
  .ok (p >>> 19)

/-- `umul128_upper64`, format.h 1688-1691 -/
def umul128Upper64 (x y : Nat) : Nat := x * y / 2 ^ 64 % 2 ^ 64

/-- `umul192_upper128`, format.h 1701-1705 -/
def umul192Upper128 (x : Nat) (y : U128) : U128 := (umul128 x y.hi).add64 (umul128Upper64 x y.lo)

/-- `umul96_upper64`, format-inl.h 180-182 -/
def umul96Upper64 (x y : Nat) : Nat := umul128Upper64 (x * 2 ^ 32 % 2 ^ 64) y

/-- `umul192_lower128`, format-inl.h 186-190 -/
def umul192Lower128 (x : Nat) (y : U128) : U128 :=
  let high := x * y.hi % 2 ^ 64
  let highLow := umul128 x y.lo
  ⟨(high + highLow.hi) % 2 ^ 64, highLow.lo⟩

/-- `umul96_lower64`, format-inl.h 194-196 -/
def umul96Lower64 (x y : Nat) : Nat := x * y % 2 ^ 64

/-- `floor_log10_pow2_minus_log10_4_over_3`, format-inl.h 199-202 -/
def floorLog10Pow2MinusLog10FourThirds (e : Int) : Res Int := do
  assert (e ≤ 2936 ∧ e ≥ -2985)
  let p ← cint (e * 631305)
  let p ← cint (p - 261663)
  .ok (p >>> 21)

/-- `check_divisibility_and_divide_by_pow10`, format-inl.h 204-207 and 212-233, with `divisor` 10 or 100: the quotient
and whether the division is exact -/
def checkDivisibilityAndDivide (divisor n : Nat) : Res (Nat × Bool) := do
  assert (n ≤ divisor * 10)
  let magic := 2 ^ 16 / divisor + 1
  let n := n * magic % 2 ^ 32
  .ok (n / 2 ^ 16, n % 2 ^ 16 < magic)

/-- the powers of `cache_accessor<float>::get_cached_power`, format-inl.h 271-292 -/
def floatPowers : List Nat :=
  [0x81ceb32c4b43fcf5, 0xa2425ff75e14fc32, 0xcad2f7f5359a3b3f, 0xfd87b5f28300ca0e, 0x9e74d1b791e07e49,
   0xc612062576589ddb, 0xf79687aed3eec552, 0x9abe14cd44753b53, 0xc16d9a0095928a28, 0xf1c90080baf72cb2,
   0x971da05074da7bef, 0xbce5086492111aeb, 0xec1e4a7db69561a6, 0x9392ee8e921d5d08, 0xb877aa3236a4b44a,
   0xe69594bec44de15c, 0x901d7cf73ab0acda, 0xb424dc35095cd810, 0xe12e13424bb40e14, 0x8cbccc096f5088cc,
   0xafebff0bcb24aaff, 0xdbe6fecebdedd5bf, 0x89705f4136b4a598, 0xabcc77118461cefd, 0xd6bf94d5e57a42bd,
   0x8637bd05af6c69b6, 0xa7c5ac471b478424, 0xd1b71758e219652c, 0x83126e978d4fdf3c, 0xa3d70a3d70a3d70b,
   0xcccccccccccccccd, 0x8000000000000000, 0xa000000000000000, 0xc800000000000000, 0xfa00000000000000,
   0x9c40000000000000, 0xc350000000000000, 0xf424000000000000, 0x9896800000000000, 0xbebc200000000000,
   0xee6b280000000000, 0x9502f90000000000, 0xba43b74000000000, 0xe8d4a51000000000, 0x9184e72a00000000,
   0xb5e620f480000000, 0xe35fa931a0000000, 0x8e1bc9bf04000000, 0xb1a2bc2ec5000000, 0xde0b6b3a76400000,
   0x8ac7230489e80000, 0xad78ebc5ac620000, 0xd8d726b7177a8000, 0x878678326eac9000, 0xa968163f0a57b400,
   0xd3c21bcecceda100, 0x84595161401484a0, 0xa56fa5b99019a5c8, 0xcecb8f27f4200f3a, 0x813f3978f8940985,
   0xa18f07d736b90be6, 0xc9f2c9cd04674edf, 0xfc6f7c4045812297, 0x9dc5ada82b70b59e, 0xc5371912364ce306,
   0xf684df56c3e01bc7, 0x9a130b963a6c115d, 0xc097ce7bc90715b4, 0xf0bdc21abb48db21, 0x96769950b50d88f5,
   0xbc143fa4e250eb32, 0xeb194f8e1ae525fe, 0x92efd1b8d0cf37bf, 0xb7abc627050305ae, 0xe596b7b0c643c71a,
   0x8f7e32ce7bea5c70, 0xb35dbf821ae4f38c, 0xe0352f62a19e306f]

/-- the powers of `cache_accessor<double>::get_cached_power`, format-inl.h 1006-1029 -/
def doublePowers : List U128 :=
  [⟨0xff77b1fcbebcdc4f, 0x25e8e89c13bb0f7b⟩, ⟨0xce5d73ff402d98e3, 0xfb0a3d212dc81290⟩,
   ⟨0xa6b34ad8c9dfc06f, 0xf42faa48c0ea481f⟩, ⟨0x86a8d39ef77164bc, 0xae5dff9c02033198⟩,
   ⟨0xd98ddaee19068c76, 0x3badd624dd9b0958⟩, ⟨0xafbd2350644eeacf, 0xe5d1929ef90898fb⟩,
   ⟨0x8df5efabc5979c8f, 0xca8d3ffa1ef463c2⟩, ⟨0xe55990879ddcaabd, 0xcc420a6a101d0516⟩,
   ⟨0xb94470938fa89bce, 0xf808e40e8d5b3e6a⟩, ⟨0x95a8637627989aad, 0xdde7001379a44aa9⟩,
   ⟨0xf1c90080baf72cb1, 0x5324c68b12dd6339⟩, ⟨0xc350000000000000, 0x0000000000000000⟩,
   ⟨0x9dc5ada82b70b59d, 0xf020000000000000⟩, ⟨0xfee50b7025c36a08, 0x02f236d04753d5b5⟩,
   ⟨0xcde6fd5e09abcf26, 0xed4c0226b55e6f87⟩, ⟨0xa6539930bf6bff45, 0x84db8346b786151d⟩,
   ⟨0x865b86925b9bc5c2, 0x0b8a2392ba45a9b3⟩, ⟨0xd910f7ff28069da4, 0x1b2ba1518094da05⟩,
   ⟨0xaf58416654a6babb, 0x387ac8d1970027b3⟩, ⟨0x8da471a9de737e24, 0x5ceaecfed289e5d3⟩,
   ⟨0xe4d5e82392a40515, 0x0fabaf3feaa5334b⟩, ⟨0xb8da1662e7b00a17, 0x3d6a751f3b936244⟩,
   ⟨0x95527a5202df0ccb, 0x0f37801e0c43ebc9⟩, ⟨0xf13e34aabb430a15, 0x647726b9e7c68ff0⟩]

/-- `powers_of_5_64`, format-inl.h 1036-1044 -/
def powersOf5 : List Nat :=
  [0x0000000000000001, 0x0000000000000005, 0x0000000000000019, 0x000000000000007d, 0x0000000000000271,
   0x0000000000000c35, 0x0000000000003d09, 0x000000000001312d, 0x000000000005f5e1, 0x00000000001dcd65,
   0x00000000009502f9, 0x0000000002e90edd, 0x000000000e8d4a51, 0x0000000048c27395, 0x000000016bcc41e9,
   0x000000071afd498d, 0x0000002386f26fc1, 0x000000b1a2bc2ec5, 0x000003782dace9d9, 0x00001158e460913d,
   0x000056bc75e2d631, 0x0001b1ae4d6e2ef5, 0x000878678326eac9, 0x002a5a058fc295ed, 0x00d3c21bcecceda1,
   0x0422ca8b0a00a425, 0x14adf4b7320334b9]

/-- reading a table -/
def lookup {α : Type} (l : List α) (i : Int) : Res α :=
  if i < 0 then .ub else match l[i.toNat]? with
    | some a => .ok a
    | none => .ub

/-- `cache_accessor<float>::get_cached_power`, format-inl.h 266-294 -/
def floatCachedPower (k : Int) : Res Nat := do
  assert (k ≥ -31 ∧ k ≤ 46)
  lookup floatPowers (k - -31)

/-- `cache_accessor<double>::get_cached_power`, format-inl.h 362-366 and 1036-1077; `/` on `int` rounds towards 0 -/
def doubleCachedPower (k : Int) : Res U128 := do
  assert (k ≥ -292 ∧ k ≤ 341)
  let index := (k - -292).tdiv 27
  let kb := index * 27 + -292
  let offset := k - kb
  let base ← lookup doublePowers index
  if offset = 0 then .ok base
  else
    let l1 ← floorLog2Pow10 (kb + offset)
    let l2 ← floorLog2Pow10 kb
    let alpha := l1 - l2 - offset
    assert (alpha > 0 ∧ alpha < 64)
    let pow5 ← lookup powersOf5 offset
    let recovered := umul128 base.hi pow5
    let middleLow := umul128 base.lo pow5
    let recovered := recovered.add64 middleLow.hi
    let highToMiddle ← shl 64 recovered.hi (64 - alpha)
    let middleToLow ← shl 64 recovered.lo (64 - alpha)
    let h ← shr 64 recovered.lo alpha
    let l ← shr 64 middleLow.lo alpha
    let recovered : U128 := ⟨h ||| highToMiddle, l ||| middleToLow⟩
    assert ((recovered.lo + 1) % 2 ^ 64 ≠ 0)
    .ok ⟨recovered.hi, (recovered.lo + 1) % 2 ^ 64⟩

/-- `decimal_fp`, format.h 1756-1761 -/
structure Decimal where
  significand : Nat
  exponent : Int
  deriving DecidableEq, Repr

/-- `is_left_endpoint_integer_shorter_interval`, format-inl.h 1143-1148 -/
def isLeftEndpointInteger (exponent : Int) : Bool := exponent ≥ 2 ∧ exponent ≤ 3

/-- `rotr`, format-inl.h 166-174, for `0 < r < w` -/
def rotr (w n r : Nat) : Nat := n / 2 ^ r ||| n * 2 ^ (w - r) % 2 ^ w

/-- the loop of `remove_trailing_zeros`, format-inl.h 1157-1163 and 1195-1201; `fuel` bounds the number of turns -/
def removeLoop (w inv25 : Nat) : (fuel n : Nat) → (s : Nat) → Res (Nat × Nat)
  | 0, _, _ => .ub
  | fuel + 1, n, s =>
    let q := rotr w (n * inv25 % 2 ^ w) 2
    if q > (2 ^ w - 1) / 100 then .ok (n, s) else removeLoop w inv25 fuel q (s + 2)

/-- the rest of `remove_trailing_zeros`, format-inl.h 1164-1169 and 1202-1208 -/
def removeLast (w inv5 n s : Nat) : Nat × Nat :=
  let q := rotr w (n * inv5 % 2 ^ w) 1
  if q ≤ (2 ^ w - 1) / 10 then (q, s ||| 1) else (n, s)

/-- `remove_trailing_zeros(uint32_t&, int)`, format-inl.h 1151-1170: what is left of `n` and the number of zeros -/
def removeTrailingZeros32 (n s : Nat) : Res (Nat × Nat) := do
  assert (n ≠ 0)
  let (n, s) ← removeLoop 32 0xc28f5c29 32 n s
  .ok (removeLast 32 0xcccccccd n s)

/-- `remove_trailing_zeros(uint64_t&)`, format-inl.h 1173-1209 -/
def removeTrailingZeros64 (n : Nat) : Res (Nat × Nat) := do
  assert (n ≠ 0)
  let nm := umul128 n 12379400392853802749
  if nm.hi &&& (2 ^ (90 - 64) - 1) = 0 ∧ nm.lo < 12379400392853802749 then
    removeTrailingZeros32 (nm.hi / 2 ^ (90 - 64) % 2 ^ 32) 8
  else
    let (n, s) ← removeLoop 64 0x8f5c28f5c28f5c29 64 n 0
    .ok (removeLast 64 0xcccccccccccccccd n s)

/-- What `to_decimal` and `shorter_interval_case` take from `float_info`, `cache_accessor` and the overloads for one
floating-point type: `w` is the width of `carrier_uint` (format.h 1713-1737). -/
structure Flt where
  w : Nat
  sigBits : Nat
  expBits : Nat
  minExponent : Int
  maxExponent : Int
  kappa : Int
  bigDivisor : Nat
  smallDivisor : Nat
  tieLower : Int
  tieUpper : Int
  Cache : Type
  cachedPower : Int → Res Cache
  computeMul : Nat → Cache → Nat × Bool
  computeDelta : Cache → Int → Res Nat
  computeMulParity : Nat → Cache → Int → Res (Bool × Bool)
  leftEndpoint : Cache → Int → Res Nat
  rightEndpoint : Cache → Int → Res Nat
  roundUp : Cache → Int → Res Nat
  divideBig : Nat → Nat
  removeTrailingZeros : Nat → Res (Nat × Nat)

/-- `float`: format.h 1713-1724; format-inl.h 306-354 for the members of `cache_accessor<float>` and 246-249 for
`divide_by_10_to_kappa_plus_1` -/
def flt32 : Flt where
  w := 32
  sigBits := 23
  expBits := 8
  minExponent := -125
  maxExponent := 128
  kappa := 1
  bigDivisor := 100
  smallDivisor := 10
  tieLower := -35
  tieUpper := -35
  Cache := Nat
  cachedPower := floatCachedPower
  computeMul u cache := (umul96Upper64 u cache / 2 ^ 32 % 2 ^ 32, umul96Upper64 u cache % 2 ^ 32 = 0)
  computeDelta cache beta := do
    let d ← shr 64 cache (64 - 1 - beta)
    .ok (d % 2 ^ 32)
  computeMulParity twoF cache beta := do
    assert (beta ≥ 1)
    assert (beta < 64)
    let r := umul96Lower64 twoF cache
    let a ← shr 64 r (64 - beta)
    let b ← shr 64 r (32 - beta)
    .ok (a % 2 ≠ 0, b % 2 ^ 32 = 0)
  leftEndpoint cache beta := do
    let c ← shr 64 cache (23 + 2)
    let x ← shr 64 ((cache + 2 ^ 64 - c) % 2 ^ 64) (64 - 23 - 1 - beta)
    .ok (x % 2 ^ 32)
  rightEndpoint cache beta := do
    let c ← shr 64 cache (23 + 1)
    let x ← shr 64 ((cache + c) % 2 ^ 64) (64 - 23 - 1 - beta)
    .ok (x % 2 ^ 32)
  roundUp cache beta := do
    let x ← shr 64 cache (64 - 23 - 2 - beta)
    .ok ((x % 2 ^ 32 + 1) % 2 ^ 32 / 2)
  divideBig n := n * 1374389535 % 2 ^ 64 / 2 ^ 37 % 2 ^ 32
  removeTrailingZeros n := removeTrailingZeros32 n 0

/-- `double`: format.h 1726-1737; format-inl.h 1091-1134 for the members of `cache_accessor<double>` and 252-255 for
`divide_by_10_to_kappa_plus_1` -/
def flt64 : Flt where
  w := 64
  sigBits := 52
  expBits := 11
  minExponent := -1021
  maxExponent := 1024
  kappa := 2
  bigDivisor := 1000
  smallDivisor := 100
  tieLower := -77
  tieUpper := -77
  Cache := U128
  cachedPower := doubleCachedPower
  computeMul u cache := ((umul192Upper128 u cache).hi, (umul192Upper128 u cache).lo = 0)
  computeDelta cache beta := do
    let d ← shr 64 cache.hi (64 - 1 - beta)
    .ok (d % 2 ^ 32)
  computeMulParity twoF cache beta := do
    assert (beta ≥ 1)
    assert (beta < 64)
    let r := umul192Lower128 twoF cache
    let a ← shr 64 r.hi (64 - beta)
    let b ← shl 64 r.hi beta
    let c ← shr 64 r.lo (64 - beta)
    .ok (a % 2 ≠ 0, b ||| c = 0)
  leftEndpoint cache beta := do
    let c ← shr 64 cache.hi (52 + 2)
    shr 64 ((cache.hi + 2 ^ 64 - c) % 2 ^ 64) (64 - 52 - 1 - beta)
  rightEndpoint cache beta := do
    let c ← shr 64 cache.hi (52 + 1)
    shr 64 ((cache.hi + c) % 2 ^ 64) (64 - 52 - 1 - beta)
  roundUp cache beta := do
    let x ← shr 64 cache.hi (64 - 52 - 2 - beta)
    .ok ((x + 1) % 2 ^ 64 / 2)
  divideBig n := umul128Upper64 n 2361183241434822607 / 2 ^ 7
  removeTrailingZeros := removeTrailingZeros64

/-- `shorter_interval_case`, format-inl.h 1213-1254 -/
def shorterIntervalCase (F : Flt) (exponent : Int) : Res Decimal := do
  let minusK ← floorLog10Pow2MinusLog10FourThirds exponent
  let l ← floorLog2Pow10 (-minusK)
  let beta := exponent + l
  let cache ← F.cachedPower (-minusK)
  let xi ← F.leftEndpoint cache beta
  let zi ← F.rightEndpoint cache beta
  let xi := if !isLeftEndpointInteger exponent then (xi + 1) % 2 ^ F.w else xi
  if zi / 10 * 10 % 2 ^ F.w ≥ xi then
    let (n, s) ← F.removeTrailingZeros (zi / 10)
    .ok ⟨n, minusK + 1 + s⟩
  else
    let y ← F.roundUp cache beta
    if exponent ≥ F.tieLower ∧ exponent ≤ F.tieUpper then
      .ok ⟨if y % 2 = 0 then y else (y + 2 ^ F.w - 1) % 2 ^ F.w, minusK⟩
    else if y < xi then .ok ⟨(y + 1) % 2 ^ F.w, minusK⟩
    else .ok ⟨y, minusK⟩

/-- step 3 of `to_decimal`, format-inl.h 1348-1379: `significand` and `r` on entry -/
def smallDivisorCase (F : Flt) (cache : F.Cache) (minusK beta : Int) (twoFc significand r deltai : Nat) :
    Res Decimal := do
  let significand := significand * 10 % 2 ^ F.w
  let dist := (r + 2 ^ 32 - deltai / 2 + F.smallDivisor / 2) % 2 ^ 32
  let approxYParity : Bool := (dist ^^^ F.smallDivisor / 2) % 2 ≠ 0
  let (dist, divisible) ← checkDivisibilityAndDivide F.smallDivisor dist
  let significand := (significand + dist) % 2 ^ F.w
  if !divisible then .ok ⟨significand, minusK + F.kappa⟩
  else
    let (parity, isInteger) ← F.computeMulParity twoFc cache beta
    if parity ≠ approxYParity then .ok ⟨(significand + 2 ^ F.w - 1) % 2 ^ F.w, minusK + F.kappa⟩
    else if isInteger && (significand % 2 ≠ 0) then .ok ⟨(significand + 2 ^ F.w - 1) % 2 ^ F.w, minusK + F.kappa⟩
    else .ok ⟨significand, minusK + F.kappa⟩

/-- step 2 of `to_decimal` after a larger divisor was found, format-inl.h 1340-1344 -/
def bigDivisorCase (F : Flt) (minusK : Int) (significand : Nat) : Res Decimal := do
  let (n, s) ← F.removeTrailingZeros significand
  .ok ⟨n, minusK + F.kappa + 1 + s⟩

/-- steps 1 (from line 1287) to 3 of `to_decimal`, format-inl.h 1287-1379, for a significand and exponent -/
def regularCase (F : Flt) (significand : Nat) (exponent : Int) : Res Decimal := do
  let includeEndpoints : Bool := significand % 2 = 0
  let l ← floorLog10Pow2 exponent
  let minusK := l - F.kappa
  let cache ← F.cachedPower (-minusK)
  let l ← floorLog2Pow10 (-minusK)
  let beta := exponent + l
  let deltai ← F.computeDelta cache beta
  let twoFc ← shl F.w significand 1
  let u ← shl F.w (twoFc ||| 1) beta
  let (zi, zIsInteger) := F.computeMul u cache
  let significand := F.divideBig zi
  let r := (zi + 2 ^ F.w - F.bigDivisor * significand % 2 ^ F.w) % 2 ^ F.w % 2 ^ 32
  if r < deltai then
    if r = 0 ∧ (zIsInteger && !includeEndpoints) = true then
      smallDivisorCase F cache minusK beta twoFc ((significand + 2 ^ F.w - 1) % 2 ^ F.w) F.bigDivisor deltai
    else bigDivisorCase F minusK significand
  else if r > deltai then smallDivisorCase F cache minusK beta twoFc significand r deltai
  else
    let (parity, isInteger) ← F.computeMulParity ((twoFc + 2 ^ F.w - 1) % 2 ^ F.w) cache beta
    if !(parity || (isInteger && includeEndpoints)) then
      smallDivisorCase F cache minusK beta twoFc significand r deltai
    else bigDivisorCase F minusK significand

/-- `to_decimal` of the number with bits `br`, format-inl.h 1257-1380; `num_significand_bits`, `exponent_mask` and
`exponent_bias` are format.h 1776-1794 -/
def toDecimal (F : Flt) (br : Nat) : Res Decimal :=
  let significand := br &&& (2 ^ F.sigBits - 1)
  let exponent : Int := ((br &&& (2 ^ F.expBits - 1) * 2 ^ F.sigBits) / 2 ^ F.sigBits : Nat)
  if exponent ≠ 0 then
    let exponent := exponent - (F.maxExponent - 1 + F.sigBits)
    if significand = 0 then shorterIntervalCase F exponent
    else regularCase F (significand ||| 2 ^ F.sigBits) exponent
  else if significand = 0 then .ok ⟨0, 0⟩
  else regularCase F significand (F.minExponent - F.sigBits - 1)

end Dragonbox
end Fmt
end Efp
