import Verif.Fmt.FloatDefault

/-!
# Properties of the texts of floating-point numbers (C107, C109)

A number is given by its bits: the sign bit on top, below it the bits `m` of its magnitude.
-/

namespace Efp
namespace Props

open Efp.Spec Efp.Spec.Fmt Efp.Fmt Dragonbox

/-- a `double` with the given bits as an argument; the texts with options are a parameter here -/
def doubleArg (bits : Nat) (rest : Specs → Res Str) : Arg := .double (writeFloatDefault flt64 bits) rest

/-- a `float` with the given bits as an argument -/
def floatArg (bits : Nat) (rest : Specs → Res Str) : Arg := .float (writeFloatDefault flt32 bits) rest

/-- the sign of a number -/
def signText (neg : Bool) : Str := if neg then ['-'] else []

theorem format_bare {a : Arg} (ha : ArgOk a) {text : Str} (ht : showDefault a = some text) :
    format "{}".toList [(none, a)] = .ok text := by
  rw [format_iff (len1 _) (ok1 ha)]
  have := Formats.plain (printable := isPrintable) (l := [(none, a)]) (n := 0) (f := []) (out := []) .auto (i := 0) (n' := 1)
    trivial rfl rfl ht (.done 1)
  rw [List.append_nil] at this
  exact this

theorem doubleArg_ok (bits : Nat) {rest : Specs → Res Str} (hr : ∀ sp, rest sp ≠ .ub) : ArgOk (doubleArg bits rest) :=
  ⟨writeFloatDefault_ne_ub converts64 bits, hr⟩

theorem floatArg_ok (bits : Nat) {rest : Specs → Res Str} (hr : ∀ sp, rest sp ≠ .ub) : ArgOk (floatArg bits rest) :=
  ⟨writeFloatDefault_ne_ub converts32 bits, hr⟩

theorem signbit_eq (b : Bool) (m w : Nat) (h : m < 2 ^ w) :
    ((if b then 2 ^ w else 0) + m) % 2 ^ w = m ∧ (((if b then 2 ^ w else 0) + m) / 2 ^ w % 2 = 1 ↔ b = true) := by
  have h0 := Nat.two_pow_pos w
  cases b
  · simp [Nat.mod_eq_of_lt h, Nat.div_eq_of_lt h]
  · simp [Nat.mod_eq_of_lt h, Nat.add_div_left _ h0, Nat.div_eq_of_lt h]

/-- the bits of a `double` with sign `neg` and magnitude bits `m` -/
def bits64 (neg : Bool) (m : Nat) : Nat := (if neg then 2 ^ 63 else 0) + m

/-- the bits of a `float` -/
def bits32 (neg : Bool) (m : Nat) : Nat := (if neg then 2 ^ 31 else 0) + m

theorem bits64_eq (neg : Bool) {m : Nat} (h : m < 2 ^ 63) :
    magBits flt64 (bits64 neg m) = m ∧ signbit flt64 (bits64 neg m) = neg := by
  obtain ⟨h1, h2⟩ := signbit_eq neg m 63 h
  refine ⟨h1, ?_⟩
  rw [Bool.eq_iff_iff, ← h2]
  exact decide_eq_true_iff

theorem bits32_eq (neg : Bool) {m : Nat} (h : m < 2 ^ 31) :
    magBits flt32 (bits32 neg m) = m ∧ signbit flt32 (bits32 neg m) = neg := by
  obtain ⟨h1, h2⟩ := signbit_eq neg m 31 h
  refine ⟨h1, ?_⟩
  rw [Bool.eq_iff_iff, ← h2]
  exact decide_eq_true_iff

theorem finite_lt {F : Format} {m : Nat} (h : F.Finite m) : m < 2 ^ (F.sig + F.expo) := by
  unfold Format.Finite Format.biased at h
  rw [Nat.div_lt_iff_lt_mul (Nat.two_pow_pos _)] at h
  rw [Nat.pow_add, Nat.mul_comm]
  exact lt_of_lt_of_le h (Nat.mul_le_mul_right _ (Nat.sub_le _ _))

/-! ## C107 -/

/-- `{}` of a finite `double`: its sign and a numeral.  However the numeral is read, the number it denotes is rounded to
the `double` that was formatted, bit by bit. -/
theorem C107_double_reads_back (neg : Bool) (m : Nat) (hfin : binary64.Finite m) (rest : Specs → Res Str)
    (hr : ∀ sp, rest sp ≠ .ub) :
    ∃ text, format "{}".toList [(none, doubleArg (bits64 neg m) rest)] = .ok (signText neg ++ text) ∧
      (∃ q, IsNumeral 'e' text q) ∧ ∀ q, IsNumeral 'e' text q → binary64.Rounds q m := by
  obtain ⟨h1, h2⟩ := bits64_eq neg (finite_lt (F := binary64) hfin)
  obtain ⟨n, E, h3, h4, -⟩ := writeFloatDefault_finite converts64 (bits64 neg m) (by rw [h1]; exact hfin)
  rw [h1] at h4
  rw [h2] at h3
  refine ⟨plainText n E, format_bare (doubleArg_ok _ hr) ?_, ⟨_, isNumeral_plain n E⟩, fun q hq => ?_⟩
  · simp only [doubleArg, showDefault, h3, okOnly, signText]
  · rw [hq.unique (by decide) (by decide) (isNumeral_plain n E)]; exact h4

/-- `{}` of a finite `float`: its sign and a numeral, read back as the same `float`. -/
theorem C107_float_reads_back (neg : Bool) (m : Nat) (hfin : binary32.Finite m) (rest : Specs → Res Str)
    (hr : ∀ sp, rest sp ≠ .ub) :
    ∃ text, format "{}".toList [(none, floatArg (bits32 neg m) rest)] = .ok (signText neg ++ text) ∧
      (∃ q, IsNumeral 'e' text q) ∧ ∀ q, IsNumeral 'e' text q → binary32.Rounds q m := by
  obtain ⟨h1, h2⟩ := bits32_eq neg (finite_lt (F := binary32) hfin)
  obtain ⟨n, E, h3, h4, -⟩ := writeFloatDefault_finite converts32 (bits32 neg m) (by rw [h1]; exact hfin)
  rw [h1] at h4
  rw [h2] at h3
  refine ⟨plainText n E, format_bare (floatArg_ok _ hr) ?_, ⟨_, isNumeral_plain n E⟩, fun q hq => ?_⟩
  · simp only [floatArg, showDefault, h3, okOnly, signText]
  · rw [hq.unique (by decide) (by decide) (isNumeral_plain n E)]; exact h4

/-- The digits are those of the shortest decimal that reads back as the `double`, and of the closest one among the
shortest. -/
theorem C107_double_shortest (neg : Bool) (m : Nat) (hm : 0 < m) (hfin : binary64.Finite m) (rest : Specs → Res Str)
    (hr : ∀ sp, rest sp ≠ .ub) :
    ∃ n E, 0 < n ∧ binary64.Shortest m n E ∧
      format "{}".toList [(none, doubleArg (bits64 neg m) rest)] = .ok (signText neg ++ plainText n E) := by
  obtain ⟨h1, h2⟩ := bits64_eq neg (finite_lt (F := binary64) hfin)
  obtain ⟨n, E, h3, -, -, h5, -⟩ := writeFloatDefault_finite converts64 (bits64 neg m) (by rw [h1]; exact hfin)
  rw [h1] at h5
  rw [h2] at h3
  obtain ⟨h6, h7⟩ := h5 hm.ne'
  refine ⟨n, E, Nat.pos_of_ne_zero h6, h7, format_bare (doubleArg_ok _ hr) ?_⟩
  simp only [doubleArg, showDefault, h3, okOnly, signText]

/-- The digits are those of the shortest decimal that reads back as the `float`, and of the closest one among the
shortest. -/
theorem C107_float_shortest (neg : Bool) (m : Nat) (hm : 0 < m) (hfin : binary32.Finite m) (rest : Specs → Res Str)
    (hr : ∀ sp, rest sp ≠ .ub) :
    ∃ n E, 0 < n ∧ binary32.Shortest m n E ∧
      format "{}".toList [(none, floatArg (bits32 neg m) rest)] = .ok (signText neg ++ plainText n E) := by
  obtain ⟨h1, h2⟩ := bits32_eq neg (finite_lt (F := binary32) hfin)
  obtain ⟨n, E, h3, -, -, h5, -⟩ := writeFloatDefault_finite converts32 (bits32 neg m) (by rw [h1]; exact hfin)
  rw [h1] at h5
  rw [h2] at h3
  obtain ⟨h6, h7⟩ := h5 hm.ne'
  refine ⟨n, E, Nat.pos_of_ne_zero h6, h7, format_bare (floatArg_ok _ hr) ?_⟩
  simp only [floatArg, showDefault, h3, okOnly, signText]

theorem signed_inj {a b : Bool} {s t : Str} {q r : ℚ} (hs : IsNumeral 'e' s q) (ht : IsNumeral 'e' t r)
    (h : signText a ++ s = signText b ++ t) : a = b ∧ s = t := by
  obtain ⟨c, s', rfl, hc⟩ := hs.head
  obtain ⟨d, t', rfl, hd⟩ := ht.head
  have hc' : c ≠ '-' := by rintro rfl; exact absurd hc (by decide)
  have hd' : d ≠ '-' := by rintro rfl; exact absurd hd (by decide)
  cases a <;> cases b <;> simp_all [signText]
  exact absurd h.1.symm hd'

/-- Different finite `double`s have different texts; in particular 0 and -0. -/
theorem C107_double_injective (neg neg' : Bool) (m m' : Nat) (hfin : binary64.Finite m) (hfin' : binary64.Finite m')
    (rest rest' : Specs → Res Str) (hr : ∀ sp, rest sp ≠ .ub) (hr' : ∀ sp, rest' sp ≠ .ub)
    (h : format "{}".toList [(none, doubleArg (bits64 neg m) rest)] =
      format "{}".toList [(none, doubleArg (bits64 neg' m') rest')]) : neg = neg' ∧ m = m' := by
  obtain ⟨s, h1, ⟨q, h2⟩, h3⟩ := C107_double_reads_back neg m hfin rest hr
  obtain ⟨t, h4, ⟨r, h5⟩, h6⟩ := C107_double_reads_back neg' m' hfin' rest' hr'
  rw [h1, h4] at h
  obtain ⟨h7, rfl⟩ := signed_inj h2 h5 (Res.ok.inj h)
  exact ⟨h7, (h3 q h2).unique (h6 q h2)⟩

/-- Different finite `float`s have different texts. -/
theorem C107_float_injective (neg neg' : Bool) (m m' : Nat) (hfin : binary32.Finite m) (hfin' : binary32.Finite m')
    (rest rest' : Specs → Res Str) (hr : ∀ sp, rest sp ≠ .ub) (hr' : ∀ sp, rest' sp ≠ .ub)
    (h : format "{}".toList [(none, floatArg (bits32 neg m) rest)] =
      format "{}".toList [(none, floatArg (bits32 neg' m') rest')]) : neg = neg' ∧ m = m' := by
  obtain ⟨s, h1, ⟨q, h2⟩, h3⟩ := C107_float_reads_back neg m hfin rest hr
  obtain ⟨t, h4, ⟨r, h5⟩, h6⟩ := C107_float_reads_back neg' m' hfin' rest' hr'
  rw [h1, h4] at h
  obtain ⟨h7, rfl⟩ := signed_inj h2 h5 (Res.ok.inj h)
  exact ⟨h7, (h3 q h2).unique (h6 q h2)⟩

/-- The texts do not depend on the compiler having a 128-bit type: the multiplication that is used without one gives the two halves
of the exact product, as the other does. -/
theorem C107_portable_multiply {x y : Nat} (hx : x < 2 ^ 64) (hy : y < 2 ^ 64) :
    (umul128Fallback x y).hi * 2 ^ 64 + (umul128Fallback x y).lo = x * y ∧ (umul128Fallback x y).lo < 2 ^ 64 ∧
    umul128Fallback x y = umul128 x y := by
  have h : x * y < 2 ^ 64 * 2 ^ 64 := Nat.mul_lt_mul'' hx hy
  rw [umul128Fallback_eq hx hy]
  unfold umul128
  refine ⟨?_, ?_, rfl⟩
  · show x * y / 2 ^ 64 % 2 ^ 64 * 2 ^ 64 + x * y % 2 ^ 64 = x * y
    generalize x * y = z at *
    omega
  · exact Nat.mod_lt _ (by decide)

example : umul128Fallback (2 ^ 64 - 1) (2 ^ 64 - 1) = ⟨2 ^ 64 - 2, 1⟩ := by decide

/-- -0.1, whose magnitude has the bits 0x3fb999999999999a -/
example : binary64.Finite 0x3fb999999999999a ∧
    format "{}".toList [(none, doubleArg (bits64 true 0x3fb999999999999a) fun _ => .err "")] = .ok "-0.1".toList := by
  unfold Format.Finite Format.biased
  decide +kernel

/-- the least positive `double` and the greatest one -/
example : format "{} {}".toList [(none, doubleArg (bits64 false 1) fun _ => .err ""),
    (none, doubleArg (bits64 false 0x7fefffffffffffff) fun _ => .err "")] = .ok "5e-324 1.7976931348623157e+308".toList := by
  decide +kernel

/-- the `float` 16777216, a power of two -/
example : binary32.Finite 0x4b800000 ∧
    format "{}".toList [(none, floatArg (bits32 false 0x4b800000) fun _ => .err "")] = .ok "16777216".toList := by
  unfold Format.Finite Format.biased
  decide +kernel

/-! ## C109 -/

/-- Zeros are written without point and with their sign. -/
theorem C109_zero (neg : Bool) (rest : Specs → Res Str) (hr : ∀ sp, rest sp ≠ .ub) :
    format "{}".toList [(none, doubleArg (bits64 neg 0) rest)] = .ok (signText neg ++ ['0']) ∧
    format "{}".toList [(none, floatArg (bits32 neg 0) rest)] = .ok (signText neg ++ ['0']) := by
  constructor
  · refine format_bare (doubleArg_ok _ hr) ?_
    cases neg <;> simp only [doubleArg, showDefault] <;> decide +kernel
  · refine format_bare (floatArg_ok _ hr) ?_
    cases neg <;> simp only [floatArg, showDefault] <;> decide +kernel

/-- Infinities and NaNs of every payload are written as such, with their sign. -/
theorem C109_nonfinite (neg : Bool) (rest : Specs → Res Str) (hr : ∀ sp, rest sp ≠ .ub) :
    (∀ m < 2 ^ 63, ¬ binary64.Finite m → format "{}".toList [(none, doubleArg (bits64 neg m) rest)] =
      .ok (signText neg ++ if binary64.frac m = 0 then "inf".toList else "nan".toList)) ∧
    (∀ m < 2 ^ 31, ¬ binary32.Finite m → format "{}".toList [(none, floatArg (bits32 neg m) rest)] =
      .ok (signText neg ++ if binary32.frac m = 0 then "inf".toList else "nan".toList)) := by
  constructor
  · intro m hm hfin
    obtain ⟨h1, h2⟩ := bits64_eq neg hm
    refine format_bare (doubleArg_ok _ hr) ?_
    have := writeFloatDefault_nonfinite converts64 (bits64 neg m) (by rw [h1]; exact hfin)
    rw [h1, h2] at this
    simp only [doubleArg, showDefault, this, okOnly, signText]
  · intro m hm hfin
    obtain ⟨h1, h2⟩ := bits32_eq neg hm
    refine format_bare (floatArg_ok _ hr) ?_
    have := writeFloatDefault_nonfinite converts32 (bits32 neg m) (by rw [h1]; exact hfin)
    rw [h1, h2] at this
    simp only [floatArg, showDefault, this, okOnly, signText]

example : ¬ binary64.Finite 0x7ff0000000000000 ∧ ¬ binary64.Finite 0x7ff8000000000001 := by
  unfold Format.Finite Format.biased
  decide

/-- positional and scientific notation change at 10 ^ 16 and at 0.0001 -/
example : plainText 1 15 = "1000000000000000".toList ∧ plainText 1 16 = "1e+16".toList ∧
    plainText 12345 (-2) = "123.45".toList ∧ plainText 15 (-5) = "0.00015".toList ∧ plainText 15 (-6) = "1.5e-05".toList := by
  decide +kernel

end Props
end Efp
