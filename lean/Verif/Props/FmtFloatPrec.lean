import Verif.Fmt.FloatPrecDenote
import Verif.Props.FmtFloat

/-!
# Properties of floating-point numbers in fields with options (C108, C109, C110)
-/

namespace Efp
namespace Props

open Efp.Spec Efp.Spec.Fmt Efp.Fmt Dragonbox

/-- `float` or `double` -/
inductive Kind | single | double

/-- its format -/
def Kind.format : Kind → Format
  | .single => binary32
  | .double => binary64

/-- the bits of a number with sign `neg` and magnitude bits `m` -/
def Kind.bits (neg : Bool) (m : Nat) : Kind → Nat
  | .single => bits32 neg m
  | .double => bits64 neg m

/-- it as an argument -/
def Kind.arg (neg : Bool) (m : Nat) : Kind → Arg
  | .single => floatArg (bits32 neg m) (writeFloat flt32 (bits32 neg m))
  | .double => doubleArg (bits64 neg m) (writeFloat flt64 (bits64 neg m))

/-- its type -/
def Kind.ty : Kind → Ty
  | .single => .float
  | .double => .double

/-- a presentation type in capitals -/
def upperType (t : Pres) : Bool := t = .hexfloatUpper || t = .expUpper || t = .fixedUpper || t = .generalUpper

/-- the text of options in a field of its own -/
def field (o : Opts) : Str := '{' :: ':' :: (o.text ++ ['}'])

/-- the options with the arguments `l` give the width `w` and the precision `p`; the field has taken argument 0 -/
def Gives (l : List (Option Str × Arg)) (o : Opts) (w p : Int) : Prop :=
  ∃ n2 n3, o.width.value l 0 1 = some (w, n2) ∧ precValue l o.prec n2 = some (p, n3)

theorem Kind.facts (K : Kind) : ∃ F, IsFlt F K.format ∧ Converts F K.format ∧
    (∀ neg m pr sp, showSpecs pr sp (K.arg neg m) = okOnly (writeFloat F (K.bits neg m) sp)) ∧
    ∀ neg m, m < 2 ^ (K.format.sig + K.format.expo) → magBits F (K.bits neg m) = m ∧ signbit F (K.bits neg m) = neg := by
  cases K
  · exact ⟨flt32, Or.inl ⟨rfl, rfl⟩, converts32, fun _ _ _ _ => rfl, fun neg m h => bits32_eq neg h⟩
  · exact ⟨flt64, Or.inr ⟨rfl, rfl⟩, converts64, fun _ _ _ _ => rfl, fun neg m h => bits64_eq neg h⟩

theorem Kind.arg_ok (K : Kind) (neg : Bool) (m : Nat) : ArgOk (K.arg neg m) := by
  cases K
  · exact floatArg_ok _ fun sp => writeFloat_ne_ub (Or.inl ⟨rfl, rfl⟩) converts32 _ sp
  · exact doubleArg_ok _ fun sp => writeFloat_ne_ub (Or.inr ⟨rfl, rfl⟩) converts64 _ sp

/-- a field with options for a number that comes first -/
theorem format_field (K : Kind) (neg : Bool) (m : Nat) (l : List (Option Str × Arg)) (hl : l.length < 2 ^ 31 - 1)
    (hok : ∀ a ∈ l, ArgOk a.2) (o : Opts) (hv : o.Valid K.ty) (w p : Int) (hg : Gives ((none, K.arg neg m) :: l) o w p) :
    ∃ F, IsFlt F K.format ∧ Converts F K.format ∧ (o.meaning w p).width < 2 ^ 31 ∧
      (m < 2 ^ (K.format.sig + K.format.expo) → magBits F (K.bits neg m) = m ∧ signbit F (K.bits neg m) = neg) ∧
      ∀ text, writeFloat F (K.bits neg m) (o.meaning w p) = .ok text →
        format (field o) ((none, K.arg neg m) :: l) = .ok text := by
  obtain ⟨F, h1, h2, h3, h4⟩ := K.facts
  obtain ⟨n2, n3, hw, hp⟩ := hg
  have hty : (K.arg neg m).ty = K.ty := by cases K <;> rfl
  refine ⟨F, h1, h2, (writer_conditions (a := K.arg neg m) (by rw [hty]; exact hv) hw hp).1, h4 neg m, fun text ht => ?_⟩
  have hok' : ∀ a ∈ (none, K.arg neg m) :: l, ArgOk a.2 := by
    intro a ha
    rcases List.mem_cons.1 ha with rfl | ha
    · exact K.arg_ok neg m
    · exact hok a ha
  rw [format_iff (by rw [List.length_cons]; omega) hok']
  have := Formats.opts (printable := isPrintable) (l := (none, K.arg neg m) :: l) (n := 0) (f := []) (out := []) .auto o
    (i := 0) (n1 := 1) (text := text) trivial rfl rfl (by show (K.arg neg m).ty ≠ _; rw [hty]; cases K <;> decide)
    (by show o.Valid (K.arg neg m).ty; rw [hty]; exact hv) hw hp ?_ (.done n3)
  · rw [List.append_nil] at this
    exact this
  · show showSpecs _ _ (K.arg neg m) = _
    rw [h3, ht]
    rfl

/-! ## C108 -/

/-- Type `f`: the number rounded to the precision, 6 if none is given, to the nearest and to the even one of two, in
fixed notation, in its field.  The partial statement leaves out numbers with more than 767 digits in front of and after
the point; for those it is false, see `C108_fixed_fails`. -/
theorem C108_fixed_partial (K : Kind) (neg : Bool) (m : Nat) (hfin : K.format.Finite m) (l : List (Option Str × Arg))
    (hl : l.length < 2 ^ 31 - 1) (hok : ∀ a ∈ l, ArgOk a.2) (o : Opts) (hv : o.Valid K.ty) (w p : Int)
    (hg : Gives ((none, K.arg neg m) :: l) o w p) (ht : o.type = .fixedLower ∨ o.type = .fixedUpper)
    (hbig : K.format.mag m * 10 ^ precOr6 p < 10 ^ 767) :
    ∃ body, IsFixed (K.format.mag m) (precOr6 p) o.alt body ∧
      format (field o) ((none, K.arg neg m) :: l) = .ok (placed (o.meaning w p) (floatSign neg o.sign) body) := by
  obtain ⟨F, h1, h2, h3, h4, h5⟩ := format_field K neg m l hl hok o hv w p hg
  obtain ⟨h6, h7⟩ := h4 (finite_lt hfin)
  obtain ⟨body, h8, h9⟩ := writeFloat_fixed h1 h2 (K.bits neg m) (by rw [h6]; exact hfin) (o.meaning w p) h3 ht
    (by rw [h6]; exact hbig)
  rw [h6] at h8
  rw [h7] at h9
  exact ⟨body, h8, h5 _ h9⟩

/-- Types `e` and `E`: the number rounded to one digit in front of the point and the precision after it, in scientific
notation.  Only the precision `INT_MAX` is rejected. -/
theorem C108_scientific (K : Kind) (neg : Bool) (m : Nat) (hfin : K.format.Finite m) (l : List (Option Str × Arg))
    (hl : l.length < 2 ^ 31 - 1) (hok : ∀ a ∈ l, ArgOk a.2) (o : Opts) (hv : o.Valid K.ty) (w p : Int)
    (hg : Gives ((none, K.arg neg m) :: l) o w p) (upper : Bool) (ht : o.type = if upper then .expUpper else .expLower)
    (hbig : p ≠ 2147483647) :
    ∃ body, IsScientific (if upper then 'E' else 'e') (K.format.mag m) (precOr6 p) o.alt body ∧
      format (field o) ((none, K.arg neg m) :: l) = .ok (placed (o.meaning w p) (floatSign neg o.sign) body) := by
  obtain ⟨F, h1, h2, h3, h4, h5⟩ := format_field K neg m l hl hok o hv w p hg
  obtain ⟨h6, h7⟩ := h4 (finite_lt hfin)
  obtain ⟨body, h8, h9⟩ := writeFloat_exp h1 h2 (K.bits neg m) (by rw [h6]; exact hfin) (o.meaning w p) h3 upper ht hbig
  rw [h6] at h8
  rw [h7] at h9
  exact ⟨body, h8, h5 _ h9⟩

/-- Types `g` and `G`, and no type with a precision: the number rounded to as many significant digits as the precision
says, in the shorter notation, without trailing zeros unless `#` is given.  With `#` the partial statement leaves out
precisions above 767; for those it is false, see `C108_general_fails`. -/
theorem C108_general_partial (K : Kind) (neg : Bool) (m : Nat) (hfin : K.format.Finite m) (l : List (Option Str × Arg))
    (hl : l.length < 2 ^ 31 - 1) (hok : ∀ a ∈ l, ArgOk a.2) (o : Opts) (hv : o.Valid K.ty) (w p : Int)
    (hg : Gives ((none, K.arg neg m) :: l) o w p) (upper : Bool)
    (ht : o.type = (if upper then .generalUpper else .generalLower) ∨ upper = false ∧ o.type = .none ∧ 0 ≤ p)
    (hbig : o.alt = true → max 1 (precOr6 p) ≤ 767) :
    ∃ body, IsGeneral (if upper then 'E' else 'e') (K.format.mag m) (max 1 (precOr6 p)) o.alt body ∧
      format (field o) ((none, K.arg neg m) :: l) = .ok (placed (o.meaning w p) (floatSign neg o.sign) body) := by
  obtain ⟨F, h1, h2, h3, h4, h5⟩ := format_field K neg m l hl hok o hv w p hg
  obtain ⟨h6, h7⟩ := h4 (finite_lt hfin)
  obtain ⟨body, h8, h9⟩ := writeFloat_general h1 h2 (K.bits neg m) (by rw [h6]; exact hfin) (o.meaning w p) h3 upper ht hbig
  rw [h6] at h8
  rw [h7] at h9
  exact ⟨body, h8, h5 _ h9⟩

/-- Without type and precision the digits are the shortest ones that read back, whatever the other options. -/
theorem C108_short (K : Kind) (neg : Bool) (m : Nat) (hm : 0 < m) (hfin : K.format.Finite m) (l : List (Option Str × Arg))
    (hl : l.length < 2 ^ 31 - 1) (hok : ∀ a ∈ l, ArgOk a.2) (o : Opts) (hv : o.Valid K.ty) (w p : Int)
    (hg : Gives ((none, K.arg neg m) :: l) o w p) (ht : o.type = .none) (hp : p < 0) :
    ∃ n E, 0 < n ∧ K.format.Shortest m n E ∧ format (field o) ((none, K.arg neg m) :: l) =
      .ok (placed (o.meaning w p) (floatSign neg o.sign) (shortText n E o.alt)) := by
  obtain ⟨F, h1, h2, h3, h4, h5⟩ := format_field K neg m l hl hok o hv w p hg
  obtain ⟨h6, h7⟩ := h4 (finite_lt hfin)
  obtain ⟨body, ⟨n, E, rfl, -, h8, -⟩, h9⟩ :=
    writeFloat_short h1 h2 (K.bits neg m) (by rw [h6]; exact hfin) (o.meaning w p) h3 ht hp
  rw [h6] at h8
  rw [h7] at h9
  obtain ⟨h10, h11⟩ := h8 hm.ne'
  exact ⟨n, E, Nat.pos_of_ne_zero h10, h11, h5 _ h9⟩

/-- Zero without type and precision. -/
theorem C108_short_zero (K : Kind) (neg : Bool) (l : List (Option Str × Arg))
    (hl : l.length < 2 ^ 31 - 1) (hok : ∀ a ∈ l, ArgOk a.2) (o : Opts) (hv : o.Valid K.ty) (w p : Int)
    (hg : Gives ((none, K.arg neg 0) :: l) o w p) (ht : o.type = .none) (hp : p < 0) :
    format (field o) ((none, K.arg neg 0) :: l) =
      .ok (placed (o.meaning w p) (floatSign neg o.sign) (if o.alt then "0.".toList else "0".toList)) := by
  have hfin : K.format.Finite 0 := by cases K <;> (unfold Format.Finite Format.biased Kind.format; decide)
  obtain ⟨F, h1, h2, h3, h4, h5⟩ := format_field K neg 0 l hl hok o hv w p hg
  obtain ⟨h6, h7⟩ := h4 (finite_lt hfin)
  obtain ⟨body, ⟨n, E, rfl, h8, -⟩, h9⟩ :=
    writeFloat_short h1 h2 (K.bits neg 0) (by rw [h6]; exact hfin) (o.meaning w p) h3 ht hp
  rw [h6] at h8
  rw [h7] at h9
  obtain ⟨rfl, rfl⟩ := h8 rfl
  rw [h5 _ h9]
  congr 2
  show shortText 0 0 o.alt = _
  cases o.alt <;> decide

/-! ### The text as a number -/

theorem precision_field (K : Kind) (neg : Bool) (m N : Nat) (hN : N ≤ 2147483647) (ty : Pres) (hty : Presents K.ty ty) :
    ({ prec := some (.lit (Nat.toDigits 10 N)), type := ty } : Opts).Valid K.ty ∧
    Gives [(none, K.arg neg m)] { prec := some (.lit (Nat.toDigits 10 N)), type := ty } 0 N ∧
    ∀ sign body, placed (({ prec := some (.lit (Nat.toDigits 10 N)), type := ty } : Opts).meaning 0 N) sign body = sign ++ body := by
  refine ⟨?_, ⟨1, 1, rfl, by simp [precValue, Num.value, decimal_toDigits]⟩, fun sign body => ?_⟩
  · refine ⟨by simp, by simp, by simp, by simp, by simp, ⟨trivial, by simp⟩, ?_, by simp, hty⟩
    intro p hp
    cases hp
    refine ⟨Or.inl ?_, ⟨?_, ?_, ?_, ?_⟩, nofun⟩
    · cases K
      · exact Or.inl rfl
      · exact Or.inr (Or.inl rfl)
    · exact (isDigits_toDigits N).1
    · exact (isDigits_toDigits N).2
    · rw [Nat.length_toDigits_le_iff (by omega) (by omega)]; omega
    · rw [decimal_toDigits]; exact hN
  · simp [placed, Opts.meaning, pad, copies]

theorem precOr6_nat (N : Nat) : precOr6 (N : Int) = N := by
  unfold precOr6
  rw [if_neg (by omega), Int.toNat_natCast]

theorem mag_pos {F : Format} {m : Nat} (hm : 0 < m) : 0 < F.mag m := by
  have := F.mag_lt hm
  rwa [F.mag_zero] at this

theorem floatSign_none (neg : Bool) : floatSign neg .none = signText neg := by cases neg <;> rfl

/-- `{:.Nf}` of a `double` or `float` is its sign and a numeral with `N` digits after the point whose value differs from
the number by at most half a unit of the last digit. -/
theorem C108_fixed_value_partial (K : Kind) (neg : Bool) (m : Nat) (hfin : K.format.Finite m) (N : Nat) (hN : N ≤ 2147483647)
    (hbig : K.format.mag m * 10 ^ N < 10 ^ 767) :
    ∃ text v, format ("{:.".toList ++ Nat.toDigits 10 N ++ "f}".toList) [(none, K.arg neg m)] = .ok (signText neg ++ text) ∧
      IsNumeral 'e' text v ∧ |K.format.mag m - v| ≤ 1 / 2 * 10 ^ (-N : Int) := by
  obtain ⟨h1, h2, h3⟩ := precision_field K neg m N hN .fixedLower (by cases K <;> simp [Presents, Kind.ty, floating])
  obtain ⟨body, h4, h5⟩ := C108_fixed_partial K neg m hfin [] (by simp) (by simp) _ h1 0 N h2 (Or.inl rfl)
    (by rw [precOr6_nat]; exact hbig)
  rw [h3, floatSign_none] at h5
  rw [precOr6_nat] at h4
  obtain ⟨v, h6, h7⟩ := h4.numeral 'e' (Or.inr rfl)
  refine ⟨body, v, ?_, h6, h7⟩
  rw [← h5]
  simp [field, Opts.text, alignText, signOptText, Num.text, precText, typeText]

theorem mag_bound (K : Kind) {m : Nat} (hfin : K.format.Finite m) : K.format.mag m < 10 ^ 309 := by
  cases K
  · refine lt_of_lt_of_le (Format.mag_lt binary32 (m' := 255 * 2 ^ 23) ?_) ?_
    · unfold Format.Finite Format.biased at hfin
      rw [Nat.div_lt_iff_lt_mul (Nat.two_pow_pos _)] at hfin
      exact hfin
    · norm_num [Format.mag, Format.biased, Format.frac, Format.bias, binary32]
      exact le_trans (by norm_num) (pow_le_pow_right₀ (show (1 : ℚ) ≤ 10 by norm_num) (show 39 ≤ 309 by norm_num))
  · refine lt_of_lt_of_le (Format.mag_lt binary64 (m' := 2047 * 2 ^ 52) ?_) ?_
    · unfold Format.Finite Format.biased at hfin
      rw [Nat.div_lt_iff_lt_mul (Nat.two_pow_pos _)] at hfin
      exact hfin
    · norm_num [Format.mag, Format.biased, Format.frac, Format.bias, binary64]
      have h : 4503599627370496 * 2 ^ 972 ≤ 10 ^ 309 := by decide +kernel
      exact_mod_cast h

/-- For precisions up to 458 this holds of every finite number. -/
theorem C108_fixed_value (K : Kind) (neg : Bool) (m : Nat) (hfin : K.format.Finite m) (N : Nat) (hN : N ≤ 458) :
    ∃ text v, format ("{:.".toList ++ Nat.toDigits 10 N ++ "f}".toList) [(none, K.arg neg m)] = .ok (signText neg ++ text) ∧
      IsNumeral 'e' text v ∧ |K.format.mag m - v| ≤ 1 / 2 * 10 ^ (-N : Int) := by
  refine C108_fixed_value_partial K neg m hfin N (by omega) ?_
  calc K.format.mag m * 10 ^ N < 10 ^ 309 * 10 ^ N := mul_lt_mul_of_pos_right (mag_bound K hfin) (by positivity)
    _ ≤ 10 ^ 309 * 10 ^ 458 := mul_le_mul_of_nonneg_left (pow_le_pow_right₀ (by norm_num) hN) (by positivity)
    _ = 10 ^ 767 := by rw [← pow_add]

/-- `{:.Ne}` is the sign and a numeral whose value differs from the number by at most half a unit of its digit `N + 1`. -/
theorem C108_scientific_value (K : Kind) (neg : Bool) (m : Nat) (hm : 0 < m) (hfin : K.format.Finite m) (N : Nat)
    (hN : N < 2147483647) :
    ∃ text v k, format ("{:.".toList ++ Nat.toDigits 10 N ++ "e}".toList) [(none, K.arg neg m)] = .ok (signText neg ++ text) ∧
      IsNumeral 'e' text v ∧ (10 : ℚ) ^ k ≤ K.format.mag m ∧ K.format.mag m < 10 ^ (k + 1) ∧
      |K.format.mag m - v| ≤ 1 / 2 * 10 ^ (k - N : Int) := by
  obtain ⟨h1, h2, h3⟩ := precision_field K neg m N hN.le .expLower (by cases K <;> simp [Presents, Kind.ty, floating])
  obtain ⟨body, h4, h5⟩ := C108_scientific K neg m hfin [] (by simp) (by simp) _ h1 0 N h2 false rfl (by omega)
  rw [h3, floatSign_none] at h5
  rw [precOr6_nat] at h4
  obtain ⟨v, h6, ⟨h7, -⟩ | ⟨k, h7, h8⟩⟩ := h4.numeral (Or.inr rfl)
  · exact absurd h7 (mag_pos hm).ne'
  refine ⟨body, v, k, ?_, h6, h7.1, h7.2, h8⟩
  rw [← h5]
  simp [field, Opts.text, alignText, signOptText, Num.text, precText, typeText]

/-- `{:.Ng}`, `N ≥ 1`, is the sign and a numeral whose value differs from the number by at most half a unit of its digit
`N`. -/
theorem C108_general_value (K : Kind) (neg : Bool) (m : Nat) (hm : 0 < m) (hfin : K.format.Finite m) (N : Nat) (h0 : 0 < N)
    (hN : N ≤ 2147483647) :
    ∃ text v k, format ("{:.".toList ++ Nat.toDigits 10 N ++ "g}".toList) [(none, K.arg neg m)] = .ok (signText neg ++ text) ∧
      IsNumeral 'e' text v ∧ (10 : ℚ) ^ k ≤ K.format.mag m ∧ K.format.mag m < 10 ^ (k + 1) ∧
      |K.format.mag m - v| ≤ 1 / 2 * 10 ^ (k + 1 - N : Int) := by
  obtain ⟨h1, h2, h3⟩ := precision_field K neg m N hN .generalLower (by cases K <;> simp [Presents, Kind.ty, floating])
  obtain ⟨body, h4, h5⟩ := C108_general_partial K neg m hfin [] (by simp) (by simp) _ h1 0 N h2 false (Or.inl rfl) nofun
  rw [h3, floatSign_none] at h5
  rw [precOr6_nat, Nat.max_eq_right h0] at h4
  obtain ⟨v, h6, ⟨h7, -⟩ | ⟨k, h7, h8⟩⟩ := IsGeneral.numeral h4
  · exact absurd h7 (mag_pos hm).ne'
  rw [show k - ((N - 1 : Nat) : Int) = k + 1 - N by omega] at h8
  refine ⟨body, v, k, ?_, h6, h7.1, h7.2, h8⟩
  rw [← h5]
  simp [field, Opts.text, alignText, signOptText, Num.text, precText, typeText]

/-! ### Where it is false -/

theorem fixedText_length (n p : Nat) (alt : Bool) : p ≤ (fixedText n p alt).length := by
  obtain ⟨-, -, h⟩ := digits_padded n p
  simp only [fixedText]
  split
  · rename_i h0
    omega
  · simp only [List.length_append, List.length_cons, List.length_take, List.length_drop] at *
    omega

theorem generalText_length (mark : Char) (ds : Str) (x : Int) (p : Nat) : ds.length ≤ (generalText mark ds x p true).length := by
  unfold generalText
  simp only [if_true]
  split
  · rw [List.length_append]
    refine le_trans ?_ (Nat.le_add_right _ _)
    unfold positional
    split
    · simp
    · split
      · simp only [List.length_append, List.length_cons, List.length_take, List.length_drop]
        omega
      · simp only [List.length_append, List.length_cons]
        omega
  · unfold expText
    rw [if_neg (by simp)]
    simp only [List.length_append, List.length_cons, List.length_take, List.length_drop]
    omega

theorem short_length {body : Str} {k : Nat} (h : k + 4 ≤ body.length)
    (h1 : Res.ok ('0' :: '.' :: '5' :: List.replicate k '0') = .ok (signText false ++ body)) : False := by
  have h3 := congrArg List.length (Res.ok.inj h1)
  simp only [signText, Bool.false_eq_true, if_false, List.nil_append, List.length_cons, List.length_replicate] at h3
  omega

/-- Fixed notation does not always have the digits asked for: `{:.1000f}` of 0.5 has 767 of them. -/
theorem C108_fixed_fails : ¬ ∀ (K : Kind) (neg : Bool) (m : Nat), K.format.Finite m → ∀ N : Nat, N ≤ 2147483647 →
    ∃ body, IsFixed (K.format.mag m) N false body ∧
      format ("{:.".toList ++ Nat.toDigits 10 N ++ "f}".toList) [(none, K.arg neg m)] = .ok (signText neg ++ body) := by
  intro h
  obtain ⟨body, ⟨n, -, hb⟩, h1⟩ := h .double false 0x3fe0000000000000
    (by unfold Format.Finite Format.biased Kind.format; decide) 1000 (by decide)
  have h2 : format ("{:.".toList ++ Nat.toDigits 10 1000 ++ "f}".toList) [(none, Kind.double.arg false 0x3fe0000000000000)] =
      .ok ('0' :: '.' :: '5' :: List.replicate 766 '0') := by decide +kernel
  rw [h2, hb] at h1
  exact short_length (le_trans (by norm_num) (fixedText_length n 1000 false)) h1

/-- With `#`, general notation does not always have the digits asked for. -/
theorem C108_general_fails : ¬ ∀ (K : Kind) (neg : Bool) (m : Nat), K.format.Finite m → ∀ N : Nat, 0 < N → N ≤ 2147483647 →
    ∃ body, IsGeneral 'e' (K.format.mag m) N true body ∧
      format ("{:#.".toList ++ Nat.toDigits 10 N ++ "g}".toList) [(none, K.arg neg m)] = .ok (signText neg ++ body) := by
  intro h
  obtain ⟨body, hg, h1⟩ := h .double false 0x3fe0000000000000
    (by unfold Format.Finite Format.biased Kind.format; decide) 1000 (by decide) (by decide)
  have h2 : format ("{:#.".toList ++ Nat.toDigits 10 1000 ++ "g}".toList) [(none, Kind.double.arg false 0x3fe0000000000000)] =
      .ok ('0' :: '.' :: '5' :: List.replicate 766 '0') := by decide +kernel
  rw [h2] at h1
  rcases hg with ⟨h3, -⟩ | ⟨-, n, x, h3, rfl⟩
  · exact absurd h3 (mag_pos (by decide)).ne'
  · have h4 := h3.length
    have h5 := generalText_length 'e' (Nat.toDigits 10 n) x 1000
    rw [h4] at h5
    exact short_length (le_trans (by norm_num) h5) h1

/-! ## C109 with options -/

/-- Infinities and NaNs in fields with options: `inf` or `nan`, in capitals for a type in capitals, with the sign, never
filled with zeros. -/
theorem C109_nonfinite_options (K : Kind) (neg : Bool) (m : Nat) (hm : m < 2 ^ (K.format.sig + K.format.expo))
    (hfin : ¬ K.format.Finite m) (l : List (Option Str × Arg)) (hl : l.length < 2 ^ 31 - 1) (hok : ∀ a ∈ l, ArgOk a.2)
    (o : Opts) (hv : o.Valid K.ty) (w p : Int) (hg : Gives ((none, K.arg neg m) :: l) o w p) :
    format (field o) ((none, K.arg neg m) :: l) =
      .ok (pad false { o.meaning w p with fill := if (o.meaning w p).fill = ['0'] then [' '] else (o.meaning w p).fill }
        (3 + (floatSign neg o.sign).length)
        (floatSign neg o.sign ++
          (if K.format.frac m = 0 then if upperType o.type then "INF".toList else "inf".toList
            else if upperType o.type then "NAN".toList else "nan".toList))) := by
  obtain ⟨F, h1, h2, h3, h4, h5⟩ := format_field K neg m l hl hok o hv w p hg
  obtain ⟨h6, h7⟩ := h4 hm
  have hp : ∃ fs, parseFloatTypeSpec (o.meaning w p) = .ok fs ∧ fs.upper = upperType o.type := by
    have hty := hv.type
    unfold parseFloatTypeSpec
    have hm : (o.meaning w p).type = o.type := rfl
    rw [hm]
    revert hty
    cases o.type <;> intro hty <;> first
      | exact ⟨_, rfl, rfl⟩
      | (exfalso; revert hty; cases K <;> simp [Presents, Kind.ty, integerLike, signedInt, textual])
  obtain ⟨fs, hp, hu⟩ := hp
  have h8 := writeFloat_nonfinite h2 (K.bits neg m) (by rw [h6]; exact hfin) (o.meaning w p) h3 hp
  rw [h6, h7, hu] at h8
  exact h5 _ h8

/-! ## C110 -/

/-- Types `a` and `A`: hexadecimal notation.  Without a precision the value is that of the number, with one it is rounded to
the nearest one with that many digits after the point. -/
theorem C110_hex (K : Kind) (neg : Bool) (m : Nat) (hfin : K.format.Finite m) (l : List (Option Str × Arg))
    (hl : l.length < 2 ^ 31 - 1) (hok : ∀ a ∈ l, ArgOk a.2) (o : Opts) (hv : o.Valid K.ty) (w p : Int)
    (hg : Gives ((none, K.arg neg m) :: l) o w p) (upper : Bool)
    (ht : o.type = if upper then .hexfloatUpper else .hexfloatLower) :
    ∃ body, IsHex upper (K.format.mag m) p o.alt body ∧
      format (field o) ((none, K.arg neg m) :: l) = .ok (placed (o.meaning w p) (floatSign neg o.sign) body) := by
  obtain ⟨F, h1, h2, h3, h4, h5⟩ := format_field K neg m l hl hok o hv w p hg
  obtain ⟨h6, h7⟩ := h4 (finite_lt hfin)
  obtain ⟨body, h8, h9⟩ := writeFloat_hex h1 h2 (K.bits neg m) (by rw [h6]; exact hfin) (o.meaning w p) h3 upper ht
  rw [h6] at h8
  rw [h7] at h9
  exact ⟨body, h8, h5 _ h9⟩

/-- `{:a}` is the sign and a hexadecimal numeral of exactly the value of the number, however it is read. -/
theorem C110_reads_back (K : Kind) (neg : Bool) (m : Nat) (hfin : K.format.Finite m) :
    ∃ text, format "{:a}".toList [(none, K.arg neg m)] = .ok (signText neg ++ text) ∧
      (∃ v, IsHexNumeral false text v) ∧ ∀ v, IsHexNumeral false text v → v = K.format.mag m := by
  have hv : ({ type := .hexfloatLower } : Opts).Valid K.ty :=
    ⟨by simp, by simp, by simp, by simp, by simp, ⟨trivial, by simp⟩, by simp, by simp,
      by cases K <;> simp [Presents, Kind.ty, floating]⟩
  obtain ⟨body, h1, h2⟩ := C110_hex K neg m hfin [] (by simp) (by simp) _ hv 0 (-1) ⟨1, 1, rfl, rfl⟩ false rfl
  have h3 : ∀ sign body, placed (({ type := .hexfloatLower } : Opts).meaning 0 (-1)) sign body = sign ++ body := by
    intro sign body
    simp [placed, Opts.meaning, pad, copies]
  rw [h3, floatSign_none] at h2
  obtain ⟨v, h4, h5, -⟩ := h1.numeral
  refine ⟨body, ?_, ⟨v, h4⟩, fun v' h6 => ?_⟩
  · rw [← h2]
    rfl
  · rw [h6.unique h4, h5 (by omega)]

/-- `{:.Na}` is the sign and a hexadecimal numeral whose value differs from the number by at most half a unit of its last
digit. -/
theorem C110_precision (K : Kind) (neg : Bool) (m : Nat) (hfin : K.format.Finite m) (N : Nat) (hN : N ≤ 2147483647) :
    ∃ text v e, format ("{:.".toList ++ Nat.toDigits 10 N ++ "a}".toList) [(none, K.arg neg m)] = .ok (signText neg ++ text) ∧
      IsHexNumeral false text v ∧ -1022 ≤ e ∧ K.format.mag m < 2 ^ (e + 1) ∧ ((2 : ℚ) ^ e ≤ K.format.mag m ∨ e = -1022) ∧
      |K.format.mag m - v| ≤ 1 / 2 * 2 ^ (e - 4 * N : Int) := by
  obtain ⟨h1, h2, h3⟩ := precision_field K neg m N hN .hexfloatLower (by cases K <;> simp [Presents, Kind.ty, floating])
  obtain ⟨body, h4, h5⟩ := C110_hex K neg m hfin [] (by simp) (by simp) _ h1 0 N h2 false rfl
  rw [h3, floatSign_none] at h5
  obtain ⟨v, h6, -, h7⟩ := h4.numeral
  obtain ⟨e, h8, h9⟩ := h7 (by omega)
  refine ⟨body, v, e, ?_, h6, h8.1, h8.2.1, h8.2.2, h9⟩
  rw [← h5]
  simp [field, Opts.text, alignText, signOptText, Num.text, precText, typeText]

/-! ## All options -/

/-- No format string with any options leads to undefined behaviour, for any number, NaNs included. -/
theorem C108_defined (l : List (Option Str × Arg)) (hl : l.length < 2 ^ 31)
    (h : ∀ a ∈ l, (∃ K neg m, a.2 = Kind.arg neg m K) ∨ ArgOk a.2) (fmt : Str) :
    (∃ out, format fmt l = .ok out) ∨ ∃ e, format fmt l = .err e := by
  have hok : ∀ a ∈ l, ArgOk a.2 := by
    intro a ha
    rcases h a ha with ⟨K, neg, m, e⟩ | h
    · rw [e]; exact K.arg_ok neg m
    · exact h
  cases h : format fmt l with
  | ok t => exact .inl ⟨t, rfl⟩
  | err m => exact .inr ⟨m, rfl⟩
  | ub => exact absurd h (format_ne_ub hl hok fmt)

/-! ## Cases -/

/-- 123.456 with precisions -/
example : format "{:.2f} {:.2e} {:.2g} {:f} {:.0f} {:#.0f} {:.12}".toList
      (List.replicate 7 (none, Kind.double.arg false 0x405edd2f1a9fbe77)) =
    .ok "123.46 1.23e+02 1.2e+02 123.456000 123 123. 123.456".toList := by decide +kernel

/-- ties go to the even digit: 0.125, 0.375 and 2.5 -/
example : format "{:.2f} {:.2f} {:.0f}".toList [(none, Kind.double.arg false 0x3fc0000000000000),
      (none, Kind.double.arg false 0x3fd8000000000000), (none, Kind.double.arg false 0x4004000000000000)] =
    .ok "0.12 0.38 2".toList := by decide +kernel

/-- fields: 123.456 as a `double`, -0.5 as a `float` -/
example : format "{:*^+#12.1f}|{1:010.3e}|{1:<8g}|".toList
      [(none, Kind.double.arg false 0x405edd2f1a9fbe77), (none, Kind.single.arg true 0x3f000000)] =
    .err "cannot switch from automatic to manual argument indexing" := by decide +kernel
example : format "{:*^+#12.1f}|{:010.3e}|{:<8g}|".toList
      [(none, Kind.double.arg false 0x405edd2f1a9fbe77), (none, Kind.single.arg true 0x3f000000),
        (none, Kind.single.arg true 0x3f000000)] =
    .ok "***+123.5***|-5.000e-01|-0.5    |".toList := by decide +kernel

/-- width and precision from arguments: options that meet the hypotheses of `C108_fixed_partial` -/
example : (field { width := .arg .auto, prec := some (.arg .auto), type := .fixedLower } = "{:{}.{}f}".toList) ∧
    Gives [(none, Kind.double.arg false 0x405edd2f1a9fbe77), (none, .int 9), (none, .int 3)]
      { width := .arg .auto, prec := some (.arg .auto), type := .fixedLower } 9 3 ∧
    format "{:{}.{}f}".toList [(none, Kind.double.arg false 0x405edd2f1a9fbe77), (none, .int 9), (none, .int 3)] =
      .ok "  123.456".toList :=
  ⟨rfl, ⟨2, 3, rfl, rfl⟩, by decide +kernel⟩
example : ({ width := .arg .auto, prec := some (.arg .auto), type := .fixedLower } : Opts).Valid Kind.double.ty :=
  ⟨by simp, by simp, by simp, by simp, by simp, ⟨trivial, by simp⟩,
    fun p hp => by cases hp; exact ⟨Or.inl (Or.inr (Or.inl rfl)), trivial, nofun⟩, by simp, Or.inr (Or.inl rfl)⟩

/-- infinities and NaNs are not filled with zeros -/
example : format "{:06}|{:F}|{:+G}|{:<6}|".toList [(none, Kind.double.arg true 0x7ff0000000000000),
      (none, Kind.double.arg false 0x7ff0000000000000), (none, Kind.double.arg false 0x7ff8000000000000),
      (none, Kind.single.arg false 0x7fc00000)] =
    .ok "  -inf|INF|+NAN|nan   |".toList := by decide +kernel

/-- 123.456, 1, the least `double` and 0 in hexadecimal -/
example : format "{:a} {:.2A} {:#a} {:a} {:a}".toList [(none, Kind.double.arg false 0x405edd2f1a9fbe77),
      (none, Kind.double.arg false 0x405edd2f1a9fbe77), (none, Kind.double.arg false 0x3ff0000000000000),
      (none, Kind.double.arg false 1), (none, Kind.double.arg false 0)] =
    .ok "0x1.edd2f1a9fbe77p+6 0X1.EEP+6 0x1.p+0 0x0.0000000000001p-1022 0x0p-1022".toList := by decide +kernel

end Props
end Efp
