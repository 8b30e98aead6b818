import Verif.Fmt.Corollaries

/-!
# Properties of the bundled formatting library (C92 to C98, C102)
-/

namespace Efp
namespace Props

open Efp.Spec.Fmt Efp.Fmt

/-! ## C92 -/

/-- `format` returns a text exactly when the format string follows the grammar, and then the text the grammar gives it;
for every format string, every number of arguments and every argument value. -/
theorem C92_grammar (l : List (Option Str × Arg)) (hm : l.length < 2 ^ 31) (hok : ∀ p ∈ l, ArgOk p.2) (fmt out : Str) :
    format fmt l = .ok out ↔ Formats isPrintable l 0 fmt out := format_iff hm hok fmt out

/-- Every other format string is reported as an error: no format string, however malformed, is undefined behaviour. -/
theorem C92_defined (l : List (Option Str × Arg)) (hm : l.length < 2 ^ 31) (hok : ∀ p ∈ l, ArgOk p.2) (fmt : Str) :
    (∃ out, format fmt l = .ok out) ∨ ∃ m, format fmt l = .err m := by
  cases h : format fmt l with
  | ok t => exact .inl ⟨t, rfl⟩
  | err m => exact .inr ⟨m, rfl⟩
  | ub => exact absurd h (format_ne_ub hm hok fmt)

/-- The grammar is unambiguous: a format string stands for at most one text. -/
theorem C92_unique (l : List (Option Str × Arg)) (hm : l.length < 2 ^ 31) (hok : ∀ p ∈ l, ArgOk p.2) (fmt o1 o2 : Str)
    (h1 : Formats isPrintable l 0 fmt o1) (h2 : Formats isPrintable l 0 fmt o2) : o1 = o2 := by
  rw [← format_iff hm hok] at h1 h2
  rw [h1] at h2
  exact Res.ok.inj h2

/-- With its braces doubled, any text formats as itself, whatever the arguments. -/
theorem C92_braces (l : List (Option Str × Arg)) (hm : l.length < 2 ^ 31) (hok : ∀ p ∈ l, ArgOk p.2) (s : Str) :
    format (doubled s) l = .ok s := (format_iff hm hok _ _).mpr (formats_doubled _ _ s)

/-- "{0:>4}|{1}" with 42 and "ab" -/
example : format "{0:>4}|{1}".toList [(none, .int 42), (none, .string ['a', 'b'])] = .ok "  42|ab".toList := by
  decide +kernel
/-- an error -/
example : ∃ m, format "{0:>4".toList [(none, .int 42)] = .err m := ⟨"missing '}' in format string", by decide +kernel⟩
/-- the hypotheses on the arguments hold for these two -/
example : ∀ p ∈ ([(none, .int 42), (none, .string ['a', 'b'])] : List (Option Str × Arg)), ArgOk p.2 := by
  intro p hp
  simp only [List.mem_cons, List.not_mem_nil, or_false] at hp
  rcases hp with rfl | rfl
  · exact ⟨by decide, by decide⟩
  · intro c hc
    simp only [List.mem_cons, List.not_mem_nil, or_false] at hc
    rcases hc with rfl | rfl <;> decide
/-- a text with both braces -/
example : doubled "a{b}".toList = "a{{b}}".toList := by decide +kernel

/-! ## C93 -/

/-- `k` empty fields take the first `k` arguments in order, one each. -/
theorem C93_automatic (l : List (Option Str × Arg)) (hm : l.length < 2 ^ 31) (hok : ∀ p ∈ l, ArgOk p.2) (k : Nat)
    (hk : k ≤ l.length) (ts : List Str) (ht : (l.take k).mapM (fun a => showDefault a.2) = some ts) :
    format (fields k) l = .ok ts.flatten :=
  (format_iff hm hok _ _).mpr (formats_fields (P := isPrintable) k 0 ts (by simpa using ht) (by omega))

/-- With fewer arguments than empty fields the call reports an error. -/
theorem C93_too_few (l : List (Option Str × Arg)) (hm : l.length < 2 ^ 31) (hok : ∀ p ∈ l, ArgOk p.2) (k : Nat)
    (hk : l.length < k) : ∃ m, format (fields k) l = .err m :=
  fails_format hm hok (fields_fail hm k _ 0 [] (Nat.le_refl _) (by omega) (by omega))

/-- A field with the number `i` is replaced with argument `i`, and is an error if there is no such argument. -/
theorem C93_index (l : List (Option Str × Arg)) (hm : l.length < 2 ^ 31) (hok : ∀ p ∈ l, ArgOk p.2) (i : Nat) :
    (∀ a t, l[i]? = some a → showDefault a.2 = some t → format ('{' :: (Nat.toDigits 10 i ++ ['}'])) l = .ok t) ∧
    (l.length ≤ i → ∃ m, format ('{' :: (Nat.toDigits 10 i ++ ['}'])) l = .err m) := by
  constructor
  · intro a t ha ht
    have := Formats.plain (printable := isPrintable) (n := 0) (.index i) (f := []) (out := []) trivial rfl ha ht (.done _)
    rw [format_iff hm hok]
    rw [List.append_nil] at this
    exact this
  · intro hi
    refine fails_format hm hok (fails_field fun s1 h1 x hx => ?_)
    cases h1
    rw [show Nat.toDigits 10 i ++ ['}'] = (Ref.index i).text ++ '}' :: [] from rfl, field_eval _ (.index i) trivial] at hx
    obtain ⟨⟨j, s2⟩, h2, h3⟩ := Res.bind_eq_ok.mp hx
    obtain ⟨s3, h4, _⟩ := Res.bind_eq_ok.mp h3
    obtain ⟨j', h6, _, h8⟩ := onArgId_sound hm (.index i) _ _ h2
    simp only [Ref.take, Int.lt_irrefl, if_false, Option.some.injEq, Prod.mk.injEq] at h6
    obtain ⟨a, h10, _⟩ := Res.bind_eq_ok.mp h4
    rw [getArg_eq l hm, h8, ← h6.1, List.getElem?_eq_none hi] at h10
    cases h10

/-- A field with a name is replaced with the first argument of that name, and is an error if there is none. -/
theorem C93_name (l : List (Option Str × Arg)) (hm : l.length < 2 ^ 31) (hok : ∀ p ∈ l, ArgOk p.2) (name : Str)
    (hn : (Ref.name name).Valid) :
    (∀ i a t, nameIndex l name = some i → l[i]? = some a → showDefault a.2 = some t →
      format ('{' :: (name ++ ['}'])) l = .ok t) ∧
    ((∀ p ∈ l, p.1 ≠ some name) → ∃ m, format ('{' :: (name ++ ['}'])) l = .err m) := by
  constructor
  · intro i a t hi ha ht
    have := Formats.plain (printable := isPrintable) (l := l) (n := 0) (.name name) (i := i) (n' := 0) (f := []) (out := []) hn
      (by rw [Ref.take, hi]; rfl) ha ht (.done _)
    rw [format_iff hm hok]
    rw [List.append_nil] at this
    exact this
  · intro hno
    refine fails_format hm hok (fails_field fun s1 h1 x hx => ?_)
    cases h1
    rw [show name ++ ['}'] = (Ref.name name).text ++ '}' :: [] from rfl, field_eval _ _ hn] at hx
    obtain ⟨⟨j, s2⟩, h2, h3⟩ := Res.bind_eq_ok.mp hx
    obtain ⟨j', h6, _, h8⟩ := onArgId_sound hm (.name name) _ _ h2
    rw [Ref.take] at h6
    cases hi : nameIndex l name with
    | none => rw [hi] at h6; cases h6
    | some i =>
      unfold nameIndex at hi
      obtain ⟨hlt, h9, _⟩ := List.findIdx?_eq_some_iff_getElem.mp hi
      exact absurd (by simpa using h9) (hno _ (List.getElem_mem hlt))

/-- Automatic and manual numbering do not mix: an empty field and a numbered one in the same format string are an
error, in either order, with any text around and any options in the later field. -/
theorem C93_no_mixing (l : List (Option Str × Arg)) (hm : l.length < 2 ^ 31) (hok : ∀ p ∈ l, ArgOk p.2) (t1 t2 : Str)
    (h1 : NoBraces t1) (h2 : NoBraces t2) (i : Nat) (x : Char) (hx : x = '}' ∨ x = ':') (rest : Str) :
    (∃ m, format (t1 ++ '{' :: '}' :: (t2 ++ '{' :: (Nat.toDigits 10 i ++ x :: rest))) l = .err m) ∧
    (∃ m, format (t1 ++ '{' :: (Nat.toDigits 10 i ++ '}' :: (t2 ++ '{' :: x :: rest))) l = .err m) := by
  have cut : ∀ fmt, (∃ m, format fmt l = .err m) → ∃ m, format (t1 ++ fmt) l = .err m := by
    rintro fmt ⟨m, h⟩
    exact ⟨m, by rw [format_prefix hm hok t1 fmt h1, h]; rfl⟩
  have second : ∀ (r : Ref) (x : Char) (s : HSt) (fuel : Nat) (rest : Str), r.Valid → (x = '}' ∨ x = ':') →
      (∀ s', s'.next = s.next → Fails ((formatHandler (makeArgs l)).onArgId (aidOf r) s')) →
      Fails (shortLoop (formatHandler (makeArgs l)) (t2.length + (fuel + 1)) [] (t2 ++ '{' :: (r.text ++ x :: rest)) s) := by
    intro r x s fuel rest hr hx hs
    rw [shortLoop_lit _ _ _ _ _ _ h2]
    refine fails_field fun s1 h1 y hy => ?_
    cases h1
    exfalso
    have hf := hs ⟨s.next, s.out ++ ([] ++ t2)⟩ rfl
    rcases hx with rfl | rfl
    · rw [field_eval _ _ hr] at hy
      obtain ⟨a, h3, _⟩ := Res.bind_eq_ok.mp hy
      exact hf a h3
    · rw [field_eval_colon _ _ hr] at hy
      obtain ⟨a, h3, _⟩ := Res.bind_eq_ok.mp hy
      exact hf a h3
  constructor
  · refine cut _ (fails_format hm hok (fails_field fun s1 h3 y hy => ?_))
    cases h3
    have e := field_eval (formatHandler (makeArgs l)) .auto trivial (t2 ++ '{' :: (Nat.toDigits 10 i ++ x :: rest))
      ⟨0, [] ++ []⟩
    rw [show Ref.text .auto ++ '}' :: (t2 ++ '{' :: (Nat.toDigits 10 i ++ x :: rest))
      = '}' :: (t2 ++ '{' :: (Nat.toDigits 10 i ++ x :: rest)) from rfl] at e
    rw [e] at hy
    obtain ⟨a, h4, h5⟩ := Res.bind_eq_ok.mp hy
    obtain ⟨s, h6, h7⟩ := Res.bind_eq_ok.mp h5
    cases h4
    obtain ⟨a, h8, h9⟩ := Res.bind_eq_ok.mp h6
    obtain ⟨t, h10, h11⟩ := Res.bind_eq_ok.mp h9
    cases h11
    cases h7
    rw [show ('}' :: (t2 ++ '{' :: (Nat.toDigits 10 i ++ x :: rest))).length
      = t2.length + (((Nat.toDigits 10 i ++ x :: rest).length + 1) + 1) by simp; omega]
    exact second (.index i) x _ _ rest trivial hx fun s' hs' a h => by
      obtain ⟨j, h12, _⟩ := onArgId_sound hm (.index i) s'.next s'.out (i' := a.1) (s := a.2) h
      rw [Ref.take, show s'.next = 1 from hs', if_pos (by decide)] at h12
      cases h12
  · refine cut _ (fails_format hm hok (fails_field fun s1 h3 y hy => ?_))
    cases h3
    rw [show Nat.toDigits 10 i = (Ref.index i).text from rfl, field_eval _ (.index i) trivial] at hy
    obtain ⟨a, h4, h5⟩ := Res.bind_eq_ok.mp hy
    obtain ⟨s, h6, h7⟩ := Res.bind_eq_ok.mp h5
    obtain ⟨j, h12, _⟩ := onArgId_sound hm (.index i) _ _ (i' := a.1) (s := a.2) h4
    simp only [Ref.take, Int.lt_irrefl, if_false, Option.some.injEq, Prod.mk.injEq] at h12
    obtain ⟨b, h8, h9⟩ := Res.bind_eq_ok.mp h6
    obtain ⟨t, h10, h11⟩ := Res.bind_eq_ok.mp h9
    cases h11
    cases h7
    rw [show (Nat.toDigits 10 i ++ '}' :: (t2 ++ '{' :: x :: rest)).length
      = t2.length + (((Nat.toDigits 10 i).length + (x :: rest).length + 1) + 1) by simp; omega]
    exact second .auto x _ _ rest trivial hx fun s' hs' c h => by
      obtain ⟨j, h13, _⟩ := onArgId_sound hm .auto s'.next s'.out (i' := c.1) (s := c.2) h
      rw [Ref.take, hs', if_pos (by rw [← h12.2]; decide)] at h13
      cases h13

/-- two fields -/
example : format (fields 2) [(none, .int 7), (none, .bool true), (none, .int 0)] = .ok "7true".toList := by decide +kernel
/-- two fields, one argument -/
example : format (fields 2) [(none, .int 7)] = .err "argument not found" := by decide +kernel
/-- the second of two arguments -/
example : format "{1}".toList [(none, .int 7), (none, .bool true)] = .ok "true".toList := by decide +kernel
/-- the first of two arguments of the same name -/
example : format "{n}".toList [(none, .int 7), (some ['n'], .bool true), (some ['n'], .int 3)] = .ok "true".toList := by
  decide +kernel
/-- mixed numbering -/
example : format "a{}b{0}".toList [(none, .int 7)] = .err "cannot switch from automatic to manual argument indexing" := by
  decide +kernel

/-! ## C94 -/

/-- Literal text in front of a format string appears in front of the result and changes nothing else - neither the
text, nor whether there is an error, nor which error - whatever its length. -/
theorem C94_prefix (l : List (Option Str × Arg)) (hm : l.length < 2 ^ 31) (hok : ∀ p ∈ l, ArgOk p.2) (t fmt : Str)
    (ht : NoBraces t) :
    (∀ out, format fmt l = .ok out → format (t ++ fmt) l = .ok (t ++ out)) ∧
    (∀ m, format fmt l = .err m → format (t ++ fmt) l = .err m) := by
  rw [format_prefix hm hok t fmt ht]
  exact ⟨fun out h => by rw [h]; rfl, fun m h => by rw [h]; rfl⟩

/-- Literal text after a format string appears after the result, if no argument has a user-defined formatter. -/
theorem C94_suffix (l : List (Option Str × Arg)) (hm : l.length < 2 ^ 31) (hok : ∀ p ∈ l, ArgOk p.2)
    (hc : ∀ p ∈ l, p.2.ty ≠ .custom) (t fmt out : Str) (ht : NoBraces t) (h : format fmt l = .ok out) :
    format (fmt ++ t) l = .ok (out ++ t) := by
  rw [format_iff hm hok] at h ⊢
  exact formats_suffix hc ht h

/-- The library scans format strings of up to 31 bytes in one way and longer ones in another; both ways do the same for
every format string. -/
theorem C94_both_scans (l : List (Option Str × Arg)) (hm : l.length < 2 ^ 31) (hok : ∀ p ∈ l, ArgOk p.2) (fmt : Str) :
    longLoop (formatHandler (makeArgs l)) fmt.length fmt ⟨0, []⟩ =
      shortLoop (formatHandler (makeArgs l)) fmt.length [] fmt ⟨0, []⟩ :=
  both_scans hm hok fmt

/-- 40 bytes of text, past the limit -/
example : format (List.replicate 40 'x' ++ "{}".toList) [(none, .int 7)] = .ok (List.replicate 40 'x' ++ ['7']) := by
  decide +kernel
/-- and the same error -/
example : format (List.replicate 40 'x' ++ "{".toList) [(none, .int 7)] = .err "invalid format string" ∧
    format "{".toList [(none, .int 7)] = .err "invalid format string" := by decide +kernel

/-! ## C95 -/

/-- `{}` of an integer of any type reads back as the integer, has no leading zeros, and has a minus sign exactly if it
is negative. -/
theorem C95_default (a : Arg) (ha : ArgOk a) (v : Int) (hv : intValue a = some v) :
    ∃ t, format ['{', '}'] [(none, a)] = .ok t ∧ readInt 10 t = v ∧ (t.head? = some '-' ↔ v < 0) ∧
      (∀ d, t = '0' :: d ∨ t = '-' :: '0' :: d → t = ['0']) := by
  refine ⟨showIntDefault v, ?_, ?_, ?_⟩
  · have := C93_automatic [(none, a)] (len1 _) (ok1 ha) 1 (by simp) [showIntDefault v] (by
      cases a <;> simp only [intValue, Option.some.injEq, reduceCtorEq] at hv <;> subst hv <;> rfl)
    rw [List.flatten_cons, List.flatten_nil, List.append_nil] at this
    exact this
  · exact readInt_of (by omega) (by omega) v false
  · obtain ⟨d, r, h1, h2⟩ := toDigits_cons 10 v.natAbs (by omega) (by omega)
    unfold showIntDefault
    by_cases hneg : v < 0
    · obtain ⟨c, r', h3, h4⟩ := toDigits_head v.natAbs (by omega)
      rw [if_pos hneg, h3]
      refine ⟨by simp [hneg], fun d h => ?_⟩
      rcases h with h | h
      · simp at h
      · simp at h; exact absurd h.1 h4
    · rw [if_neg hneg, List.nil_append]
      refine ⟨?_, fun e h => ?_⟩
      · rw [h2]; simp [hneg, (digit_not_minus d h1).1]
      · by_cases h0 : v = 0
        · subst h0; rfl
        · obtain ⟨c, r', h3, h4⟩ := toDigits_head v.natAbs (by omega)
          rw [h3] at h ⊢
          rcases h with h | h
          · simp at h; exact absurd h.1 h4
          · simp at h
            rw [h3] at h2
            exact absurd ((List.cons.inj h2).1.symm.trans h.1) (digit_not_minus d h1).1

/-- With presentation `d`, `x`, `X`, `o`, `b` or `B` the text reads back in base 10, 16, 16, 8, 2 or 2. -/
theorem C95_bases (a : Arg) (ha : ArgOk a) (v : Int) (hv : intValue a = some v) (c : Char) (base : Nat)
    (hc : (c, base) ∈ [('d', 10), ('x', 16), ('X', 16), ('o', 8), ('b', 2), ('B', 2)]) :
    ∃ t, format ['{', ':', c, '}'] [(none, a)] = .ok t ∧ readInt base t = v := by
  have hint : integerLike a.ty := by
    cases a <;> simp only [intValue, Option.some.injEq, reduceCtorEq] at hv <;> simp [integerLike, signedInt, Arg.ty]
  have hne : a.ty ≠ .custom := by
    cases a <;> simp only [intValue, reduceCtorEq] at hv <;> simp [Arg.ty]
  have hshow : ∀ sp, showSpecs isPrintable sp a = showInt v sp := by
    intro sp
    cases a <;> simp only [intValue, Option.some.injEq, reduceCtorEq] at hv <;> subst hv <;> rfl
  have hvalid : ∀ p, Presents a.ty p → ({ type := p } : Opts).Valid a.ty := by
    intro p hp
    constructor <;> simp [hp, Num.Valid]
  have go : ∀ (p : Pres) (pre : Str) (u : Bool), typeText p = [c] → Presents a.ty p → p ≠ .chr →
      baseOf v.natAbs p = some (base, pre, u) → 2 ≤ base → base ≤ 16 →
      ∃ t, format ['{', ':', c, '}'] [(none, a)] = .ok t ∧ readInt base t = v := by
    intro p pre u hp1 hp2 hp3 hp4 hb hb'
    refine ⟨_, ?_, readInt_of hb hb' v u⟩
    have := format_opts (l := [(none, a)]) (ok1 ha) (len1 _) (a := (none, a)) rfl hne { type := p } (hvalid p hp2)
      (w := 0) (p := -1) (n2 := 1) (n3 := 1) (text := (if v < 0 then ['-'] else []) ++
        (if u then (Nat.toDigits base v.natAbs).map Char.toUpper else Nat.toDigits base v.natAbs)) rfl rfl ?_
    · rw [← this]
      simp [Opts.text, alignText, signOptText, Num.text, precText, hp1]
    · rw [hshow, showInt]
      simp only [Opts.meaning]
      rw [if_neg hp3, hp4]
      simp [pad, copies, signText]
  simp only [List.mem_cons, List.not_mem_nil, or_false, Prod.mk.injEq] at hc
  rcases hc with ⟨rfl, rfl⟩ | ⟨rfl, rfl⟩ | ⟨rfl, rfl⟩ | ⟨rfl, rfl⟩ | ⟨rfl, rfl⟩ | ⟨rfl, rfl⟩
  · exact go .dec [] false rfl hint (by decide) rfl (by omega) (by omega)
  · exact go .hexLower _ false rfl hint (by decide) rfl (by omega) (by omega)
  · exact go .hexUpper _ true rfl hint (by decide) rfl (by omega) (by omega)
  · exact go .oct _ false rfl hint (by decide) rfl (by omega) (by omega)
  · exact go .binLower _ false rfl hint (by decide) rfl (by omega) (by omega)
  · exact go .binUpper _ false rfl hint (by decide) rfl (by omega) (by omega)

/-- Different integers have different texts, also across integer types. -/
theorem C95_injective (a b : Arg) (ha : ArgOk a) (hb : ArgOk b) (v w : Int) (hv : intValue a = some v)
    (hw : intValue b = some w) (h : format ['{', '}'] [(none, a)] = format ['{', '}'] [(none, b)]) : v = w := by
  obtain ⟨t, h1, h2, _⟩ := C95_default a ha v hv
  obtain ⟨u, h3, h4, _⟩ := C95_default b hb w hw
  rw [h1, h3] at h
  rw [← h2, ← h4, Res.ok.inj h]

/-- the lowest `long long` -/
example : format ['{', '}'] [(none, .longLong (-9223372036854775808))] = .ok "-9223372036854775808".toList ∧
    readInt 10 "-9223372036854775808".toList = -9223372036854775808 := by decide +kernel
/-- the highest 128-bit integer in base 16 -/
example : format "{:X}".toList [(none, .uint128 (2 ^ 128 - 1))] = .ok (List.replicate 32 'F') ∧
    readInt 16 (List.replicate 32 'F') = 2 ^ 128 - 1 := by decide +kernel
/-- the hypotheses hold for it -/
example : ArgOk (.uint128 (2 ^ 128 - 1)) ∧ intValue (.uint128 (2 ^ 128 - 1)) = some (2 ^ 128 - 1) := by
  refine ⟨?_, rfl⟩
  show 2 ^ 128 - 1 < 2 ^ 128
  omega

/-! ## C96 -/

/-- A string in a field of width `w`, with any fill character (one code point, of any number of bytes) and alignment:
the whole string with copies of the fill around it, as many as columns are missing, on the side the alignment says
(centred: the odd one on the right). -/
theorem C96_string (s : Str) (hs : Bytes s) (b : Char) (r : Str) (hb : b ≠ '{' ∧ b ≠ '}') (hr : r.length = fillTail b)
    (al : Align) (hal : al = .left ∨ al = .right ∨ al = .center) (w : Nat) (hw : 0 < w) (hw' : w ≤ 2147483647) :
    ∃ left right, Sides al left right ∧ left + right = w - columns (pieces s) ∧
      format ('{' :: ':' :: (b :: r ++ alignText al ++ Nat.toDigits 10 w ++ ['}'])) [(none, .string s)] =
        .ok (copies left (b :: r) ++ s ++ copies right (b :: r)) := by
  obtain ⟨le, ri, h1, h2, h3⟩ := pad_sides al hal false w (columns (pieces s)) (b :: r) s
  refine ⟨le, ri, h1, h2, padded (a := .string s) hs (str_ty _) b r hb hr al hal w hw hw' ?_⟩
  rw [← h3]
  simp only [showSpecs, showStr, reduceCtorEq, if_false]
  rw [if_neg (by decide), show join (pieces s) = s from pieces_flatten s hs]

/-- An integer likewise, by the length of its decimal text. -/
theorem C96_integer (a : Arg) (ha : ArgOk a) (v : Int) (hv : intValue a = some v) (b : Char) (r : Str)
    (hb : b ≠ '{' ∧ b ≠ '}') (hr : r.length = fillTail b) (al : Align)
    (hal : al = .left ∨ al = .right ∨ al = .center) (w : Nat) (hw : 0 < w) (hw' : w ≤ 2147483647) :
    ∃ t left right, format ['{', '}'] [(none, a)] = .ok t ∧ Sides al left right ∧ left + right = w - t.length ∧
      format ('{' :: ':' :: (b :: r ++ alignText al ++ Nat.toDigits 10 w ++ ['}'])) [(none, a)] =
        .ok (copies left (b :: r) ++ t ++ copies right (b :: r)) := by
  obtain ⟨le, ri, h1, h2, h3⟩ := pad_sides al hal true w (showIntDefault v).length (b :: r) (showIntDefault v)
  have hne : a.ty ≠ .custom := by
    cases a <;> simp only [intValue, reduceCtorEq] at hv <;> simp [Arg.ty]
  have hdef : format ['{', '}'] [(none, a)] = .ok (showIntDefault v) := by
    have := C93_automatic [(none, a)] (len1 _) (ok1 ha) 1 (by simp) [showIntDefault v] (by
      cases a <;> simp only [intValue, Option.some.injEq, reduceCtorEq] at hv <;> subst hv <;> rfl)
    rw [List.flatten_cons, List.flatten_nil, List.append_nil] at this
    exact this
  refine ⟨_, le, ri, hdef, h1, h2, padded ha hne b r hb hr al hal w hw hw' ?_⟩
  rw [← h3]
  have hshow : ∀ sp, showSpecs isPrintable sp a = showInt v sp := by
    intro sp
    cases a <;> simp only [intValue, Option.some.injEq, reduceCtorEq] at hv <;> subst hv <;> rfl
  have hal' : al ≠ .numeric := by rcases hal with rfl | rfl | rfl <;> decide
  rw [hshow]
  simp [showInt, baseOf, hal', signText, showIntDefault]

/-- With the zero flag an integer is filled up with zeros between sign and digits: the text has the width, or is longer
if the integer needs more, and still reads back as the integer. -/
theorem C96_zero (a : Arg) (ha : ArgOk a) (v : Int) (hv : intValue a = some v) (w : Nat) (hw : 0 < w)
    (hw' : w ≤ 2147483647) :
    ∃ t u, format ['{', '}'] [(none, a)] = .ok t ∧
      format ('{' :: ':' :: '0' :: (Nat.toDigits 10 w ++ ['}'])) [(none, a)] = .ok u ∧ u.length = max w t.length ∧
      readInt 10 u = v := by
  have hne : a.ty ≠ .custom := by
    cases a <;> simp only [intValue, reduceCtorEq] at hv <;> simp [Arg.ty]
  have hint : integerLike a.ty := by
    cases a <;> simp only [intValue, Option.some.injEq, reduceCtorEq] at hv <;> simp [integerLike, signedInt, Arg.ty]
  have hdef : format ['{', '}'] [(none, a)] = .ok (showIntDefault v) := by
    have := C93_automatic [(none, a)] (len1 _) (ok1 ha) 1 (by simp) [showIntDefault v] (by
      cases a <;> simp only [intValue, Option.some.injEq, reduceCtorEq] at hv <;> subst hv <;> rfl)
    rw [List.flatten_cons, List.flatten_nil, List.append_nil] at this
    exact this
  have hshow : ∀ sp, showSpecs isPrintable sp a = showInt v sp := by
    intro sp
    cases a <;> simp only [intValue, Option.some.injEq, reduceCtorEq] at hv <;> subst hv <;> rfl
  have hvalid : ({ zero := true, width := .lit (Nat.toDigits 10 w) } : Opts).Valid a.ty := by
    obtain ⟨c, q, h1, h2⟩ := toDigits_head w hw
    refine ⟨by simp, by simp, by simp, by simp, fun _ => .inl hint, ⟨⟨?_, ?_, ?_, ?_⟩, ?_⟩, by simp, by simp, trivial⟩
    · rw [h1]; simp
    · intro d hd; rw [← isDigit_eq]; exact toDigits_digits w d hd
    · exact toDigits_length_le w hw'
    · rw [decimal_toDigits]; exact hw'
    · intro d hd
      simp only [Num.lit.injEq] at hd
      rw [← hd, h1]; simpa using h2
  let z : Nat := w - ((if v < 0 then 1 else 0) + (Nat.toDigits 10 v.natAbs).length)
  refine ⟨_, (if v < 0 then ['-'] else []) ++ (List.replicate z '0' ++ Nat.toDigits 10 v.natAbs), hdef, ?_, ?_, ?_⟩
  · have := format_opts (l := [(none, a)]) (ok1 ha) (len1 _) (a := (none, a)) rfl hne _ hvalid
      (w := w) (p := -1) (n2 := 1) (n3 := 1)
      (text := (if v < 0 then ['-'] else []) ++ (List.replicate z '0' ++ Nat.toDigits 10 v.natAbs))
      (by simp [Num.value, decimal_toDigits]) rfl (by
        rw [hshow]
        by_cases hneg : v < 0 <;> simp [Opts.meaning, showInt, baseOf, signText, hneg, z])
    rw [← this]
    simp [Opts.text, alignText, signOptText, Num.text, precText, typeText]
  · have : 0 < (Nat.toDigits 10 v.natAbs).length := by
      obtain ⟨d, r, _, h⟩ := toDigits_cons 10 v.natAbs (by omega) (by omega)
      rw [h]; simp
    by_cases hneg : v < 0
    · simp [z, showIntDefault, hneg]; omega
    · simp [z, showIntDefault, hneg]; omega
  · exact readInt_zeros v z

/-- "ab" centred in seven columns of a two-byte fill -/
example : format (("{:".toList ++ ['Â', '·']) ++ "^7}".toList) [(none, .string "ab".toList)] =
    .ok (['Â', '·', 'Â', '·'] ++ "ab".toList ++ ['Â', '·', 'Â', '·', 'Â', '·']) := by decide +kernel
/-- -42 with zeros to width 6 -/
example : format "{:06}".toList [(none, .int (-42))] = .ok "-00042".toList := by decide +kernel
/-- the fill of the first example satisfies the hypotheses -/
example : ['·'].length = fillTail 'Â' ∧ 'Â' ≠ '{' ∧ 'Â' ≠ '}' := by decide

/-! ## C97 -/

/-- A precision cuts a UTF-8 text to that many characters, whatever the lengths of their encodings. -/
theorem C97_precision (cs : List Char) (n : Nat) (hn : n ≤ 2147483647) :
    format ('{' :: ':' :: '.' :: (Nat.toDigits 10 n ++ ['}'])) [(none, .string (encode cs))] =
      .ok (encode (cs.take n)) := by
  have hv : ({ prec := some (.lit (Nat.toDigits 10 n)) } : Opts).Valid .string := by
    obtain ⟨d, r, _, h⟩ := toDigits_cons 10 n (by omega) (by omega)
    refine ⟨by simp, by simp, by simp, by simp, by simp, ⟨trivial, by simp⟩, ?_, by simp, trivial⟩
    intro p hp
    simp only [Option.some.injEq] at hp
    subst hp
    refine ⟨.inr (.inl rfl), ⟨?_, ?_, ?_, ?_⟩, by simp⟩
    · rw [h]; simp
    · intro d hd; rw [← isDigit_eq]; exact toDigits_digits n d hd
    · exact toDigits_length_le n hn
    · rw [decimal_toDigits]; exact hn
  have := format_opts (l := [(none, .string (encode cs))]) (ok1 (a := .string _) (encode_bytes cs)) (len1 _)
    (a := (none, .string (encode cs))) rfl (str_ty _) _ hv (w := 0) (p := n) (n2 := 1) (n3 := 1)
    (text := encode (cs.take n)) rfl (by simp [precValue, Num.value, decimal_toDigits]) (by
      simp [showSpecs, showStr, Opts.meaning, pad, copies, pieces_encode, ← List.map_take, join_encode])
  rw [← this]
  simp [Opts.text, alignText, signOptText, Num.text, precText, typeText]

/-- The columns of a UTF-8 text are those of its characters: two for a wide one, one for any other. -/
theorem C97_columns (cs : List Char) :
    columns (pieces (encode cs)) =
      (cs.map fun c => if wideRanges.any fun r => r.1 ≤ c.toNat && c.toNat ≤ r.2 then 2 else 1).sum := by
  rw [pieces_encode]
  simp [columns, pieceColumns, List.map_map, Function.comp_def]

/-- On bytes that are no UTF-8 the precision still cuts off a tail of the text and nothing else. -/
theorem C97_any_bytes (s : Str) (hs : Bytes s) (n : Nat) (hn : n ≤ 2147483647) :
    ∃ t, format ('{' :: ':' :: '.' :: (Nat.toDigits 10 n ++ ['}'])) [(none, .string s)] = .ok t ∧ t <+: s := by
  have hv : ({ prec := some (.lit (Nat.toDigits 10 n)) } : Opts).Valid .string := by
    obtain ⟨d, r, _, h⟩ := toDigits_cons 10 n (by omega) (by omega)
    refine ⟨by simp, by simp, by simp, by simp, by simp, ⟨trivial, by simp⟩, ?_, by simp, trivial⟩
    intro p hp
    simp only [Option.some.injEq] at hp
    subst hp
    refine ⟨.inr (.inl rfl), ⟨?_, ?_, ?_, ?_⟩, by simp⟩
    · rw [h]; simp
    · intro d hd; rw [← isDigit_eq]; exact toDigits_digits n d hd
    · exact toDigits_length_le n hn
    · rw [decimal_toDigits]; exact hn
  refine ⟨join ((pieces s).take n), ?_, ?_⟩
  · have := format_opts (l := [(none, .string s)]) (ok1 (a := .string _) hs) (len1 _)
      (a := (none, .string s)) rfl (str_ty _) _ hv (w := 0) (p := n) (n2 := 1) (n3 := 1)
      (text := join ((pieces s).take n)) rfl (by simp [precValue, Num.value, decimal_toDigits]) (by
        simp [showSpecs, showStr, Opts.meaning, pad, copies])
    rw [← this]
    simp [Opts.text, alignText, signOptText, Num.text, precText, typeText]
  · have h : join (pieces s) = s := pieces_flatten s hs
    refine ⟨join ((pieces s).drop n), ?_⟩
    conv => rhs; rw [← h, ← List.take_append_drop n (pieces s)]
    simp only [join, List.map_append, List.flatten_append]

/-- three characters of one, two and three bytes, cut to two -/
example : format "{:.2}".toList [(none, .string (encode ['a', 'ä', '한']))] = .ok (encode ['a', 'ä']) := by decide +kernel
/-- their columns -/
example : columns (pieces (encode ['a', 'ä', '한'])) = 4 := by rw [C97_columns]; decide +kernel

/-! ## C98 -/

/-- A width written in the format string is taken exactly if it is at most `INT_MAX` and rejected otherwise; for every
row of digits that does not begin with a zero (which would be the zero flag). -/
theorem C98_literal_width (s : Str) (hs : Bytes s) (d : Str) (hne : d ≠ []) (hd : ∀ c ∈ d, c.isDigit = true)
    (h0 : d.head? ≠ some '0') :
    (decimal d ≤ 2147483647 → format ('{' :: ':' :: (d ++ ['}'])) [(none, .string s)] =
      .ok (s ++ copies (decimal d - columns (pieces s)) [' '])) ∧
    (2147483647 < decimal d → ∃ m, format ('{' :: ':' :: (d ++ ['}'])) [(none, .string s)] = .err m) := by
  obtain ⟨c, ds, rfl⟩ := List.exists_cons_of_ne_nil hne
  have hc0 : c ≠ '0' := by simpa using h0
  constructor
  · intro hb
    have hdig : ∀ x ∈ c :: ds, isDigit x = true := fun x hx => by rw [isDigit_eq]; exact hd x hx
    have hlen : (c :: ds).length ≤ 10 := by
      have e := (toDigits_decimal ds.length ds c rfl (hdig c (by simp)) hc0 fun x hx => hdig x (List.mem_cons_of_mem _ hx)).1
      rw [← e]; exact toDigits_length_le _ hb
    have hv : ({ width := .lit (c :: ds) } : Opts).Valid .string := by
      refine ⟨by simp, by simp, by simp, by simp, by simp, ⟨⟨hne, hd, hlen, hb⟩, ?_⟩, by simp, by simp, trivial⟩
      intro d' hd'
      simp only [Num.lit.injEq] at hd'
      rw [← hd']; exact h0
    have := format_opts (l := [(none, .string s)]) (ok1 (a := .string _) hs) (len1 _)
      (a := (none, .string s)) rfl (str_ty _) _ hv (w := decimal (c :: ds)) (p := -1) (n2 := 1) (n3 := 1)
      (text := s ++ copies (decimal (c :: ds) - columns (pieces s)) [' ']) rfl rfl (by
        have hj : join (pieces s) = s := pieces_flatten s hs
        simp [showSpecs, showStr, Opts.meaning, pad, hj]
        simp [copies])
    rw [← this]
    simp [Opts.text, alignText, signOptText, Num.text, precText, typeText]
  · intro hb
    refine fails_format (len1 _) (ok1 (a := .string _) hs) (fails_field fun s1 h1 x hx => ?_)
    cases h1
    exfalso
    have e := field_eval_colon (formatHandler (makeArgs [(none, .string s)])) .auto trivial (c :: (ds ++ '}' :: [])) ⟨0, [] ++ []⟩
    rw [show Ref.text .auto ++ ':' :: (c :: (ds ++ '}' :: [])) = ':' :: (c :: ds ++ ['}']) from rfl] at e
    rw [e] at hx
    obtain ⟨a, h2, h3⟩ := Res.bind_eq_ok.mp hx
    obtain ⟨b, h4, _⟩ := Res.bind_eq_ok.mp h3
    obtain ⟨i, h5, _, h6⟩ := onArgId_sound (l := [(none, .string s)]) (len1 _) .auto _ _ (i' := a.1) (s := a.2) h2
    simp only [Ref.take, Int.lt_irrefl, if_false, Option.some.injEq, Prod.mk.injEq] at h5
    rw [← h5.1] at h6
    have h7 := onFormatSpecs_eq (l := [(none, .string s)]) (len1 _) a.1 h6 (str_ty _) (c :: (ds ++ '}' :: [])) a.2.next a.2.out
    change onFormatSpecs (makeArgs [(none, .string s)]) a.1 (c :: (ds ++ '}' :: [])) ⟨a.2.next, a.2.out⟩ = _ at h4
    rw [h7] at h4
    obtain ⟨q, h8, _⟩ := Res.bind_eq_ok.mp h4
    exact width_too_big hd hc0 hb [] _ q h8

/-- A width taken from an argument of an integer type of at most 64 bits is taken exactly if it is from 0 to `INT_MAX`
and rejected otherwise.  Missing from C98: integers of 128 bits (`C98_wraps_128`). -/
theorem C98_dynamic_partial (s : Str) (hs : Bytes s) (a : Arg) (ha : ArgOk a) (v : Int) (hv : wordValue a = some v) :
    (0 ≤ v ∧ v ≤ 2147483647 → format "{:{}}".toList [(none, .string s), (none, a)] =
      .ok (s ++ copies (v.toNat - columns (pieces s)) [' '])) ∧
    (v < 0 ∨ 2147483647 < v → ∃ m, format "{:{}}".toList [(none, .string s), (none, a)] = .err m) := by
  have hmod : 0 ≤ v → v % 2 ^ 64 = v := by
    intro h
    have hlt : v < 2 ^ 64 := by
      cases a <;> simp only [wordValue, Option.some.injEq, reduceCtorEq] at hv <;> subst hv <;>
        simp only [ArgOk] at ha <;> omega
    exact Int.emod_eq_of_lt h hlt
  have hdyn : dynValue a = if 0 ≤ v ∧ v % 2 ^ 64 ≤ 2147483647 then some (v % 2 ^ 64) else none := by
    cases a <;> simp only [wordValue, Option.some.injEq, reduceCtorEq] at hv <;> subst hv
    · rfl
    · simp only [dynValue]; split <;> split <;> first | rfl | omega
    · rfl
    · simp only [dynValue]; split <;> split <;> first | rfl | omega
  obtain ⟨h1, h2⟩ := dynamic_width s hs a ha
  constructor
  · rintro ⟨h3, h4⟩
    exact h1 v (by rw [hdyn, hmod h3, if_pos ⟨h3, h4⟩])
  · intro h3
    apply h2
    rw [hdyn, if_neg]
    rintro ⟨h4, h5⟩
    rw [hmod h4] at h5; omega

/-- A width taken from a 128-bit integer is reduced modulo 2^64: widths far beyond `INT_MAX` are not rejected but taken
as a different, small number. -/
theorem C98_wraps_128 (s : Str) (hs : Bytes s) (k w : Nat) (hk : k < 2 ^ 63) (hw : w ≤ 2147483647) :
    format "{:{}}".toList [(none, .string s), (none, .int128 (k * 2 ^ 64 + w))] =
      .ok (s ++ copies (w - columns (pieces s)) [' ']) := by
  have := (dynamic_width s hs (.int128 (k * 2 ^ 64 + w)) ⟨by omega, by omega⟩).1 w (by
    have e : ((k : Int) * 2 ^ 64 + w) % 2 ^ 64 = w := by omega
    simp only [dynValue]
    rw [e, if_pos (by omega)])
  simpa using this

/-- A precision is rejected if it has more than ten digits, also if leading zeros make it a small number. -/
theorem C98_leading_zeros_rejected :
    format "{:.00000000002}".toList [(none, .string "abc".toList)] = .err "number is too big" := by decide +kernel

/-- widths at the limit -/
example : decimal "2147483647".toList = 2147483647 ∧ decimal "2147483648".toList = 2147483648 := by decide +kernel
example : format "{:2147483648}".toList [(none, .string "abc".toList)] = .err "number is too big" := by decide +kernel
example : format "{:{}}".toList [(none, .string "abc".toList), (none, .int 5)] = .ok "abc  ".toList := by decide +kernel
example : format "{:{}}".toList [(none, .string "abc".toList), (none, .int (-1))] = .err "negative width" := by
  decide +kernel
/-- 2^64 + 5 acts as 5 -/
example : format "{:{}}".toList [(none, .string "abc".toList), (none, .int128 (2 ^ 64 + 5))] = .ok "abc  ".toList := by
  decide +kernel

/-! ## C102 -/

/-- `print` writes the formatted text after what is in the file, if the file takes that many bytes; on a format error
it writes nothing.  A file that takes only part of the text keeps that part and the call reports an error. -/
theorem C102_print (l : List (Option Str × Arg)) (fmt : Str) (f : Out1) :
    (∀ t, format fmt l = .ok t → t.length ≤ f.room →
      print fmt l f = (.ok (), ⟨f.content ++ t, f.room - t.length⟩)) ∧
    (∀ t, format fmt l = .ok t → f.room < t.length →
      (∃ m, (print fmt l f).1 = .err m) ∧ (print fmt l f).2.content = f.content ++ t.take f.room) ∧
    (∀ m, format fmt l = .err m → print fmt l f = (.err m, f)) := by
  unfold format print fwriteFully
  refine ⟨?_, ?_, ?_⟩
  · intro t h hr
    rw [h]
    simp only
    rw [if_neg (by omega), List.take_of_length_le hr]
  · intro t h hr
    rw [h]
    simp only
    rw [if_pos hr]
    exact ⟨⟨_, rfl⟩, trivial⟩
  · intro m h
    rw [h]

/-- `println` writes the formatted text and a newline, or on a format error nothing. -/
theorem C102_println (l : List (Option Str × Arg)) (hm : l.length < 2 ^ 31) (hok : ∀ p ∈ l, ArgOk p.2) (fmt : Str)
    (f : Out1) :
    (∀ t, format fmt l = .ok t → Bytes t → t.length < f.room →
      println fmt l f = (.ok (), ⟨f.content ++ t ++ ['\n'], f.room - (t.length + 1)⟩)) ∧
    (∀ m, format fmt l = .err m → println fmt l f = (.err m, f)) := by
  unfold println
  refine ⟨?_, ?_⟩
  · intro t h hb hr
    rw [h]
    simp only
    have hf : format "{}\n".toList [(none, .string t)] = .ok (t ++ ['\n']) := by
      have h1 := C93_automatic [(none, .string t)] (len1 _) (ok1 (a := .string _) hb) 1 (by simp) [t] rfl
      have h2 := C94_suffix [(none, .string t)] (len1 _) (ok1 (a := .string _) hb) (by simp [Arg.ty]) ['\n'] _ _
        (by intro c hc; rw [List.mem_singleton.mp hc]; decide) h1
      rw [List.flatten_cons, List.flatten_nil, List.append_nil] at h2
      exact h2
    rw [(C102_print _ _ f).1 _ hf (by simp; omega)]
    simp
  · intro m h
    rw [h]

/-- a line -/
example : println "x={}".toList [(none, .int 5)] ⟨"a\n".toList, 100⟩ = (.ok (), ⟨"a\nx=5\n".toList, 96⟩) := by
  decide +kernel
/-- a format error -/
example : print "x={".toList [(none, .int 5)] ⟨"a\n".toList, 100⟩ = (.err "invalid format string", ⟨"a\n".toList, 100⟩) := by
  decide +kernel

end Props
end Efp
