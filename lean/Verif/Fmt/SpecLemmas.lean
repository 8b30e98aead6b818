import Verif.Fmt.NumLemmas

/-!
# The options of a field are read as the grammar says
-/

namespace Efp
namespace Fmt

open Spec.Fmt (Ref Num Opts decimal alignText signOptText typeText precText signedInt integerLike floating textual
  Presents fillTail)

/-! ## Types -/

theorem sint_iff (t : Ty) : t.sint = true ↔ signedInt t := by cases t <;> simp [Ty.sint, signedInt]

theorem float_iff (t : Ty) : t.isFloat = true ↔ floating t := by cases t <;> simp [Ty.isFloat, floating]

theorem integral_iff (t : Ty) : t.integral = true ↔ integerLike t := by
  cases t <;> simp [Ty.integral, Ty.sint, Ty.usint, integerLike, signedInt]

theorem arith_iff (t : Ty) : t.arith = true ↔ integerLike t ∨ floating t := by
  rw [Ty.arith, Bool.or_eq_true, integral_iff, float_iff]

theorem text_iff (t : Ty) : t.text = true ↔ textual t := by simp [Ty.text, textual]

/-- every presentation type is read from its letter -/
theorem presOf_type (p : Pres) (hp : p ≠ .none) : ∃ c set, typeText p = [c] ∧ presOf c = some (p, set) ∧
    (∀ t, set t = true ↔ Presents t p) ∧ c ∉ ['<', '>', '^', '+', '-', ' ', '#', '0', '{', '.', 'L', '}']
    ∧ isDigit c = false := by
  cases p
  case none => exact absurd rfl hp
  case string =>
    refine ⟨_, _, rfl, rfl, ?_, by decide, by decide⟩
    intro t; rw [Bool.or_eq_true, text_iff, beq_iff_eq]; rfl
  case pointer =>
    refine ⟨_, _, rfl, rfl, ?_, by decide, by decide⟩
    intro t; rw [Bool.or_eq_true, beq_iff_eq, beq_iff_eq]; rfl
  case debug =>
    refine ⟨_, _, rfl, rfl, ?_, by decide, by decide⟩
    intro t; rw [Bool.or_eq_true, text_iff, beq_iff_eq]; rfl
  all_goals first
    | exact ⟨_, _, rfl, rfl, integral_iff, by decide, by decide⟩
    | exact ⟨_, _, rfl, rfl, float_iff, by decide, by decide⟩

/-- a letter that is read as a presentation type is the text of that type -/
theorem presOf_sound (c : Char) (p : Pres) (set : Ty → Bool) (h : presOf c = some (p, set)) :
    p ≠ .none ∧ typeText p = [c] ∧ ∀ t, set t = true ↔ Presents t p := by
  have key : p ≠ .none ∧ typeText p = [c] := by
    unfold presOf at h
    grind (splits := 40) [typeText]
  obtain ⟨c', set', h1, h2, h3, _⟩ := presOf_type p key.1
  have : c' = c := by have := h1.symm.trans key.2; simpa using this
  rw [this, h] at h2
  cases h2
  exact ⟨key.1, key.2, h3⟩

theorem codePointLength_eq (b : Char) : codePointLength b = fillTail b + 1 := by
  unfold codePointLength fillTail
  by_cases h : b.toNat < 256
  · have key : ∀ k < 256, (0x3a55000000000000 >>> (2 * (k >>> 3))) % 4 + 1 =
        (if k < 0xc0 then 0 else if k < 0xe0 then 1 else if k < 0xf0 then 2 else if k < 0xf8 then 3 else 0) + 1 := by
      decide +kernel
    exact key _ h
  · rw [if_neg (by omega), if_neg (by omega), if_neg (by omega), if_neg (by omega)]
    have h32 : 32 ≤ b.toNat >>> 3 := by rw [Nat.shiftRight_eq_div_pow]; omega
    rw [Nat.shiftRight_eq_div_pow, Nat.div_eq_of_lt]
    have : (2 : Nat) ^ 64 ≤ 2 ^ (2 * (b.toNat >>> 3)) := Nat.pow_le_pow_right (by omega) (by omega)
    omega

/-! ## The loop -/

/-- the loop at a position -/
def loopAt (ty : Ty) (fuel : Nat) (pos : Str) (cur : St) (sp : Specs) (next : Int) : Res (Specs × Str × Int) :=
  match pos with
  | [] => .ok (sp, [], next)
  | b :: r => specLoop ty fuel b b r cur sp next

theorem specLoop_succ (ty : Ty) (fuel : Nat) (c b : Char) (r : Str) (cur : St) (sp : Specs) (next : Int) :
    specLoop ty (fuel + 1) c b r cur sp next =
      (if c = '<' ∨ c = '>' ∨ c = '^' then do
        let cur ← enterState cur .align true
        loopAt ty fuel r cur { sp with align := parseAlign c } next
      else if c = '+' ∨ c = '-' ∨ c = ' ' then
        if ty = .none then .ok (sp, b :: r, next)
        else do
          let cur ← enterState cur .sign (ty.sint || ty.isFloat)
          loopAt ty fuel r cur { sp with sign := if c = '+' then .plus else if c = '-' then .minus else .space } next
      else if c = '#' then
        if ty = .none then .ok (sp, b :: r, next)
        else do
          let cur ← enterState cur .hash ty.arith
          loopAt ty fuel r cur { sp with alt := true } next
      else if c = '0' then do
        let cur ← enterState cur .zero true
        if !ty.arith then
          if ty = .none then .ok (sp, b :: r, next) else .err "format specifier requires numeric argument"
        else if sp.align = .none then loopAt ty fuel r cur { sp with align := .numeric, fill := sp.fill.set 0 '0' } next
        else loopAt ty fuel r cur sp next
      else if isDigit c || c == '{' then do
        let cur ← enterState cur .width true
        let (w, ref, pos, next) ← parseDynamicSpec (b :: r) sp.width sp.widthRef next
        loopAt ty fuel pos cur { sp with width := w.toNat, widthRef := ref } next
      else if c = '.' then
        if ty = .none then .ok (sp, b :: r, next)
        else do
          let cur ← enterState cur .precision (ty.isFloat || ty.text)
          let (p, ref, pos, next) ← parsePrecision (b :: r) sp.precision sp.precisionRef next
          loopAt ty fuel pos cur { sp with precision := p, precisionRef := ref } next
      else if c = 'L' then
        if ty = .none then .ok (sp, b :: r, next)
        else do
          let cur ← enterState cur .locale ty.arith
          loopAt ty fuel r cur { sp with localized := true } next
      else
        match presOf c with
        | some (p, set) =>
          if !set ty then
            if ty = .none then .ok (sp, b :: r, next) else .err "invalid format specifier"
          else .ok ({ sp with type := p }, r, next)
        | none =>
          if c = '}' ∨ b = '}' then .ok (sp, b :: r, next)
          else do
            let (pos, cur, sp) ← parseFill b r cur sp
            loopAt ty fuel pos cur sp next) := by
  rfl

theorem enterState_ok (cur s : St) (v : Bool) (h : cur.toNat < s.toNat) (hv : v = true) : enterState cur s v = .ok s := by
  unfold enterState
  rw [if_neg]
  rw [hv]
  simp; omega

theorem enterState_sound {cur s : St} {v : Bool} {s' : St} (h : enterState cur s v = .ok s') :
    s' = s ∧ cur.toNat < s.toNat ∧ v = true := by
  unfold enterState at h
  split at h
  · cases h
  · rename_i hn
    cases h
    refine ⟨rfl, ?_, ?_⟩
    · omega
    · cases v
      · exact absurd (Or.inr rfl) hn
      · rfl

/-! ## What the options do to the specs -/

def stAlign (o : Opts) (sp : Specs) : Specs :=
  if o.align = .none then sp else { sp with align := o.align, fill := if o.fill = [] then sp.fill else o.fill }
def stSign (o : Opts) (sp : Specs) : Specs := if o.sign = .none then sp else { sp with sign := o.sign }
def stAlt (o : Opts) (sp : Specs) : Specs := if o.alt then { sp with alt := true } else sp
def stZero (o : Opts) (sp : Specs) : Specs :=
  if o.zero then if sp.align = .none then { sp with align := .numeric, fill := sp.fill.set 0 '0' } else sp else sp
def stLoc (o : Opts) (sp : Specs) : Specs := if o.loc then { sp with localized := true } else sp
def stType (o : Opts) (sp : Specs) : Specs := if o.type = .none then sp else { sp with type := o.type }

def a7 (o : Opts) (sp : Specs) (n : Int) : Option (Specs × Int) := some (stType o (stLoc o sp), n)
def a6 (o : Opts) (sp : Specs) (n : Int) : Option (Specs × Int) :=
  match o.prec with
  | none => a7 o sp n
  | some p => (numParse p sp.precision sp.precisionRef n).bind fun (v, ref, n) =>
    a7 o { sp with precision := v, precisionRef := ref } n
def a5 (o : Opts) (sp : Specs) (n : Int) : Option (Specs × Int) :=
  (numParse o.width sp.width sp.widthRef n).bind fun (v, ref, n) => a6 o { sp with width := v.toNat, widthRef := ref } n
def a4 (o : Opts) (sp : Specs) (n : Int) : Option (Specs × Int) := a5 o (stZero o sp) n
def a3 (o : Opts) (sp : Specs) (n : Int) : Option (Specs × Int) := a4 o (stAlt o sp) n
def a2 (o : Opts) (sp : Specs) (n : Int) : Option (Specs × Int) := a3 o (stSign o sp) n
def a1 (o : Opts) (sp : Specs) (n : Int) : Option (Specs × Int) := a2 o (stAlign o sp) n

def t7 (o : Opts) : Str := (if o.loc then ['L'] else []) ++ typeText o.type
def t6 (o : Opts) : Str := precText o.prec ++ t7 o
def t5 (o : Opts) : Str := o.width.text ++ t6 o
def t4 (o : Opts) : Str := (if o.zero then ['0'] else []) ++ t5 o
def t3 (o : Opts) : Str := (if o.alt then ['#'] else []) ++ t4 o
def t2 (o : Opts) : Str := signOptText o.sign ++ t3 o
def t1 (o : Opts) : Str := alignText o.align ++ t2 o

theorem text_eq (o : Opts) : o.text = o.fill ++ t1 o := rfl

/-! ## What is written is read -/

section
variable {ty : Ty} {o : Opts} (hty : ty ≠ .none) (hv : o.Valid ty) {f : Str} {sp' : Specs} {n' : Int}
include hty hv

omit hty in
theorem read8 (fuel : Nat) (cur : St) (sp : Specs) (n : Int) (hf : (typeText o.type ++ '}' :: f).length ≤ fuel) :
    loopAt ty fuel (typeText o.type ++ '}' :: f) cur sp n = .ok (stType o sp, '}' :: f, n) := by
  by_cases ht : o.type = .none
  · cases fuel with
    | zero => simp at hf
    | succ fuel =>
      rw [ht, stType, if_pos ht]
      simp only [typeText, List.nil_append, loopAt, specLoop_succ]
      rfl
  · obtain ⟨c, set, h1, h2, h3, h4, h5⟩ := presOf_type o.type ht
    rw [h1] at hf ⊢
    cases fuel with
    | zero => simp at hf
    | succ fuel =>
      simp only [List.cons_append, List.nil_append, loopAt, specLoop_succ]
      simp only [List.mem_cons, not_or, List.not_mem_nil, not_false_eq_true, and_true] at h4
      have := (h3 ty).mpr hv.type
      simp [h4, h5, h2, this, stType, ht]

theorem read7 (fuel : Nat) (cur : St) (sp : Specs) (n : Int) (hc : cur.toNat < 7)
    (hf : (t7 o ++ '}' :: f).length ≤ fuel) (h : a7 o sp n = some (sp', n')) :
    loopAt ty fuel (t7 o ++ '}' :: f) cur sp n = .ok (sp', '}' :: f, n') := by
  simp only [a7, Option.some.injEq, Prod.mk.injEq] at h
  obtain ⟨rfl, rfl⟩ := h
  unfold t7 at hf ⊢
  by_cases hl : o.loc = true
  · rw [if_pos hl] at hf ⊢
    cases fuel with
    | zero => simp at hf
    | succ fuel =>
      have he := enterState_ok cur .locale ty.arith hc ((arith_iff ty).mpr (hv.loc hl))
      have hr := read8 hv fuel .locale (stLoc o sp) n (by simpa using hf) (f := f)
      rw [stLoc, if_pos hl] at hr
      simp only [List.cons_append, List.nil_append, loopAt, specLoop_succ]
      rw [if_neg (by decide), if_neg (by decide), if_neg (by decide), if_neg (by decide), if_neg (by decide),
        if_neg (by decide), if_pos trivial, if_neg hty, he, Res.bind_ok, stLoc, if_pos hl]
      exact hr
  · rw [if_neg hl] at hf ⊢
    rw [List.nil_append] at hf ⊢
    rw [stLoc, if_neg hl]
    exact read8 hv fuel cur sp n hf

omit hty in
theorem head7 : ∃ c r, t7 o ++ '}' :: f = c :: r ∧ isDigit c = false ∧ c ≠ '{' ∧ c ≠ '.' ∧
    (o.loc = true ∨ o.type ≠ .none → c ≠ '}') := by
  unfold t7
  by_cases hl : o.loc = true
  · rw [if_pos hl]
    exact ⟨'L', _, rfl, by decide, by decide, by decide, fun _ => by decide⟩
  · rw [if_neg hl]
    by_cases ht : o.type = .none
    · rw [ht]
      refine ⟨'}', _, rfl, by decide, by decide, by decide, ?_⟩
      rintro (h | h)
      · exact absurd h hl
      · exact absurd rfl h
    · obtain ⟨c, set, h1, h2, h3, h4, h5⟩ := presOf_type o.type ht
      rw [h1]
      simp only [List.mem_cons, not_or, List.not_mem_nil, not_false_eq_true, and_true] at h4
      exact ⟨c, _, rfl, h5, h4.2.2.2.2.2.2.2.2.1, h4.2.2.2.2.2.2.2.2.2.1, fun _ => h4.2.2.2.2.2.2.2.2.2.2.2⟩

theorem read6 (fuel : Nat) (cur : St) (sp : Specs) (n : Int) (hc : cur.toNat < 6)
    (hf : (t6 o ++ '}' :: f).length ≤ fuel) (h : a6 o sp n = some (sp', n')) :
    loopAt ty fuel (t6 o ++ '}' :: f) cur sp n = .ok (sp', '}' :: f, n') := by
  unfold a6 at h
  unfold t6 at hf ⊢
  cases hp : o.prec with
  | none =>
    rw [hp] at hf h
    exact read7 hty hv fuel cur sp n (by omega) hf h
  | some p =>
    rw [hp] at hf h
    simp only [Option.bind_eq_some_iff] at h
    obtain ⟨⟨v, ref, n1⟩, h1, h2⟩ := h
    simp only at h2
    obtain ⟨hfl, hpv, hpn⟩ := hv.prec p hp
    cases fuel with
    | zero => simp [precText] at hf
    | succ fuel =>
      obtain ⟨c, r, e7, hd, hb, _, hnb⟩ := head7 hv (f := f)
      have hstop : Stops (t7 o ++ '}' :: f) := by
        intro c' r' he
        rw [e7] at he
        obtain ⟨rfl, rfl⟩ := List.cons.inj he
        exact hd
      have hdyn := parseDynamicSpec_text p (t7 o ++ '}' :: f) sp.precision sp.precisionRef n hpv hstop (by rw [e7]; simp)
        (by intro _ c' r' he; rw [e7] at he; obtain ⟨rfl, rfl⟩ := List.cons.inj he; exact hb) h1
      -- the byte after the dot is not a closing brace
      have hnb' : ∃ d t, p.text ++ (t7 o ++ '}' :: f) = d :: t ∧ d ≠ '}' := by
        cases p with
        | none => exact ⟨c, r, by rw [Num.text, List.nil_append, e7], hnb (hpn rfl)⟩
        | lit ds =>
          obtain ⟨q1, q2, _⟩ := hpv
          cases ds with
          | nil => exact absurd rfl q1
          | cons d ds =>
            refine ⟨d, _, rfl, ?_⟩
            rintro rfl
            exact absurd (q2 '}' (by simp)) (by decide)
        | arg r => exact ⟨'{', _, rfl, by decide⟩
      have he := enterState_ok cur .precision (ty.isFloat || ty.text) hc
        (by rw [Bool.or_eq_true, float_iff, text_iff]; exact hfl)
      have hr := read7 hty hv fuel .precision { sp with precision := v, precisionRef := ref } n1 (by decide) (f := f)
        (by simp only [precText, List.cons_append, List.append_assoc, List.length_cons, List.length_append] at hf ⊢; omega) h2
      have etext : precText (some p) ++ t7 o ++ '}' :: f = '.' :: (p.text ++ (t7 o ++ '}' :: f)) := by
        simp [precText]
      rw [etext]
      simp only [loopAt, specLoop_succ]
      rw [if_neg (by decide), if_neg (by decide), if_neg (by decide), if_neg (by decide), if_neg (by decide),
        if_pos trivial, if_neg hty, he, Res.bind_ok]
      obtain ⟨d, t, q1, q2⟩ := hnb'
      rw [q1] at hdyn ⊢
      simp only [parsePrecision]
      rw [if_neg q2, hdyn, Res.bind_ok]
      exact hr

omit hty in
theorem head6 : ∃ c r, t6 o ++ '}' :: f = c :: r ∧ isDigit c = false ∧ c ≠ '{' := by
  unfold t6
  cases hp : o.prec with
  | none =>
    obtain ⟨c, r, h1, h2, h3, _⟩ := head7 hv (f := f)
    exact ⟨c, r, h1, h2, h3⟩
  | some p => exact ⟨'.', _, rfl, by decide, by decide⟩

theorem read5 (fuel : Nat) (cur : St) (sp : Specs) (n : Int) (hc : cur.toNat < 5)
    (hf : (t5 o ++ '}' :: f).length ≤ fuel) (h : a5 o sp n = some (sp', n')) :
    loopAt ty fuel (t5 o ++ '}' :: f) cur sp n = .ok (sp', '}' :: f, n') := by
  unfold a5 at h
  unfold t5 at hf ⊢
  simp only [Option.bind_eq_some_iff] at h
  obtain ⟨⟨v, ref, n1⟩, h1, h2⟩ := h
  simp only at h2
  by_cases hw : o.width = .none
  · rw [hw] at hf h1 ⊢
    simp only [numParse, Option.some.injEq, Prod.mk.injEq] at h1
    obtain ⟨rfl, rfl, rfl⟩ := h1
    exact read6 hty hv fuel cur sp n (by omega) hf h2
  · cases fuel with
    | zero => simp at hf
    | succ fuel =>
      obtain ⟨c, r, e6, hd, hb⟩ := head6 hv (f := f)
      have hstop : Stops (t6 o ++ '}' :: f) := by
        intro c' r' he
        rw [e6] at he
        obtain ⟨rfl, rfl⟩ := List.cons.inj he
        exact hd
      have hdyn := parseDynamicSpec_text o.width (t6 o ++ '}' :: f) sp.width sp.widthRef n hv.width.1 hstop
        (by rw [e6]; simp) (fun h => absurd h hw) h1
      have hhead : ∃ d t, o.width.text ++ (t6 o ++ '}' :: f) = d :: t ∧ ((isDigit d = true ∧ d ≠ '0') ∨ d = '{')
          ∧ 1 ≤ o.width.text.length := by
        have hwv := hv.width
        cases hwd : o.width with
        | none => exact absurd hwd hw
        | lit ds =>
          rw [hwd] at hwv
          obtain ⟨⟨q1, q2, _⟩, q3⟩ := hwv
          cases ds with
          | nil => exact absurd rfl q1
          | cons d ds =>
            refine ⟨d, _, rfl, Or.inl ⟨?_, ?_⟩, by simp [Num.text]⟩
            · rw [isDigit_eq]; exact q2 d (by simp)
            · rintro rfl
              exact q3 _ rfl rfl
        | arg r => exact ⟨'{', _, rfl, Or.inr rfl, by simp [Num.text]⟩
      obtain ⟨d, t, q1, q2, q3⟩ := hhead
      have hr := read6 hty hv fuel .width { sp with width := v.toNat, widthRef := ref } n1 (by decide) (f := f)
        (by simp only [List.length_append] at hf ⊢; omega) h2
      have he := enterState_ok cur .width true hc rfl
      rw [List.append_assoc, q1]
      rw [q1] at hdyn
      simp only [loopAt, specLoop_succ]
      have hd1 : ¬ (d = '<' ∨ d = '>' ∨ d = '^') := by
        rintro (rfl | rfl | rfl) <;> revert q2 <;> decide
      have hd2 : ¬ (d = '+' ∨ d = '-' ∨ d = ' ') := by
        rintro (rfl | rfl | rfl) <;> revert q2 <;> decide
      have hd3 : d ≠ '#' := by rintro rfl; revert q2; decide
      have hd4 : d ≠ '0' := by rintro rfl; revert q2; decide
      have hd5 : (isDigit d || d == '{') = true := by
        rcases q2 with h | h
        · simp [h.1]
        · simp [h]
      rw [if_neg hd1, if_neg hd2, if_neg hd3, if_neg hd4, if_pos hd5, he, Res.bind_ok, hdyn, Res.bind_ok]
      exact hr

theorem read4 (fuel : Nat) (cur : St) (sp : Specs) (n : Int) (hc : cur.toNat < 4)
    (hf : (t4 o ++ '}' :: f).length ≤ fuel) (h : a4 o sp n = some (sp', n')) :
    loopAt ty fuel (t4 o ++ '}' :: f) cur sp n = .ok (sp', '}' :: f, n') := by
  unfold a4 at h
  unfold t4 at hf ⊢
  by_cases hz : o.zero = true
  · rw [if_pos hz] at hf ⊢
    cases fuel with
    | zero => simp at hf
    | succ fuel =>
      have he := enterState_ok cur .zero true hc rfl
      have ha := (arith_iff ty).mpr (hv.zero hz)
      have hr := read5 hty hv fuel .zero _ n (by decide) (by simpa using hf) h
      simp only [List.cons_append, List.nil_append, loopAt, specLoop_succ]
      rw [if_neg (by decide), if_neg (by decide), if_neg (by decide), if_pos trivial, he, Res.bind_ok, ha]
      rw [stZero, if_pos hz] at hr
      simp only [Bool.not_true, Bool.false_eq_true, if_false]
      split
      · rename_i hal
        rw [if_pos hal] at hr
        exact hr
      · rename_i hal
        rw [if_neg hal] at hr
        exact hr
  · rw [if_neg hz] at hf ⊢
    rw [stZero, if_neg hz] at h
    exact read5 hty hv fuel cur sp n (by omega) hf h

theorem read3 (fuel : Nat) (cur : St) (sp : Specs) (n : Int) (hc : cur.toNat < 3)
    (hf : (t3 o ++ '}' :: f).length ≤ fuel) (h : a3 o sp n = some (sp', n')) :
    loopAt ty fuel (t3 o ++ '}' :: f) cur sp n = .ok (sp', '}' :: f, n') := by
  unfold a3 at h
  unfold t3 at hf ⊢
  by_cases hz : o.alt = true
  · rw [if_pos hz] at hf ⊢
    cases fuel with
    | zero => simp at hf
    | succ fuel =>
      have he := enterState_ok cur .hash ty.arith hc ((arith_iff ty).mpr (hv.alt hz))
      have hr := read4 hty hv fuel .hash _ n (by decide) (by simpa using hf) h
      simp only [List.cons_append, List.nil_append, loopAt, specLoop_succ]
      rw [if_neg (by decide), if_neg (by decide), if_pos trivial, if_neg hty, he, Res.bind_ok]
      rw [stAlt, if_pos hz] at hr
      exact hr
  · rw [if_neg hz] at hf ⊢
    rw [stAlt, if_neg hz] at h
    exact read4 hty hv fuel cur sp n (by omega) hf h

theorem read2 (fuel : Nat) (cur : St) (sp : Specs) (n : Int) (hc : cur.toNat < 2)
    (hf : (t2 o ++ '}' :: f).length ≤ fuel) (h : a2 o sp n = some (sp', n')) :
    loopAt ty fuel (t2 o ++ '}' :: f) cur sp n = .ok (sp', '}' :: f, n') := by
  unfold a2 at h
  unfold t2 at hf ⊢
  by_cases hz : o.sign = .none
  · rw [hz] at hf ⊢
    rw [stSign, if_pos hz] at h
    exact read3 hty hv fuel cur sp n (by omega) hf h
  · have he := enterState_ok cur .sign (ty.sint || ty.isFloat) hc
      (by rw [Bool.or_eq_true, sint_iff, float_iff]; exact hv.sign hz)
    rw [stSign, if_neg hz] at h
    cases fuel with
    | zero => simp at hf
    | succ fuel =>
      cases hs : o.sign with
      | none => exact absurd hs hz
      | minus =>
        rw [hs] at hf h
        simp only [signOptText, List.cons_append, List.nil_append, loopAt, specLoop_succ]
        rw [if_neg (by decide), if_pos (by decide), if_neg hty, he, Res.bind_ok]
        exact read3 hty hv fuel .sign _ n (by decide) (by simpa [signOptText] using hf) h
      | plus =>
        rw [hs] at hf h
        simp only [signOptText, List.cons_append, List.nil_append, loopAt, specLoop_succ]
        rw [if_neg (by decide), if_pos (by decide), if_neg hty, he, Res.bind_ok]
        exact read3 hty hv fuel .sign _ n (by decide) (by simpa [signOptText] using hf) h
      | space =>
        rw [hs] at hf h
        simp only [signOptText, List.cons_append, List.nil_append, loopAt, specLoop_succ]
        rw [if_neg (by decide), if_pos (by decide), if_neg hty, he, Res.bind_ok]
        exact read3 hty hv fuel .sign _ n (by decide) (by simpa [signOptText] using hf) h

/-- an alignment without a fill -/
theorem read1 (fuel : Nat) (cur : St) (sp : Specs) (n : Int) (hc : cur.toNat < 1) (hfill : o.fill = [])
    (hf : (t1 o ++ '}' :: f).length ≤ fuel) (h : a1 o sp n = some (sp', n')) :
    loopAt ty fuel (t1 o ++ '}' :: f) cur sp n = .ok (sp', '}' :: f, n') := by
  unfold a1 at h
  unfold t1 at hf ⊢
  by_cases hz : o.align = .none
  · rw [hz] at hf ⊢
    rw [stAlign, if_pos hz] at h
    exact read2 hty hv fuel cur sp n (by omega) hf h
  · have he := enterState_ok cur .align true hc rfl
    rw [stAlign, if_neg hz, if_pos hfill] at h
    cases fuel with
    | zero => simp at hf
    | succ fuel =>
      cases hs : o.align with
      | none => exact absurd hs hz
      | numeric => exact absurd hs hv.align
      | left =>
        rw [hs] at hf h
        simp only [alignText, List.cons_append, List.nil_append, loopAt, specLoop_succ]
        rw [if_pos (by decide), he, Res.bind_ok]
        exact read2 hty hv fuel .align _ n (by decide) (by simpa [alignText] using hf) h
      | right =>
        rw [hs] at hf h
        simp only [alignText, List.cons_append, List.nil_append, loopAt, specLoop_succ]
        rw [if_pos (by decide), he, Res.bind_ok]
        exact read2 hty hv fuel .align _ n (by decide) (by simpa [alignText] using hf) h
      | center =>
        rw [hs] at hf h
        simp only [alignText, List.cons_append, List.nil_append, loopAt, specLoop_succ]
        rw [if_pos (by decide), he, Res.bind_ok]
        exact read2 hty hv fuel .align _ n (by decide) (by simpa [alignText] using hf) h

end


/-! ## The first byte of the options -/

theorem alnum_noAlign (c : Char) (h : c.isAlphanum = true ∨ c = '_') : parseAlign c = .none := by
  unfold parseAlign
  rw [if_neg, if_neg, if_neg]
  all_goals (rintro rfl; revert h; decide)

theorem digit_alnum (c : Char) (h : c.isDigit = true) : c.isAlphanum = true ∨ c = '_' := by
  left; simp [Char.isAlphanum, h]

theorem ref_noAlign (r : Ref) (hr : r.Valid) : ∀ c ∈ r.text, parseAlign c = .none := by
  intro c hc
  cases r with
  | auto => simp [Ref.text] at hc
  | index n =>
    have := toDigits_digits n c hc
    rw [isDigit_eq] at this
    exact alnum_noAlign c (digit_alnum c this)
  | name s =>
    obtain ⟨d, r, rfl, h1, h2⟩ := hr
    rcases List.mem_cons.mp hc with rfl | hc
    · apply alnum_noAlign
      rcases h1 with h1 | h1
      · left; simp [Char.isAlphanum, h1]
      · exact Or.inr h1
    · exact alnum_noAlign c (h2 c hc)

theorem num_noAlign (q : Num) (hq : q.Valid) : ∀ c ∈ q.text, parseAlign c = .none := by
  intro c hc
  cases q with
  | none => simp [Num.text] at hc
  | lit d => exact alnum_noAlign c (digit_alnum c (hq.2.1 c hc))
  | arg r =>
    simp only [Num.text, List.mem_cons, List.mem_append, List.not_mem_nil, or_false] at hc
    rcases hc with rfl | hc | rfl
    · decide
    · exact ref_noAlign r hq c hc
    · decide

/-- no alignment character after the alignment -/
theorem t2_noAlign {ty : Ty} {o : Opts} (hv : o.Valid ty) : ∀ c ∈ t2 o, parseAlign c = .none := by
  intro c hc
  simp only [t2, t3, t4, t5, t6, t7, List.mem_append] at hc
  rcases hc with hc | hc | hc | hc | hc | hc | hc
  · cases hs : o.sign <;> rw [hs] at hc <;> simp [signOptText] at hc <;> rw [hc] <;> decide
  · split at hc
    · rw [List.mem_singleton.mp hc]; decide
    · cases hc
  · split at hc
    · rw [List.mem_singleton.mp hc]; decide
    · cases hc
  · exact num_noAlign _ hv.width.1 c hc
  · cases hp : o.prec with
    | none => rw [hp] at hc; cases hc
    | some p =>
      rw [hp] at hc
      rcases List.mem_cons.mp hc with rfl | hc
      · decide
      · exact num_noAlign p (hv.prec p hp).2.1 c hc
  · split at hc
    · rw [List.mem_singleton.mp hc]; decide
    · cases hc
  · cases ht : o.type <;> rw [ht] at hc <;> simp [typeText] at hc <;> rw [hc] <;> decide

/-- a byte that is neither an option nor a type goes to the fill -/
theorem specLoop_fill (ty : Ty) (fuel : Nat) (c b : Char) (r : Str) (cur : St) (sp : Specs) (n : Int)
    (hc : c.toNat = 0 ∨ 0xc0 ≤ c.toNat) : specLoop ty (fuel + 1) c b r cur sp n =
      if b = '}' then .ok (sp, b :: r, n)
      else parseFill b r cur sp >>= fun x => loopAt ty fuel x.1 x.2.1 x.2.2 n := by
  have hne : ∀ d : Char, (0 < d.toNat ∧ d.toNat < 0xc0) → c ≠ d := by
    rintro d hd rfl; omega
  have hd : isDigit c = false := by
    cases h : isDigit c with
    | false => rfl
    | true => rw [isDigit_iff] at h; omega
  have hp : presOf c = none := by
    unfold presOf
    repeat rw [if_neg (hne _ (by decide))]
  rw [specLoop_succ, hp, hd]
  have hb : ((false || c == '{') = true) = False := by simp [hne '{' (by decide)]
  rw [if_neg (by rintro (h | h | h) <;> exact hne _ (by decide) h),
    if_neg (by rintro (h | h | h) <;> exact hne _ (by decide) h), if_neg (hne _ (by decide)),
    if_neg (hne _ (by decide)), if_neg (by rw [hb]; exact id), if_neg (hne _ (by decide)), if_neg (hne _ (by decide))]
  simp only [show (c = '}') = False from eq_false (hne _ (by decide)), false_or]

theorem fillTail_high (b : Char) (h : 0 < fillTail b) : 0xc0 ≤ b.toNat := by
  unfold fillTail at h
  split at h
  · omega
  · omega

/-- what is written is read -/
theorem parseFormatSpecs_text {ty : Ty} {o : Opts} (hty : ty ≠ .none) (hv : o.Valid ty) (f : Str) (n : Int)
    {sp' : Specs} {n' : Int} (h : a1 o {} n = some (sp', n')) :
    parseFormatSpecs ty (o.text ++ '}' :: f) n = .ok (sp', '}' :: f, n') := by
  by_cases hfill : o.fill = []
  · have hlen : (t1 o ++ '}' :: f).length ≤ (t1 o ++ '}' :: f).length := Nat.le_refl _
    have hr := read1 hty hv _ .start {} n (by decide) hfill hlen h
    rw [text_eq, hfill, List.nil_append]
    generalize hpos : t1 o ++ '}' :: f = pos at hr
    match pos, hr, hpos with
    | [], hr, hpos => simp at hpos
    | [b], hr, hpos => exact hr
    | b :: x :: r, hr, hpos =>
      simp only [parseFormatSpecs]
      by_cases hx : parseAlign x = .none
      · rw [if_pos hx]; exact hr
      · -- the second byte is an alignment, so the options are empty
        rw [if_neg hx]
        have ht1 : t1 o = [] := by
          cases e : t1 o with
          | nil => rfl
          | cons y t =>
            exfalso
            rw [e] at hpos
            have hxm : x ∈ t ∨ x = '}' := by
              cases t with
              | nil => right; simp at hpos; exact hpos.2.1.symm
              | cons z t => left; simp at hpos; simp [hpos.2.1]
            rcases hxm with hxm | rfl
            · apply hx
              apply t2_noAlign hv
              unfold t1 at e
              cases ha : o.align <;> rw [ha] at e <;> simp [alignText] at e
              · rw [e]; exact List.mem_cons_of_mem _ hxm
              · rw [e.2]; exact hxm
              · rw [e.2]; exact hxm
              · rw [e.2]; exact hxm
              · rw [e]; exact List.mem_cons_of_mem _ hxm
            · exact hx (by decide)
        rw [ht1, List.nil_append] at hpos
        obtain ⟨rfl, rfl⟩ := List.cons.inj hpos
        rw [specLoop_fill _ _ _ _ _ _ _ _ (Or.inl (by decide)), if_pos rfl]
        -- and reading them changes nothing
        simp only [loopAt] at hr
        rw [show List.length ('}' :: x :: r) = (r.length + 1) + 1 from rfl, specLoop_succ] at hr
        exact hr
  · obtain ⟨hal, b, r, hbr, hb1, hb2, hlen⟩ := hv.fill hfill
    obtain ⟨al, hal1, hal2⟩ : ∃ al, alignText o.align = [al] ∧ parseAlign al = o.align := by
      cases ha : o.align with
      | none => exact absurd ha hal
      | numeric => exact absurd ha hv.align
      | left => exact ⟨_, rfl, by decide⟩
      | right => exact ⟨_, rfl, by decide⟩
      | center => exact ⟨_, rfl, by decide⟩
    have etext : o.text ++ '}' :: f = b :: (r ++ al :: (t2 o ++ '}' :: f)) := by
      rw [text_eq, t1, hal1, hbr]; simp
    rw [etext]
    have htail : ∃ x q, r ++ al :: (t2 o ++ '}' :: f) = x :: q := by
      cases r with
      | nil => exact ⟨_, _, rfl⟩
      | cons x r => exact ⟨_, _, rfl⟩
    obtain ⟨x, q, hxq⟩ := htail
    rw [hxq]
    simp only [parseFormatSpecs]
    have hlow : (if parseAlign x = .none then b else Char.ofNat 0).toNat = 0 ∨
        0xc0 ≤ (if parseAlign x = .none then b else Char.ofNat 0).toNat := by
      by_cases hx : parseAlign x = .none
      · right
        rw [if_pos hx]
        cases r with
        | nil =>
          simp only [List.nil_append, List.cons.injEq] at hxq
          rw [← hxq.1, hal2] at hx
          exact absurd hx hal
        | cons y r => exact fillTail_high b (by rw [← hlen]; simp)
      · left; rw [if_neg hx]; decide
    rw [show q.length + 2 = (q.length + 1) + 1 from rfl, specLoop_fill _ _ _ _ _ _ _ _ hlow, if_neg hb2, ← hxq]
    have hdrop : (b :: (r ++ al :: (t2 o ++ '}' :: f))).drop (codePointLength b) = al :: (t2 o ++ '}' :: f) := by
      rw [codePointLength_eq, ← hlen]; simp
    have htake : (b :: (r ++ al :: (t2 o ++ '}' :: f))).take (codePointLength b) = b :: r := by
      rw [codePointLength_eq, ← hlen]; simp
    simp only [parseFill]
    rw [hdrop, htake]
    simp only
    rw [if_neg hb1, enterState_ok .start .align _ (by decide) (by rw [hal2]; simpa using hal), Res.bind_ok, Res.bind_ok]
    simp only
    have hl : (t2 o ++ '}' :: f).length ≤ q.length + 1 := by
      have := congrArg List.length hxq
      simp at this ⊢
      omega
    unfold a1 at h
    rw [stAlign, if_neg hal, if_neg hfill, hbr] at h
    rw [hal2]
    exact read2 hty hv _ .align _ n (by decide) hl h

/-! ## What is read was written -/

/-- the parts up to number `k` are absent -/
structure Absent (k : Nat) (o : Opts) : Prop where
  align : 1 ≤ k → o.align = .none ∧ o.fill = []
  sign : 2 ≤ k → o.sign = .none
  alt : 3 ≤ k → o.alt = false
  zero : 4 ≤ k → o.zero = false
  width : 5 ≤ k → o.width = .none
  prec : 6 ≤ k → o.prec = none
  loc : 7 ≤ k → o.loc = false

theorem valid_nil (ty : Ty) : ({} : Opts).Valid ty where
  align := nofun
  fill h := absurd rfl h
  sign h := absurd rfl h
  alt := nofun
  zero := nofun
  width := ⟨trivial, nofun⟩
  prec := nofun
  loc := nofun
  type := trivial

theorem parseAlign_text (c : Char) (h : parseAlign c ≠ .none) : alignText (parseAlign c) = [c] ∧ parseAlign c ≠ .numeric := by
  unfold parseAlign at h ⊢
  split
  · rename_i hc; rw [hc]; exact ⟨rfl, nofun⟩
  · rename_i h1
    rw [if_neg h1] at h
    split
    · rename_i hc; rw [hc]; exact ⟨rfl, nofun⟩
    · rename_i h2
      rw [if_neg h2] at h
      split
      · rename_i hc; rw [hc]; exact ⟨rfl, nofun⟩
      · rename_i h3
        rw [if_neg h3] at h
        exact absurd rfl h

theorem parseFill_sound {ty : Ty} {b : Char} {r : Str} {cur : St} {sp : Specs} {pos : Str} {cur' : St} {sp1 : Specs}
    (hb : b ≠ '}') (h : parseFill b r cur sp = .ok (pos, cur', sp1)) :
    cur' = .align ∧ cur = .start ∧ ∃ fl al, sp1 = { sp with fill := fl, align := al } ∧ b :: r = fl ++ (alignText al ++ pos) ∧
      al ≠ .none ∧ al ≠ .numeric ∧ fl ≠ [] ∧ ∃ x y, fl = x :: y ∧ x ≠ '{' ∧ x ≠ '}' ∧ y.length = fillTail x := by
  unfold parseFill at h
  have htd := List.take_append_drop (codePointLength b) (b :: r)
  cases hd : (b :: r).drop (codePointLength b) with
  | nil => rw [hd] at h; cases h
  | cons f rest =>
    rw [hd] at h htd
    simp only at h
    split at h
    · cases h
    · rename_i hb1
      obtain ⟨c1, h1, h2⟩ := Res.bind_eq_ok.mp h
      obtain ⟨e1, e2, e3⟩ := enterState_sound h1
      have hal : parseAlign f ≠ .none := by simpa using e3
      obtain ⟨ht, hnum⟩ := parseAlign_text f hal
      simp only [Res.ok.injEq, Prod.mk.injEq] at h2
      obtain ⟨rfl, rfl, rfl⟩ := h2
      have hlen := congrArg List.length hd
      rw [List.length_drop, List.length_cons] at hlen
      have htake : (b :: r).take (codePointLength b) = b :: r.take (fillTail b) := by rw [codePointLength_eq]; rfl
      refine ⟨e1, ?_, _, _, rfl, ?_, hal, hnum, ?_, b, _, htake, hb1, hb, ?_⟩
      · cases cur <;> first | rfl | exact absurd e2 (by decide)
      · rw [ht]; exact htd.symm
      · rw [htake]; nofun
      · rw [List.length_take, Nat.min_eq_left]
        rw [codePointLength_eq] at hlen
        simp at hlen
        omega

theorem St.nums : St.sign.toNat = 2 ∧ St.hash.toNat = 3 ∧ St.zero.toNat = 4 ∧ St.width.toNat = 5 ∧
    St.precision.toNat = 6 ∧ St.locale.toNat = 7 := by decide

theorem alignText_none : alignText .none = [] := rfl
theorem signText_none : signOptText .none = [] := rfl

theorem numParse_none (v : Int) (ref : ArgRef) (n : Int) : numParse .none v ref n = some (v, ref, n) := rfl

theorem loopAt_sound {ty : Ty} (hty : ty ≠ .none) {f : Str} {sp' : Specs} {n' : Int} : ∀ (fuel : Nat) (pos : Str) (cur : St)
    (sp : Specs) (n : Int), loopAt ty fuel pos cur sp n = .ok (sp', '}' :: f, n') →
    ∃ o : Opts, o.Valid ty ∧ Absent cur.toNat o ∧ pos = o.text ++ '}' :: f ∧ a1 o sp n = some (sp', n')
  | 0, pos, cur, sp, n, h => by
    cases pos with
    | nil => simp [loopAt] at h
    | cons b r => simp [loopAt, specLoop] at h
  | fuel + 1, pos, cur, sp, n, h => by
    cases pos with
    | nil => simp [loopAt] at h
    | cons b r =>
      have ih := loopAt_sound hty fuel (f := f) (sp' := sp') (n' := n')
      change specLoop ty (fuel + 1) b b r cur sp n = _ at h
      rw [specLoop_succ] at h
      simp only [if_neg hty] at h
      split at h
      · -- alignment
        rename_i hc
        obtain ⟨c1, h1, h2⟩ := Res.bind_eq_ok.mp h
        obtain ⟨rfl, e2, _⟩ := enterState_sound h1
        obtain ⟨o, hv, ha, ht, hs⟩ := ih _ _ _ _ h2
        have hal : parseAlign b ≠ .none := by rcases hc with rfl | rfl | rfl <;> decide
        obtain ⟨q1, q2⟩ := parseAlign_text b hal
        obtain ⟨a1', a2'⟩ := ha.align (by decide)
        refine ⟨{ o with align := parseAlign b }, ?_, ?_, ?_, ?_⟩
        · exact ⟨q2, fun h => absurd a2' h, hv.sign, hv.alt, hv.zero, hv.width, hv.prec, hv.loc, hv.type⟩
        · have : cur.toNat = 0 := Nat.lt_one_iff.mp e2
          rw [this]
          constructor <;> (intro h; omega)
        · rw [ht]
          simp [Opts.text, a1', a2', q1, alignText_none]
        · rw [← hs]
          simp [a1, stAlign, a1', a2', hal, a2, a3, a4, a5, a6, a7, stSign, stAlt, stZero, stLoc, stType]
      · split at h
        · -- sign
          rename_i _ hc
          obtain ⟨c1, h1, h2⟩ := Res.bind_eq_ok.mp h
          obtain ⟨rfl, e2, e3⟩ := enterState_sound h1
          obtain ⟨o, hv, ha, ht, hs⟩ := ih _ _ _ _ h2
          obtain ⟨a1', a2'⟩ := ha.align (by decide)
          have a3' := ha.sign (by decide)
          generalize hsg : (if b = '+' then Sign.plus else if b = '-' then Sign.minus else Sign.space) = sg at hs
          have hsg2 : signOptText sg = [b] ∧ sg ≠ .none := by
            rw [← hsg]
            rcases hc with rfl | rfl | rfl <;> exact ⟨rfl, by decide⟩
          rw [Bool.or_eq_true, sint_iff, float_iff] at e3
          refine ⟨{ o with sign := sg }, ?_, ?_, ?_, ?_⟩
          · exact ⟨hv.align, hv.fill, fun _ => e3, hv.alt, hv.zero, hv.width, hv.prec, hv.loc, hv.type⟩
          · simp only [St.nums] at e2
            constructor
            · intro h; exact ⟨a1', a2'⟩
            all_goals (intro h; omega)
          · rw [ht]
            simp [Opts.text, a1', a2', a3', hsg2.1, alignText_none, signText_none]
          · rw [← hs]
            simp [a1, stAlign, a1', a3', hsg2.2, a2, a3, a4, a5, a6, a7, stSign, stAlt, stZero, stLoc, stType]
        · split at h
          · -- hash
            rename_i _ _ hc
            obtain ⟨c1, h1, h2⟩ := Res.bind_eq_ok.mp h
            obtain ⟨rfl, e2, e3⟩ := enterState_sound h1
            obtain ⟨o, hv, ha, ht, hs⟩ := ih _ _ _ _ h2
            obtain ⟨a1', a2'⟩ := ha.align (by decide)
            have a3' := ha.sign (by decide)
            have a4' := ha.alt (by decide)
            rw [arith_iff] at e3
            refine ⟨{ o with alt := true }, ?_, ?_, ?_, ?_⟩
            · exact ⟨hv.align, hv.fill, hv.sign, fun _ => e3, hv.zero, hv.width, hv.prec, hv.loc, hv.type⟩
            · simp only [St.nums] at e2
              constructor
              · intro h; exact ⟨a1', a2'⟩
              · intro h; exact a3'
              all_goals (intro h; omega)
            · rw [ht, hc]
              simp [Opts.text, a1', a2', a3', a4', alignText_none, signText_none]
            · rw [← hs]
              simp [a1, stAlign, a1', a3', a4', a2, a3, a4, a5, a6, a7, stSign, stAlt, stZero, stLoc, stType]
          · split at h
            · -- zero
              rename_i _ _ _ hc
              obtain ⟨c1, h1, h2⟩ := Res.bind_eq_ok.mp h
              obtain ⟨rfl, e2, _⟩ := enterState_sound h1
              split at h2
              · cases h2
              · rename_i har
                have e3 : ty.arith = true := by simpa using har
                rw [arith_iff] at e3
                have h3 : loopAt ty fuel r .zero
                    (if sp.align = .none then { sp with align := .numeric, fill := sp.fill.set 0 '0' } else sp) n
                    = .ok (sp', '}' :: f, n') := by
                  split at h2
                  · rename_i hal; rw [if_pos hal]; exact h2
                  · rename_i hal; rw [if_neg hal]; exact h2
                obtain ⟨o, hv, ha, ht, hs⟩ := ih _ _ _ _ h3
                obtain ⟨a1', a2'⟩ := ha.align (by decide)
                have a3' := ha.sign (by decide)
                have a4' := ha.alt (by decide)
                have a5' := ha.zero (by decide)
                refine ⟨{ o with zero := true }, ?_, ?_, ?_, ?_⟩
                · exact ⟨hv.align, hv.fill, hv.sign, hv.alt, fun _ => e3, hv.width, hv.prec, hv.loc, hv.type⟩
                · simp only [St.nums] at e2
                  constructor
                  · intro h; exact ⟨a1', a2'⟩
                  · intro h; exact a3'
                  · intro h; exact a4'
                  all_goals (intro h; omega)
                · rw [ht, hc]
                  simp [Opts.text, a1', a2', a3', a4', a5', alignText_none, signText_none]
                · rw [← hs]
                  simp only [a1, stAlign, a1', a3', a4', a5', a2, a3, a4, stSign, stAlt, stZero, if_true, Bool.false_eq_true, if_false]
                  rfl
            · split at h
              · -- width
                rename_i _ _ _ hc0 hc
                obtain ⟨c1, h1, h2⟩ := Res.bind_eq_ok.mp h
                obtain ⟨rfl, e2, _⟩ := enterState_sound h1
                obtain ⟨⟨w, ref, pos, n1⟩, h3, h4⟩ := Res.bind_eq_ok.mp h2
                simp only at h4
                obtain ⟨q, qv, qt, qp, qn⟩ := parseDynamicSpec_sound h3
                obtain ⟨o, hv, ha, ht, hs⟩ := ih _ _ _ _ h4
                obtain ⟨a1', a2'⟩ := ha.align (by decide)
                have a3' := ha.sign (by decide)
                have a4' := ha.alt (by decide)
                have a5' := ha.zero (by decide)
                have a6' := ha.width (by decide)
                refine ⟨{ o with width := q }, ?_, ?_, ?_, ?_⟩
                · refine ⟨hv.align, hv.fill, hv.sign, hv.alt, hv.zero, ⟨qv, ?_⟩, hv.prec, hv.loc, hv.type⟩
                  intro d hd hh
                  change q = .lit d at hd
                  rw [hd, Num.text] at qt
                  cases d with
                  | nil => cases hh
                  | cons x d =>
                    simp only [List.head?_cons, Option.some.injEq] at hh
                    simp only [List.cons_append, List.cons.injEq] at qt
                    exact hc0 (qt.1.trans hh)
                · simp only [St.nums] at e2
                  constructor
                  · intro h; exact ⟨a1', a2'⟩
                  · intro h; exact a3'
                  · intro h; exact a4'
                  · intro h; exact a5'
                  all_goals (intro h; omega)
                · rw [qt, ht]
                  simp [Opts.text, a1', a2', a3', a4', a5', a6', alignText_none, signText_none, Num.text]
                · rw [← hs]
                  simp only [a1, stAlign, a1', a3', a4', a5', a6', a2, a3, a4, a5, stSign, stAlt, stZero, if_true,
                    Bool.false_eq_true, if_false, qp, Option.bind_some, numParse_none, Int.toNat_natCast]
                  rfl
              · split at h
                · -- precision
                  rename_i _ _ _ _ _ hc
                  obtain ⟨c1, h1, h2⟩ := Res.bind_eq_ok.mp h
                  obtain ⟨rfl, e2, e3⟩ := enterState_sound h1
                  obtain ⟨⟨w, ref, pos, n1⟩, h3, h4⟩ := Res.bind_eq_ok.mp h2
                  simp only at h4
                  obtain ⟨d, t, rfl, hd, h5⟩ : ∃ d t, r = d :: t ∧ d ≠ '}' ∧
                      parseDynamicSpec (d :: t) sp.precision sp.precisionRef n = .ok (w, ref, pos, n1) := by
                    cases r with
                    | nil => simp [parsePrecision] at h3
                    | cons d t =>
                      simp only [parsePrecision] at h3
                      split at h3
                      · cases h3
                      · rename_i hd; exact ⟨d, t, rfl, hd, h3⟩
                  obtain ⟨q, qv, qt, qp, qn⟩ := parseDynamicSpec_sound h5
                  obtain ⟨o, hv, ha, ht, hs⟩ := ih _ _ _ _ h4
                  obtain ⟨a1', a2'⟩ := ha.align (by decide)
                  have a3' := ha.sign (by decide)
                  have a4' := ha.alt (by decide)
                  have a5' := ha.zero (by decide)
                  have a6' := ha.width (by decide)
                  have a7' := ha.prec (by decide)
                  rw [Bool.or_eq_true, float_iff, text_iff] at e3
                  have otext : o.text = t7 o := by
                    simp [Opts.text, a1', a2', a3', a4', a5', a6', a7', alignText_none, signText_none, Num.text, precText, t7]
                  refine ⟨{ o with prec := some q }, ?_, ?_, ?_, ?_⟩
                  · refine ⟨hv.align, hv.fill, hv.sign, hv.alt, hv.zero, hv.width, ?_, hv.loc, hv.type⟩
                    intro p hp
                    cases hp
                    refine ⟨e3, qv, ?_⟩
                    intro hq
                    rw [hq, Num.text, List.nil_append, ht, otext] at qt
                    by_cases hl : o.loc = true
                    · exact Or.inl hl
                    · right
                      intro hty0
                      change o.type = .none at hty0
                      rw [t7, if_neg hl, hty0] at qt
                      exact hd (List.cons.inj qt).1
                  · simp only [St.nums] at e2
                    constructor
                    · intro h; exact ⟨a1', a2'⟩
                    · intro h; exact a3'
                    · intro h; exact a4'
                    · intro h; exact a5'
                    · intro h; exact a6'
                    all_goals (intro h; omega)
                  · rw [qt, ht, hc]
                    simp [Opts.text, a1', a2', a3', a4', a5', a6', a7', alignText_none, signText_none, Num.text, precText]
                  · rw [← hs]
                    simp only [a1, stAlign, a1', a3', a4', a5', a6', a7', a2, a3, a4, a5, a6, stSign, stAlt, stZero, if_true,
                      Bool.false_eq_true, if_false, qp, Option.bind_some, numParse_none, Int.toNat_natCast]
                    rfl
                · split at h
                  · -- locale
                    rename_i _ _ _ _ _ _ hc
                    obtain ⟨c1, h1, h2⟩ := Res.bind_eq_ok.mp h
                    obtain ⟨rfl, e2, e3⟩ := enterState_sound h1
                    obtain ⟨o, hv, ha, ht, hs⟩ := ih _ _ _ _ h2
                    obtain ⟨a1', a2'⟩ := ha.align (by decide)
                    have a3' := ha.sign (by decide)
                    have a4' := ha.alt (by decide)
                    have a5' := ha.zero (by decide)
                    have a6' := ha.width (by decide)
                    have a7' := ha.prec (by decide)
                    have a8' := ha.loc (by decide)
                    rw [arith_iff] at e3
                    refine ⟨{ o with loc := true }, ?_, ?_, ?_, ?_⟩
                    · refine ⟨hv.align, hv.fill, hv.sign, hv.alt, hv.zero, hv.width, ?_, fun _ => e3, hv.type⟩
                      intro p hp
                      change o.prec = some p at hp
                      rw [a7'] at hp
                      cases hp
                    · simp only [St.nums] at e2
                      constructor
                      · intro h; exact ⟨a1', a2'⟩
                      · intro h; exact a3'
                      · intro h; exact a4'
                      · intro h; exact a5'
                      · intro h; exact a6'
                      · intro h; exact a7'
                      all_goals (intro h; omega)
                    · rw [ht, hc]
                      simp [Opts.text, a1', a2', a3', a4', a5', a6', a7', a8', alignText_none, signText_none, Num.text, precText]
                    · rw [← hs]
                      simp only [a1, stAlign, a1', a3', a4', a5', a6', a7', a8', a2, a3, a4, a5, a6, a7, stSign, stAlt, stZero,
                        stLoc, if_true, Bool.false_eq_true, if_false, Option.bind_some, numParse_none, Int.toNat_natCast]
                      rfl
                  · split at h
                    · -- type
                      rename_i _ p set hp
                      split at h
                      · cases h
                      · rename_i hset
                        obtain ⟨p1, p2, p3⟩ := presOf_sound _ _ _ hp
                        simp only [Res.ok.injEq, Prod.mk.injEq] at h
                        obtain ⟨h1, h2, h3⟩ := h
                        refine ⟨{ type := p }, ?_, ?_, ?_, ?_⟩
                        · have v := valid_nil ty
                          exact ⟨v.align, v.fill, v.sign, v.alt, v.zero, v.width, nofun, v.loc,
                            (p3 ty).mp (by simpa using hset)⟩
                        · constructor
                          · intro _; exact ⟨rfl, rfl⟩
                          all_goals (intro _; rfl)
                        · rw [h2]
                          simp [Opts.text, p2, alignText_none, signText_none, Num.text, precText]
                        · rw [← h1, ← h3]
                          simp [a1, a2, a3, a4, a5, a6, a7, stAlign, stSign, stAlt, stZero, stLoc, stType, numParse, p1]
                    · split at h
                      · -- end
                        simp only [Res.ok.injEq, Prod.mk.injEq] at h
                        obtain ⟨h1, h2, h3⟩ := h
                        refine ⟨{}, valid_nil ty, ?_, ?_, ?_⟩
                        · constructor
                          · intro _; exact ⟨rfl, rfl⟩
                          all_goals (intro _; rfl)
                        · rw [h2]; rfl
                        · rw [← h1, ← h3]; rfl
                      · rename_i hb
                        obtain ⟨⟨pos, cur', sp1⟩, h1, h2⟩ := Res.bind_eq_ok.mp h
                        simp only at h2
                        obtain ⟨rfl, rfl, fl, al, rfl, hbr, q1, q2, q3, q4⟩ :=
                          parseFill_sound (ty := ty) (fun e => hb (Or.inr e)) h1
                        obtain ⟨o, hv, ha, ht, hs⟩ := ih _ _ _ _ h2
                        obtain ⟨a1', a2'⟩ := ha.align (by decide)
                        refine ⟨{ o with fill := fl, align := al }, ?_, ?_, ?_, ?_⟩
                        · exact ⟨q2, fun _ => ⟨q1, q4⟩, hv.sign, hv.alt, hv.zero, hv.width, hv.prec, hv.loc, hv.type⟩
                        · constructor <;> (intro h; simp [St.toNat] at h)
                        · rw [hbr, ht]
                          simp [Opts.text, a1', a2', alignText_none]
                        · rw [← hs]
                          simp [a1, stAlign, a1', q1, q3, a2, a3, a4, a5, a6, a7, stSign, stAlt, stZero, stLoc, stType]

/-- what is read was written -/
theorem parseFormatSpecs_sound {ty : Ty} (hty : ty ≠ .none) {pos f : Str} {sp' : Specs} {n n' : Int}
    (h : parseFormatSpecs ty pos n = .ok (sp', '}' :: f, n')) :
    ∃ o : Opts, o.Valid ty ∧ pos = o.text ++ '}' :: f ∧ a1 o {} n = some (sp', n') := by
  match pos, h with
  | [], h => simp [parseFormatSpecs] at h
  | [b], h =>
    obtain ⟨o, hv, _, ht, hs⟩ := loopAt_sound hty 1 [b] .start {} n h
    exact ⟨o, hv, ht, hs⟩
  | b :: x :: r, h =>
    simp only [parseFormatSpecs] at h
    by_cases hx : parseAlign x = .none
    · rw [if_pos hx] at h
      obtain ⟨o, hv, _, ht, hs⟩ := loopAt_sound hty (r.length + 2) (b :: x :: r) .start {} n h
      exact ⟨o, hv, ht, hs⟩
    · rw [if_neg hx, specLoop_fill _ _ _ _ _ _ _ _ (Or.inl (by decide))] at h
      split at h
      · rename_i hb
        simp only [Res.ok.injEq, Prod.mk.injEq] at h
        obtain ⟨h1, h2, h3⟩ := h
        exact ⟨{}, valid_nil ty, by rw [h2]; rfl, by rw [← h1, ← h3]; rfl⟩
      · rename_i hb
        obtain ⟨⟨pos, cur', sp1⟩, h1, h2⟩ := Res.bind_eq_ok.mp h
        simp only at h2
        obtain ⟨rfl, _, fl, al, rfl, hbr, q1, q2, q3, q4⟩ := parseFill_sound (ty := ty) hb h1
        obtain ⟨o, hv, ha, ht, hs⟩ := loopAt_sound hty _ _ _ _ _ h2
        obtain ⟨a1', a2'⟩ := ha.align (by decide)
        refine ⟨{ o with fill := fl, align := al }, ?_, ?_, ?_⟩
        · exact ⟨q2, fun _ => ⟨q1, q4⟩, hv.sign, hv.alt, hv.zero, hv.width, hv.prec, hv.loc, hv.type⟩
        · rw [hbr, ht]
          simp [Opts.text, a1', a2', alignText_none]
        · rw [← hs]
          simp [a1, stAlign, a1', q1, q3, a2, a3, a4, a5, a6, a7, stSign, stAlt, stZero, stLoc, stType]

end Fmt
end Efp
