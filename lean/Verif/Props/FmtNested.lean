import Verif.Fmt.NestedLemmas
import Verif.Props.FmtViews

/-!
# Properties of formatters built on `nested_formatter` (C161)
-/

namespace Efp
namespace Props

open Efp.Spec Efp.Spec.Fmt Efp.Fmt Dragonbox

/-- the options of the whole: fill, alignment and width -/
def wholeOpts (o : Opts) : Opts := { fill := o.fill, align := o.align, width := o.width }

/-- the options of the members: all the others -/
def memberOpts (o : Opts) : Opts := { sign := o.sign, alt := o.alt, zero := o.zero, prec := o.prec, loc := o.loc, type := o.type }

/-- the text of the object, given the texts of its members -/
def whole (txt : Arg → Str) : List Part → Str
  | [] => []
  | .text s :: ps => s ++ whole txt ps
  | .member v :: ps => txt v ++ whole txt ps

/-- literal pieces of bytes -/
def PartsOk (ty : Ty) (ps : List Part) : Prop :=
  (∀ v, Part.member v ∈ ps → Element ty v) ∧ ∀ s, Part.text s ∈ ps → Bytes s

/-- The English property: the object is padded to the width as a text, and its members take the other options. -/
def PadsWhole (ty : Ty) (ps : List Part) (o : Opts) (l : List (Option Str × Arg)) : Prop :=
  ∀ (txt : Arg → Str), (∀ v, Part.member v ∈ ps → format (field (memberOpts o)) ((none, v) :: l) = .ok (txt v)) →
    format (field o) ((none, nestedArg ty ps) :: l) = format (field (wholeOpts o)) ((none, .string (whole txt ps)) :: l)

theorem writeParts_eq {ctx : Args} {sp : Specs} {txt : Arg → Str} : ∀ (ps : List Part) (out : Str),
    (∀ v, Part.member v ∈ ps → nativeFormat ctx sp v = .ok (txt v)) → writeParts ctx sp ps out = .ok (out ++ whole txt ps)
  | [], out, _ => by simp [writeParts, whole]
  | .text s :: ps, out, h => by
    rw [writeParts, writeParts_eq ps _ fun v hv => h v (List.mem_cons_of_mem _ hv), whole, List.append_assoc]
  | .member v :: ps, out, h => by
    rw [writeParts, h v (by simp), Res.bind_ok, writeParts_eq ps _ fun v hv => h v (List.mem_cons_of_mem _ hv), whole,
      List.append_assoc]

theorem whole_bytes {txt : Arg → Str} : ∀ (ps : List Part), (∀ s, Part.text s ∈ ps → Bytes s) →
    (∀ v, Part.member v ∈ ps → Bytes (txt v)) → Bytes (whole txt ps)
  | [], _, _ => nofun
  | .text s :: ps, h1, h2 => by
    intro c hc
    rcases List.mem_append.1 hc with h | h
    · exact h1 s (by simp) c h
    · exact whole_bytes ps (fun s hs => h1 s (List.mem_cons_of_mem _ hs)) (fun v hv => h2 v (List.mem_cons_of_mem _ hv)) c h
  | .member v :: ps, h1, h2 => by
    intro c hc
    rcases List.mem_append.1 hc with h | h
    · exact h2 v (by simp) c h
    · exact whole_bytes ps (fun s hs => h1 s (List.mem_cons_of_mem _ hs)) (fun v hv => h2 v (List.mem_cons_of_mem _ hv)) c h

/-- a width or precision that no argument gives is read as it stands -/
theorem value_lit {q : Num} {a n v n' : Int} (h : q.value [] a n = some (v, n')) : numParse q a .none n = some (v, .none, n') ∧ n' = n := by
  cases q with
  | none => cases h; exact ⟨rfl, rfl⟩
  | lit d => cases h; exact ⟨rfl, rfl⟩
  | arg r =>
    simp only [Num.value, Option.bind_eq_bind, Option.bind_eq_some_iff, Prod.exists] at h
    obtain ⟨i, m, -, b, c, h2, -⟩ := h
    exact nomatch h2

theorem precValue_lit {q : Option Num} {n v n' : Int} (h : precValue [] q n = some (v, n')) :
    precParse q n = some (v, .none, n') ∧ n' = n := by
  cases q with
  | none => cases h; exact ⟨rfl, rfl⟩
  | some q => exact value_lit h

/-- without width and precision a text stays as it is -/
theorem showStr_no_width {s : Str} (hB : Bytes s) {sp : Specs} (hw : sp.width = 0) (ht : sp.type = .none) (hp : ¬ 0 ≤ sp.precision) :
    showStr isPrintable s sp = s := by
  unfold showStr
  rw [if_neg (by rw [ht]; nofun)]
  simp only [hp, if_false]
  rw [join_pieces _ hB, pad, hw]
  simp only [Nat.zero_sub]
  cases sp.align <;> simp [copies]

/-- a field of its own -/
theorem own_field {v : Arg} (hok : ArgOk v) (hc : v.ty ≠ .custom) {o : Opts} (hv : o.Valid v.ty) {w p : Int} (hg : Gives [] o w p)
    {l : List (Option Str × Arg)} (hm : l.length < 2 ^ 31 - 1) (hl : ∀ q ∈ l, ArgOk q.2)
    {t : Str} (ht : showSpecs isPrintable (o.meaning w p) v = some t) : format (field o) ((none, v) :: l) = .ok t := by
  obtain ⟨n2, n3, h1, h2⟩ := hg
  have lit : ∀ {q : Num} {a n x n' : Int}, q.value [] a n = some (x, n') → q.value ((none, v) :: l) a n = some (x, n') := by
    intro q a n x n' h
    cases q with
    | none => exact h
    | lit d => exact h
    | arg r =>
      simp only [Num.value, Option.bind_eq_bind, Option.bind_eq_some_iff, Prod.exists] at h
      obtain ⟨i, m, -, b, c, h2, -⟩ := h
      exact nomatch h2
  rw [format_iff (by rw [List.length_cons]; omega) (by
    rintro q hq
    rcases List.mem_cons.1 hq with rfl | hq
    · exact hok
    · exact hl q hq)]
  have h2' : precValue ((none, v) :: l) o.prec n2 = some (p, n3) := by
    cases ho : o.prec with
    | none => rw [ho] at h2; exact h2
    | some q => rw [ho] at h2; exact lit h2
  have := Formats.opts (printable := isPrintable) (l := (none, v) :: l) (n := 0) (f := []) (out := []) .auto o (i := 0) (n1 := 1)
    (a := (none, v)) trivial rfl rfl hc hv (lit h1) h2' ht (.done n3)
  rw [List.append_nil] at this
  exact this

/-- the call, with whatever the parser makes of the width -/
theorem nested_format (ty : Ty) (ps : List Part) (hps : PartsOk ty ps) (hty : ty ≠ .custom ∧ ty ≠ .none) (o : Opts)
    (hv : o.Valid ty) (hs : o.sign = .none) (ha : o.alt = false) (hz : o.zero = false) (w p n n' : Int) (ref : ArgRef)
    (e1 : numParse o.width 0 .none 1 = some (w, ref, n)) (e2 : precParse o.prec n = some (p, .none, n'))
    (txt : Arg → Str) (ht : ∀ v, Part.member v ∈ ps → showSpecs isPrintable ((memberOpts o).meaning 0 p) v = some (txt v))
    (hb : ∀ v, Part.member v ∈ ps → Bytes (txt v)) (l : List (Option Str × Arg)) (hm : l.length < 2 ^ 31 - 1)
    (hl : ∀ q ∈ l, ArgOk q.2) :
    format (field o) ((none, nestedArg ty ps) :: l) =
      .ok (showStr isPrintable (whole txt ps) ((wholeOpts o).meaning w (-1))) := by
  have hmem : memberOpts o = innerOpts o := by simp [memberOpts, innerOpts, hs, ha, hz]
  have hB : Bytes (whole txt ps) := whole_bytes ps hps.2 hb
  rw [hmem] at ht
  have hvi := inner_valid hv
  have hinner : ∃ sp, nativeParse ty (t6 o ++ ['}']) n = .ok (sp, ['}'], n') ∧ sp = (innerOpts o).meaning 0 p := by
    have hp := parseFormatSpecs_text hty.2 hvi [] n ((a1_eq hvi n _ n').mpr ⟨0, .none, n, p, .none, rfl, e2, rfl⟩)
    rw [inner_text] at hp
    refine ⟨_, ?_, rfl⟩
    unfold nativeParse
    rw [hp, Res.bind_ok]
    simp only
    by_cases hcc : ty = .char
    · subst hcc
      obtain ⟨b, hb⟩ := (checkCharSpecs_iff hvi 0 p .none .none).mpr fun _ => ⟨rfl, rfl, nofun⟩
      rw [if_pos rfl, hb, Res.bind_ok]
      rfl
    · rw [if_neg hcc]
      rfl
  obtain ⟨sp, hi, rfl⟩ := hinner
  have hout := nested_outer hv hs ha hz (f := []) 1 e1
  have hinv := (parseFormatSpecs_inv (nativeParse_ok hi)).1
  have hinv2 := (parseFormatSpecs_inv hout).1
  obtain ⟨g, hg, hsuf⟩ := nested_suffix ty ps
  rw [hg]
  refine format_custom_field g hsuf hm hl (n' := n') ?_
  rw [← Arg.custom.inj hg]
  have hn : ∀ v, Part.member v ∈ ps → nativeFormat (nestedCtx ps) ((innerOpts o).meaning 0 p) v = .ok (txt v) := by
    intro v hv'
    obtain ⟨q1, q2, -⟩ := hps.1 v hv'
    unfold nativeFormat
    rw [if_neg (by simp [Opts.meaning])]
    refine (agrees_iff (writeSpecs_agrees v _ q2 (by simp [Opts.meaning]) ?_ (by rw [q1]; exact hty.1)) _).2 (ht v hv')
    intro r1 r2
    rw [q1] at r1 r2
    exact (hinv.2 r1 r2).1
  unfold nestedParse
  beta_reduce
  rw [hout, Res.bind_ok]
  simp only
  rw [hi, Res.bind_ok, Res.bind_ok]
  simp only
  rw [writeParts_eq ps [] hn, Res.bind_ok, List.nil_append]
  have hsp : ({ width := w.toNat, fill := (stAlign o {}).fill, align := (stAlign o {}).align } : Specs) =
      (wholeOpts o).meaning w (-1) := by
    simp only [stAlign, Opts.meaning, wholeOpts]
    by_cases hal : o.align = .none
    · have hf : o.fill = [] := by
        cases hf : o.fill with
        | nil => rfl
        | cons x y => exact absurd hal (hv.fill (by rw [hf]; nofun)).1
      simp [hal, hf]
    · by_cases hf : o.fill = [] <;> simp [hal, hf]
  rw [hsp]
  have hw31 : ((wholeOpts o).meaning w (-1)).width < 2 ^ 31 := hinv2.1
  unfold nestedPadded
  by_cases hw0 : ((wholeOpts o).meaning w (-1)).width = 0
  · rw [if_pos hw0, Res.bind_ok, showStr_no_width hB hw0 rfl (by simp [Opts.meaning])]
  · rw [if_neg hw0, writeStr_eq _ _ hB hw31, Res.bind_ok]

/-- Fill, alignment and a literal width pad the text of the whole object as they pad a string, and every member is written
as in a field of its own with the precision, the locale flag and the type.  This covers the options without sign, `#` and
zero flag and with no number taken from an argument. -/
theorem C161_pads_whole_partial (ty : Ty) (ps : List Part) (hps : PartsOk ty ps) (hty : ty ≠ .custom ∧ ty ≠ .none) (o : Opts)
    (hv : o.Valid ty) (hs : o.sign = .none) (ha : o.alt = false) (hz : o.zero = false) (w p : Int) (hg : Gives [] o w p)
    (txt : Arg → Str) (ht : ∀ v, Part.member v ∈ ps → showSpecs isPrintable ((memberOpts o).meaning 0 p) v = some (txt v))
    (hb : ∀ v, Part.member v ∈ ps → Bytes (txt v)) (l : List (Option Str × Arg)) (hm : l.length < 2 ^ 31 - 1)
    (hl : ∀ q ∈ l, ArgOk q.2) :
    (∀ v, Part.member v ∈ ps → format (field (memberOpts o)) ((none, v) :: l) = .ok (txt v)) ∧
      format (field o) ((none, nestedArg ty ps) :: l) =
        .ok (showStr isPrintable (whole txt ps) ((wholeOpts o).meaning w (-1))) ∧
      format (field (wholeOpts o)) ((none, .string (whole txt ps)) :: l) =
        .ok (showStr isPrintable (whole txt ps) ((wholeOpts o).meaning w (-1))) := by
  have hB : Bytes (whole txt ps) := whole_bytes ps hps.2 hb
  obtain ⟨n2, n3, h1, h2⟩ := hg
  obtain ⟨e1, rfl⟩ := value_lit h1
  obtain ⟨e2, rfl⟩ := precValue_lit h2
  have hvw : (wholeOpts o).Valid .string := ⟨hv.align, hv.fill, nofun, nofun, nofun, hv.width, nofun, nofun, trivial⟩
  refine ⟨fun v hv' => ?_, nested_format ty ps hps hty o hv hs ha hz w p _ _ _ e1 e2 txt ht hb l hm hl, ?_⟩
  · have hmem : memberOpts o = innerOpts o := by simp [memberOpts, innerOpts, hs, ha, hz]
    rw [hmem] at ht ⊢
    obtain ⟨q1, q2, -⟩ := hps.1 v hv'
    exact own_field (o := innerOpts o) (w := 0) (p := p) q2 (by rw [q1]; exact hty.1) (by rw [q1]; exact inner_valid hv)
      ⟨1, 1, rfl, h2⟩ hm hl (ht v hv')
  · exact own_field (v := .string (whole txt ps)) (o := wholeOpts o) (w := w) (p := -1) hB nofun hvw ⟨1, 1, h1, rfl⟩ hm hl rfl

/-- A width given by an argument is read and then ignored, whatever that argument is and even if it does not exist: the
object is not padded. -/
theorem C161_width_argument (ty : Ty) (ps : List Part) (hps : PartsOk ty ps) (hty : ty ≠ .custom ∧ ty ≠ .none) (o : Opts)
    (hv : o.Valid ty) (hs : o.sign = .none) (ha : o.alt = false) (hz : o.zero = false) (r : Ref) (hw : o.width = .arg r)
    (n n' p : Int) (h1 : o.width.skip 1 = some n) (h2 : precValue [] o.prec n = some (p, n'))
    (txt : Arg → Str) (ht : ∀ v, Part.member v ∈ ps → showSpecs isPrintable ((memberOpts o).meaning 0 p) v = some (txt v))
    (hb : ∀ v, Part.member v ∈ ps → Bytes (txt v)) (l : List (Option Str × Arg)) (hm : l.length < 2 ^ 31 - 1)
    (hl : ∀ q ∈ l, ArgOk q.2) : format (field o) ((none, nestedArg ty ps) :: l) = .ok (whole txt ps) := by
  have hB : Bytes (whole txt ps) := whole_bytes ps hps.2 hb
  obtain ⟨w, ref, e1⟩ := (skip_iff _ 0 _ _).mpr h1
  obtain ⟨e2, rfl⟩ := precValue_lit h2
  have hw0 : w = 0 := by
    rw [hw] at e1
    simp only [numParse, Option.map_eq_some_iff] at e1
    obtain ⟨x, -, h⟩ := e1
    cases h
    rfl
  rw [nested_format ty ps hps hty o hv hs ha hz w p _ _ _ e1 e2 txt ht hb l hm hl,
    showStr_no_width hB (by rw [hw0]; rfl) rfl (by simp [Opts.meaning])]

/-- the object of the examples: two numbers in parentheses -/
def pairParts (a b : Int) : List Part := [.text "(".toList, .member (.int a), .text ", ".toList, .member (.int b), .text ")".toList]

theorem pairParts_ok {a b : Int} (ha : -2 ^ 31 ≤ a ∧ a < 2 ^ 31) (hb : -2 ^ 31 ≤ b ∧ b < 2 ^ 31) :
    PartsOk .int (pairParts a b) := by
  refine ⟨fun v hv => ?_, fun s hs => ?_⟩
  · simp only [pairParts, List.mem_cons, Part.member.injEq, reduceCtorEq, List.not_mem_nil, or_false, false_or] at hv
    rcases hv with rfl | rfl
    · exact ⟨rfl, ha, Or.inl ⟨by simp [floating], nofun⟩⟩
    · exact ⟨rfl, hb, Or.inl ⟨by simp [floating], nofun⟩⟩
  · simp only [pairParts, List.mem_cons, Part.text.injEq, reduceCtorEq, List.not_mem_nil, or_false, false_or] at hs
    unfold Bytes
    rcases hs with rfl | rfl | rfl <;> decide

/-- the numbers 10 and 255 in base 16 -/
def hexTexts : Arg → Str
  | .int 10 => "a".toList
  | _ => "ff".toList

-- the pair (10, 255) with `{:*^9x}`
example : format "{:*^9x}".toList [(none, nestedArg .int (pairParts 10 255))] = .ok "*(a, ff)*".toList :=
  (C161_pads_whole_partial .int (pairParts 10 255) (pairParts_ok (by decide) (by decide)) ⟨nofun, nofun⟩
    { fill := ['*'], align := .center, width := .lit ['9'], type := .hexLower }
    ⟨nofun, fun _ => ⟨nofun, '*', [], rfl, by decide, by decide, by decide⟩, fun h => absurd rfl h, nofun, nofun,
      ⟨⟨nofun, by decide, by decide⟩, fun d hd => by cases hd; decide⟩, nofun, nofun, Or.inl (Or.inl rfl)⟩
    rfl rfl rfl 9 (-1) ⟨1, 1, by decide, rfl⟩ hexTexts
    (by
      intro v hv
      simp only [pairParts, List.mem_cons, Part.member.injEq, reduceCtorEq, List.not_mem_nil, or_false, false_or] at hv
      rcases hv with rfl | rfl <;> decide +kernel)
    (by
      intro v hv
      unfold hexTexts Bytes
      split <;> decide)
    [] (by decide) nofun).2.1.trans (by decide +kernel)
-- the same pair with `{:{}x}`: the text that is given for the width is not even looked at
example : format "{:{}x}".toList [(none, nestedArg .int (pairParts 10 255)), (none, .string "abc".toList)] = .ok "(a, ff)".toList :=
  C161_width_argument .int (pairParts 10 255) (pairParts_ok (by decide) (by decide)) ⟨nofun, nofun⟩
    { width := .arg .auto, type := .hexLower }
    ⟨nofun, fun h => absurd rfl h, fun h => absurd rfl h, nofun, nofun, ⟨trivial, nofun⟩, nofun, nofun, Or.inl (Or.inl rfl)⟩
    rfl rfl rfl .auto rfl 2 2 (-1) rfl rfl hexTexts
    (by
      intro v hv
      simp only [pairParts, List.mem_cons, Part.member.injEq, reduceCtorEq, List.not_mem_nil, or_false, false_or] at hv
      rcases hv with rfl | rfl <;> decide +kernel)
    (by
      intro v hv
      unfold hexTexts Bytes
      split <;> decide)
    [(none, .string "abc".toList)] (by decide) (by
      intro q hq
      rw [List.mem_singleton.1 hq]
      show Bytes _
      unfold Bytes
      decide)

/-- The property is false in general: after a sign, a `#` or a zero flag the width goes to every member instead of the
whole. -/
theorem C161_refuted :
    ¬ (∀ (ty : Ty) (ps : List Part) (o : Opts) (l : List (Option Str × Arg)), PartsOk ty ps → o.Valid ty → PadsWhole ty ps o l) ∧
    format "{:+4}".toList [(none, nestedArg .int (pairParts 1 2))] = .ok "(  +1,   +2)".toList ∧
    format "{:#6x}".toList [(none, nestedArg .int (pairParts 1 2))] = .ok "(   0x1,    0x2)".toList ∧
    format "{:04}".toList [(none, nestedArg .int (pairParts 1 2))] = .ok "(0001, 0002)".toList := by
  refine ⟨fun h => ?_, by decide +kernel, by decide +kernel, by decide +kernel⟩
  have := h .int (pairParts 1 2) { sign := .plus, width := .lit ['4'] } [] (pairParts_ok (by decide) (by decide)) ?_
    (fun v => match v with | .int 1 => "+1".toList | _ => "+2".toList) ?_
  · revert this
    decide +kernel
  · exact ⟨nofun, fun h => absurd rfl h, fun _ => Or.inl (Or.inl rfl), nofun, nofun,
      ⟨⟨nofun, by decide, by decide⟩, fun d hd => by cases hd; decide⟩, nofun, nofun, trivial⟩
  · intro v hv
    simp only [pairParts, List.mem_cons, Part.member.injEq, reduceCtorEq, List.not_mem_nil, or_false, false_or] at hv
    rcases hv with rfl | rfl <;> decide +kernel

-- a precision given by an argument is looked up in the inner call and refused
example : format "{:.{}f}".toList [(none, nestedArg .double [.member (Kind.double.arg false 0x3FE0000000000000)]), (none, .int 3)] =
    .err "argument not found" := by decide +kernel

end Props
end Efp
