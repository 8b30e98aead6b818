import Verif.Fmt.CheckLemmas
import Verif.Props.FmtFloatPrec

/-!
# Properties of the compile-time check of format strings (C113)
-/

namespace Efp
namespace Props

open Efp.Spec Efp.Spec.Fmt Efp.Fmt Dragonbox

theorem typesOf_ne_none (l : List (Option Str × Arg)) : ∀ p ∈ typesOf l, p.2 ≠ .none := by
  intro p hp
  simp only [typesOf, List.mem_map] at hp
  obtain ⟨q, _, rfl⟩ := hp
  exact ty_ne_none q.2

/-- The check accepts exactly the format strings that fit the types of the arguments. -/
theorem C113_accepts_iff (tys : List (Option Str × Ty)) (hm : tys.length < 2 ^ 31) (hn : ∀ p ∈ tys, p.2 ≠ .none) (fmt : Str) :
    checkFormatString tys fmt = .ok () ↔ ∃ d, Accepts tys 0 fmt d := checkFormatString_iff hm hn fmt

/-- A format string the check rejects is an error at run time whatever the values of the arguments are: the check rejects
no program that could have worked. -/
theorem C113_rejected (l : List (Option Str × Arg)) (hm : l.length < 2 ^ 31) (hok : ∀ p ∈ l, ArgOk p.2)
    (hcu : ∀ p ∈ l, ∀ g, p.2 = .custom g → ∀ b n pos n' t, g b n = .ok (pos, n', t) → pos = b ∧ n' = n) (fmt : Str)
    (h : checkFormatString (typesOf l) fmt ≠ .ok ()) : ∃ e, format fmt l = .err e := by
  cases hf : format fmt l with
  | err e => exact ⟨e, rfl⟩
  | ub => exact absurd hf (format_ne_ub hm hok fmt)
  | ok out =>
    refine absurd ((C113_accepts_iff _ (by simpa [typesOf] using hm) (typesOf_ne_none l) fmt).2 ?_) h
    exact accepts_of_formats hcu ((format_iff hm hok fmt out).1 hf)

/-- A format string the check accepts is no error at run time, provided that the arguments a width or precision is taken
from exist, are integers (not `bool` or `char`) and have values from 0 to 10^9 - 1, that no number of ten or more digits is
written in it, and that no C string is null.  The first proviso is what the check leaves out. -/
theorem C113_accepted_partial (l : List (Option Str × Arg)) (hm : l.length < 2 ^ 31) (hok : ∀ p ∈ l, ArgOk p.2)
    (hs : ∀ p ∈ l, Showable p.2) (fmt : Str) (hf : ShortNumbers fmt) (d : List ArgRef) (h : Accepts (typesOf l) 0 fmt d)
    (hd : ∀ r ∈ d, ∃ a v, argOf l r = some a ∧ dynValue a = some v ∧ v < 1000000000) : ∃ out, format fmt l = .ok out := by
  obtain ⟨out, ho⟩ := formats_of_accepts hs h hd hf
  exact ⟨out, (format_iff hm hok fmt out).2 ho⟩

/-- in particular if no width or precision is taken from an argument -/
theorem C113_accepted_static (l : List (Option Str × Arg)) (hm : l.length < 2 ^ 31) (hok : ∀ p ∈ l, ArgOk p.2)
    (hs : ∀ p ∈ l, Showable p.2) (fmt : Str) (hf : ShortNumbers fmt) (h : Accepts (typesOf l) 0 fmt []) :
    checkFormatString (typesOf l) fmt = .ok () ∧ ∃ out, format fmt l = .ok out :=
  ⟨(C113_accepts_iff _ (by simpa [typesOf] using hm) (typesOf_ne_none l) fmt).2 ⟨_, h⟩,
    C113_accepted_partial l hm hok hs fmt hf [] h nofun⟩

/-- The check accepts a width taken from a `bool`, and one taken from a name that no argument has; both throw at run
time. -/
theorem C113_accepted_throws :
    (checkFormatString (typesOf [(none, .int 1), (none, .bool true)]) "{:{}}".toList = .ok () ∧
      format "{:{}}".toList [(none, .int 1), (none, .bool true)] = .err "width is not integer") ∧
    (checkFormatString (typesOf [(none, .int 1)]) "{:{x}}".toList = .ok () ∧
      format "{:{x}}".toList [(none, .int 1)] = .err "argument not found") := by decide +kernel

/-- So the check does not keep its promise in full. -/
theorem C113_accepted_fails : ¬ ∀ (l : List (Option Str × Arg)), l.length < 2 ^ 31 → (∀ p ∈ l, ArgOk p.2) →
    (∀ p ∈ l, Showable p.2) → ∀ fmt, ShortNumbers fmt → checkFormatString (typesOf l) fmt = .ok () →
    ∃ out, format fmt l = .ok out := by
  intro h
  have hsn : ShortNumbers "{:{}}".toList := by
    intro d hd _
    have := hd.length_le
    have h5 : ("{:{}}".toList).length = 5 := by decide
    omega
  obtain ⟨out, ho⟩ := h [(none, .int 1), (none, .bool true)] (by decide)
    (by intro p hp; simp only [List.mem_cons, List.not_mem_nil, or_false] at hp; rcases hp with rfl | rfl <;> simp [ArgOk])
    (by intro p hp; simp only [List.mem_cons, List.not_mem_nil, or_false] at hp; rcases hp with rfl | rfl <;> trivial)
    _ hsn C113_accepted_throws.1.1
  rw [C113_accepted_throws.1.2] at ho
  cases ho

/-- `float` and `double` arguments can always be shown. -/
theorem C113_float_showable (K : Kind) (neg : Bool) (m : Nat) : Showable (K.arg neg m) := by
  have ty : ∀ sp : Specs, Presents .double sp.type → ∃ fs, parseFloatTypeSpec sp = .ok fs := by
    intro sp h
    unfold parseFloatTypeSpec
    revert h
    cases sp.type <;> simp [Presents, integerLike, signedInt, textual, floating]
  have dflt : ∀ {F : Flt} {G : Format} (_ : Converts F G) (b : Nat), ∃ s, writeFloatDefault F b = .ok s := by
    intro F G h b
    by_cases hfin : G.Finite (magBits F b)
    · obtain ⟨n, E, h1, -⟩ := writeFloatDefault_finite h b hfin
      exact ⟨_, h1⟩
    · exact ⟨_, writeFloatDefault_nonfinite h b hfin⟩
  cases K
  · exact ⟨dflt converts32 _, fun sp _ _ h2 h3 => writeFloat_some (Or.inl ⟨rfl, rfl⟩) converts32 _ sp (ty sp h3) (by omega)⟩
  · exact ⟨dflt converts64 _, fun sp _ _ h2 h3 => writeFloat_some (Or.inr ⟨rfl, rfl⟩) converts64 _ sp (ty sp h3) (by omega)⟩

/-! ## Cases -/

/-- what the check accepts and rejects -/
example : checkFormatString [(none, .int), (none, .string), (some "x".toList, .double)]
      "{0:#x} {1:>{0}} {x:.3f} {{}}".toList = .ok () ∧
    checkFormatString [(none, .string)] "{:d}".toList ≠ .ok () ∧
    checkFormatString [(none, .int)] "{} {}".toList ≠ .ok () ∧
    checkFormatString [(none, .int)] "{:.3}".toList ≠ .ok () ∧
    checkFormatString [(none, .string), (none, .double)] "{:{}}".toList ≠ .ok () ∧
    checkFormatString [(none, .char)] "{:+}".toList ≠ .ok () ∧
    checkFormatString [(none, .custom)] "{:x}".toList ≠ .ok () ∧
    checkFormatString [(none, .int)] "{".toList ≠ .ok () := by decide +kernel

/-- a format string and arguments that meet the hypotheses of `C113_accepted_partial` -/
example : Accepts (typesOf [(none, .string "ab".toList), (none, .int 5), (none, Kind.double.arg false 0x3ff8000000000000)]) 0
    "{:>{}} {:.2f}".toList [.index 1] := by
  refine .opts (tys := _) .auto { align := .right, width := .arg .auto } (i := 0) (x := none) (ty := .string) (d1 := [.index 1])
    (d2 := []) (n2 := 2) (n3 := 2) trivial rfl rfl nofun ⟨nofun, fun h => absurd rfl h, fun h => absurd rfl h, nofun, nofun,
      ⟨trivial, nofun⟩, nofun, nofun, trivial⟩ nofun (by decide +kernel) rfl ?_
  refine .char (by decide) (by decide) ?_
  refine .opts (tys := _) .auto { prec := some (.lit ['2']), type := .fixedLower } (i := 2) (x := none) (ty := .double) (d1 := [])
    (d2 := []) (d := []) trivial rfl rfl nofun ⟨nofun, fun h => absurd rfl h, fun h => absurd rfl h, nofun, nofun,
      ⟨trivial, nofun⟩, ?_, nofun, ?_⟩ nofun rfl rfl (.done _)
  · intro p hp
    cases hp
    exact ⟨.inl (.inr (.inl rfl)), ⟨by simp, by decide, by decide, by decide⟩, nofun⟩
  · exact .inr (.inl rfl)
example : format "{:>{}} {:.2f}".toList [(none, .string "ab".toList), (none, .int 5),
    (none, Kind.double.arg false 0x3ff8000000000000)] = .ok "   ab 1.50".toList := by decide +kernel

/-- a rejected format string: no value of the argument helps -/
example : ∀ v : Int, -2 ^ 31 ≤ v ∧ v < 2 ^ 31 → ∃ e, format "{:s}".toList [(none, .int v)] = .err e := fun v hv =>
  C113_rejected [(none, .int v)] (by simp) (by intro p hp; simp at hp; subst hp; exact hv)
    (by intro p hp g h; simp at hp; subst hp; cases h) _ (by
      rw [show typesOf [(none, Arg.int v)] = [(none, .int)] from rfl]
      decide +kernel)

end Props
end Efp
