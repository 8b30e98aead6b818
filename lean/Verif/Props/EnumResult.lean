import Verif.EnumResult
import Verif.Props.Enum
import Mathlib.Data.Rat.Floor
import Mathlib.Tactic.NormNum
import Mathlib.Tactic.ByContra

/-!
# What `match` returns (C163)

Vocabulary: `Contains` and `Selected` are those of C56; `ret b` is the return type of branch `b` and `fns b x` what it returns for `x`:
the location (for a reference) and the value.
-/

namespace Efp.Props

open Efp.Enum Efp.Spec.Enum

variable {τ α β : Type} [DecidableEq τ]

/-- what the branch itself gives its caller -/
def branchGives (r : RetTy τ) (lv : Nat × β) : Got β :=
  match r with
  | .value _ => .value lv.2
  | .cref _ => .ref lv.1 lv.2

/-- converting a value to its own type changes nothing -/
def Conversions (conv : τ → τ → β → β) (convertible : τ → τ → Bool) : Prop := ∀ t, convertible t t = true ∧ ∀ v, conv t t v = v

/-- The English property for one `match`: it gives what the selected branch gives, and calls no other. -/
def GivesBranchResult (convertible : τ → τ → Bool) (conv : τ → τ → β → β) (rank : τ → τ → Option Nat) (As : List τ) (bs : List (Branch τ))
    (ret : Nat → RetTy τ) (fns : Nat → Option α → Nat × β) (e : Raw τ (Option α)) (i : Nat) (x : Option α) : Prop :=
  ∃ t b, As[i]? = some t ∧ Selected rank bs t b ∧
    matchRet convertible conv rank As bs ret fns e [] = .ok (branchGives (ret b) (fns b x)) [(b, x)]

/-- **C163, in general.**  A `match` that compiles calls the selected branch; what that returns is returned as the type of the branch
that is selected for the first alternative. -/
theorem C163_result (kind : τ → Kind) (As : List τ) (dv : α) (h1 : 1 ≤ As.length) (h2 : As.length ≤ 128) (rank : τ → τ → Option Nat)
    (hr : Ranks rank) (bs : List (Branch τ)) (hc : matchCompiles rank As bs = true) (v : Var τ α) (i : Nat) (x : Option α)
    (h : Contains kind As dv v i x) (convertible : τ → τ → Bool) (conv : τ → τ → β → β) (ret : Nat → RetTy τ)
    (hcv : ∀ b b' : Nat, b < bs.length → b' < bs.length → convertible (ret b).base (ret b').base = true) (fns : Nat → Option α → Nat × β) (log : List (Nat × Option α)) :
    ∃ t b t0 b0, As[i]? = some t ∧ Selected rank bs t b ∧ As[0]? = some t0 ∧ Selected rank bs t0 b0 ∧
      matchRet convertible conv rank As bs ret fns v.e log = .ok (match ret b0, ret b with
        | .value u, s => .value (conv u s.base (fns b x).2)
        | .cref u, .cref s => if s = u then .ref (fns b x).1 (fns b x).2 else .dangling
        | .cref _, .value _ => .dangling) (log ++ [(b, x)]) := by
  obtain ⟨t0, ht0⟩ : ∃ t0, As[0]? = some t0 := ⟨_, List.getElem?_eq_getElem (by omega)⟩
  have hc' := hc
  simp only [matchCompiles, Bool.and_eq_true, List.all_eq_true] at hc'
  have hall := hc'.2
  have hlt : ∀ {u b}, resolve rank bs u = some b → b < bs.length := fun h => List.mem_range.1 (List.mem_of_find?_eq_some h)
  have hres0 := hall t0 (List.mem_of_getElem? ht0)
  obtain ⟨b0, hb0⟩ := Option.isSome_iff_exists.1 hres0
  obtain ⟨hs0, -⟩ := resolve_selected hr hb0
  obtain ⟨t, b, ht, hs, hu, hm⟩ := C56_match_partial kind As dv h1 h2 rank hr bs hc v i x h
    (fun b x => returnAs conv (ret b0) (ret b) (fns b x)) log
  have hty : resultTy rank As bs ret = some (ret b0) := by
    have hh : As.head? = some t0 := by rw [List.head?_eq_getElem?, ht0]
    simp only [resultTy, hh, hb0, Option.map_some]
  have hcc : returnsCompile convertible rank As bs ret (ret b0) = true := by
    simp only [returnsCompile, List.all_eq_true]
    intro u hu'
    obtain ⟨b', hb'⟩ := Option.isSome_iff_exists.1 (hall u hu')
    simp only [hb', hcv b0 b' (hlt hb0) (hlt hb')]
  refine ⟨t, b, t0, b0, ht, hs, ht0, hs0, ?_⟩
  simp only [matchRet, hty, hcc, if_true]
  rw [hm]
  cases ret b0 <;> cases ret b <;> rfl

/-- **C163, branches of one type.**  If all branches have the same return type, by value or by reference, `match` gives what the
selected branch gives. -/
theorem C163_same_type_partial (kind : τ → Kind) (As : List τ) (dv : α) (h1 : 1 ≤ As.length) (h2 : As.length ≤ 128)
    (rank : τ → τ → Option Nat) (hr : Ranks rank) (bs : List (Branch τ)) (hc : matchCompiles rank As bs = true) (v : Var τ α) (i : Nat)
    (x : Option α) (h : Contains kind As dv v i x) (convertible : τ → τ → Bool) (conv : τ → τ → β → β) (hid : Conversions conv convertible)
    (r : RetTy τ) (fns : Nat → Option α → Nat × β) :
    GivesBranchResult convertible conv rank As bs (fun _ => r) fns v.e i x := by
  obtain ⟨t, b, t0, b0, ht, hs, -, -, hm⟩ := C163_result kind As dv h1 h2 rank hr bs hc v i x h convertible conv (fun _ => r)
    (fun _ _ _ _ => (hid _).1) fns []
  refine ⟨t, b, ht, hs, ?_⟩
  rw [hm]
  cases r with
  | value u => simp [RetTy.base, branchGives, (hid u).2]
  | cref u => simp [branchGives]

/-- rationals as values, 0 the type of integers, other types exact: what converts to an integer is truncated (as if positive) -/
def truncating (t s : Nat) (v : ℚ) : ℚ := if t = 0 ∧ s ≠ 0 then (⌊v⌋ : ℚ) else v

/-- **C163 is false in general.**  With one branch that returns an `int` and others that return a `double`, `match` gives 2 where the
branch gives 5/2; with one branch that returns a reference and others that return a value it gives a dangling reference. -/
theorem C163_refuted :
    (∃ v : Var Nat Nat, Contains enumKind [0, 1, 2] 0 v 1 (some 9) ∧ Conversions truncating (fun _ _ => true) ∧
      WellWritten [0, 1, 2] [0, 1, 2] false ∧
      ¬ GivesBranchResult (fun _ _ => true) truncating sampleRank [0, 1, 2] (branches [0, 1, 2] false) (fun b => .value b)
        (fun _ _ => (0, 5 / 2)) v.e 1 (some 9) ∧
      matchRet (fun _ _ => true) truncating sampleRank [0, 1, 2] (branches [0, 1, 2] false) (fun b => .value b)
        (fun _ _ => (0, 5 / 2)) v.e [] = .ok (.value 2) [(1, some 9)]) ∧
    (∃ v : Var Nat Nat, Contains enumKind [0, 1, 2] 0 v 1 (some 9) ∧
      matchRet (fun _ _ => true) truncating sampleRank [0, 1, 2] (branches [0, 1, 2] false)
        (fun b => if b = 0 then .cref 0 else .value 0) (fun _ _ => (0, 5 / 2)) v.e [] = .ok .dangling [(1, some 9)]) := by
  obtain ⟨v, hv⟩ := enumProgram_contains
  have hw : WellWritten [0, 1, 2] [0, 1, 2] false := ⟨by decide, by decide, by simp, by simp⟩
  have hcm := C56_well_written_compiles [0, 1, 2] [0, 1, 2] false (by decide) (by decide) sampleRank sampleRank_ranks hw
  have hsel : ∀ t b, t ∈ [0, 1, 2] → Selected sampleRank (branches [0, 1, 2] false) t b → b = t := by
    intro t b ht hs
    rcases hs with hs | ⟨hs, -⟩ | ⟨hs, -⟩
    · have hb : b < 3 := by
        by_contra hb
        rw [List.getElem?_eq_none (by simpa [branches] using hb)] at hs
        exact nomatch hs
      obtain rfl | rfl | rfl : b = 0 ∨ b = 1 ∨ b = 2 := by omega
      all_goals simpa [branches] using hs
    · simp only [List.mem_cons, List.not_mem_nil, or_false] at ht
      exact absurd (by obtain rfl | rfl | rfl := ht <;> simp [branches]) hs
    · simp only [List.mem_cons, List.not_mem_nil, or_false] at ht
      exact absurd (by obtain rfl | rfl | rfl := ht <;> simp [branches]) hs
  have key : ∀ ret : Nat → RetTy Nat, ∀ c, matchRet (fun _ _ => true) truncating sampleRank [0, 1, 2] (branches [0, 1, 2] false) ret
      (fun _ _ => (0, c)) v.e [] = .ok (match ret 0, ret 1 with
        | .value u, s => .value (truncating u s.base c)
        | .cref u, .cref s => if s = u then .ref 0 c else .dangling
        | .cref _, .value _ => .dangling) [(1, some 9)] := by
    intro ret c
    obtain ⟨t, b, t0, b0, ht, hs, ht0, hs0, hm⟩ := C163_result enumKind [0, 1, 2] 0 (by decide) (by decide) sampleRank sampleRank_ranks
      (branches [0, 1, 2] false) hcm v 1 (some 9) hv (fun _ _ => true) truncating ret (fun _ _ _ _ => rfl) (fun _ _ => (0, c)) []
    obtain rfl : 1 = t := by simpa using ht
    obtain rfl : 0 = t0 := by simpa using ht0
    obtain rfl := hsel 1 b (by simp) hs
    obtain rfl := hsel 0 b0 (by simp) hs0
    rw [hm]
    cases ret 0 <;> cases ret 1 <;> rfl
  have e1 : matchRet (fun _ _ => true) truncating sampleRank [0, 1, 2] (branches [0, 1, 2] false) (fun b => .value b)
      (fun _ _ => (0, 5 / 2)) v.e [] = .ok (.value 2) [(1, some 9)] := by
    rw [key]
    have : truncating 0 1 (5 / 2) = 2 := by decide +kernel
    simp [RetTy.base, this]
  refine ⟨⟨v, hv, fun t => ⟨rfl, fun c => ?_⟩, hw, ?_, e1⟩, v, hv, ?_⟩
  · unfold truncating
    rw [if_neg (by omega)]
  · rintro ⟨t, b, -, -, hm⟩
    rw [e1] at hm
    have := (Out.ok.inj hm).1
    simp only [branchGives, Got.value.injEq] at this
    norm_num at this
  · rw [key]
    simp

-- three branches that all return type 7 by value, with conversions between all types
example : Conversions truncating (fun _ _ => true) ∧ matchCompiles sampleRank [0, 1, 2] (branches [0, 1, 2] false) = true :=
  ⟨fun t => ⟨rfl, fun c => by unfold truncating; rw [if_neg (by omega)]⟩,
   C56_well_written_compiles _ _ _ (by decide) (by decide) _ sampleRank_ranks ⟨by decide, by decide, by simp, by simp⟩⟩

end Efp.Props
