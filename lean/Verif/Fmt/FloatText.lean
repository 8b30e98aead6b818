import Verif.Spec.Float
import Verif.Fmt.Float
import Verif.Fmt.DragonboxRow
import Verif.Fmt.NumLemmas
import Mathlib.Algebra.Order.Field.Power
import Mathlib.Tactic.Linarith
import Mathlib.Tactic.Ring
import Mathlib.Tactic.Positivity

/-!
# The texts of floating-point numbers: layout of given digits, and what it denotes
-/

namespace Efp
namespace Fmt

open Spec Dragonbox

/-- the significand has the digits `ds` -/
structure Significand.Is (g : Significand) (ds : Str) : Prop where
  size : g.size = .ok ds.length
  write : g.write ds.length = .ok ds
  point : ∀ k, 0 < k → k ≤ ds.length → g.writePoint ds.length k true = .ok (ds.take k ++ '.' :: ds.drop k)
  one : ds.length = 1 → g.writePoint 1 1 false = .ok ds

theorem Significand.is_text (s : Str) : (Significand.text s).Is s where
  size := rfl
  write := rfl
  point k h1 h2 := by
    simp only [Significand.writePoint]
    rw [if_neg (by omega), if_pos trivial]
  one h := by
    simp only [Significand.writePoint]
    rw [if_neg (by omega), ← h]
    simp

theorem significandPairs_eq : ∀ (i n : Nat) (acc : Str), 2 * i < (Nat.toDigits 10 n).length →
    ∃ n' acc', significandPairs i n acc = (n', acc') ∧ acc'.length = acc.length + 2 * i ∧ n' ≤ n ∧
      Nat.toDigits 10 n ++ acc = Nat.toDigits 10 n' ++ acc'
  | 0, n, acc, _ => ⟨n, acc, rfl, by omega, Nat.le_refl _, rfl⟩
  | i + 1, n, acc, h => by
    have hn : 100 ≤ n := by
      rcases Nat.lt_or_ge n 100 with hlt | hge
      · have := (Nat.length_toDigits_le_iff (b := 10) (n := n) (k := 2) (by omega) (by omega)).2 (by omega)
        omega
      · exact hge
    have ht := toDigits_hundred n hn
    have hlen := congrArg List.length ht
    rw [List.length_append] at hlen
    obtain ⟨n', acc', h1, h2, h3, h4⟩ := significandPairs_eq i (n / 100) (digits2 (n % 100) ++ acc) (by
      simp only [List.length_cons, List.length_nil] at hlen
      omega)
    have hd := digits2_eq (n % 100) (Nat.mod_lt _ (by omega))
    refine ⟨n', acc', h1, ?_, ?_, ?_⟩
    · rw [h2, hd]; simp; omega
    · have := Nat.div_le_self n 100; omega
    · rw [← h4, ht, hd]; simp

theorem Significand.is_uint {w n : Nat} (hw : w = 32 ∨ w = 64) (h : n < 2 ^ w) :
    (Significand.uint w n).Is (Nat.toDigits 10 n) := by
  have hw' : w = 32 ∨ w = 64 ∨ w = 128 := by omega
  have hroom : (Nat.toDigits 10 n).length ≤ decimalRoom w := by
    refine (Nat.length_toDigits_le_iff (by omega) ?_).2 ?_
    · rcases hw with rfl | rfl <;> decide
    · rcases hw with rfl | rfl
      · exact Nat.lt_trans h (by decide)
      · exact Nat.lt_trans h (by decide)
  refine ⟨countDigits_eq hw' h, formatDecimal_eq hw' h, ?_, ?_⟩
  · intro k h1 h2
    simp only [Significand.writePoint]
    rw [if_neg (by simp), if_neg (by omega)]
    obtain ⟨n', acc', g1, g2, g3, g4⟩ := significandPairs_eq (((Nat.toDigits 10 n).length - k) / 2) n [] (by omega)
    rw [g1]
    rw [List.append_nil] at g4
    have hl := congrArg List.length g4
    rw [List.length_append, g2] at hl
    simp only [List.length_nil] at hl g2
    by_cases hodd : ((Nat.toDigits 10 n).length - k) % 2 ≠ 0
    · simp only [hodd, ↓reduceIte, ne_eq, not_false_eq_true]
      have hn' : 10 ≤ n' := by
        rcases Nat.lt_or_ge n' 10 with hlt | hge
        · have := (Nat.length_toDigits_le_iff (b := 10) (n := n') (k := 1) (by omega) (by omega)).2 (by omega)
          omega
        · exact hge
      have ht := Nat.toDigits_of_base_le (b := 10) (n := n') (by omega) hn'
      have hl2 := congrArg List.length ht
      rw [List.length_append] at hl2
      simp only [List.length_cons, List.length_nil] at hl2
      have hk : (Nat.toDigits 10 (n' / 10)).length = k := by omega
      have hlt : n' / 10 < 2 ^ w := by
        have := Nat.div_le_self n' 10; omega
      have hf := formatDecimal_eq hw' hlt
      rw [hk] at hf
      rw [hf, ok_bind, ← digitChar_ten _ (Nat.mod_lt _ (by omega))]
      rw [g4, ht]
      simp only [List.append_assoc, List.cons_append, List.nil_append]
      rw [← hk]
      simp
    · have hodd' : ((Nat.toDigits 10 n).length - k) % 2 = 0 := by omega
      simp only [hodd', ne_eq, not_true_eq_false, ↓reduceIte]
      have hk : (Nat.toDigits 10 n').length = k := by omega
      have hf := formatDecimal_eq hw' (show n' < 2 ^ w by omega)
      rw [hk] at hf
      rw [hf, ok_bind, g4, ← hk]
      simp
  · intro h1
    simp only [Significand.writePoint]
    rw [if_pos (by simp), ← h1]
    exact formatDecimal_eq hw' h

def expDigits (a : Nat) : Str :=
  if a ≥ 100 then (if a ≥ 1000 then digits2 (a / 100) else (digits2 (a / 100)).drop 1) ++ digits2 (a % 100) else digits2 a

theorem digits2_small : ∀ v < 100, digits2 v = (if v < 10 then ['0'] else []) ++ Nat.toDigits 10 v := by decide +kernel

theorem expDigits_eq (a : Nat) (h : a < 10000) : expDigits a = (if a < 10 then ['0'] else []) ++ Nat.toDigits 10 a ∧
    (expDigits a).length = if a ≥ 100 then if a ≥ 1000 then 4 else 3 else 2 := by
  unfold expDigits
  by_cases h1 : a ≥ 100
  · have h2 := digits2_eq (a % 100) (by omega)
    have h3 := digits2_small (a / 100) (by omega)
    have h4 := digits2_eq (a / 100) (by omega)
    have h5 := toDigits_hundred a h1
    have h7 : (if a < 10 then ['0'] else [] : Str) = [] := if_neg (by omega)
    rw [if_pos h1, h7, if_pos h1, h5, h2]
    by_cases h6 : a ≥ 1000
    · simp only [h6, if_true]
      refine ⟨by rw [h3, if_neg (by omega)]; rfl, by rw [h4]; rfl⟩
    · simp only [h6, if_false]
      refine ⟨by rw [h3, if_pos (by omega)]; rfl, by rw [h4]; rfl⟩
  · rw [if_neg h1, if_neg h1, digits2_eq a (by omega)]
    refine ⟨?_, rfl⟩
    rw [← digits2_small a (by omega), digits2_eq a (by omega)]

theorem exponentText_eq {k : Int} (h : k.natAbs < 10000) :
    exponentText k = (if k < 0 then '-' else '+') :: expDigits k.natAbs := by
  unfold exponentText
  rw [List.cons_append, (expDigits_eq _ h).1]

theorem writeExponent_eq {k : Int} (h1 : -10000 < k) (h2 : k < 10000) : writeExponent k = .ok (exponentText k) := by
  rw [exponentText_eq (by omega)]
  unfold writeExponent expDigits
  rw [assert_ok ⟨h1, h2⟩, ok_bind]
  simp only [List.cons_append]
  split <;> rfl

theorem exponentText_length {k : Int} (h1 : -10000 < k) (h2 : k < 10000) :
    (exponentText k).length = 1 + if k.natAbs ≥ 100 then if k.natAbs ≥ 1000 then 4 else 3 else 2 := by
  rw [exponentText_eq (by omega), List.length_cons, (expDigits_eq _ (by omega)).2]
  omega

/-- whether the exponent is written -/
def UsesExp (fs : FloatSpecs) (k : Int) : Prop :=
  fs.format = .exp ∨ fs.format = .general ∧ (k < -4 ∨ k ≥ if fs.precision > 0 then fs.precision else 16)

instance (fs : FloatSpecs) (k : Int) : Decidable (UsesExp fs k) := by unfold UsesExp; infer_instance

/-- the text of the digits `ds` times `10 ^ E`, without sign and padding -/
def floatBody (ds : Str) (E : Int) (fs : FloatSpecs) : Str :=
  if UsesExp fs (E + ds.length - 1) then
    ds.take 1 ++ (if fs.showpoint = true ∨ ds.length ≠ 1 then '.' :: ds.drop 1 else []) ++
      List.replicate (if fs.showpoint then (fs.precision - ds.length).toNat else 0) '0' ++
      (if fs.upper then 'E' else 'e') :: exponentText (E + ds.length - 1)
  else if E ≥ 0 then
    ds ++ List.replicate E.toNat '0' ++
      if fs.showpoint then '.' :: List.replicate (fs.precision - (E + ds.length)).toNat '0' else []
  else if E + ds.length > 0 then
    ds.take (E + ds.length).toNat ++ '.' :: ds.drop (E + ds.length).toNat ++
      List.replicate (if fs.showpoint then (fs.precision - ds.length).toNat else 0) '0'
  else
    let z := if ds = [] ∧ fs.precision ≥ 0 ∧ fs.precision < -E then fs.precision else -(E + ds.length)
    '0' :: if z ≠ 0 ∨ ds ≠ [] ∨ fs.showpoint = true then '.' :: List.replicate z.toNat '0' ++ ds else []

theorem writePadded_zero (right : Bool) (sp : Specs) (w : Nat) (body : Str) (h : ¬ sp.width > 0) :
    writePadded right sp w body = body := by
  unfold writePadded
  have : sp.width = 0 := by omega
  simp [this, fillStr]

theorem doWriteFloat_eq {g : Significand} {ds : Str} (hg : g.Is ds) (E : Int) (sp : Specs) (fs : FloatSpecs)
    (hexp : UsesExp fs (E + ds.length - 1) → ds ≠ [] ∧ -10000 < E + ds.length - 1 ∧ E + ds.length - 1 < 10000) :
    doWriteFloat g E sp fs = .ok (writePadded true sp (signStr fs.sign ++ floatBody ds E fs).length
      (signStr fs.sign ++ floatBody ds E fs)) := by
  unfold doWriteFloat floatBody
  rw [hg.size, ok_bind]
  by_cases hu : UsesExp fs (E + ds.length - 1)
  · obtain ⟨hne, hk1, hk2⟩ := hexp hu
    have hpos : 0 < ds.length := List.length_pos_iff.2 hne
    rw [if_pos hu]
    unfold UsesExp at hu
    simp only []
    rw [if_pos hu]
    have hpt : g.writePoint ds.length 1 (fs.showpoint || decide (ds.length ≠ 1)) =
        .ok (ds.take 1 ++ if fs.showpoint = true ∨ ds.length ≠ 1 then '.' :: ds.drop 1 else []) := by
      by_cases hp : fs.showpoint = true ∨ ds.length ≠ 1
      · rw [show (fs.showpoint || decide (ds.length ≠ 1)) = true by simpa using hp, hg.point 1 (by omega) hpos, if_pos hp]
      · have h1 : ds.length = 1 := by omega
        have hf : fs.showpoint = false := by
          cases h : fs.showpoint
          · rfl
          · exact absurd (Or.inl h) hp
        rw [if_neg hp, hf, h1]
        simp only [ne_eq, not_true_eq_false, decide_false, Bool.or_self]
        rw [hg.one h1, ← h1]
        simp
    rw [hpt, ok_bind, writeExponent_eq hk1 hk2, ok_bind]
    have hlen := exponentText_length hk1 hk2
    have htake : (ds.take 1).length = 1 := by rw [List.length_take]; omega
    have hdrop : (ds.drop 1).length = ds.length - 1 := List.length_drop
    split
    · congr 2
      · simp only [List.length_append, List.length_replicate, List.length_cons, htake, hlen]
        by_cases hp : fs.showpoint = true ∨ ds.length ≠ 1
        · have hb : (fs.showpoint || decide (ds.length ≠ 1)) = true := by simpa using hp
          rw [if_pos hp, hb]
          simp only [List.length_cons, hdrop, if_true]
          omega
        · have hb : (fs.showpoint || decide (ds.length ≠ 1)) = false := by simpa using hp
          rw [if_neg hp, hb]
          simp only [List.length_nil]
          have : ds.length = 1 := by omega
          simp only [Bool.false_eq_true, if_false]
          omega
      · simp only [List.append_assoc]
    · rename_i hw
      rw [writePadded_zero _ _ _ _ hw]
      simp only [List.append_assoc]
  · rw [if_neg hu]
    unfold UsesExp at hu
    simp only []
    rw [if_neg hu]
    by_cases h0 : E ≥ 0
    · rw [if_pos h0, if_pos h0, hg.write, ok_bind]
      congr 2
      · simp only [List.length_append, List.length_replicate]
        split
        · simp only [List.length_cons, List.length_replicate]; omega
        · simp only [List.length_nil]; omega
      · simp only [List.append_assoc]
    · rw [if_neg h0, if_neg h0]
      by_cases h1 : E + ds.length > 0
      · rw [if_pos h1, if_pos h1, hg.point _ (by omega) (by omega), ok_bind]
        congr 2
        · simp only [List.length_append, List.length_replicate, List.length_cons, List.length_take, List.length_drop]
          omega
        · simp only [List.append_assoc]
      · rw [if_neg h1, if_neg h1, hg.write, ok_bind]
        have hz : (if ds.length = 0 ∧ fs.precision ≥ 0 ∧ fs.precision < -(E + ds.length) then fs.precision
            else -(E + ds.length)) =
            if ds = [] ∧ fs.precision ≥ 0 ∧ fs.precision < -E then fs.precision else -(E + ds.length) := by
          cases ds with
          | nil => simp
          | cons a l => simp
        rw [hz]
        have hp : (decide ((if ds = [] ∧ fs.precision ≥ 0 ∧ fs.precision < -E then fs.precision else -(E + ds.length)) ≠ 0) ||
            decide (ds.length ≠ 0) || fs.showpoint) = true ↔
            ((if ds = [] ∧ fs.precision ≥ 0 ∧ fs.precision < -E then fs.precision else -(E + ds.length)) ≠ 0 ∨ ds ≠ [] ∨
              fs.showpoint = true) := by
          simp only [Bool.or_eq_true, decide_eq_true_eq, ne_eq, List.length_eq_zero_iff, or_assoc]
        generalize (if ds = [] ∧ fs.precision ≥ 0 ∧ fs.precision < -E then fs.precision else -(E + ds.length)) = z at *
        by_cases hc : z ≠ 0 ∨ ds ≠ [] ∨ fs.showpoint = true
        · rw [if_pos (hp.2 hc), if_pos (hp.2 hc), if_pos hc]
          congr 2
          simp only [List.length_append, List.length_replicate, List.length_cons]
          omega
        · rw [if_neg (fun h => hc (hp.1 h)), if_neg (fun h => hc (hp.1 h)), if_neg hc]
          congr 2
          have hz0 : z = 0 := by
            by_contra h; exact hc (Or.inl h)
          have hd0 : ds = [] := by
            by_contra h; exact hc (Or.inr (Or.inl h))
          subst hz0 hd0
          simp only [List.length_append, List.length_cons, List.length_nil, Int.toNat_zero]
          omega

end Fmt
end Efp
