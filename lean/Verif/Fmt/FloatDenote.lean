import Verif.Fmt.FloatText
import Verif.Fmt.FloatShortest

/-!
# What the texts of floating-point numbers denote
-/

namespace Efp
namespace Spec

open _root_.Efp.Fmt

theorem digitsValue_foldl (s : Str) : ∀ v, s.foldl (fun v c => v * 10 + (c.toNat - 48)) v = v * 10 ^ s.length + digitsValue s := by
  induction s with
  | nil => intro v; simp [digitsValue]
  | cons c s ih =>
    intro v
    unfold digitsValue
    simp only [List.foldl_cons, List.length_cons]
    rw [ih, ih]
    ring

theorem digitsValue_append (a b : Str) : digitsValue (a ++ b) = digitsValue a * 10 ^ b.length + digitsValue b := by
  unfold digitsValue
  rw [List.foldl_append, digitsValue_foldl]
  rfl

theorem digitsValue_zeros (z : Nat) : digitsValue (List.replicate z '0') = 0 := by
  induction z with
  | zero => rfl
  | succ z ih => rw [List.replicate_succ, ← List.singleton_append, digitsValue_append, ih]; simp [digitsValue]

theorem digitsValue_single : ∀ v < 10, digitsValue [Nat.digitChar v] = v := by decide

theorem digitsValue_toDigits (n : Nat) : digitsValue (Nat.toDigits 10 n) = n := by
  induction n using Nat.strongRecOn with
  | ind n ih =>
    rcases Nat.lt_or_ge n 10 with h | h
    · rw [Nat.toDigits_of_lt_base h]
      exact digitsValue_single n h
    · rw [Nat.toDigits_of_base_le (by omega) h, digitsValue_append, ih _ (by omega), digitsValue_single _ (by omega)]
      simp only [List.length_cons, List.length_nil]
      omega

theorem isDigits_toDigits (n : Nat) : IsDigits (Nat.toDigits 10 n) := by
  refine ⟨fun h => ?_, fun c hc => ?_⟩
  · have := Nat.length_toDigits_pos (b := 10) (n := n)
    rw [h] at this
    simp at this
  · rw [← isDigit_eq]
    exact toDigits_digits n c hc

theorem IsDigits.append {a b : Str} (ha : IsDigits a) (hb : ∀ c ∈ b, c.isDigit = true) : IsDigits (a ++ b) := by
  refine ⟨by simp [ha.1], fun c hc => ?_⟩
  rcases List.mem_append.1 hc with h | h
  · exact ha.2 c h
  · exact hb c h

theorem zeros_digit {z : Nat} : ∀ c ∈ List.replicate z '0', c.isDigit = true := by
  intro c hc
  rw [List.eq_of_mem_replicate hc]
  decide

theorem isExponent_text (mark : Char) (k : Int) : IsExponent mark (mark :: exponentText k) k := by
  right
  refine ⟨(if k.natAbs < 10 then ['0'] else []) ++ Nat.toDigits 10 k.natAbs, ?_, ?_⟩
  · refine ⟨by simp [(isDigits_toDigits _).1], fun c hc => ?_⟩
    rcases List.mem_append.1 hc with h | h
    · split at h
      · simp only [List.mem_cons, List.not_mem_nil, or_false] at h; subst h; decide
      · simp at h
    · exact (isDigits_toDigits _).2 c h
  · have hv : digitsValue ((if k.natAbs < 10 then ['0'] else []) ++ Nat.toDigits 10 k.natAbs) = k.natAbs := by
      rw [digitsValue_append, digitsValue_toDigits]
      split <;> simp [digitsValue]
    rw [hv]
    unfold exponentText
    by_cases h : k < 0
    · right; rw [if_pos h]; exact ⟨rfl, by omega⟩
    · left; rw [if_neg h]; exact ⟨rfl, by omega⟩

/-- positional notation of digits followed by `z` zeros after the point, if there is a point -/
theorem isNumeral_positional (mark : Char) {ds : Str} (hd : IsDigits ds) (E : Int) :
    IsNumeral mark (positional ds E) (digitsValue ds * 10 ^ E) := by
  unfold positional
  split
  · rename_i h
    refine ⟨ds ++ List.replicate E.toNat '0', [], [], 0, by simp, hd.append zeros_digit, Or.inl ⟨rfl, rfl⟩, Or.inl ⟨rfl, ?_⟩⟩
    rw [digitsValue_append, digitsValue_zeros, List.length_replicate, zpow_zero, Nat.add_zero]
    push_cast
    rw [mul_one]
    congr 1
    conv_lhs => rw [show E = ((E.toNat : Nat) : Int) by omega]
    rw [zpow_natCast]
  · rename_i h
    split
    · rename_i h1
      refine ⟨ds.take (E + ds.length).toNat, '.' :: ds.drop (E + ds.length).toNat, [], 0, by simp, ?_,
        Or.inl ⟨rfl, rfl⟩, Or.inr ⟨ds.drop (E + ds.length).toNat, ?_, rfl, ?_⟩⟩
      · exact ⟨by simp only [ne_eq, List.take_eq_nil_iff, hd.1, or_false]; omega, fun c hc => hd.2 c (List.mem_of_mem_take hc)⟩
      · exact ⟨by simp only [ne_eq, List.drop_eq_nil_iff]; omega, fun c hc => hd.2 c (List.mem_of_mem_drop hc)⟩
      · rw [List.take_append_drop, List.length_drop]
        congr 2
        omega
    · rename_i h1
      refine ⟨['0'], '.' :: (List.replicate (-E - ds.length).toNat '0' ++ ds), [], 0, by simp, ⟨by simp, by simp⟩,
        Or.inl ⟨rfl, rfl⟩, Or.inr ⟨List.replicate (-E - ds.length).toNat '0' ++ ds, ?_, rfl, ?_⟩⟩
      · refine ⟨by simp [hd.1], fun c hc => ?_⟩
        rcases List.mem_append.1 hc with h | h
        · exact zeros_digit c h
        · exact hd.2 c h
      · rw [← List.append_assoc, digitsValue_append]
        have : digitsValue (['0'] ++ List.replicate (-E - ds.length).toNat '0') = 0 := by
          rw [digitsValue_append, digitsValue_zeros]; simp [digitsValue]
        rw [this, List.length_append, List.length_replicate, Nat.zero_mul, Nat.zero_add]
        congr 2
        omega

theorem isNumeral_scientific (mark : Char) {ds : Str} (hd : IsDigits ds) (E : Int) :
    IsNumeral mark (scientific mark ds (E + ds.length - 1)) (digitsValue ds * 10 ^ E) := by
  have hlen : 0 < ds.length := List.length_pos_iff.2 hd.1
  have htake : IsDigits (ds.take 1) := by
    refine ⟨?_, fun c hc => hd.2 c (List.mem_of_mem_take hc)⟩
    simp [hd.1]
  unfold scientific
  refine ⟨ds.take 1, if ds.length = 1 then [] else '.' :: ds.drop 1, mark :: exponentText (E + ds.length - 1), _, by simp,
    htake, isExponent_text mark _, ?_⟩
  by_cases h1 : ds.length = 1
  · left
    refine ⟨if_pos h1, ?_⟩
    rw [List.take_of_length_le (by omega)]
    congr 2
    omega
  · right
    refine ⟨ds.drop 1, ⟨?_, fun c hc => hd.2 c (List.mem_of_mem_drop hc)⟩, if_neg h1, ?_⟩
    · simp only [ne_eq, List.drop_eq_nil_iff]; omega
    · rw [List.take_append_drop, List.length_drop]
      congr 2
      omega

theorem isNumeral_plain (n : Nat) (E : Int) : IsNumeral 'e' (plainText n E) (n * 10 ^ E) := by
  have hv := digitsValue_toDigits n
  unfold plainText
  simp only []
  split
  · have := isNumeral_positional 'e' (isDigits_toDigits n) E
    rwa [hv] at this
  · have := isNumeral_scientific 'e' (isDigits_toDigits n) E
    rwa [hv] at this

end Spec

namespace Fmt

open Spec Dragonbox

theorem floatBody_plain (n : Nat) (E : Int) (s : Sign) :
    floatBody (Nat.toDigits 10 n) E { sign := s } = plainText n E := by
  have hlen := Nat.length_toDigits_pos (b := 10) (n := n)
  have hne : Nat.toDigits 10 n ≠ [] := (isDigits_toDigits n).1
  unfold floatBody plainText
  simp only []
  by_cases h : -4 ≤ E + (Nat.toDigits 10 n).length - 1 ∧ E + (Nat.toDigits 10 n).length - 1 < 16
  · rw [if_neg (by unfold UsesExp; simp; omega), if_pos h]
    unfold positional
    by_cases h0 : 0 ≤ E
    · rw [if_pos h0, if_pos h0]; simp
    · rw [if_neg (by omega), if_neg h0]
      by_cases h1 : 0 < E + (Nat.toDigits 10 n).length
      · rw [if_pos h1, if_pos h1]; simp
      · rw [if_neg (by omega), if_neg h1, if_pos (Or.inr (Or.inl hne))]
        rw [if_neg (by simp [hne]), show -(E + ((Nat.toDigits 10 n).length : Int)) = -E - (Nat.toDigits 10 n).length by omega]
        rfl
  · rw [if_pos (by unfold UsesExp; right; simp only [true_and]; omega), if_neg h]
    unfold scientific
    simp only [Bool.false_eq_true, false_or, if_false, List.replicate_zero, List.append_nil]
    by_cases h1 : (Nat.toDigits 10 n).length = 1
    · simp [h1]
    · simp [h1]

end Fmt
end Efp
