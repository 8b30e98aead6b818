import Verif.Fmt.Digits
import Verif.Spec.Fmt

/-!
# Lemmas on the writers
-/

namespace Efp
namespace Fmt

open Nat (toDigits)

theorem fillStr_zero (f : Str) : fillStr 0 f = [] := rfl

theorem writePadded_eq (right : Bool) (sp : Specs) (width : Nat) (body : Str) (hw : sp.width < 2 ^ 31) :
    writePadded right sp width body = Spec.Fmt.pad right sp width body := by
  unfold writePadded Spec.Fmt.pad Spec.Fmt.copies fillStr
  have hm : (if sp.width > width then sp.width - width else 0) = sp.width - width := by split <;> omega
  simp only [hm]
  have h31 : (sp.width - width) >>> 31 = 0 := by
    rw [Nat.shiftRight_eq_div_pow]; exact Nat.div_eq_of_lt (by omega)
  have h1 : (sp.width - width) >>> 1 = (sp.width - width) / 2 := by rw [Nat.shiftRight_eq_div_pow]
  cases sp.align <;> cases right <;> simp [shifts, Align.index, h31, h1]

theorem pad_of_le (right : Bool) (sp : Specs) (width : Nat) (body : Str) (h : sp.width ≤ width) :
    Spec.Fmt.pad right sp width body = body := by
  have h0 : sp.width - width = 0 := by omega
  unfold Spec.Fmt.pad Spec.Fmt.copies
  cases sp.align <;> cases right <;> simp [h0]

theorem makeWriteIntArg_abs {w : Nat} {v : Int} (s : Sign) (hw : 0 < w) (h1 : -(2 ^ (w - 1) : Nat) ≤ v)
    (h2 : v < (2 ^ w : Nat)) : (makeWriteIntArg w v s).1 = v.natAbs ∧ v.natAbs < 2 ^ w := by
  have hp : (2 : Nat) ^ w = 2 * 2 ^ (w - 1) := by
    rw [← Nat.pow_succ', Nat.succ_eq_add_one, Nat.sub_add_cancel hw]
  have hpp : 0 < (2 : Nat) ^ (w - 1) := Nat.pow_pos (by omega)
  have hc : ((2 : Int) ^ w) = ((2 ^ w : Nat) : Int) := by simp
  unfold makeWriteIntArg
  simp only
  rw [hc]
  generalize hP : (2 : Nat) ^ w = P at *
  generalize (2 : Nat) ^ (w - 1) = Q at *
  by_cases hv : v < 0
  · rw [if_pos hv]
    have : (v % (P : Int)) = v + P := by
      rw [← Int.add_emod_right]
      exact Int.emod_eq_of_lt (by omega) (by omega)
    simp only
    rw [this]
    have e : P - (v + P).toNat = v.natAbs := by omega
    rw [e]
    exact ⟨Nat.mod_eq_of_lt (by omega), by omega⟩
  · rw [if_neg hv]
    have : (v % (P : Int)) = v := Int.emod_eq_of_lt (by omega) (by omega)
    simp only
    rw [this]
    omega

/-- the prefixes of a sign -/
theorem makeWriteIntArg_prefix (w : Nat) (v : Int) (s : Sign) :
    ((makeWriteIntArg w v s).2 = 0 ∧ Spec.Fmt.signText v s = [])
      ∨ ((makeWriteIntArg w v s).2 = 0x0100002d ∧ Spec.Fmt.signText v s = ['-'])
      ∨ ((makeWriteIntArg w v s).2 = 0x0100002b ∧ Spec.Fmt.signText v s = ['+'])
      ∨ ((makeWriteIntArg w v s).2 = 0x01000020 ∧ Spec.Fmt.signText v s = [' ']) := by
  unfold makeWriteIntArg Spec.Fmt.signText
  simp only
  by_cases hv : v < 0
  · simp only [if_pos hv]; right; left; exact ⟨by decide, trivial⟩
  · simp only [if_neg hv]
    cases s
    · left; exact ⟨rfl, by decide⟩
    · left; exact ⟨rfl, by decide⟩
    · right; right; left; exact ⟨by decide, by decide⟩
    · right; right; right; exact ⟨by decide, by decide⟩

theorem writeIntDigits_eq (pre : Nat) (front : Str) (sp : Specs) (digits : Str) (hp : sp.precision = -1)
    (hw : sp.width < 2 ^ 31) (h1 : prefixBytes 4 (pre &&& 0xffffff) = front) (h2 : pre >>> 24 = front.length) :
    writeIntDigits digits.length pre sp digits
      = if sp.align = .numeric then
          front ++ List.replicate (sp.width - (front.length + digits.length)) '0' ++ digits
        else Spec.Fmt.pad true sp (front.length + digits.length) (front ++ digits) := by
  unfold writeIntDigits
  have hfront : (if pre ≠ 0 then prefixBytes 4 (pre &&& 0xffffff) else []) = front := by
    split
    · exact h1
    · rename_i h
      have h0 : pre = 0 := by omega
      subst h0
      rw [← h1]
      rfl
  have hdata : writeIntData digits.length pre sp
      = if sp.align = .numeric then
          (max sp.width (front.length + digits.length), sp.width - (front.length + digits.length))
        else (front.length + digits.length, 0) := by
    unfold writeIntData
    rw [h2]
    split
    · split
      · simp; omega
      · simp; omega
    · rw [if_neg (by omega)]
  by_cases h0 : sp.width = 0 ∧ sp.precision = -1
  · rw [if_pos h0, hfront]
    split
    · rw [h0.1]; simp
    · rw [pad_of_le _ _ _ _ (by omega)]
  · rw [if_neg h0, hdata, h1, writePadded_eq _ _ _ _ hw]
    split
    · rename_i ha
      rw [pad_of_le _ _ _ _ (by simp; omega)]
      simp
    · simp

/-- the sign prefixes with their texts -/
def signPrefixes : List (Nat × Str) := [(0, []), (0x0100002d, ['-']), (0x0100002b, ['+']), (0x01000020, [' '])]

/-- the base prefixes with their texts -/
def basePrefixes : List (Nat × Str) :=
  [('x'.toNat <<< 8 ||| '0'.toNat, ['0', 'x']), ('X'.toNat <<< 8 ||| '0'.toNat, ['0', 'X']),
   ('b'.toNat <<< 8 ||| '0'.toNat, ['0', 'b']), ('B'.toNat <<< 8 ||| '0'.toNat, ['0', 'B']), ('0'.toNat, ['0'])]

theorem prefixes_plain : ∀ s ∈ signPrefixes, prefixBytes 4 (s.1 &&& 0xffffff) = s.2 ∧ s.1 >>> 24 = s.2.length := by
  decide

theorem prefixes_alt : ∀ s ∈ signPrefixes, ∀ b ∈ basePrefixes,
    prefixBytes 4 (prefixAppend s.1 b.1 &&& 0xffffff) = s.2 ++ b.2
      ∧ prefixAppend s.1 b.1 >>> 24 = (s.2 ++ b.2).length := by decide

theorem writeInt_eq {w : Nat} {v : Int} (sp : Specs) (hw : w = 32 ∨ w = 64 ∨ w = 128) (h1 : -(2 ^ (w - 1) : Nat) ≤ v)
    (h2 : v < (2 ^ w : Nat)) (hp : sp.precision = -1) (hwd : sp.width < 2 ^ 31) :
    writeInt w v sp
      = match Spec.Fmt.showInt v sp with
        | some t => .ok t
        | none => .err "invalid format specifier" := by
  have hw0 : 0 < w := by omega
  obtain ⟨ha, hlt⟩ := makeWriteIntArg_abs sp.sign hw0 h1 h2
  have hpre := makeWriteIntArg_prefix w v sp.sign
  unfold writeInt
  rw [ha]
  generalize (makeWriteIntArg w v sp.sign).2 = pre at hpre
  unfold writeIntArg Spec.Fmt.showInt
  have hdec : ∀ (pre : Nat) (front : Str), prefixBytes 4 (pre &&& 0xffffff) = front → pre >>> 24 = front.length →
      (do
        let n ← countDigits w v.natAbs
        let digits ← formatDecimal w v.natAbs n
        Res.ok (writeIntDigits n pre sp digits)) = .ok (
      if sp.align = .numeric then
          front ++ List.replicate (sp.width - (front.length + (toDigits 10 v.natAbs).length)) '0' ++ toDigits 10 v.natAbs
        else Spec.Fmt.pad true sp (front.length + (toDigits 10 v.natAbs).length) (front ++ toDigits 10 v.natAbs)) := by
    intro pre front e1 e2
    rw [countDigits_eq hw hlt, Res.bind_ok, formatDecimal_eq hw hlt, Res.bind_ok,
      writeIntDigits_eq pre front sp _ hp hwd e1 e2]
  have hbits : ∀ (bits : Nat) (upper : Bool) (pre : Nat) (front : Str),
      (bits = 1 ∧ upper = false ∨ bits = 3 ∧ upper = false ∨ bits = 4) →
      prefixBytes 4 (pre &&& 0xffffff) = front → pre >>> 24 = front.length →
      (do
        let n ← countDigitsBits bits w v.natAbs
        let digits ← formatUint bits w v.natAbs n upper
        Res.ok (writeIntDigits n pre sp digits)) = .ok (
      if sp.align = .numeric then
          front ++ List.replicate (sp.width - (front.length + (upDigits (2 ^ bits) upper v.natAbs).length)) '0'
            ++ upDigits (2 ^ bits) upper v.natAbs
        else Spec.Fmt.pad true sp (front.length + (upDigits (2 ^ bits) upper v.natAbs).length)
          (front ++ upDigits (2 ^ bits) upper v.natAbs)) := by
    intro bits upper pre front hb e1 e2
    have hb0 : 0 < bits := by rcases hb with ⟨rfl, _⟩ | ⟨rfl, _⟩ | rfl <;> omega
    rw [countDigitsBits_eq hb0 hw0 hlt, Res.bind_ok, formatUint_eq upper hb hlt, Res.bind_ok,
      ← upDigits_length (2 ^ bits) upper, writeIntDigits_eq pre front sp _ hp hwd e1 e2]
  have hsg : (pre, Spec.Fmt.signText v sp.sign) ∈ signPrefixes := by
    rcases hpre with ⟨e1, e2⟩ | ⟨e1, e2⟩ | ⟨e1, e2⟩ | ⟨e1, e2⟩ <;> rw [e1, e2] <;> decide
  generalize Spec.Fmt.signText v sp.sign = sg at hsg
  have hplain := prefixes_plain _ hsg
  have hpa : ∀ b ∈ basePrefixes, prefixBytes 4 ((if sp.alt then prefixAppend pre b.1 else pre) &&& 0xffffff)
        = sg ++ (if sp.alt then b.2 else [])
      ∧ (if sp.alt then prefixAppend pre b.1 else pre) >>> 24 = (sg ++ (if sp.alt then b.2 else [])).length := by
    intro b hb
    cases sp.alt
    · simp only [Bool.false_eq_true, if_false, List.append_nil]; exact hplain
    · simp only [if_true]; exact prefixes_alt _ hsg b hb
  cases ht : sp.type with
  | none =>
    simp only [reduceCtorEq, if_false, Spec.Fmt.baseOf, Option.bind_eq_bind, Option.bind_some, Bool.false_eq_true,
      ite_self, List.append_nil]
    rw [hdec pre sg hplain.1 hplain.2]
    split <;> rfl
  | dec =>
    simp only [reduceCtorEq, if_false, Spec.Fmt.baseOf, Option.bind_eq_bind, Option.bind_some, Bool.false_eq_true,
      ite_self, List.append_nil]
    rw [hdec pre sg hplain.1 hplain.2]
    split <;> rfl
  | hexLower =>
    have hb := hpa ('x'.toNat <<< 8 ||| '0'.toNat, ['0', 'x']) (by decide)
    simp only [reduceCtorEq, if_false, Spec.Fmt.baseOf, Option.bind_eq_bind, Option.bind_some, Bool.false_eq_true,
      decide_false] at hb ⊢
    rw [hbits 4 false _ _ (by simp) hb.1 hb.2]
    split <;> simp [upDigits]
  | hexUpper =>
    have hb := hpa ('X'.toNat <<< 8 ||| '0'.toNat, ['0', 'X']) (by decide)
    simp only [reduceCtorEq, if_false, Spec.Fmt.baseOf, Option.bind_eq_bind, Option.bind_some, if_true,
      decide_true] at hb ⊢
    rw [hbits 4 true _ _ (by simp) hb.1 hb.2]
    split <;> simp [upDigits]
  | binLower =>
    have hb := hpa ('b'.toNat <<< 8 ||| '0'.toNat, ['0', 'b']) (by decide)
    simp only [reduceCtorEq, if_false, Spec.Fmt.baseOf, Option.bind_eq_bind, Option.bind_some, Bool.false_eq_true] at hb ⊢
    rw [hbits 1 false _ _ (by simp) hb.1 hb.2]
    split <;> simp [upDigits]
  | binUpper =>
    have hb := hpa ('B'.toNat <<< 8 ||| '0'.toNat, ['0', 'B']) (by decide)
    simp only [reduceCtorEq, if_false, Spec.Fmt.baseOf, Option.bind_eq_bind, Option.bind_some, Bool.false_eq_true,
      if_true] at hb ⊢
    rw [hbits 1 false _ _ (by simp) hb.1 hb.2]
    split <;> simp [upDigits]
  | oct =>
    simp only [reduceCtorEq, if_false, Spec.Fmt.baseOf, Option.bind_eq_bind, Option.bind_some, Bool.false_eq_true]
    have hb := hpa ('0'.toNat, ['0']) (by decide)
    have hs : ∀ n : Nat, (if sp.alt = true ∧ sp.precision ≤ n ∧ v.natAbs ≠ 0 then prefixAppend pre '0'.toNat else pre)
        = if v.natAbs = 0 then pre else if sp.alt then prefixAppend pre '0'.toNat else pre := by
      intro n
      rw [hp]
      by_cases h0 : v.natAbs = 0
      · rw [if_pos h0, if_neg (by simp [h0])]
      · rw [if_neg h0]
        cases sp.alt
        · simp
        · simp only [true_and, if_true]
          rw [if_pos ⟨by omega, h0⟩]
    simp only [hs]
    by_cases h0 : v.natAbs = 0
    · simp only [h0, if_true, ite_self, List.append_nil] at hbits ⊢
      rw [hbits 3 false _ _ (by simp) hplain.1 hplain.2]
      split <;> simp [upDigits]
    · simp only [h0, if_false] at hbits ⊢
      rw [hbits 3 false _ _ (by simp) hb.1 hb.2]
      split <;> simp [upDigits]
  | chr =>
    simp only [if_true, writeChar, ht, reduceCtorEq, if_false, Res.bind_ok]
    rw [writePadded_eq _ _ _ _ hwd]
  | _ => rfl

end Fmt
end Efp
