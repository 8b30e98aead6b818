import Verif.Fmt.FormatInt
import Verif.Props.Fmt

/-!
# Properties of `format_int` (C129)
-/

namespace Efp
namespace Fmt
namespace FormatInt

open Nat (toDigits)

theorem mapM_some (t : Str) : (t.map some).mapM id = some t := by
  induction t with
  | nil => rfl
  | cons c t ih => rw [List.map_cons, List.mapM_cons, ih]; rfl

theorem digits_le {w n : Nat} (hw : w = 32 ∨ w = 64) (h : n < 2 ^ w) : (toDigits 10 n).length ≤ 20 := by
  rw [Nat.length_toDigits_le_iff (by omega) (by omega)]
  rcases hw with rfl | rfl <;> omega

/-- the buffer after the digits -/
theorem formatUnsigned_eq {w n : Nat} (hw : w = 32 ∨ w = 64) (h : n < 2 ^ w) :
    formatUnsigned w n = .ok ⟨List.replicate (21 - (toDigits 10 n).length) none ++ (toDigits 10 n).map some ++ [none],
      21 - (toDigits 10 n).length⟩ := by
  have hl := digits_le hw h
  unfold formatUnsigned
  have h21 : fiBufferSize - 1 = 21 := rfl
  rw [countDigits_eq (by omega) h, Res.bind_ok, h21, if_neg (by omega), formatDecimalLoop_eq _ _ _ _ (by omega), if_pos (by omega)]
  simp only [List.append_nil]
  rfl

/-- what the buffer shows -/
theorem shows {buf : Cells} {k : Nat} {t : Str} (h : buf.drop k = t.map some ++ [none]) (hk : k + t.length = 21) :
    (FormatInt.mk buf k).size = t.length ∧ (FormatInt.mk buf k).data = some t ∧
      (FormatInt.mk buf k).cStr = some (t ++ [Char.ofNat 0]) := by
  have h1 : (FormatInt.mk buf k).size = t.length := by unfold size; simp only [fiBufferSize]; omega
  refine ⟨h1, ?_, ?_⟩
  · unfold data
    rw [h1]
    simp only
    rw [h, List.take_left' (by simp), mapM_some]
  · unfold cStr
    simp only
    rw [List.drop_set, if_neg (by simp only [fiBufferSize]; omega), h, show fiBufferSize - 1 - k = (t.map some).length by
      rw [List.length_map]; simp only [fiBufferSize]; omega]
    rw [List.set_append_right _ _ (by omega)]
    simp only [Nat.sub_self, List.set_cons_zero]
    rw [← mapM_some (t ++ [Char.ofNat 0])]
    simp

theorem unsigned_shows {w n : Nat} (hw : w = 32 ∨ w = 64) (h : n < 2 ^ w) :
    ∃ f, formatUnsigned w n = .ok f ∧ f.size = (toDigits 10 n).length ∧ f.data = some (toDigits 10 n) ∧
      f.cStr = some (toDigits 10 n ++ [Char.ofNat 0]) := by
  have hl := digits_le hw h
  refine ⟨_, formatUnsigned_eq hw h, shows ?_ (by omega)⟩
  rw [List.append_assoc, List.drop_left' (by simp)]

theorem signed_shows {w : Nat} {v : Int} (hw : w = 32 ∨ w = 64) (h1 : -(2 ^ (w - 1) : Nat) ≤ v)
    (h2 : v < (2 ^ (w - 1) : Nat)) :
    ∃ f, formatSigned w v = .ok f ∧ f.size = (Spec.Fmt.showIntDefault v).length ∧
      f.data = some (Spec.Fmt.showIntDefault v) ∧ f.cStr = some (Spec.Fmt.showIntDefault v ++ [Char.ofNat 0]) := by
  have habs : (if v < 0 then (2 ^ w - (v % 2 ^ w).toNat) % 2 ^ w else (v % 2 ^ w).toNat) = v.natAbs
      ∧ v.natAbs < 2 ^ w := by
    have hcast : ((2 ^ w : Nat) : Int) = 2 ^ w := by norm_cast
    rcases hw with rfl | rfl <;> (split <;> omega)
  unfold formatSigned
  simp only [habs.1]
  have hl := digits_le hw habs.2
  by_cases hneg : v < 0
  · have hp : 0 < (toDigits 10 v.natAbs).length := Nat.length_toDigits_pos
    have e : Spec.Fmt.showIntDefault v = '-' :: toDigits 10 v.natAbs := by
      unfold Spec.Fmt.showIntDefault; rw [if_pos hneg]; rfl
    rw [formatUnsigned_eq hw habs.2, Res.bind_ok, if_pos hneg, e]
    simp only
    rw [if_neg (by omega)]
    refine ⟨_, rfl, shows ?_ (by rw [List.length_cons]; omega)⟩
    obtain ⟨m, hm⟩ : ∃ m, 21 - (toDigits 10 v.natAbs).length = m + 1 := ⟨20 - (toDigits 10 v.natAbs).length, by omega⟩
    rw [hm, Nat.add_sub_cancel, List.replicate_succ', List.append_assoc, List.append_assoc, List.set_append_right _ _ (by simp)]
    rw [List.length_replicate, Nat.sub_self, List.singleton_append, List.set_cons_zero, List.drop_left' (by simp)]
    rfl
  · have e : Spec.Fmt.showIntDefault v = toDigits 10 v.natAbs := by
      unfold Spec.Fmt.showIntDefault; rw [if_neg hneg]; rfl
    obtain ⟨f, h3, h4⟩ := unsigned_shows hw habs.2
    rw [h3, Res.bind_ok, if_neg hneg, e]
    exact ⟨f, rfl, h4⟩

end FormatInt
end Fmt

namespace Props

open Efp.Spec.Fmt Efp.Fmt

/-- A `format_int` of any integer of its types shows the text that `{}` gives the integer, which reads back as it; its
size is the length of the text; the text is followed by a zero byte, which ends the buffer. -/
theorem C129_format_int (a : Arg) (ha : ArgOk a) (v : Int) (hv : wordValue a = some v) :
    ∃ f t, FormatInt.make a = .ok f ∧ format ['{', '}'] [(none, a)] = .ok t ∧ readInt 10 t = v ∧
      f.data = some t ∧ f.toStr = some t ∧ f.size = t.length ∧ f.cStr = some (t ++ [Char.ofNat 0]) := by
  have hi : intValue a = some v := by cases a <;> first | exact hv | cases hv
  have key : ∃ f, FormatInt.make a = .ok f ∧ f.size = (showIntDefault v).length ∧ f.data = some (showIntDefault v) ∧
      f.cStr = some (showIntDefault v ++ [Char.ofNat 0]) := by
    have nat : ∀ n : Nat, showIntDefault (n : Int) = Nat.toDigits 10 n := by
      intro n; unfold showIntDefault; rw [if_neg (by omega)]; rfl
    cases a with
    | int u => cases hv; exact FormatInt.signed_shows (.inl rfl) (by have := ha.1; omega) (by have := ha.2; omega)
    | longLong u => cases hv; exact FormatInt.signed_shows (.inr rfl) (by have := ha.1; omega) (by have := ha.2; omega)
    | uint n => cases hv; rw [nat]; exact FormatInt.unsigned_shows (.inl rfl) ha
    | ulongLong n => cases hv; rw [nat]; exact FormatInt.unsigned_shows (.inr rfl) ha
    | _ => cases hv
  obtain ⟨f, h1, h2, h3, h4⟩ := key
  refine ⟨f, showIntDefault v, h1, ?_, readInt_of (by omega) (by omega) v false, h3, h3, h2, h4⟩
  have := C93_automatic [(none, a)] (len1 _) (ok1 ha) 1 (by simp) [showIntDefault v] (by
    cases a <;> simp only [intValue, Option.some.injEq, reduceCtorEq] at hi <;> subst hi <;> rfl)
  rw [List.flatten_cons, List.flatten_nil, List.append_nil] at this
  exact this

/-- the lowest `long long` and the highest `unsigned long long` fill the buffer but for one byte and none -/
example : ∃ f, FormatInt.make (.longLong (-9223372036854775808)) = .ok f ∧ f.str = 1 ∧
    f.data = some "-9223372036854775808".toList := ⟨_, rfl, by decide +kernel, by decide +kernel⟩
example : ArgOk (.longLong (-9223372036854775808)) ∧
    wordValue (.longLong (-9223372036854775808)) = some (-9223372036854775808) := ⟨by unfold ArgOk; omega, rfl⟩
example : ∃ f, FormatInt.make (.ulongLong (2 ^ 64 - 1)) = .ok f ∧ f.size = 20 ∧
    f.cStr = some ("18446744073709551615".toList ++ [Char.ofNat 0]) := ⟨_, rfl, by decide +kernel, by decide +kernel⟩

end Props
end Efp
