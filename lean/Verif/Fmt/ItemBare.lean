import Verif.Fmt.FloatSpecs

/-!
# An argument with empty options and in a field without options
-/

namespace Efp
namespace Fmt

open Spec Spec.Fmt Dragonbox

theorem showSpecs_bare {a : Arg} (hf : ¬ floating a.ty) (hc : a.ty ≠ .custom) (hb : ArgOk a) :
    showSpecs isPrintable {} a = showDefault a := by
  have int : ∀ v : Int, showInt v {} = some (showIntDefault v) := by
    intro v
    by_cases hv : v < 0 <;> simp [showInt, baseOf, showIntDefault, pad_of_le, signText, hv]
  have str : ∀ s : Str, Bytes s → showStr isPrintable s {} = s := by
    intro s hs
    simp [showStr, pad_of_le, join_pieces s hs]
  cases a with
  | int v => exact int v
  | longLong v => exact int v
  | int128 v => exact int v
  | uint v => exact int v
  | ulongLong v => exact int v
  | uint128 v => exact int v
  | bool v => cases v <;> decide
  | char c => simp [showSpecs, showChar, showDefault, pad_of_le]
  | string s => simp [showSpecs, showDefault, str s hb]
  | cstring addr s => simp [showSpecs, showDefault, str s hb.2]
  | pointer addr => simp [showSpecs, showDefault, showPtr, pad_of_le]
  | float t f => exact absurd (.inl rfl) hf
  | double t f => exact absurd (.inr (.inl rfl)) hf
  | longDouble t f => exact absurd (.inr (.inr rfl)) hf
  | custom f => exact absurd rfl hc

theorem writeFloat_bare {F : Flt} {G : Format} (h : IsFlt F G) (hc : Converts F G) (bits : Nat) :
    writeFloat F bits {} = writeFloatDefault F bits := by
  by_cases hfin : G.Finite (magBits F bits)
  · obtain ⟨body, ⟨n, E, rfl, -, -, h1⟩, h2⟩ := writeFloat_short h hc bits hfin {} (by decide) rfl (by decide)
    obtain ⟨n', E', h3, -, -, -, h4⟩ := writeFloatDefault_finite hc bits hfin
    rw [h1] at h4
    cases h4
    rw [h2, h3]
    congr 1
    unfold placed
    rw [if_neg (by decide), pad_of_le _ _ _ _ (Nat.zero_le _)]
    congr 1
    rw [← floatBody_plain n E .none]
    have := floatBody_short n E { precision := -1 } rfl (by decide) rfl
    simp only at this
    rw [← this]
    simp [floatBody, UsesExp]
  · rw [writeFloat_nonfinite hc bits hfin {} (by decide) (fs := { format := .general }) rfl, writeFloatDefault_nonfinite hc bits hfin,
      pad_of_le _ _ _ _ (Nat.zero_le _)]
    rfl

end Fmt
end Efp
