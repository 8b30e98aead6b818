import Verif.Fmt.DragonboxCert

/-!
# Check of the shorter-interval case of `to_decimal`, for every exponent

For a significand without stored bits, the numbers rounding to the value lie between `lo` and `4 * f + 2` quarter units,
where the unit is that of the last bit.  The scale is a tenth of the last digit.
-/

namespace Efp
namespace Fmt
namespace Dragonbox

/-- the decimal `n * 10 ^ E` is the best one for the value `f * 2 ^ e`; `X / Y` is a quarter unit, scaled -/
def okShort (f lo n X Y : Nat) : Bool :=
  0 < n && n < 20 * f && lo * X ≤ 10 * n * Y && 10 * n * Y ≤ (4 * f + 2) * X &&
  force ((4 * f + 2) * X / (100 * Y)) (fun k => decide (100 * k * Y < lo * X)) &&
  (10 * (n - 1) * Y < lo * X || (2 * n - 1) * 10 * Y < 8 * f * X || ((2 * n - 1) * 10 * Y = 8 * f * X && n % 2 = 0)) &&
  ((4 * f + 2) * X < 10 * (n + 1) * Y || 8 * f * X < (2 * n + 1) * 10 * Y ||
    (8 * f * X = (2 * n + 1) * 10 * Y && n % 2 = 0)) &&
  (9 * Y < lo * X || 19 * Y < 8 * f * X)

/-- the check for one exponent; the interval is shorter on the left side except for the smallest exponent -/
def okShortRow (F : Flt) (e : Int) : Bool :=
  match shorterIntervalCase F e with
  | .ok ⟨n, E⟩ =>
    force (numer (e - 1) (1 - E)) fun X => force (denom (e - 1) (1 - E)) fun Y =>
      okShort (2 ^ F.sigBits) (4 * 2 ^ F.sigBits - if e = F.minExponent - 1 - F.sigBits then 2 else 1) n X Y
  | _ => false

theorem short32 : okRows (okShortRow flt32) 254 (-149) = true := by decide +kernel

theorem short64_0 : okRows (okShortRow flt64) 150 (-1074) = true := by decide +kernel

theorem short64_1 : okRows (okShortRow flt64) 150 (-924) = true := by decide +kernel

theorem short64_2 : okRows (okShortRow flt64) 150 (-774) = true := by decide +kernel

theorem short64_3 : okRows (okShortRow flt64) 150 (-624) = true := by decide +kernel

theorem short64_4 : okRows (okShortRow flt64) 150 (-474) = true := by decide +kernel

theorem short64_5 : okRows (okShortRow flt64) 150 (-324) = true := by decide +kernel

theorem short64_6 : okRows (okShortRow flt64) 150 (-174) = true := by decide +kernel

theorem short64_7 : okRows (okShortRow flt64) 150 (-24) = true := by decide +kernel

theorem short64_8 : okRows (okShortRow flt64) 150 (126) = true := by decide +kernel

theorem short64_9 : okRows (okShortRow flt64) 150 (276) = true := by decide +kernel

theorem short64_10 : okRows (okShortRow flt64) 150 (426) = true := by decide +kernel

theorem short64_11 : okRows (okShortRow flt64) 150 (576) = true := by decide +kernel

theorem short64_12 : okRows (okShortRow flt64) 150 (726) = true := by decide +kernel

theorem short64_13 : okRows (okShortRow flt64) 96 (876) = true := by decide +kernel

/-- The check passes for every exponent of `double`. -/
theorem okShortRow64_all {e : Int} (h1 : -1074 ≤ e) (h2 : e ≤ 971) : okShortRow flt64 e = true := by
  by_cases g0 : e < -924
  · exact okRows_spec short64_0 (by omega) (by omega)
  by_cases g1 : e < -774
  · exact okRows_spec short64_1 (by omega) (by omega)
  by_cases g2 : e < -624
  · exact okRows_spec short64_2 (by omega) (by omega)
  by_cases g3 : e < -474
  · exact okRows_spec short64_3 (by omega) (by omega)
  by_cases g4 : e < -324
  · exact okRows_spec short64_4 (by omega) (by omega)
  by_cases g5 : e < -174
  · exact okRows_spec short64_5 (by omega) (by omega)
  by_cases g6 : e < -24
  · exact okRows_spec short64_6 (by omega) (by omega)
  by_cases g7 : e < 126
  · exact okRows_spec short64_7 (by omega) (by omega)
  by_cases g8 : e < 276
  · exact okRows_spec short64_8 (by omega) (by omega)
  by_cases g9 : e < 426
  · exact okRows_spec short64_9 (by omega) (by omega)
  by_cases g10 : e < 576
  · exact okRows_spec short64_10 (by omega) (by omega)
  by_cases g11 : e < 726
  · exact okRows_spec short64_11 (by omega) (by omega)
  by_cases g12 : e < 876
  · exact okRows_spec short64_12 (by omega) (by omega)
  exact okRows_spec short64_13 (by omega) (by omega)

theorem okShortRow32_all {e : Int} (h1 : -149 ≤ e) (h2 : e ≤ 104) : okShortRow flt32 e = true :=
  okRows_spec short32 h1 (by omega)

end Dragonbox
end Fmt
end Efp
