import Mathlib.Tactic.Linarith
import Mathlib.Tactic.Ring

/-!
# Multiples of a fraction near integers

For a fraction `X / Y` between two neighbours `a / b` and `c / d` in a Farey sequence, a multiple `u * X / Y` with
`u < b + d` keeps a distance from the integers.  This is what makes the truncated tables of powers of ten exact for all
significands at once.
-/

namespace Efp
namespace Fmt
namespace Dragonbox

/-- A multiple of `X / Y` written in the basis of the two neighbours. -/
theorem lattice {a b c d X Y u n : Int} (hdet : b * c - a * d = 1) (hb : 0 < b) (hd : 0 < d)
    (hal : 0 < b * X - a * Y) (hga : 0 < c * Y - d * X) (hu : 0 < u) (hud : u < b + d) :
    (∃ s t : Int, 1 ≤ s ∧ 0 ≤ t ∧ u = s * b - t * d ∧ u * X - n * Y = s * (b * X - a * Y) + t * (c * Y - d * X)) ∨
      u * X - n * Y ≤ -(c * Y - d * X) := by
  have h1 : u = (u * c - n * d) * b + (n * b - u * a) * d := by
    have : u * (b * c - a * d) = u := by rw [hdet]; ring
    linarith [this]
  have h2 : n = (u * c - n * d) * a + (n * b - u * a) * c := by
    have : n * (b * c - a * d) = n := by rw [hdet]; ring
    linarith [this]
  have h3 : u * X - n * Y = (u * c - n * d) * (b * X - a * Y) - (n * b - u * a) * (c * Y - d * X) := by
    have e1 : u * X = ((u * c - n * d) * b + (n * b - u * a) * d) * X := by rw [← h1]
    have e2 : n * Y = ((u * c - n * d) * a + (n * b - u * a) * c) * Y := by rw [← h2]
    rw [e1, e2]; ring
  generalize u * c - n * d = s at h1 h2 h3
  generalize n * b - u * a = t at h1 h2 h3
  by_cases hs : 1 ≤ s
  · by_cases ht : 1 ≤ t
    · exfalso
      have : b ≤ s * b := by nlinarith
      have : d ≤ t * d := by nlinarith
      omega
    · left
      refine ⟨s, -t, hs, by omega, ?_, ?_⟩
      · rw [h1]; ring
      · rw [h3]; ring
  · by_cases ht : 1 ≤ t
    · right
      rw [h3]
      have : s * (b * X - a * Y) ≤ 0 := by nlinarith
      have : c * Y - d * X ≤ t * (c * Y - d * X) := by nlinarith
      omega
    · exfalso
      have : s * b ≤ 0 := by nlinarith
      have : t * d ≤ 0 := by nlinarith
      omega

/-- What a row of the tables has to provide: for the multipliers `u` in question (`ok`), `u * A / 2 ^ (2 * q)` is
`u * X / Y` rounded down, and its first `q` fractional bits are zero exactly if the latter is an integer. -/
def Approx (q A X Y : Nat) (u : Nat) : Prop := u * A / 2 ^ (2 * q) = u * X / Y

/-- the integer test -/
def Exact (q A X Y : Nat) (u : Nat) : Prop := u * A / 2 ^ q % 2 ^ q = 0 ↔ Y ∣ u * X

/-- rounding down survives an error smaller than the distance to the next integer -/
theorem approx_of {q A X Y u g : Nat} (hY : 0 < Y) (hle : X * 2 ^ (2 * q) ≤ A * Y) (hg : g ≤ Y - u * X % Y)
    (herr : u * (A * Y - X * 2 ^ (2 * q)) < g * 2 ^ (2 * q)) : Approx q A X Y u := by
  unfold Approx
  generalize hB : 2 ^ (2 * q) = B at *
  have hB0 : 0 < B := by rw [← hB]; positivity
  obtain ⟨D, hD⟩ := Nat.exists_eq_add_of_le hle
  rw [hD, Nat.add_sub_cancel_left] at herr
  have hmod := Nat.div_add_mod (u * X) Y
  have hlt := Nat.mod_lt (u * X) hY
  generalize u * X / Y = n at *
  generalize u * X % Y = r at *
  apply Nat.div_eq_of_lt_le
  · apply Nat.le_of_mul_le_mul_right (c := Y) _ hY
    calc n * B * Y = (Y * n) * B := by ring
      _ ≤ (Y * n + r) * B := Nat.mul_le_mul_right _ (by omega)
      _ = u * (X * B) := by rw [hmod]; ring
      _ ≤ u * (A * Y) := Nat.mul_le_mul_left _ (by omega)
      _ = u * A * Y := by ring
  · apply Nat.lt_of_mul_lt_mul_right (a := Y)
    calc u * A * Y = u * (A * Y) := by ring
      _ = u * X * B + u * D := by rw [hD]; ring
      _ < u * X * B + g * B := by omega
      _ = (Y * n + r + g) * B := by rw [hmod]; ring
      _ ≤ (Y * n + Y) * B := Nat.mul_le_mul_right _ (by omega)
      _ = (n + 1) * B * Y := by ring

/-- the fractional part is seen if it is large enough -/
theorem exact_of {q A X Y u : Nat} (hY : 0 < Y) (hle : X * 2 ^ (2 * q) ≤ A * Y) (happ : Approx q A X Y u)
    (hint : u * X % Y = 0 → u * (A * Y - X * 2 ^ (2 * q)) < 2 ^ q * Y)
    (hfrac : u * X % Y ≠ 0 → 2 ^ q * Y ≤ u * X % Y * 2 ^ (2 * q)) : Exact q A X Y u := by
  unfold Exact
  unfold Approx at happ
  rw [Nat.dvd_iff_mod_eq_zero]
  obtain ⟨D, hD⟩ := Nat.exists_eq_add_of_le hle
  rw [hD, Nat.add_sub_cancel_left] at hint
  have hmod := Nat.div_add_mod (u * X) Y
  have hq0 : 0 < 2 ^ q := by positivity
  have hqq : 2 ^ (2 * q) = 2 ^ q * 2 ^ q := by rw [Nat.two_mul, Nat.pow_add]
  have hdm := Nat.div_add_mod (u * A) (2 ^ (2 * q))
  have hkey : u * A % 2 ^ (2 * q) * Y = u * X % Y * 2 ^ (2 * q) + u * D := by
    have e1 : (2 ^ (2 * q) * (u * X / Y) + u * A % 2 ^ (2 * q)) * Y = u * (A * Y) := by
      rw [← happ, hdm]; ring
    rw [hD] at e1
    have e2 : u * (X * 2 ^ (2 * q) + D) = (Y * (u * X / Y) + u * X % Y) * 2 ^ (2 * q) + u * D := by rw [hmod]; ring
    rw [e2] at e1
    have e3 : (2 ^ (2 * q) * (u * X / Y) + u * A % 2 ^ (2 * q)) * Y
        = Y * (u * X / Y) * 2 ^ (2 * q) + u * A % 2 ^ (2 * q) * Y := by ring
    have e4 : (Y * (u * X / Y) + u * X % Y) * 2 ^ (2 * q) + u * D
        = Y * (u * X / Y) * 2 ^ (2 * q) + (u * X % Y * 2 ^ (2 * q) + u * D) := by ring
    omega
  have hsmall : u * A / 2 ^ q % 2 ^ q = 0 ↔ u * A % 2 ^ (2 * q) < 2 ^ q := by
    have : u * A % 2 ^ (2 * q) / 2 ^ q = u * A / 2 ^ q % 2 ^ q := by
      rw [hqq, Nat.mod_mul_right_div_self]
    rw [← this, Nat.div_eq_zero_iff]
    omega
  rw [hsmall]
  constructor
  · intro h
    by_cases h0 : u * X % Y = 0
    · exact h0
    · exfalso
      have h1 := hfrac h0
      have h2 : u * A % 2 ^ (2 * q) * Y < 2 ^ q * Y := Nat.mul_lt_mul_of_pos_right h hY
      omega
  · intro h
    have h1 := hint h
    rw [h] at hkey
    apply Nat.lt_of_mul_lt_mul_right (a := Y)
    omega

/-- The distances of `u * X / Y` from the integers around it, from a pair of neighbours. -/
theorem neighbours {a b c d X Y u : Nat} (hY : 0 < Y) (hdet : b * c = a * d + 1) (hb : 0 < b) (hd : 0 < d)
    (hal : a * Y < b * X) (hga : d * X < c * Y) (hu : 0 < u) (hud : u < b + d) :
    c * Y - d * X ≤ Y - u * X % Y ∧
      ∃ s t : Nat, 1 ≤ s ∧ u + t * d = s * b ∧ u * X % Y = s * (b * X - a * Y) + t * (c * Y - d * X) := by
  have hmod := Nat.div_add_mod (u * X) Y
  have hlt := Nat.mod_lt (u * X) hY
  have z1 : (b : Int) * c - a * d = 1 := by rw [← Nat.cast_mul, hdet]; push_cast; ring
  have z2 : 0 < (b : Int) * X - a * Y := by
    have : ((a * Y : Nat) : Int) < ((b * X : Nat) : Int) := by exact_mod_cast hal
    push_cast at this; omega
  have z3 : 0 < (c : Int) * Y - d * X := by
    have : ((d * X : Nat) : Int) < ((c * Y : Nat) : Int) := by exact_mod_cast hga
    push_cast at this; omega
  have c1 : ((b * X - a * Y : Nat) : Int) = (b : Int) * X - a * Y := by
    rw [Nat.cast_sub (by omega)]; push_cast; ring
  have c2 : ((c * Y - d * X : Nat) : Int) = (c : Int) * Y - d * X := by
    rw [Nat.cast_sub (by omega)]; push_cast; ring
  have hm : (u : Int) * X = Y * (u * X / Y : Nat) + (u * X % Y : Nat) := by
    have : ((u * X : Nat) : Int) = ((Y * (u * X / Y) + u * X % Y : Nat) : Int) := by rw [hmod]
    push_cast at this ⊢; exact this
  constructor
  · have := lattice (u := (u : Int)) (n := ((u * X / Y : Nat) : Int) + 1) z1 (by exact_mod_cast hb) (by exact_mod_cast hd) z2 z3
      (by exact_mod_cast hu) (by exact_mod_cast hud)
    have hw : (u : Int) * X - ((u * X / Y : Nat) + 1) * Y = (u * X % Y : Nat) - (Y : Int) := by rw [hm]; ring
    rw [hw, ← c1, ← c2] at this
    rcases this with ⟨s, t, h1, h2, -, h4⟩ | h
    · exfalso
      have p1 : 0 < s * ((b * X - a * Y : Nat) : Int) := Int.mul_pos (by omega) (by omega)
      have p2 : 0 ≤ t * ((c * Y - d * X : Nat) : Int) := Int.mul_nonneg h2 (by omega)
      omega
    · omega
  · have := lattice (u := (u : Int)) (n := ((u * X / Y : Nat) : Int)) z1 (by exact_mod_cast hb) (by exact_mod_cast hd) z2 z3
      (by exact_mod_cast hu) (by exact_mod_cast hud)
    have hw : (u : Int) * X - (u * X / Y : Nat) * Y = (u * X % Y : Nat) := by rw [hm]; ring
    rw [hw, ← c1, ← c2] at this
    rcases this with ⟨s, t, h1, h2, h3, h4⟩ | h
    · obtain ⟨s', rfl⟩ := Int.eq_ofNat_of_zero_le (show 0 ≤ s by omega)
      obtain ⟨t', rfl⟩ := Int.eq_ofNat_of_zero_le h2
      refine ⟨s', t', by omega, ?_, ?_⟩
      · have : (u : Int) + (t' * d : Nat) = (s' * b : Nat) := by push_cast; omega
        exact_mod_cast this
      · exact_mod_cast h4
    · exfalso; omega

end Dragonbox
end Fmt
end Efp
