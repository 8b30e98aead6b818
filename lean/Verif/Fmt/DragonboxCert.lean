import Verif.Fmt.Dragonbox
import Verif.Fmt.Lattice

/-!
# Checked certificates for the tables of powers

For every binary exponent the kernel computes a pair of Farey neighbours of `2 ^ (e - 1) * 10 ^ k` and checks the
inequalities under which the truncated power in the table gives exact results for all significands.
-/

namespace Efp
namespace Fmt
namespace Dragonbox

/-- evaluates a number before it is used -/
def force {α : Type} (x : Nat) (f : Nat → α) : α := Nat.casesOn x (f 0) fun n => f (n + 1)

theorem force_eq {α : Type} (x : Nat) (f : Nat → α) : force x f = f x := by cases x <;> rfl

/-- numerator of `2 ^ (e - 1) * 10 ^ k` in lowest terms -/
def numer (e k : Int) : Nat := 2 ^ (e - 1 + k).toNat * 5 ^ k.toNat

/-- denominator of `2 ^ (e - 1) * 10 ^ k` in lowest terms -/
def denom (e k : Int) : Nat := 2 ^ (1 - e - k).toNat * 5 ^ (-k).toNat

/-- what the neighbours must satisfy -/
def okNeighbours (q N U0 exc A X Y a b c d : Nat) : Bool :=
  b * c = a * d + 1 && 0 < b && 0 < d && a * Y < b * X && d * X < c * Y && N < b + d &&
  N * (A * Y - X * 2 ^ (2 * q)) < (c * Y - d * X) * 2 ^ (2 * q) &&
  (2 ^ q * Y ≤ ((U0 + b - 1) / b) * (b * X - a * Y) * 2 ^ (2 * q) ||
    (exc = ((U0 + b - 1) / b) * b && N < ((U0 + b - 1) / b + 1) * b &&
      2 ^ q * Y ≤ (b * X - a * Y + (c * Y - d * X)) * 2 ^ (2 * q)))

/-- walks down the Farey sequences to neighbours of `X / Y` with `b + d > N`; `al = b * X - a * Y` and
`ga = c * Y - d * X` -/
def walk (N : Nat) (k : Nat → Nat → Nat → Nat → Bool) : (fuel : Nat) → (a b c d al ga : Nat) → Bool
  | 0, _, _, _, _, _, _ => false
  | fuel + 1, a, b, c, d, al, ga =>
    if N < b + d then k a b c d
    else if ga < al then
      force (min ((al - 1) / ga) ((N - b - d) / d + 1)) fun j =>
      force (a + j * c) fun a => force (b + j * d) fun b => force (al - j * ga) fun al => walk N k fuel a b c d al ga
    else
      force (min ((ga - 1) / al) ((N - b - d) / b + 1)) fun j =>
      force (c + j * a) fun c => force (d + j * b) fun d => force (ga - j * al) fun ga => walk N k fuel a b c d al ga

/-- the check for one power: `A = cache * 2 ^ beta` -/
def okPower (q N U0 exc A X Y : Nat) : Bool :=
  0 < Y && X * 2 ^ (2 * q) ≤ A * Y &&
  force (X.gcd Y) fun g =>
    if Y ≤ g * 2 ^ q then
      N * (A * Y - X * 2 ^ (2 * q)) < g * 2 ^ (2 * q) && N * (A * Y - X * 2 ^ (2 * q)) < 2 ^ q * Y
    else
      force (X / Y) fun n => walk N (okNeighbours q N U0 exc A X Y) 200 n 1 (n + 1) 1 (X - n * Y) (n * Y + Y - X)

theorem walk_spec {N : Nat} {k : Nat → Nat → Nat → Nat → Bool} {fuel a b c d al ga : Nat}
    (h : walk N k fuel a b c d al ga = true) : ∃ a b c d, k a b c d = true := by
  induction fuel generalizing a b c d al ga with
  | zero => simp [walk] at h
  | succ fuel ih =>
    unfold walk at h
    split at h
    · exact ⟨_, _, _, _, h⟩
    · split at h <;> simp only [force_eq] at h <;> exact ih h

theorem okNeighbours_spec {q N U0 exc A X Y a b c d u : Nat} (hY : 0 < Y) (hle : X * 2 ^ (2 * q) ≤ A * Y)
    (h : okNeighbours q N U0 exc A X Y a b c d = true) (hu0 : 0 < u) (huN : u ≤ N) (hU : U0 ≤ u) :
    Approx q A X Y u ∧ (u ≠ exc → Exact q A X Y u) := by
  simp only [okNeighbours, Bool.and_eq_true, Bool.or_eq_true, decide_eq_true_eq] at h
  obtain ⟨⟨⟨⟨⟨⟨⟨h1, h2⟩, h3⟩, h4⟩, h5⟩, h6⟩, h7⟩, h8⟩ := h
  obtain ⟨n1, s, t, n2, n3, n4⟩ := neighbours hY h1 h2 h3 h4 h5 hu0 (by omega)
  have happ : Approx q A X Y u := by
    refine approx_of hY hle n1 (Nat.lt_of_le_of_lt (Nat.mul_le_mul_right _ huN) h7)
  refine ⟨happ, fun hexc => exact_of hY hle happ ?_ ?_⟩
  · intro h0
    exfalso
    have p1 : 0 < s * (b * X - a * Y) := Nat.mul_pos (by omega) (by omega)
    omega
  · intro _
    rw [n4]
    have hs : (U0 + b - 1) / b ≤ s := by
      apply Nat.le_of_lt_succ
      rw [Nat.div_lt_iff_lt_mul h2, Nat.succ_mul]
      omega
    rcases h8 with h8 | ⟨⟨h8, h9⟩, h10⟩
    · refine h8.trans (Nat.mul_le_mul_right _ ?_)
      exact (Nat.mul_le_mul_right _ hs).trans (Nat.le_add_right _ _)
    · have ht : 1 ≤ t := by
        apply Nat.pos_of_ne_zero
        intro h0
        subst h0
        rw [Nat.zero_mul, Nat.add_zero] at n3
        apply hexc
        rw [n3, h8]
        congr 1
        apply Nat.le_antisymm _ hs
        apply Nat.le_of_lt_succ
        apply Nat.lt_of_mul_lt_mul_right (a := b)
        show s * b < ((U0 + b - 1) / b + 1) * b
        omega
      refine h10.trans (Nat.mul_le_mul_right _ ?_)
      have p1 : b * X - a * Y ≤ s * (b * X - a * Y) := Nat.le_mul_of_pos_left _ (by omega)
      have p2 : c * Y - d * X ≤ t * (c * Y - d * X) := Nat.le_mul_of_pos_left _ (by omega)
      omega

/-- A checked power is exact for every multiplier in range, but for one exception in the integer test. -/
theorem okPower_spec {q N U0 exc A X Y u : Nat} (h : okPower q N U0 exc A X Y = true) (hu0 : 0 < u) (huN : u ≤ N)
    (hU : U0 ≤ u) : 0 < Y ∧ Approx q A X Y u ∧ (u ≠ exc → Exact q A X Y u) := by
  simp only [okPower, Bool.and_eq_true, decide_eq_true_eq, force_eq] at h
  obtain ⟨⟨hY, hle⟩, h⟩ := h
  refine ⟨hY, ?_⟩
  split at h
  · rename_i hg
    simp only [Bool.and_eq_true, decide_eq_true_eq] at h
    have hgY : X.gcd Y ∣ Y := Nat.gcd_dvd_right X Y
    have hgX : X.gcd Y ∣ u * X := Nat.dvd_mul_left_of_dvd (Nat.gcd_dvd_left X Y) u
    have hgm : X.gcd Y ∣ u * X % Y := (Nat.dvd_mod_iff hgY).mpr hgX
    have hlt := Nat.mod_lt (u * X) hY
    have happ : Approx q A X Y u := by
      refine approx_of (g := X.gcd Y) hY hle ?_ (Nat.lt_of_le_of_lt (Nat.mul_le_mul_right _ huN) h.1)
      exact Nat.le_of_dvd (by omega) (Nat.dvd_sub hgY hgm)
    refine ⟨happ, fun _ => exact_of hY hle happ ?_ ?_⟩
    · intro _
      exact Nat.lt_of_le_of_lt (Nat.mul_le_mul_right _ huN) h.2
    · intro h0
      have := Nat.le_of_dvd (Nat.pos_of_ne_zero h0) hgm
      calc 2 ^ q * Y ≤ 2 ^ q * (X.gcd Y * 2 ^ q) := Nat.mul_le_mul_left _ hg
        _ = X.gcd Y * 2 ^ (2 * q) := by rw [Nat.two_mul, Nat.pow_add]; ring
        _ ≤ _ := Nat.mul_le_mul_right _ this
  · obtain ⟨a, b, c, d, hk⟩ := walk_spec h
    exact okNeighbours_spec hY hle hk hu0 huN hU

/-- the row of the table of `double` for the exponent `e`: what `to_decimal` computes from it, checked -/
def okRow64 (e : Int) (U0 : Nat) : Bool :=
  match floorLog10Pow2 e with
  | .ok l =>
    match doubleCachedPower (-(l - 2)), floorLog2Pow10 (-(l - 2)) with
    | .ok c, .ok lb =>
      force c.hi fun hi => force c.lo fun lo => force (e + lb).toNat fun beta =>
      force (numer e (-(l - 2))) fun X => force (denom e (-(l - 2))) fun Y =>
      1 ≤ e + lb && e + lb ≤ 9 && hi < 2 ^ 64 && lo < 2 ^ 64 && 100 * Y ≤ 2 * X && 2 * X < 1000 * Y &&
      okPower 64 (2 ^ 54) U0 0 ((hi * 2 ^ 64 + lo) * 2 ^ beta) X Y &&
      (hi / 2 ^ (63 - beta) == 2 * X / Y)
    | _, _ => false
  | _ => false

/-- the row of the table of `float` for the exponent `e` -/
def okRow32 (e : Int) (U0 exc : Nat) : Bool :=
  match floorLog10Pow2 e with
  | .ok l =>
    match floatCachedPower (-(l - 1)), floorLog2Pow10 (-(l - 1)) with
    | .ok c, .ok lb =>
      force c fun c => force (e + lb).toNat fun beta =>
      force (numer e (-(l - 1))) fun X => force (denom e (-(l - 1))) fun Y =>
      1 ≤ e + lb && e + lb ≤ 6 && c < 2 ^ 64 && 10 * Y ≤ 2 * X && 2 * X < 100 * Y &&
      okPower 32 (2 ^ 25) U0 exc (c * 2 ^ beta) X Y &&
      (c / 2 ^ (63 - beta) == 2 * X / Y)
    | _, _ => false
  | _ => false

/-- `n` rows from `e` on -/
def okRows (row : Int → Bool) : (n : Nat) → (e : Int) → Bool
  | 0, _ => true
  | n + 1, e => row (e + n) && okRows row n e

theorem okRows_spec {row : Int → Bool} {n : Nat} {e : Int} (h : okRows row n e = true) {i : Int} (h1 : e ≤ i)
    (h2 : i < e + n) : row i = true := by
  induction n generalizing e with
  | zero => omega
  | succ n ih =>
    simp only [okRows, Bool.and_eq_true] at h
    by_cases hi : i = e + n
    · rw [hi]; exact h.1
    · exact ih h.2 h1 (by omega)

/-- the smallest multiplier in question and the exception for the exponents of `float` -/
def okRowFloat (e : Int) : Bool :=
  okRow32 e (if e = -149 then 1 else 2 ^ 24 - 1) (if e = -81 ∨ e = -80 then 29711844 else 0)

/-- the smallest multiplier in question for the exponents of `double` -/
def okRowDouble (e : Int) : Bool := okRow64 e (if e = -1074 then 1 else 2 ^ 53 - 1)

theorem rows32 : okRows okRowFloat 254 (-149) = true := by decide +kernel

theorem rows64_0 : okRows okRowDouble 150 (-1126) = true := by decide +kernel

theorem rows64_1 : okRows okRowDouble 150 (-976) = true := by decide +kernel

theorem rows64_2 : okRows okRowDouble 150 (-826) = true := by decide +kernel

theorem rows64_3 : okRows okRowDouble 150 (-676) = true := by decide +kernel

theorem rows64_4 : okRows okRowDouble 150 (-526) = true := by decide +kernel

theorem rows64_5 : okRows okRowDouble 150 (-376) = true := by decide +kernel

theorem rows64_6 : okRows okRowDouble 150 (-226) = true := by decide +kernel

theorem rows64_7 : okRows okRowDouble 150 (-76) = true := by decide +kernel

theorem rows64_8 : okRows okRowDouble 150 (74) = true := by decide +kernel

theorem rows64_9 : okRows okRowDouble 150 (224) = true := by decide +kernel

theorem rows64_10 : okRows okRowDouble 150 (374) = true := by decide +kernel

theorem rows64_11 : okRows okRowDouble 150 (524) = true := by decide +kernel

theorem rows64_12 : okRows okRowDouble 150 (674) = true := by decide +kernel

theorem rows64_13 : okRows okRowDouble 148 (824) = true := by decide +kernel

/-- Every row of the table of `double` passes the check. -/
theorem okRowDouble_all {e : Int} (h1 : -1126 ≤ e) (h2 : e ≤ 971) : okRowDouble e = true := by
  by_cases g0 : e < -976
  · exact okRows_spec rows64_0 (by omega) (by omega)
  by_cases g1 : e < -826
  · exact okRows_spec rows64_1 (by omega) (by omega)
  by_cases g2 : e < -676
  · exact okRows_spec rows64_2 (by omega) (by omega)
  by_cases g3 : e < -526
  · exact okRows_spec rows64_3 (by omega) (by omega)
  by_cases g4 : e < -376
  · exact okRows_spec rows64_4 (by omega) (by omega)
  by_cases g5 : e < -226
  · exact okRows_spec rows64_5 (by omega) (by omega)
  by_cases g6 : e < -76
  · exact okRows_spec rows64_6 (by omega) (by omega)
  by_cases g7 : e < 74
  · exact okRows_spec rows64_7 (by omega) (by omega)
  by_cases g8 : e < 224
  · exact okRows_spec rows64_8 (by omega) (by omega)
  by_cases g9 : e < 374
  · exact okRows_spec rows64_9 (by omega) (by omega)
  by_cases g10 : e < 524
  · exact okRows_spec rows64_10 (by omega) (by omega)
  by_cases g11 : e < 674
  · exact okRows_spec rows64_11 (by omega) (by omega)
  by_cases g12 : e < 824
  · exact okRows_spec rows64_12 (by omega) (by omega)
  exact okRows_spec rows64_13 (by omega) (by omega)

/-- Every row of the table of `float` passes the check. -/
theorem okRowFloat_all {e : Int} (h1 : -149 ≤ e) (h2 : e ≤ 104) : okRowFloat e = true :=
  okRows_spec rows32 h1 (by omega)

end Dragonbox
end Fmt
end Efp
