import Verif.SciFloatMoreLemmas
import Verif.Props.SciFloat

/-!
# Extrema and products of floating-point numbers (C140, C141)

`lt` is the `<` of floating-point numbers, which is false if an operand is NaN (`Verif.Ieee`).
-/

namespace Efp.Props

open Efp.Prelude (Inp)
open Efp.Ieee
open Efp.SciFloat

variable {ω : Type} {F : Fmt}

/-! ## C140: extrema -/

/-- **C140 is false.**  `max_elem` of negative numbers is a positive number, `min_elem` of infinities is finite, and a NaN
makes both forget what came before it: `max_elem({2, NaN, 1})` is 1 and `min_elem({1, NaN, 2})` is 2. -/
theorem C140_refuted :
    maxElem (ω := Unit) double (fps [.fin true 3, .fin true 1]) () = .ok (.fin false (2 ^ (-1022 : Int))) () ∧
    minElem (ω := Unit) double (fps [.inf false, .inf false]) () = .ok dblMax () ∧
    maxElem (ω := Unit) double (fps [.fin false 2, .nan, .fin false 1]) () = .ok (.fin false 1) () ∧
    minElem (ω := Unit) double (fps [.fin false 1, .nan, .fin false 2]) () = .ok (.fin false 2) () := by
  refine ⟨?_, ?_, ?_, ?_⟩ <;> decide +kernel

/-- **C140, NaN.**  With a NaN among the elements, `max_elem` and `min_elem` are the greatest and least of the elements after
the last NaN, and NaN only if it is the last element. -/
theorem C140_nan (as : Inp Fp) (pre post : List Fp) (h : as.vals = pre ++ .nan :: post) (hp : .nan ∉ post) (w : ω) :
    (post = [] → maxElem F as w = .ok .nan w ∧ minElem F as w = .ok .nan w) ∧
    (post ≠ [] → ∃ hi lo, maxElem F as w = .ok hi w ∧ minElem F as w = .ok lo w ∧ hi ∈ post ∧ lo ∈ post ∧
      ∀ x ∈ post, lt hi x = false ∧ lt x lo = false) := by
  obtain ⟨a1, a2⟩ := keep_nan beats_gt pre post (minNormal F) hp
  obtain ⟨b1, b2⟩ := keep_nan beats_lt pre post (maxFinite F) hp
  rw [← h] at a1 a2 b1 b2
  refine ⟨fun he => ?_, fun he => ?_⟩
  · exact ⟨by rw [maxElem_run, a1 he], by rw [minElem_run, b1 he]⟩
  · exact ⟨_, _, maxElem_run as w, minElem_run as w, (a2 he).1, (b2 he).1, fun x hx => ⟨(a2 he).2 x hx, (b2 he).2 x hx⟩⟩

example : maxElem (ω := Unit) double (fps [.fin false 7, .nan, .fin true 3, .fin true 2]) () = .ok (.fin true 2) () ∧
    minElem (ω := Unit) double (fps [.fin false 7, .nan]) () = .ok .nan () := by
  refine ⟨?_, ?_⟩ <;> decide +kernel

/-- **C140, what holds.**  Without NaN, `max_elem` is an element not below any other if some element is not below
`NumericLimits::min()` (the least normal positive number), and `min_elem` is an element not above any other if some element
is not plus infinity; `max_min` is then their difference, rounded. -/
theorem C140_extrema_partial (as : Inp Fp) (hn : ∀ x ∈ as.vals, Finite F x ∨ ∃ s, x = .inf s) (w : ω) :
    ((∃ x ∈ as.vals, lt x (minNormal F) = false) →
      ∃ hi, maxElem F as w = .ok hi w ∧ hi ∈ as.vals ∧ ∀ x ∈ as.vals, lt hi x = false) ∧
    ((∃ x ∈ as.vals, x ≠ .inf false) →
      ∃ lo, minElem F as w = .ok lo w ∧ lo ∈ as.vals ∧ ∀ x ∈ as.vals, lt x lo = false) ∧
    (∀ hi lo, maxElem F as w = .ok hi w → minElem F as w = .ok lo w → maxMin F as w = .ok (sub F hi lo) w) := by
  have hnan : .nan ∉ as.vals := by
    intro h
    rcases hn _ h with ⟨s, m, e, _⟩ | ⟨s, e⟩ <;> cases e
  refine ⟨fun hx => ?_, fun ⟨x, hx, hne⟩ => ?_, fun hi lo h1 h2 => maxMin_run as w h1 h2⟩
  · obtain ⟨_, _, h3, h4, _⟩ := keep_spec beats_gt as.vals (minNormal F) (by simp [minNormal]) hnan
    exact ⟨_, maxElem_run as w, h4 hx, fun x hx => h3 x (List.mem_cons_of_mem _ hx)⟩
  · obtain ⟨_, _, h3, h4, _⟩ := keep_spec beats_lt as.vals (maxFinite F) (by simp [maxFinite]) hnan
    refine ⟨_, minElem_run as w, h4 ⟨x, hx, ?_⟩, fun x hx => h3 x (List.mem_cons_of_mem _ hx)⟩
    rcases hn x hx with h | ⟨s, rfl⟩
    · exact le_maxFinite h
    · cases s
      · exact absurd rfl hne
      · rfl

/-- **C140, the rest.**  Without NaN, if all elements are below `NumericLimits::min()`, `max_elem` returns that number; if all
are plus infinity, `min_elem` returns `NumericLimits::max()`.  Neither is an element. -/
theorem C140_wrong (as : Inp Fp) (w : ω) :
    ((∀ x ∈ as.vals, lt x (minNormal F) = true) → maxElem F as w = .ok (minNormal F) w ∧ minNormal F ∉ as.vals) ∧
    ((∀ x ∈ as.vals, x = .inf false) → minElem F as w = .ok (maxFinite F) w ∧ maxFinite F ∉ as.vals) := by
  refine ⟨fun h => ?_, fun h => ?_⟩
  · have hnan : .nan ∉ as.vals := fun hm => by have := h _ hm; cases this
    obtain ⟨_, _, _, _, h5⟩ := keep_spec beats_gt as.vals (minNormal F) (by simp [minNormal]) hnan
    refine ⟨by rw [maxElem_run, h5 h], fun hm => ?_⟩
    have := h _ hm
    rw [beats_lt.asymm _ _ this] at this; cases this
  · have hnan : .nan ∉ as.vals := fun hm => by have := h _ hm; cases this
    obtain ⟨_, _, _, _, h5⟩ := keep_spec beats_lt as.vals (maxFinite F) (by simp [maxFinite]) hnan
    refine ⟨by rw [minElem_run, h5 fun x hx => by rw [h x hx]; rfl], fun hm => ?_⟩
    have := h _ hm
    cases this

example : (∃ x ∈ (fps [.fin true 2, tenth]).vals, lt x (minNormal double) = false) ∧
    (∃ x ∈ (fps [.fin true 2, .inf false]).vals, x ≠ .inf false) ∧
    (∀ x ∈ (fps [.fin true 2, .fin true 1]).vals, lt x (minNormal double) = true) := by
  refine ⟨⟨tenth, by simp [fps], by decide +kernel⟩, ⟨.fin true 2, by simp [fps], by simp⟩, ?_⟩
  intro x hx
  simp only [fps, List.mem_cons, List.not_mem_nil, or_false] at hx
  rcases hx with rfl | rfl <;> decide +kernel

/-! ## C141: products -/

/-- **C141 is false.**  The product of finite numbers can be NaN, although one of them is zero: `1e200 * 1e200` is infinite
and infinity times zero is NaN.  And it depends on the order: with the zero in front the product is zero. -/
theorem C141_refuted :
    product (ω := Unit) double (fps [.fin false (2 ^ 700), .fin false (2 ^ 700), .fin false 0]) () = .ok .nan () ∧
    product (ω := Unit) double (fps [.fin false 0, .fin false (2 ^ 700), .fin false (2 ^ 700)]) () = .ok (.fin false 0) () := by
  refine ⟨?_, ?_⟩ <;> decide +kernel

/-- **C141, accuracy.**  If the exact products of all beginnings of the sequence stay among the normal numbers of the format,
with a margin for rounding, the product is finite and its relative error is at most `(1 + u)^n - 1`. -/
theorem C141_product_error_partial (hF : F.Ok) (as : Inp Fp) (hl : ∀ x ∈ as.vals, Finite F x)
    (hp : ∀ p, p ≠ [] → p <+: as.vals →
      2 ^ (F.emin + F.prec - 1) ≤ (2 - (1 + unit F) ^ as.vals.length) * |(p.map value).prod| ∧
      (1 + unit F) ^ as.vals.length * |(p.map value).prod| < 2 ^ F.emax) (w : ω) :
    ∃ r, product F as w = .ok r w ∧ Finite F r ∧
      |value r - (as.vals.map value).prod| ≤ ((1 + unit F) ^ as.vals.length - 1) * |(as.vals.map value).prod| := by
  have := foldl_mul_error hF as.vals.length as.vals one 1 0 (one_finite hF) hl (by omega) (by simp [value, one, signed])
    (fun p h1 h2 => by simpa using hp p h1 h2)
  simp only [one_mul, Nat.zero_add] at this
  exact ⟨_, product_run as w, this⟩

/-- the beginnings of a sequence of two -/
theorem prefix_two {α : Type} {a b : α} {p : List α} (h : p <+: [a, b]) : p = [] ∨ p = [a] ∨ p = [a, b] := by
  rcases p with _ | ⟨c, _ | ⟨d, _ | ⟨e, p⟩⟩⟩
  · simp
  · simp at h; simp [h]
  · simp at h; simp [h]
  · have := h.length_le; simp at this

example : ∃ r, product (ω := Unit) double (fps [tenth, tenth]) () = .ok r () ∧ Finite double r ∧
    |value r - (([tenth, tenth]).map value).prod| ≤ ((1 + unit double) ^ 2 - 1) * |(([tenth, tenth]).map value).prod| :=
  C141_product_error_partial double_ok (fps [tenth, tenth]) (by simp [fps, tenth_finite]) (by
    have hlo : (2 : ℚ) ^ (double.emin + double.prec - 1) ≤ 2 ^ (-10 : Int) := zpow_le_zpow_right₀ (by norm_num) (by decide)
    have hhi : (2 : ℚ) ^ (0 : Int) ≤ 2 ^ double.emax := zpow_le_zpow_right₀ (by norm_num) (by decide)
    intro p hne hp
    rcases prefix_two hp with rfl | rfl | rfl
    · exact absurd rfl hne
    · exact ⟨hlo.trans (by decide +kernel), lt_of_lt_of_le (by decide +kernel) hhi⟩
    · exact ⟨hlo.trans (by decide +kernel), lt_of_lt_of_le (by decide +kernel) hhi⟩) ()

/-- **C141, exactness.**  Integers are multiplied exactly if the products of all beginnings stay below `2^prec` (`2^53` for
`double`); the empty product is 1. -/
theorem C141_product_exact_partial (hF : F.Ok) (as : Inp Fp) (hl : ∀ x ∈ as.vals, Finite F x)
    (hi : ∀ x ∈ as.vals, ∃ n : Int, value x = n) (hp : ∀ p, p <+: as.vals → |(p.map value).prod| < 2 ^ F.prec) (w : ω) :
    ∃ r, product F as w = .ok r w ∧ Finite F r ∧ value r = (as.vals.map value).prod := by
  have h1 : value one = 1 := rfl
  have := foldl_mul_exact hF as.vals one (one_finite hF) hl ⟨1, by simp [h1]⟩ hi (fun p h => by rw [h1, one_mul]; exact hp p h)
  rw [h1, one_mul] at this
  exact ⟨_, product_run as w, this⟩

theorem minus_three_int : ∃ n : Int, value (.fin true 3) = n := ⟨-3, by decide +kernel⟩

theorem three_finite : Finite double (.fin true 3) :=
  ⟨true, 3, rfl, by norm_num, ⟨3, 0, by norm_num, by decide +kernel, by decide⟩, by
    have : (2 : ℚ) ^ (2 : Int) ≤ 2 ^ double.emax := zpow_le_zpow_right₀ (by norm_num) (by decide)
    refine lt_of_lt_of_le ?_ this
    norm_num⟩

example : ∃ r, product (ω := Unit) double (fps [.fin true 3, .fin true 3]) () = .ok r () ∧ Finite double r ∧ value r = 9 := by
  have := C141_product_exact_partial (ω := Unit) double_ok (fps [.fin true 3, .fin true 3]) (by simp [fps, three_finite])
    (by simp only [fps, List.mem_cons, List.not_mem_nil, or_false, or_self]; rintro x rfl; exact minus_three_int) (by
    intro p hp
    rcases prefix_two hp with rfl | rfl | rfl <;> decide +kernel) ()
  obtain ⟨r, h1, h2, h3⟩ := this
  exact ⟨r, h1, h2, h3.trans (by decide +kernel)⟩

/-- **C141, NaN.**  A NaN among the elements makes the product NaN. -/
theorem C141_product_nan (as : Inp Fp) (h : .nan ∈ as.vals) (w : ω) : product F as w = .ok .nan w := by
  rw [product_run, foldl_mul_nan _ _ (.inr h)]

/-- **C141, zero.**  If a factor of finite numbers is zero, the product is a zero or NaN; it is a zero if the product of what stands
before the zero does not overflow.  Missing from C141: the other products, which are NaN. -/
theorem C141_product_zero_partial (as : Inp Fp) (xs ys : List Fp) (s : Bool) (ha : as.vals = xs ++ .fin s 0 :: ys)
    (hl : ∀ x ∈ as.vals, Finite F x) (w : ω) :
    (product F as w = .ok .nan w ∨ ∃ t, product F as w = .ok (.fin t 0) w) ∧
    ((∃ p, product F (fps xs) w = .ok p w ∧ Finite F p) → ∃ t, product F as w = .ok (.fin t 0) w) := by
  have h0 : Ieee.round F 0 = 0 := Ieee.round_zero F
  have h1 : (0 : ℚ) < 2 ^ F.emax := by positivity
  have hstay : ∀ (l : List Fp), (∀ x ∈ l, Finite F x) → ∀ t, ∃ u, l.foldl (mul F) (.fin t 0) = .fin u 0 := by
    intro l
    induction l with
    | nil => intro _ t; exact ⟨t, rfl⟩
    | cons x l ih =>
      intro h t
      cases x with
      | nan => exact absurd (h .nan (by simp)) (by simp [Ieee.Finite])
      | inf u => exact absurd (h (.inf u) (by simp)) (by simp [Ieee.Finite])
      | fin u b =>
        rw [List.foldl_cons, show mul F (.fin t 0) (.fin u b) = .fin (t ^^ u) 0 by simp [mul, signed, ofExact, h0, h1]]
        exact ih (fun y hy => h y (List.mem_cons_of_mem _ hy)) _
  have hys : ∀ x ∈ ys, Finite F x := fun x hx => hl x (by rw [ha]; simp [hx])
  rw [product_run, ha, List.foldl_append, List.foldl_cons]
  constructor
  · cases hp : xs.foldl (mul F) one with
    | nan => exact .inl (by rw [show mul F .nan (.fin s 0) = .nan from rfl, foldl_mul_nan _ _ (.inl rfl)])
    | inf t => exact .inl (by rw [show mul F (.inf t) (.fin s 0) = .nan by simp [mul], foldl_mul_nan _ _ (.inl rfl)])
    | fin t a =>
      rw [show mul F (.fin t a) (.fin s 0) = .fin (t ^^ s) 0 by simp [mul, signed, ofExact, h0, h1]]
      obtain ⟨u, hu⟩ := hstay ys hys (t ^^ s)
      exact .inr ⟨u, by rw [hu]⟩
  · rintro ⟨p, hp, hf⟩
    rw [product_run] at hp
    have hp' : xs.foldl (mul F) one = p := by simpa [fps, Inp.vals] using hp
    rw [hp']
    cases p with
    | nan => exact absurd hf (by simp [Ieee.Finite])
    | inf t => exact absurd hf (by simp [Ieee.Finite])
    | fin t a =>
      rw [show mul F (.fin t a) (.fin s 0) = .fin (t ^^ s) 0 by simp [mul, signed, ofExact, h0, h1]]
      obtain ⟨u, hu⟩ := hstay ys hys (t ^^ s)
      exact ⟨u, by rw [hu]⟩

example : product (ω := Unit) double (fps [.fin true 3, .fin false 0]) () = .ok (.fin true 0) () := by decide +kernel
example : product (ω := Unit) double (fps [.fin false (2 ^ 1000), .fin false (2 ^ 1000), .fin false 0]) () = .ok .nan () := by
  decide +kernel

end Efp.Props
