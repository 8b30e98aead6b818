import Verif.Fmt.FloatSpecs
import Verif.Fmt.FloatDefault
import Verif.Fmt.Reverse

/-!
# What the texts of rounded numbers denote
-/

namespace Efp
namespace Spec

open _root_.Efp.Fmt

theorem digits_padded (n p : Nat) :
    let ds := List.replicate (p + 1 - digitCount n) '0' ++ Nat.toDigits 10 n
    IsDigits ds ∧ digitsValue ds = n ∧ p + 1 ≤ ds.length := by
  refine ⟨⟨by simp [(isDigits_toDigits n).1], fun c hc => ?_⟩, ?_, ?_⟩
  · rcases List.mem_append.1 hc with h | h
    · exact zeros_digit c h
    · exact (isDigits_toDigits n).2 c h
  · rw [digitsValue_append, digitsValue_zeros, digitsValue_toDigits]; omega
  · rw [List.length_append, List.length_replicate]
    unfold digitCount
    omega

theorem isNumeral_split (mark : Char) {ds : Str} (hd : IsDigits ds) (k : Nat) (hk : k < ds.length) (expo : Str) {e : Int}
    (he : IsExponent mark expo e) :
    IsNumeral mark (ds.take (ds.length - k) ++ (if k = 0 then [] else '.' :: ds.drop (ds.length - k)) ++ expo)
      (digitsValue ds * 10 ^ (e - k)) := by
  refine ⟨ds.take (ds.length - k), if k = 0 then [] else '.' :: ds.drop (ds.length - k), expo, e, rfl, ?_, he, ?_⟩
  · refine ⟨by simp only [ne_eq, List.take_eq_nil_iff, hd.1, or_false]; omega, fun c hc => hd.2 c (List.mem_of_mem_take hc)⟩
  · by_cases h0 : k = 0
    · left
      subst h0
      rw [if_pos rfl, Nat.sub_zero, List.take_of_length_le (le_refl _)]
      exact ⟨rfl, by simp⟩
    · right
      refine ⟨ds.drop (ds.length - k), ⟨?_, fun c hc => hd.2 c (List.mem_of_mem_drop hc)⟩, if_neg h0, ?_⟩
      · simp only [ne_eq, List.drop_eq_nil_iff]; omega
      · rw [List.take_append_drop, List.length_drop]
        congr 3
        omega

/-- the number in fixed notation; a point without digits after it is not part of a numeral -/
theorem isNumeral_fixedText (mark : Char) (n p : Nat) (alt : Bool) (h : p ≠ 0 ∨ alt = false) :
    IsNumeral mark (fixedText n p alt) (n * 10 ^ (-p : Int)) := by
  obtain ⟨h1, h2, h3⟩ := digits_padded n p
  have := isNumeral_split mark h1 p (by omega) [] (Or.inl ⟨rfl, rfl⟩)
  rw [h2, List.append_nil, zero_sub] at this
  unfold fixedText
  simp only []
  by_cases hp : p = 0
  · rw [if_pos ⟨hp, h.resolve_left (fun h' => h' hp)⟩]
    rw [if_pos hp] at this
    exact this
  · rw [if_neg (fun h' => hp h'.1)]
    rw [if_neg hp] at this
    exact this

theorem isNumeral_expText (mark : Char) {ds : Str} (hd : IsDigits ds) (x : Int) (alt : Bool) (h : ds.length ≠ 1 ∨ alt = false) :
    IsNumeral mark (expText mark ds x alt) (digitsValue ds * 10 ^ (x - (ds.length - 1 : Nat))) := by
  have hlen : 0 < ds.length := List.length_pos_iff.2 hd.1
  have := isNumeral_split mark hd (ds.length - 1) (by omega) _ (isExponent_text mark x)
  rw [show ds.length - (ds.length - 1) = 1 by omega] at this
  unfold expText
  by_cases hp : ds.length = 1
  · rw [if_pos ⟨hp, h.resolve_left (fun h' => h' hp)⟩]
    rw [if_pos (by omega)] at this
    exact this
  · rw [if_neg (fun h' => hp h'.1)]
    rw [if_neg (by omega)] at this
    exact this

/-- rounding to `p` digits after the point is off by at most half a unit of the last one -/
theorem IsFixed.numeral {q : ℚ} {p : Nat} {alt : Bool} {text : Str} (h : IsFixed q p alt text) (mark : Char)
    (ha : p ≠ 0 ∨ alt = false) : ∃ v, IsNumeral mark text v ∧ |q - v| ≤ 1 / 2 * 10 ^ (-p : Int) := by
  obtain ⟨n, h1, rfl⟩ := h
  refine ⟨_, isNumeral_fixedText mark n p alt ha, ?_⟩
  have h2 := h1.1
  have h10 : (0 : ℚ) < 10 ^ (-p : Int) := zpow_pos (by norm_num) _
  have e : q - n * 10 ^ (-p : Int) = (q * 10 ^ p - n) * 10 ^ (-p : Int) := by
    rw [sub_mul, mul_assoc, zpow_neg, zpow_natCast, mul_inv_cancel₀ (by positivity), mul_one]
  rw [e, abs_mul, abs_of_pos h10]
  exact mul_le_mul_of_nonneg_right h2 h10.le

theorem IsRounded.close {q : ℚ} {p n : Nat} {x : Int} (h : IsRounded q p n x) :
    ∃ k, IsExp10 q k ∧ |q - n * 10 ^ (x - p)| ≤ 1 / 2 * 10 ^ (k - p) := by
  obtain ⟨-, -, k, n', h1, h2, h3⟩ := h
  refine ⟨k, h1, ?_⟩
  have h10 : (0 : ℚ) < 10 ^ (k - p : Int) := zpow_pos (by norm_num) _
  rw [h3, show q - n' * 10 ^ (k - p : Int) = (q / 10 ^ (k - p : Int) - n') * 10 ^ (k - p : Int) by
    rw [sub_mul, div_mul_cancel₀ _ h10.ne'], abs_mul, abs_of_pos h10]
  exact mul_le_mul_of_nonneg_right h2.1 h10.le

theorem IsRounded.length {q : ℚ} {p n : Nat} {x : Int} (h : IsRounded q p n x) : (Nat.toDigits 10 n).length = p + 1 := by
  obtain ⟨h1, h2, -⟩ := h
  have h3 : (Nat.toDigits 10 n).length ≤ p + 1 := (Nat.length_toDigits_le_iff (by omega) (by omega)).2 h2
  have h4 : ¬ (Nat.toDigits 10 n).length ≤ p := by
    rcases Nat.eq_zero_or_pos p with rfl | hp
    · have := Nat.length_toDigits_pos (b := 10) (n := n)
      omega
    · rw [Nat.length_toDigits_le_iff (by omega) hp]
      omega
  omega

/-- rounding to `p + 1` significant digits is off by at most half a unit of the last one -/
theorem IsScientific.numeral {mark : Char} {q : ℚ} {p : Nat} {alt : Bool} {text : Str} (h : IsScientific mark q p alt text)
    (ha : p ≠ 0 ∨ alt = false) :
    ∃ v, IsNumeral mark text v ∧ (q = 0 ∧ v = 0 ∨ ∃ k, IsExp10 q k ∧ |q - v| ≤ 1 / 2 * 10 ^ (k - p)) := by
  rcases h with ⟨h1, rfl⟩ | ⟨-, n, x, h1, rfl⟩
  · refine ⟨_, isNumeral_expText mark ⟨by simp, zeros_digit⟩ 0 alt (ha.imp (by rw [List.length_replicate]; omega) id), Or.inl ⟨h1, ?_⟩⟩
    rw [digitsValue_zeros]
    simp
  · refine ⟨_, isNumeral_expText mark (isDigits_toDigits n) x alt (ha.imp (by rw [h1.length]; omega) id), Or.inr ?_⟩
    rw [digitsValue_toDigits, h1.length]
    exact h1.close

theorem dropTrailing_spec (ds : Str) : ∃ z, ds = dropTrailing ds ++ List.replicate z '0' := by
  unfold dropTrailing
  have h := List.takeWhile_append_dropWhile (p := fun c => decide (c = '0')) (l := ds.reverse)
  refine ⟨(ds.reverse.takeWhile (fun c => decide (c = '0'))).length, ?_⟩
  have h2 : ds.reverse.takeWhile (fun c => decide (c = '0')) =
      List.replicate (ds.reverse.takeWhile (fun c => decide (c = '0'))).length '0' := by
    refine List.eq_replicate_iff.2 ⟨rfl, fun c hc => ?_⟩
    simpa using List.all_eq_true.1 (List.all_takeWhile (p := fun c => decide (c = '0')) (l := ds.reverse)) c hc
  have h3 := congrArg List.reverse h
  rw [List.reverse_append, List.reverse_reverse] at h3
  conv_lhs => rw [← h3]
  rw [h2, List.reverse_replicate, List.length_replicate]

/-- general notation without `#` -/
theorem isNumeral_generalText (mark : Char) {ds : Str} (hd : IsDigits ds) (h0 : digitsValue ds ≠ 0) (x : Int) (p : Nat) :
    IsNumeral mark (generalText mark ds x p false) (digitsValue ds * 10 ^ (x - (ds.length - 1 : Nat))) := by
  obtain ⟨z, hz⟩ := dropTrailing_spec ds
  have hne : dropTrailing ds ≠ [] := by
    intro h
    rw [hz, h, List.nil_append, digitsValue_zeros] at h0
    exact h0 rfl
  have hd' : IsDigits (dropTrailing ds) := ⟨hne, fun c hc => hd.2 c (by rw [hz]; exact List.mem_append_left _ hc)⟩
  have hlen : ds.length = (dropTrailing ds).length + z := by
    conv_lhs => rw [hz]
    rw [List.length_append, List.length_replicate]
  have hpos : 0 < (dropTrailing ds).length := List.length_pos_iff.2 hne
  have hv : (digitsValue ds : ℚ) * 10 ^ (x - (ds.length - 1 : Nat)) =
      digitsValue (dropTrailing ds) * 10 ^ (x - ((dropTrailing ds).length - 1 : Nat)) := by
    conv_lhs => rw [hz]
    rw [digitsValue_append, digitsValue_zeros, List.length_replicate, Nat.add_zero, ← hz]
    push_cast
    rw [mul_assoc, ← zpow_natCast (10 : ℚ) z, ← zpow_add₀ (by norm_num)]
    congr 2
    omega
  rw [hv]
  unfold generalText
  simp only [Bool.false_eq_true, if_false, false_and, List.append_nil]
  split
  · have := isNumeral_positional mark hd' (x + 1 - (dropTrailing ds).length)
    rwa [show x + 1 - ((dropTrailing ds).length : Int) = x - ((dropTrailing ds).length - 1 : Nat) by omega] at this ⊢
  · exact isNumeral_expText mark hd' x false (Or.inr rfl)

theorem IsGeneral.numeral {mark : Char} {q : ℚ} {p : Nat} {text : Str} (h : IsGeneral mark q p false text) :
    ∃ v, IsNumeral mark text v ∧ (q = 0 ∧ v = 0 ∨ ∃ k, IsExp10 q k ∧ |q - v| ≤ 1 / 2 * 10 ^ (k - (p - 1 : Nat))) := by
  rcases h with ⟨h1, rfl⟩ | ⟨-, n, x, h1, rfl⟩
  · exact ⟨_, isNumeral_fixedText mark 0 _ false (Or.inr rfl), Or.inl ⟨h1, by simp⟩⟩
  · have hn : n ≠ 0 := by
      have := h1.1
      have := Nat.pow_pos (n := p - 1) (show 0 < 10 by omega)
      omega
    refine ⟨_, isNumeral_generalText mark (isDigits_toDigits n) (by rw [digitsValue_toDigits]; exact hn) x p, Or.inr ?_⟩
    rw [digitsValue_toDigits, h1.length]
    exact h1.close

theorem IsRoundEven.unique {q : ℚ} {n n' : Nat} (h : IsRoundEven q n) (h' : IsRoundEven q n') : n = n' := by
  by_contra hne
  wlog hlt : n < n' generalizing n n'
  · exact this h' h (Ne.symm hne) (by omega)
  have h1 := abs_le.1 h.1
  have h2 := abs_le.1 h'.1
  have hq : (n : ℚ) + 1 ≤ n' := by exact_mod_cast hlt
  have e1 : q - n = 1 / 2 := by linarith
  have e2 : q - n' = -(1 / 2) := by linarith
  have h3 := h.2 (by rw [e1]; norm_num)
  have h4 := h'.2 (by rw [e2]; norm_num)
  have : (n' : ℚ) = n + 1 := by linarith
  have : n' = n + 1 := by exact_mod_cast this
  omega

/-- a number has one text in fixed notation -/
theorem IsFixed.unique {q : ℚ} {p : Nat} {alt : Bool} {t t' : Str} (h : IsFixed q p alt t) (h' : IsFixed q p alt t') : t = t' := by
  obtain ⟨n, h1, rfl⟩ := h
  obtain ⟨n', h2, rfl⟩ := h'
  rw [h1.unique h2]

theorem IsExp10.unique {q : ℚ} {k k' : Int} (h : IsExp10 q k) (h' : IsExp10 q k') : k = k' := by
  have h1 := lt_of_le_of_lt h.1 h'.2
  have h2 := lt_of_le_of_lt h'.1 h.2
  rw [zpow_lt_zpow_iff_right₀ (by norm_num)] at h1 h2
  omega

theorem IsRounded.unique {q : ℚ} {p n n' : Nat} {x x' : Int} (h : IsRounded q p n x) (h' : IsRounded q p n' x') :
    n = n' ∧ x = x' := by
  obtain ⟨a1, a2, k, r, a3, a4, a5⟩ := h
  obtain ⟨b1, b2, k', r', b3, b4, b5⟩ := h'
  obtain rfl := a3.unique b3
  obtain rfl := a4.unique b4
  have e : (n * 10 ^ (x - p) : ℚ) = n' * 10 ^ (x' - p) := a5.trans b5.symm
  have key : ∀ {n n' : Nat} {x x' : Int}, 10 ^ p ≤ n → n' < 10 ^ (p + 1) → (n * 10 ^ (x - p) : ℚ) = n' * 10 ^ (x' - p) →
      x ≤ x' := by
    intro n n' x x' h1 h2 h3
    by_contra hx
    have p1 : (10 : ℚ) ^ p ≤ n := by exact_mod_cast h1
    have p2 : (n' : ℚ) < 10 ^ (p + 1) := by exact_mod_cast h2
    have p3 : (n' * 10 ^ (x' - p) : ℚ) < 10 ^ (p + 1) * 10 ^ (x' - p) := mul_lt_mul_of_pos_right p2 (zpow_pos (by norm_num) _)
    have p4 : (10 ^ p * 10 ^ (x - p) : ℚ) ≤ n * 10 ^ (x - p) := mul_le_mul_of_nonneg_right p1 (zpow_pos (by norm_num) _).le
    rw [← zpow_natCast, ← zpow_add₀ (by norm_num)] at p3 p4
    rw [h3] at p4
    have p5 := lt_of_le_of_lt p4 p3
    rw [zpow_lt_zpow_iff_right₀ (by norm_num)] at p5
    push_cast at p5
    omega
  obtain rfl : x = x' := le_antisymm (key a1 b2 e) (key b1 a2 e.symm)
  refine ⟨?_, rfl⟩
  have := mul_right_cancel₀ (zpow_pos (show (0 : ℚ) < 10 by norm_num) (x - p)).ne' e
  exact_mod_cast this

theorem IsScientific.unique {mark : Char} {q : ℚ} {p : Nat} {alt : Bool} {t t' : Str} (h : IsScientific mark q p alt t)
    (h' : IsScientific mark q p alt t') : t = t' := by
  rcases h with ⟨h1, rfl⟩ | ⟨h0, n, x, h1, rfl⟩ <;> rcases h' with ⟨h2, rfl⟩ | ⟨h0', n', x', h2, rfl⟩
  · rfl
  · exact absurd h1 h0'.ne'
  · exact absurd h2 h0.ne'
  · obtain ⟨rfl, rfl⟩ := h1.unique h2; rfl

theorem IsGeneral.unique {mark : Char} {q : ℚ} {p : Nat} {alt : Bool} {t t' : Str} (h : IsGeneral mark q p alt t)
    (h' : IsGeneral mark q p alt t') : t = t' := by
  rcases h with ⟨h1, rfl⟩ | ⟨h0, n, x, h1, rfl⟩ <;> rcases h' with ⟨h2, rfl⟩ | ⟨h0', n', x', h2, rfl⟩
  · rfl
  · exact absurd h1 h0'.ne'
  · exact absurd h2 h0.ne'
  · obtain ⟨rfl, rfl⟩ := h1.unique h2; rfl

/-! ## Hexadecimal notation -/

theorem readNat_append' (d t : Str) :
    Spec.Fmt.readNat 16 (d ++ t) = Spec.Fmt.readNat 16 d * 16 ^ t.length + Spec.Fmt.readNat 16 t := by
  have key : ∀ (t : Str) v, t.foldl (fun v c => v * 16 + Spec.Fmt.digitValue c) v = v * 16 ^ t.length + Spec.Fmt.readNat 16 t := by
    intro t
    induction t with
    | nil => intro v; simp [Spec.Fmt.readNat]
    | cons c t ih =>
      intro v
      unfold Spec.Fmt.readNat
      simp only [List.foldl_cons, List.length_cons]
      rw [ih, ih]
      ring
  rw [readNat_append, key]

theorem readNat_zeros16 (z : Nat) : Spec.Fmt.readNat 16 (List.replicate z '0') = 0 := by
  have := readNat_zeros' 16 [] z
  rw [List.append_nil] at this
  exact this

theorem xdigit_char (v : Nat) (h : v < 16) (upper : Bool) :
    IsXdigit (hexDigit upper v) ∧ Spec.Fmt.digitValue (hexDigit upper v) = v := by
  revert v upper
  unfold IsXdigit
  decide

theorem padHex_spec (upper : Bool) : ∀ n v, v < 16 ^ n →
    (∀ c ∈ padHex upper n v, IsXdigit c) ∧ Spec.Fmt.readNat 16 (padHex upper n v) = v
  | 0, v, h => by
    have : v = 0 := by simpa using h
    subst this
    exact ⟨by simp [padHex], rfl⟩
  | n + 1, v, h => by
    obtain ⟨h1, h2⟩ := padHex_spec upper n (v / 16) (by rw [Nat.div_lt_iff_lt_mul (by decide), ← pow_succ]; exact h)
    obtain ⟨h3, h4⟩ := xdigit_char (v % 16) (by omega) upper
    rw [padHex]
    refine ⟨fun c hc => ?_, ?_⟩
    · rcases List.mem_append.1 hc with hc | hc
      · exact h1 c hc
      · rw [List.mem_singleton.1 hc]; exact h3
    · rw [readNat_append', h2]
      have : Spec.Fmt.readNat 16 [hexDigit upper (v % 16)] = v % 16 := by
        unfold Spec.Fmt.readNat
        simp [h4]
      rw [this]
      simp only [List.length_cons, List.length_nil]
      omega

theorem isExponent_hex (mark : Char) (e : Int) :
    IsExponent mark (mark :: (if e < 0 then '-' else '+') :: Nat.toDigits 10 e.natAbs) e := by
  right
  refine ⟨_, isDigits_toDigits e.natAbs, ?_⟩
  rw [digitsValue_toDigits]
  by_cases h : e < 0
  · right; rw [if_pos h]; exact ⟨rfl, by omega⟩
  · left; rw [if_neg h]; exact ⟨rfl, by omega⟩

theorem isHexNumeral_text (upper : Bool) (d : Char) (ds : Str) (hd : ∀ c ∈ d :: ds, IsXdigit c) (e : Int) (alt : Bool) :
    IsHexNumeral upper (hexText upper (d :: ds) e alt) (Spec.Fmt.readNat 16 (d :: ds) * 2 ^ (e - 4 * ds.length)) := by
  refine ⟨d, ds, if ds = [] ∧ alt = false then [] else ['.'], _, e, ?_, ?_, hd, ?_, isExponent_hex _ e, rfl⟩
  · unfold hexText
    by_cases h : ds = [] ∧ alt = false
    · rw [if_pos h]
      obtain ⟨rfl, rfl⟩ := h
      simp
    · rw [if_neg h, if_neg (show ¬ ((d :: ds).length = 1 ∧ alt = false) by simpa using h)]
      simp
  · by_cases h : ds = [] ∧ alt = false
    · left; rw [if_pos h]; exact ⟨rfl, h.1⟩
    · right; rw [if_neg h]
  · simp

theorem IsHex.numeral {upper : Bool} {q : ℚ} {prec : Int} {alt : Bool} {text : Str} (h : IsHex upper q prec alt text) :
    ∃ v, IsHexNumeral upper text v ∧ (prec < 0 → v = q) ∧
      (0 ≤ prec → ∃ e, IsExp2 q e ∧ |q - v| ≤ 1 / 2 * 2 ^ (e - 4 * prec)) := by
  obtain ⟨e, n, he, ⟨hp, h1, h2, rfl⟩ | ⟨hp, h1, h2, rfl⟩⟩ := h
  · rw [hexDigits_eq upper 13 n h2]
    obtain ⟨h3, h4⟩ := padHex_spec upper 14 n h2
    have h5 := padHex_length upper 14 n
    generalize padHex upper 14 n = w at *
    match w, h5 with
    | d :: ds, h5 =>
      simp only [List.take_succ_cons, List.take_zero, List.drop_succ_cons, List.drop_zero, List.singleton_append]
      obtain ⟨z, hz⟩ := dropTrailing_spec ds
      refine ⟨_, isHexNumeral_text upper d (dropTrailing ds) (fun c hc => h3 c ?_) e alt, fun _ => ?_, fun h => absurd hp (by omega)⟩
      · rw [hz]
        rcases List.mem_cons.1 hc with rfl | hc
        · simp
        · exact List.mem_cons_of_mem _ (List.mem_append_left _ hc)
      · rw [h1]
        have hl : ds.length = (dropTrailing ds).length + z := by
          conv_lhs => rw [hz]
          rw [List.length_append, List.length_replicate]
        have h6 : (d :: ds).length = 14 := h5
        rw [List.length_cons] at h6
        have e1 : n = Spec.Fmt.readNat 16 (d :: dropTrailing ds) * 16 ^ z := by
          rw [← h4]
          conv_lhs => rw [hz, ← List.cons_append]
          rw [readNat_append', readNat_zeros16, List.length_replicate, Nat.add_zero]
        conv_rhs => rw [e1]
        push_cast
        rw [show (16 : ℚ) = 2 ^ (4 : Int) by norm_num, ← zpow_natCast, ← zpow_mul, mul_assoc, ← zpow_add₀ (by norm_num)]
        congr 2
        omega
  · rw [hexDigits_eq upper prec.toNat n h2]
    obtain ⟨h3, h4⟩ := padHex_spec upper (prec.toNat + 1) n h2
    have h5 := padHex_length upper (prec.toNat + 1) n
    generalize padHex upper (prec.toNat + 1) n = w at *
    match w, h5 with
    | d :: ds, h5 =>
      refine ⟨_, isHexNumeral_text upper d ds h3 e alt, fun h => absurd hp (by omega), fun _ => ⟨e, he, ?_⟩⟩
      have h6 : ds.length = prec.toNat := by simpa using h5
      rw [h4, h6, show e - 4 * ((prec.toNat : Nat) : Int) = e - 4 * prec by omega]
      have hpos : (0 : ℚ) < 2 ^ (e - 4 * prec) := zpow_pos (by norm_num) _
      rw [show q - n * 2 ^ (e - 4 * prec) = (q / 2 ^ (e - 4 * prec) - n) * 2 ^ (e - 4 * prec) by
        rw [sub_mul, div_mul_cancel₀ _ hpos.ne'], abs_mul, abs_of_pos hpos]
      refine mul_le_mul_of_nonneg_right (abs_le.2 ⟨?_, ?_⟩) hpos.le
      · linarith [h1.1]
      · linarith [h1.2]

theorem IsHexNumeral.unique {upper : Bool} {s : Str} {q q' : ℚ} (h : IsHexNumeral upper s q) (h' : IsHexNumeral upper s q') :
    q = q' := by
  obtain ⟨d, ds, pt, x, e, rfl, hp, hx, hn, he, rfl⟩ := h
  obtain ⟨d', ds', pt', x', e', h1, hp', hx', hn', he', rfl⟩ := h'
  simp only [List.cons.injEq, true_and] at h1
  obtain ⟨rfl, h1⟩ := h1
  have head : ∀ {x : Str} {e : Int}, x ≠ [] → IsExponent (if upper then 'P' else 'p') x e →
      ∃ r, x = (if upper then 'P' else 'p') :: r := by
    intro x e hn he
    rcases he with ⟨rfl, -⟩ | ⟨t, -, ⟨rfl, -⟩ | ⟨rfl, -⟩⟩
    · exact absurd rfl hn
    · exact ⟨_, rfl⟩
    · exact ⟨_, rfl⟩
  have hmark : ¬ IsXdigit (if upper then 'P' else 'p') := by
    cases upper <;> unfold IsXdigit <;> decide
  have hdot : '.' ≠ (if upper then 'P' else 'p') := by cases upper <;> decide
  have split : ∀ (a b : Str) {r t : Str}, (∀ c ∈ a, IsXdigit c) → (∀ c ∈ b, IsXdigit c) →
      a ++ (if upper then 'P' else 'p') :: r = b ++ (if upper then 'P' else 'p') :: t → a = b ∧ r = t := by
    intro a
    induction a with
    | nil =>
      intro b r t _ hb h
      cases b with
      | nil => simpa using h
      | cons c b =>
        simp only [List.nil_append, List.cons_append, List.cons.injEq] at h
        exact absurd (hb c (by simp)) (by rw [← h.1]; exact hmark)
    | cons c a ih =>
      intro b r t ha hb h
      cases b with
      | nil =>
        simp only [List.nil_append, List.cons_append, List.cons.injEq] at h
        exact absurd (ha c (by simp)) (by rw [h.1]; exact hmark)
      | cons c' b =>
        simp only [List.cons_append, List.cons.injEq] at h
        obtain ⟨rfl, h⟩ := h
        obtain ⟨rfl, rfl⟩ := ih b (fun c hc => ha c (by simp [hc])) (fun c hc => hb c (by simp [hc])) h
        exact ⟨rfl, rfl⟩
  obtain ⟨r, rfl⟩ := head hn he
  obtain ⟨r', rfl⟩ := head hn' he'
  have both : ds = ds' ∧ r = r' := by
    rcases hp with ⟨rfl, rfl⟩ | rfl <;> rcases hp' with ⟨rfl, rfl⟩ | rfl
    · simpa using h1
    · simp only [List.nil_append, List.cons_append, List.cons.injEq] at h1
      exact absurd h1.1.symm hdot
    · simp only [List.nil_append, List.cons_append, List.cons.injEq] at h1
      exact absurd h1.1 hdot
    · simp only [List.nil_append, List.cons_append, List.cons.injEq, true_and] at h1
      exact split ds ds' (fun c hc => hx c (by simp [hc])) (fun c hc => hx' c (by simp [hc])) h1
  obtain ⟨rfl, rfl⟩ := both
  rw [he.unique he']

end Spec
end Efp
