import Verif.Fmt.FloatPrecText
import Verif.Fmt.FloatDefault
import Verif.Fmt.WriteLemmas

/-!
# Floating-point numbers with options
-/

namespace Efp
namespace Fmt

open Spec Dragonbox

/-! ## Bodies -/

theorem stripZeros_eq : ∀ (r : Str) (e : Int),
    stripZeros r e = (r.dropWhile (· = '0'), e + (r.length - (r.dropWhile (· = '0')).length : Nat))
  | [], e => by simp [stripZeros]
  | c :: r, e => by
    by_cases h : c = '0'
    · subst h
      rw [stripZeros, if_pos rfl, stripZeros_eq r (e + 1)]
      have hl : (r.dropWhile (· = '0')).length ≤ r.length := (List.dropWhile_suffix _).length_le
      simp only [decide_true, List.dropWhile_cons_of_pos, List.length_cons, Prod.mk.injEq, true_and]
      omega
    · rw [stripZeros, if_neg h]
      simp [h]

theorem dropTrailing_zeros (ds : Str) : ∀ j, dropTrailing (ds ++ List.replicate j '0') = dropTrailing ds
  | 0 => by simp
  | j + 1 => by
    rw [List.replicate_succ', ← List.append_assoc]
    have := dropTrailing_zeros ds j
    unfold dropTrailing at this ⊢
    rw [List.reverse_append]
    simp

theorem floatBody_exp {ds : Str} (p : Nat) (x : Int) (h1 : ds ≠ []) (h2 : ds.length ≤ p + 1) (fs : FloatSpecs)
    (hf : fs.format = .exp) (hp : fs.precision = (p + 1 : Nat)) (alt : Bool) (hs : fs.showpoint = (alt || decide (p ≠ 0))) :
    floatBody ds (x + 1 - ds.length) fs =
      expText (if fs.upper then 'E' else 'e') (ds ++ List.replicate (p + 1 - ds.length) '0') x alt := by
  have hpos : 0 < ds.length := List.length_pos_iff.2 h1
  unfold floatBody expText
  have hx : x + 1 - ds.length + ds.length - 1 = x := by omega
  rw [hx, if_pos (show UsesExp fs x from Or.inl hf), hp, hs]
  obtain ⟨c, r, rfl⟩ := List.exists_cons_of_ne_nil h1
  simp only [List.length_cons] at h2 ⊢
  have hz : (((p + 1 : Nat) : Int) - ((r.length + 1 : Nat) : Int)).toNat = p + 1 - (r.length + 1) := by omega
  rw [hz]
  by_cases hc : (alt || decide (p ≠ 0)) = true
  · rw [if_pos (Or.inl hc), if_pos hc]
    have hn : ¬ (((c :: r) ++ List.replicate (p + 1 - (r.length + 1)) '0').length = 1 ∧ alt = false) := by
      rintro ⟨h3, h4⟩
      simp only [List.length_append, List.length_cons, List.length_replicate] at h3
      simp only [h4, Bool.false_or, decide_eq_true_eq] at hc
      omega
    rw [if_neg hn]
    simp
  · simp only [Bool.not_eq_true, Bool.or_eq_false_iff, decide_eq_false_iff_not, ne_eq, not_not] at hc
    obtain ⟨rfl, rfl⟩ := hc
    have : r = [] := List.eq_nil_of_length_eq_zero (by omega)
    subst this
    simp

theorem floatBody_general {ds : Str} (p : Nat) (x : Int) (h1 : ds ≠ []) (fs : FloatSpecs)
    (hf : fs.format = .general) (hp : fs.precision = (p + 1 : Nat)) (alt : Bool) (hs : fs.showpoint = alt)
    (h3 : alt = true → ds.length = p + 1) :
    floatBody ds (x + 1 - ds.length) fs = 
      if -4 ≤ x ∧ x < (p + 1 : Nat) then
        positional ds (x + 1 - ds.length) ++ if alt = true ∧ x + 1 = (p + 1 : Nat) then ['.'] else []
      else expText (if fs.upper then 'E' else 'e') ds x alt := by
  have hpos : 0 < ds.length := List.length_pos_iff.2 h1
  unfold floatBody
  have hx : x + 1 - ds.length + ds.length - 1 = x := by omega
  have hx' : x + 1 - ds.length + ds.length = x + 1 := by omega
  rw [hx, hx', hp, hs]
  have hu : UsesExp fs x ↔ ¬ (-4 ≤ x ∧ x < (p + 1 : Nat)) := by
    unfold UsesExp
    rw [hf, hp, if_pos (by omega)]
    simp
    omega
  by_cases hc : -4 ≤ x ∧ x < (p + 1 : Nat)
  · rw [if_neg (fun h => hu.1 h hc), if_pos hc]
    unfold positional
    rw [hx']
    by_cases h0 : x + 1 - (ds.length : Int) ≥ 0
    · rw [if_pos h0, if_pos h0]
      cases alt with
      | false => simp
      | true =>
        have := h3 rfl
        have e1 : (((p + 1 : Nat) : Int) - (x + 1)).toNat = 0 := by omega
        have e2 : x + 1 = (p + 1 : Nat) := by omega
        rw [e1]
        simp [e2]
    · rw [if_neg h0, if_neg h0]
      have e3 : ¬ (alt = true ∧ x + 1 = (p + 1 : Nat)) := by
        rintro ⟨h5, h6⟩
        have := h3 h5
        omega
      rw [if_neg e3, List.append_nil]
      have e4 : (if alt = true then (((p + 1 : Nat) : Int) - ds.length).toNat else 0) = 0 := by
        split
        · rename_i h5
          have := h3 h5
          omega
        · rfl
      rw [e4]
      by_cases h5 : 0 < x + 1
      · rw [if_pos h5, if_pos h5]; simp
      · rw [if_neg h5, if_neg h5, if_neg (fun h => h1 h.1)]
        simp only []
        rw [if_pos (Or.inr (Or.inl h1)), show -(x + 1 - (ds.length : Int)) - ds.length = -(x + 1) by omega]
        rfl
  · rw [if_pos (hu.2 hc), if_neg hc]
    unfold expText
    cases alt with
    | false =>
      by_cases h4 : ds.length = 1 <;> simp [h4]
    | true =>
      have := h3 rfl
      simp [this]

theorem floatBody_short (n : Nat) (E : Int) (fs : FloatSpecs) (hf : fs.format = .general) (hp : fs.precision < 0)
    (hu : fs.upper = false) :
    floatBody (Nat.toDigits 10 n) E fs = shortText n E fs.showpoint := by
  have hlen := Nat.length_toDigits_pos (b := 10) (n := n)
  have hne : Nat.toDigits 10 n ≠ [] := (isDigits_toDigits n).1
  unfold floatBody shortText
  generalize Nat.toDigits 10 n = ds at *
  have hx : UsesExp fs (E + ds.length - 1) ↔ ¬ (-4 ≤ E + ds.length - 1 ∧ E + (ds.length : Int) - 1 < 16) := by
    unfold UsesExp
    rw [hf, if_neg (by omega)]
    simp
    omega
  simp only []
  by_cases h : -4 ≤ E + (ds.length : Int) - 1 ∧ E + (ds.length : Int) - 1 < 16
  · rw [if_neg (fun h' => hx.1 h' h), if_pos h]
    unfold positional
    by_cases h0 : 0 ≤ E
    · have e1 : (fs.precision - (E + (ds.length : Int))).toNat = 0 := by omega
      rw [if_pos h0, if_pos h0, e1]
      cases fs.showpoint <;> simp [h0]
    · have e1 : (fs.precision - (ds.length : Int)).toNat = 0 := by omega
      rw [if_neg (by omega), if_neg h0, e1, if_neg (show ¬ (fs.showpoint = true ∧ 0 ≤ E) from fun h' => h0 h'.2), List.append_nil, ite_self]
      by_cases h1 : 0 < E + (ds.length : Int)
      · rw [if_pos h1, if_pos h1]; simp
      · rw [if_neg (by omega), if_neg h1, if_pos (Or.inr (Or.inl hne))]
        rw [if_neg (by simp [hne]), show -(E + (ds.length : Int)) = -E - ds.length by omega]
        rfl
  · have e1 : (fs.precision - (ds.length : Int)).toNat = 0 := by omega
    rw [if_pos (hx.2 h), if_neg h, e1, ite_self, hu]
    unfold expText
    cases fs.showpoint with
    | false => by_cases h4 : ds.length = 1 <;> simp [h4]
    | true => simp

theorem floatBody_zero (p : Nat) (fs : FloatSpecs) (hf : fs.format = .general) (hp : fs.precision = (p + 1 : Nat)) :
    floatBody ['0'] 0 fs = fixedText 0 (if fs.showpoint then p else 0) fs.showpoint := by
  unfold floatBody fixedText digitCount
  have h0 : Nat.toDigits 10 0 = ['0'] := rfl
  rw [hp, if_neg (by unfold UsesExp; rw [hf, hp]; simp), h0]
  cases fs.showpoint with
  | false => simp
  | true =>
    have e1 : (List.replicate p '0' ++ ['0']).length - p = 1 := by simp
    simp only [if_true, List.length_cons, List.length_nil, Nat.zero_add, Nat.add_sub_cancel, e1]
    rw [← List.replicate_succ']
    simp [List.replicate_succ]

/-! ## Writing -/

/-- the layout of digits that have been found -/
def layOut (F : Flt) (m : Nat) (P : Int) (sp : Specs) (fs : FloatSpecs) : Res Str := do
  let (s, exp) ← formatFloat F m P { fs with binary32 := F.w = 32 }
  doWriteFloat (.text s) exp sp { fs with binary32 := F.w = 32, precision := P }

theorem writeFloatFinite_fixed (F : Flt) (m : Nat) (sp : Specs) (fs : FloatSpecs) (hf : fs.format = .fixed) (ht : sp.type ≠ .none) :
    writeFloatFinite F m sp fs = layOut F m (precOr6 sp.precision) sp fs := by
  unfold writeFloatFinite layOut precOr6
  rw [if_neg (by rw [hf]; decide)]
  have hp : (if sp.precision ≥ 0 ∨ sp.type = .none then sp.precision else 6) =
      ((if sp.precision < 0 then 6 else sp.precision.toNat : Nat) : Int) := by
    by_cases h : sp.precision < 0
    · rw [if_pos h, if_neg (by rintro (h' | h'); omega; exact ht h')]; rfl
    · rw [if_neg h, if_pos (Or.inl (by omega))]; omega
  simp only [hp]
  rw [if_neg (by rw [hf]; decide), if_neg (by rw [hf]; simp)]
  rfl

theorem writeFloatFinite_exp (F : Flt) (m : Nat) (sp : Specs) (fs : FloatSpecs) (hf : fs.format = .exp) (ht : sp.type ≠ .none) :
    writeFloatFinite F m sp fs =
      if sp.precision = 2147483647 then .err "number is too big" else layOut F m (precOr6 sp.precision + 1 : Nat) sp fs := by
  unfold writeFloatFinite layOut precOr6
  rw [if_neg (by rw [hf]; decide)]
  have hp : (if sp.precision ≥ 0 ∨ sp.type = .none then sp.precision else 6) =
      ((if sp.precision < 0 then 6 else sp.precision.toNat : Nat) : Int) := by
    by_cases h : sp.precision < 0
    · rw [if_pos h, if_neg (by rintro (h' | h'); omega; exact ht h')]; rfl
    · rw [if_neg h, if_pos (Or.inl (by omega))]; omega
  simp only [hp]
  rw [if_pos hf]
  by_cases h : sp.precision = 2147483647
  · rw [if_pos h, if_pos (by rw [h]; rfl)]; rfl
  · rw [if_neg h, if_neg (by split <;> omega)]
    rfl

theorem writeFloatFinite_general (F : Flt) (m : Nat) (sp : Specs) (fs : FloatSpecs) (hf : fs.format = .general)
    (ht : sp.type ≠ .none ∨ 0 ≤ sp.precision) :
    writeFloatFinite F m sp fs = layOut F m (max 1 (precOr6 sp.precision) : Nat) sp fs := by
  unfold writeFloatFinite layOut precOr6
  rw [if_neg (by rw [hf]; decide)]
  have hp : (if sp.precision ≥ 0 ∨ sp.type = .none then sp.precision else 6) =
      ((if sp.precision < 0 then 6 else sp.precision.toNat : Nat) : Int) := by
    by_cases h : sp.precision < 0
    · rw [if_pos h, if_neg (by rintro (h' | h'); omega; exact ht.elim (fun h => h h') (by omega))]; rfl
    · rw [if_neg h, if_pos (Or.inl (by omega))]; omega
  simp only [hp]
  rw [if_neg (by rw [hf]; decide)]
  generalize (if sp.precision < 0 then 6 else sp.precision.toNat) = p
  by_cases h : p = 0
  · subst h
    rw [if_pos ⟨by rw [hf]; decide, rfl⟩]
    rfl
  · rw [if_neg (fun h' => h (by exact_mod_cast h'.2)), max_eq_right (by omega)]
    rfl

theorem writeFloatFinite_short (F : Flt) (m : Nat) (sp : Specs) (fs : FloatSpecs) (hf : fs.format = .general)
    (ht : sp.type = .none) (hp : sp.precision < 0) :
    writeFloatFinite F m sp fs = layOut F m sp.precision sp fs := by
  unfold writeFloatFinite layOut
  rw [if_neg (by rw [hf]; decide)]
  simp only [ht, or_true, if_true]
  rw [if_neg (by rw [hf]; decide), if_neg (fun h => by omega)]
  rfl

theorem layOut_fixed {F : Flt} {G : Format} (h : IsFlt F G) {m : Nat} (hfin : G.Finite m) (p : Nat) (sp : Specs)
    (fs : FloatSpecs) (hf : fs.format = .fixed) :
    (layOut F m p sp fs = .err "number is too big" ∧ 10 ^ 767 ≤ G.mag m * 10 ^ p ∧ 2147482647 ≤ p) ∨
    ∃ body, layOut F m p sp fs = .ok (writePadded true sp (signStr fs.sign ++ body).length (signStr fs.sign ++ body)) ∧
      ∀ alt, fs.showpoint = (alt || decide (p ≠ 0)) → G.mag m * 10 ^ p < 10 ^ 767 → IsFixed (G.mag m) p alt body := by
  obtain ⟨-, -, hz⟩ := convertFloat_spec h hfin
  have hfix : decide (fs.format = .fixed) = true := by rw [hf]; rfl
  have hne : ∀ (ds : Str) (E : Int), UsesExp { fs with binary32 := F.w = 32, precision := p } (E + ds.length - 1) →
      ds ≠ [] ∧ -10000 < E + ds.length - 1 ∧ E + ds.length - 1 < 10000 := by
    intro ds E hu
    unfold UsesExp at hu
    simp [hf] at hu
  unfold layOut formatFloat
  simp only [hfix, Bool.not_true, Bool.false_and, Bool.false_eq_true, if_false, or_false]
  by_cases hm : m = 0
  · right
    rw [if_pos (hz.2 hm)]
    have hq : G.mag m = 0 := by rw [hm]; exact G.mag_zero
    have hr : IsRoundEven (G.mag m * 10 ^ p) 0 := by
      rw [hq]
      refine ⟨by norm_num, fun _ => rfl⟩
    by_cases hp : p = 0
    · subst hp
      rw [if_pos (by simp), ok_bind]
      simp only []
      rw [doWriteFloat_eq (Significand.is_text _) _ _ _ (hne _ _)]
      refine ⟨_, rfl, fun alt hs _ => ⟨0, hr, ?_⟩⟩
      exact floatBody_fixed 0 0 { fs with binary32 := F.w = 32, precision := (0 : Nat) } hf rfl alt hs
    · rw [if_neg (by omega), ok_bind]
      simp only []
      rw [doWriteFloat_eq (Significand.is_text _) _ _ _ (hne _ _)]
      refine ⟨_, rfl, fun alt hs _ => ⟨0, hr, ?_⟩⟩
      exact floatBody_fixed_zero p hp { fs with binary32 := F.w = 32, precision := p } hf rfl alt hs
  · rw [if_neg (fun h' => hm (hz.1 h')), if_neg (by omega)]
    obtain ⟨k, hk, hk1, hk2, hc⟩ := formatDigits_spec h hm hfin p (by omega) true
    rcases hc with ⟨-, hc1, hc2, hc⟩ | ⟨-, P, hP, hc⟩
    · left
      refine ⟨by rw [hc]; rfl, ?_, by omega⟩
      calc (10 : ℚ) ^ 767 = 10 ^ (767 : Int) := rfl
        _ ≤ 10 ^ (k + p) := zpow_le_zpow_right₀ (by norm_num) (by omega)
        _ = 10 ^ k * 10 ^ p := by rw [zpow_add₀ (by norm_num), zpow_natCast]
        _ ≤ G.mag m * 10 ^ p := mul_le_mul_of_nonneg_right hk.1 (by positivity)
    right
    simp only [if_true] at hP
    rcases hc with ⟨h1, hc⟩ | ⟨h1, n, hn, hr, hc⟩ | ⟨h1, n, hr, hc⟩
    · rw [hc, ok_bind, ok_bind]
      simp only []
      rw [doWriteFloat_eq (Significand.is_text _) _ _ _ (hne _ _)]
      refine ⟨_, rfl, fun alt hs _ => ⟨0, ?_, ?_⟩⟩
      · have h2 : G.mag m * 10 ^ p < 10 ^ (-1 : Int) := by
          calc G.mag m * 10 ^ p < 10 ^ (k + 1) * 10 ^ p := mul_lt_mul_of_pos_right hk.2 (by positivity)
            _ = 10 ^ (k + 1 + p) := by rw [zpow_add₀ (by norm_num) (k + 1), zpow_natCast]
            _ ≤ 10 ^ (-1 : Int) := zpow_le_zpow_right₀ (by norm_num) (by omega)
        have h3 : 0 ≤ G.mag m * 10 ^ p := mul_nonneg (le_trans (by positivity) hk.1) (by positivity)
        rw [zpow_neg, zpow_one] at h2
        unfold IsRoundEven
        rw [Nat.cast_zero, sub_zero, abs_of_nonneg h3]
        exact ⟨by linarith, fun _ => rfl⟩
      · exact floatBody_fixed_nil p _ (by omega) { fs with binary32 := F.w = 32, precision := p } hf rfl alt hs
    · rw [hc, ok_bind, ok_bind]
      simp only []
      rw [doWriteFloat_eq (Significand.is_text _) _ _ _ (hne _ _)]
      refine ⟨_, rfl, fun alt hs _ => ⟨n, ?_, ?_⟩⟩
      · rwa [show k + 1 = -(p : Int) by omega, zpow_neg, div_inv_eq_mul, zpow_natCast] at hr
      · rw [show k + 1 = -(p : Int) by omega]
        exact floatBody_fixed n p { fs with binary32 := F.w = 32, precision := p } hf rfl alt hs
    · have hd : ∀ E, digitsOf n (min P.toNat 767) true E = (Nat.toDigits 10 n, E) := by
        intro E; unfold digitsOf; rw [if_neg (by simp)]
      rw [hd] at hc
      rw [hc, ok_bind, ok_bind]
      simp only []
      rw [doWriteFloat_eq (Significand.is_text _) _ _ _ (hne _ _)]
      refine ⟨_, rfl, fun alt hs hq => ?_⟩
      have h2 : k + p < 767 := by
        have h3 : (10 : ℚ) ^ (k + p) < 10 ^ (767 : Int) := by
          calc (10 : ℚ) ^ (k + p) = 10 ^ k * 10 ^ p := by rw [zpow_add₀ (by norm_num), zpow_natCast]
            _ ≤ G.mag m * 10 ^ p := mul_le_mul_of_nonneg_right hk.1 (by positivity)
            _ < 10 ^ 767 := hq
        exact (zpow_lt_zpow_iff_right₀ (by norm_num)).1 h3
      have e : k + 1 - ((min P.toNat 767 : Nat) : Int) = -(p : Int) := by omega
      rw [e] at hr ⊢
      refine ⟨n, ?_, ?_⟩
      · rwa [zpow_neg, div_inv_eq_mul, zpow_natCast] at hr
      · exact floatBody_fixed n p { fs with binary32 := F.w = 32, precision := p } hf rfl alt hs

theorem dropTrailing_ne {c : Char} {r : Str} (h : c ≠ '0') : dropTrailing (c :: r) ≠ [] := by
  intro he
  unfold dropTrailing at he
  rw [List.reverse_eq_nil_iff] at he
  have h1 : ∀ l : Str, (∀ x ∈ l, x = '0') ∨ l.dropWhile (· = '0') ≠ [] := by
    intro l
    induction l with
    | nil => left; simp
    | cons a l ih =>
      by_cases ha : a = '0'
      · subst ha
        rcases ih with ih | ih
        · left; simpa using ih
        · right; simpa using ih
      · right; simp [ha]
  rcases h1 (c :: r).reverse with h1 | h1
  · exact h (h1 c (by simp))
  · exact h1 he

theorem formatFloat_significant {F : Flt} {G : Format} (h : IsFlt F G) {m : Nat} (hm : m ≠ 0) (hfin : G.Finite m) (p : Nat)
    (fs : FloatSpecs) (hf : fs.format ≠ .fixed) (hb : fs.binary32 = decide (F.w = 32)) :
    ∃ N x ds ds', IsRounded (G.mag m) p N x ∧ -1000 < x ∧ x < 1001 ∧ ds.length = min (p + 1) 767 ∧
      Nat.toDigits 10 N = ds ++ List.replicate (p + 1 - ds.length) '0' ∧
      ds' = (if fs.showpoint then ds else dropTrailing ds) ∧ ds' ≠ [] ∧
      formatFloat F m (p + 1 : Nat) fs = .ok (ds', x + 1 - ds'.length) := by
  obtain ⟨-, -, hz⟩ := convertFloat_spec h hfin
  obtain ⟨N, x, ds, h1, h2, h3, h4, h5, h6⟩ := formatDigits_significant h hm hfin p
  have hN : 0 < N := lt_of_lt_of_le (Nat.pow_pos (by decide)) h1.1
  have hfx : decide (fs.format = .fixed) = false := by simpa using hf
  have hds : ∃ c r, ds = c :: r ∧ c ≠ '0' := by
    obtain ⟨c, r, hc, hc'⟩ := toDigits_head N hN
    cases ds with
    | nil => simp at h4; omega
    | cons d t =>
      rw [hc] at h5
      simp only [List.cons_append, List.cons.injEq] at h5
      exact ⟨d, t, rfl, by rw [← h5.1]; exact hc'⟩
  obtain ⟨c, r, hcr, hc⟩ := hds
  refine ⟨N, x, ds, _, h1, h2, h3, h4, h5, rfl, ?_, ?_⟩
  · split
    · rw [hcr]; simp
    · rw [hcr]; exact dropTrailing_ne hc
  · unfold formatFloat
    simp only [hfx]
    rw [if_neg (fun h' => hm (hz.1 h')), if_neg (by omega), hb, h6, ok_bind]
    cases hs : fs.showpoint with
    | true => simp
    | false =>
      simp only [Bool.not_false, Bool.and_self, if_true, Bool.false_eq_true, if_false]
      rw [stripZeros_eq]
      have hl : (ds.reverse.dropWhile (· = '0')).length ≤ ds.length := by
        have := (List.dropWhile_suffix (l := ds.reverse) (· = '0')).length_le
        simpa using this
      simp only [dropTrailing, List.length_reverse]
      congr 2
      omega

theorem layOut_exp {F : Flt} {G : Format} (h : IsFlt F G) {m : Nat} (hfin : G.Finite m) (p : Nat) (sp : Specs)
    (fs : FloatSpecs) (hf : fs.format = .exp) :
    ∃ body, layOut F m (p + 1 : Nat) sp fs =
        .ok (writePadded true sp (signStr fs.sign ++ body).length (signStr fs.sign ++ body)) ∧
      ∀ alt, fs.showpoint = (alt || decide (p ≠ 0)) → IsScientific (if fs.upper then 'E' else 'e') (G.mag m) p alt body := by
  obtain ⟨-, -, hz⟩ := convertFloat_spec h hfin
  have hfx : decide (fs.format = .fixed) = false := by rw [hf]; rfl
  unfold layOut
  by_cases hm : m = 0
  · have hff : formatFloat F m (p + 1 : Nat) { fs with binary32 := F.w = 32 } = .ok (['0'], 0) := by
      unfold formatFloat
      simp only [hfx]
      rw [if_pos (hz.2 hm), if_pos (by simp)]
    rw [hff, ok_bind]
    simp only []
    rw [doWriteFloat_eq (Significand.is_text _) _ _ _ (fun _ => by simp)]
    refine ⟨_, rfl, fun alt hs => Or.inl ⟨by rw [hm]; exact G.mag_zero, ?_⟩⟩
    have := floatBody_exp (ds := ['0']) p 0 (by simp) (by simp)
      { fs with binary32 := F.w = 32, precision := (p + 1 : Nat) } hf rfl alt hs
    rw [show (0 : Int) + 1 - (['0'] : Str).length = 0 by rfl] at this
    rw [this]
    simp [List.replicate_succ]
  · obtain ⟨N, x, ds, ds', h1, h2, h3, h4, h5, h6, h7, h8⟩ :=
      formatFloat_significant h hm hfin p { fs with binary32 := F.w = 32 } (by simp [hf]) rfl
    rw [h8, ok_bind]
    simp only [] at h6 ⊢
    rw [doWriteFloat_eq (Significand.is_text _) _ _ _ (fun _ => ⟨h7, by omega, by omega⟩)]
    refine ⟨_, rfl, fun alt hs => Or.inr ⟨?_, N, x, h1, ?_⟩⟩
    · rw [← G.mag_zero]; exact G.mag_lt (Nat.pos_of_ne_zero hm)
    · have hl : ds'.length ≤ p + 1 ∧ Nat.toDigits 10 N = ds' ++ List.replicate (p + 1 - ds'.length) '0' := by
        by_cases hsp : fs.showpoint = true
        · rw [if_pos hsp] at h6
          subst h6
          exact ⟨by omega, h5⟩
        · have hp0 : p = 0 := by
            rw [hs] at hsp
            simp only [Bool.or_eq_true, decide_eq_true_eq, not_or, not_not] at hsp
            exact hsp.2
          subst hp0
          rw [if_neg hsp] at h6
          have hl1 : ds.length = 1 := by rw [h4]; rfl
          obtain ⟨c, hc⟩ := List.length_eq_one_iff.1 hl1
          have hl2 : ds'.length ≤ ds.length := by
            rw [h6]
            unfold dropTrailing
            have := (List.dropWhile_suffix (l := ds.reverse) (· = '0')).length_le
            simpa using this
          have hcz : ds' = ds := by
            rw [h6, hc]
            rw [h6, hc] at h7
            unfold dropTrailing at h7 ⊢
            by_cases hcc : c = '0'
            · simp [hcc] at h7
            · simp [hcc]
          rw [hcz]
          exact ⟨by omega, h5⟩
      rw [hl.2]
      exact floatBody_exp p x h7 hl.1 { fs with binary32 := F.w = 32, precision := (p + 1 : Nat) } hf rfl alt hs

theorem layOut_general {F : Flt} {G : Format} (h : IsFlt F G) {m : Nat} (hfin : G.Finite m) (p : Nat) (sp : Specs)
    (fs : FloatSpecs) (hf : fs.format = .general) :
    ∃ body, layOut F m (p + 1 : Nat) sp fs =
        .ok (writePadded true sp (signStr fs.sign ++ body).length (signStr fs.sign ++ body)) ∧
      ((fs.showpoint = true → p < 767) →
        IsGeneral (if fs.upper then 'E' else 'e') (G.mag m) (p + 1) fs.showpoint body) := by
  obtain ⟨-, -, hz⟩ := convertFloat_spec h hfin
  have hfx : decide (fs.format = .fixed) = false := by rw [hf]; rfl
  unfold layOut
  by_cases hm : m = 0
  · have hff : formatFloat F m (p + 1 : Nat) { fs with binary32 := F.w = 32 } = .ok (['0'], 0) := by
      unfold formatFloat
      simp only [hfx]
      rw [if_pos (hz.2 hm), if_pos (by simp)]
    rw [hff, ok_bind]
    simp only []
    rw [doWriteFloat_eq (Significand.is_text _) _ _ _ (fun _ => by simp)]
    refine ⟨_, rfl, fun hs => Or.inl ⟨by rw [hm]; exact G.mag_zero, ?_⟩⟩
    exact floatBody_zero p { fs with binary32 := F.w = 32, precision := (p + 1 : Nat) } hf rfl
  · obtain ⟨N, x, ds, ds', h1, h2, h3, h4, h5, h6, h7, h8⟩ :=
      formatFloat_significant h hm hfin p { fs with binary32 := F.w = 32 } (by simp [hf]) rfl
    rw [h8, ok_bind]
    simp only [] at h6 ⊢
    rw [doWriteFloat_eq (Significand.is_text _) _ _ _ (fun _ => ⟨h7, by omega, by omega⟩)]
    refine ⟨_, rfl, fun hs => Or.inr ⟨?_, N, x, h1, ?_⟩⟩
    · rw [← G.mag_zero]; exact G.mag_lt (Nat.pos_of_ne_zero hm)
    · have hd : ds' = if fs.showpoint = true then Nat.toDigits 10 N else dropTrailing (Nat.toDigits 10 N) := by
        rw [h6, h5, dropTrailing_zeros]
        split
        · rename_i hsp
          have := hs hsp
          rw [show p + 1 - ds.length = 0 by omega]; simp
        · rfl
      have hl : fs.showpoint = true → ds'.length = p + 1 := by
        intro hsp
        have := hs hsp
        rw [h6, if_pos hsp]
        omega
      have := floatBody_general p x h7 { fs with binary32 := F.w = 32, precision := (p + 1 : Nat) } hf rfl fs.showpoint rfl hl
      rw [this]
      unfold generalText
      simp only []
      rw [← hd]

theorem layOut_short {F : Flt} {G : Format} (h : IsFlt F G) (hc : Converts F G) {m : Nat} (hfin : G.Finite m) (P : Int)
    (hP : P < 0) (sp : Specs) (fs : FloatSpecs) (hf : fs.format = .general) (hu : fs.upper = false) :
    ∃ n E, layOut F m P sp fs = .ok (writePadded true sp (signStr fs.sign ++ shortText n E fs.showpoint).length
        (signStr fs.sign ++ shortText n E fs.showpoint)) ∧
      (m = 0 → n = 0 ∧ E = 0) ∧ (m ≠ 0 → n ≠ 0 ∧ G.Shortest m n E) ∧ toDecimal F m = .ok ⟨n, E⟩ := by
  obtain ⟨-, -, hz⟩ := convertFloat_spec h hfin
  have hfx : decide (fs.format = .fixed) = false := by rw [hf]; rfl
  unfold layOut
  by_cases hm : m = 0
  · have hff : formatFloat F m P { fs with binary32 := F.w = 32 } = .ok (['0'], 0) := by
      unfold formatFloat
      simp only [hfx]
      rw [if_pos (hz.2 hm), if_pos (by simp)]
    rw [hff, ok_bind]
    simp only []
    rw [doWriteFloat_eq (Significand.is_text _) _ _ _ (fun _ => by simp)]
    refine ⟨0, 0, ?_, fun _ => ⟨rfl, rfl⟩, fun h => absurd hm h, by rw [hm]; exact hc.zero⟩
    have := floatBody_short 0 0 { fs with binary32 := F.w = 32, precision := P } hf hP hu
    rw [show (['0'] : Str) = Nat.toDigits 10 0 from rfl, this]
  · obtain ⟨n, E, h1, h2, h3, h4, h5⟩ := hc.dec m (Nat.pos_of_ne_zero hm) hfin
    have hw : (if decide (F.w = 32) = true then 32 else 64) = F.w := by
      rcases hc.w with h | h <;> rw [h] <;> rfl
    have hd : (if decide (F.w = 32) = true then toDecimal flt32 m else toDecimal flt64 (convertFloat F m)) = toDecimal F m := by
      rcases h with ⟨rfl, -⟩ | ⟨rfl, -⟩
      · rw [if_pos (by decide)]
      · rw [if_neg (by decide), show convertFloat flt64 m = m from if_neg (by decide)]
    have hff : formatFloat F m P { fs with binary32 := F.w = 32 } = .ok (Nat.toDigits 10 n, E) := by
      unfold formatFloat
      simp only [hfx]
      rw [if_neg (fun h' => hm (hz.1 h')), if_pos hP]
      have hbind : ∀ g : Decimal → Res (Str × Int), (if decide (F.w = 32) = true then toDecimal flt32 m >>= g
          else toDecimal flt64 (convertFloat F m) >>= g) = toDecimal F m >>= g := by
        intro g; rw [← hd]; split <;> rfl
      rw [hbind, h1, ok_bind]
      simp only [hw]
      rw [writeIntDefault_eq (w := F.w) (v := n) (by rcases hc.w with h | h <;> simp [h])
        (le_trans (neg_nonpos.2 (Int.natCast_nonneg _)) (Int.natCast_nonneg n)) (by exact_mod_cast h4), ok_bind]
      unfold Spec.Fmt.showIntDefault
      rw [if_neg (by omega)]
      rfl
    obtain ⟨hE1, hE2⟩ := exponent_bounds hc.lo hc.hi (Nat.pos_of_ne_zero hm) h2 h3 h5.1
    have hlen : (Nat.toDigits 10 n).length ≤ 17 := (Nat.length_toDigits_le_iff (by decide) (by decide)).2 h3
    rw [hff, ok_bind]
    simp only []
    rw [doWriteFloat_eq (Significand.is_text _) _ _ _ (fun _ => ⟨(isDigits_toDigits n).1, by omega, by omega⟩)]
    refine ⟨n, E, ?_, fun h => absurd h hm, fun _ => ⟨h2.ne', h5⟩, h1⟩
    rw [floatBody_short n E { fs with binary32 := F.w = 32, precision := P } hf hP hu]

end Fmt
end Efp
