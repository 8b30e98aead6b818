import Verif.Fmt.FloatHex

/-!
# Floating-point numbers in fields with options
-/

namespace Efp
namespace Fmt

open Spec Dragonbox

theorem signStr_eq (neg : Bool) (s : Sign) :
    signStr (if neg then .minus else if s = .minus then .none else s) = floatSign neg s := by
  cases neg <;> cases s <;> rfl

theorem writeFloat_finite {F : Flt} {G : Format} (hc : Converts F G) (bits : Nat) (hfin : G.Finite (magBits F bits)) (sp : Specs)
    (hw : sp.width < 2 ^ 31) {fs : FloatSpecs} (hp : parseFloatTypeSpec sp = .ok fs) {R : Str → Prop}
    (hb : ∀ sp' s, sp'.precision = sp.precision → sp'.type = sp.type → ∃ body,
      writeFloatFinite F (magBits F bits) sp' { fs with sign := s } =
        .ok (writePadded true sp' (signStr s ++ body).length (signStr s ++ body)) ∧ R body) :
    ∃ body, R body ∧ writeFloat F bits sp = .ok (placed sp (floatSign (signbit F bits) sp.sign) body) := by
  have hnf : ¬ nonfinite F bits = true := by rw [nonfinite_iff hc]; exact not_not.2 hfin
  have hss := signStr_eq (signbit F bits) sp.sign
  unfold writeFloat placed
  rw [hp, ok_bind]
  simp only []
  rw [if_neg hnf]
  generalize (if signbit F bits = true then Sign.minus else if sp.sign = .minus then .none else sp.sign) = s at *
  rw [← hss]
  by_cases hn : sp.align = .numeric
  · by_cases hs : s = .none
    · subst hs
      rw [if_neg (fun h => h.2 rfl)]
      obtain ⟨body, h1, h2⟩ := hb sp .none rfl rfl
      refine ⟨body, h2, ?_⟩
      rw [h1, if_pos hn]
      simp only [signStr, List.nil_append, List.length_nil, Nat.sub_zero]
      rw [writePadded_eq _ _ _ _ hw]
    · rw [if_pos ⟨hn, hs⟩]
      have hl : (signStr s).length = 1 := by
        cases s
        · exact absurd rfl hs
        all_goals rfl
      obtain ⟨body, h1, h2⟩ := hb (if sp.width ≠ 0 then { sp with width := sp.width - 1 } else sp) .none
        (by split <;> rfl) (by split <;> rfl)
      refine ⟨body, h2, ?_⟩
      rw [h1, ok_bind, if_pos hn, hl]
      have e1 : (if sp.width ≠ 0 then { sp with width := sp.width - 1 } else sp) = { sp with width := sp.width - 1 } := by
        split
        · rfl
        · rename_i h
          have h0 : sp.width = 0 := by omega
          cases sp
          simp_all
      rw [e1]
      simp only [signStr, List.nil_append]
      rw [writePadded_eq _ _ _ _ (show sp.width - 1 < 2 ^ 31 by omega)]
  · rw [if_neg (fun h => hn h.1)]
    obtain ⟨body, h1, h2⟩ := hb sp s rfl rfl
    refine ⟨body, h2, ?_⟩
    rw [h1, if_neg hn, writePadded_eq _ _ _ _ hw]

theorem writeFloat_nonfinite {F : Flt} {G : Format} (hc : Converts F G) (bits : Nat) (hfin : ¬ G.Finite (magBits F bits))
    (sp : Specs) (hw : sp.width < 2 ^ 31) {fs : FloatSpecs} (hp : parseFloatTypeSpec sp = .ok fs) :
    writeFloat F bits sp = .ok (Spec.Fmt.pad false { sp with fill := if sp.fill = ['0'] then [' '] else sp.fill }
      (3 + (floatSign (signbit F bits) sp.sign).length)
      (floatSign (signbit F bits) sp.sign ++
        (if G.frac (magBits F bits) = 0 then if fs.upper then "INF".toList else "inf".toList
          else if fs.upper then "NAN".toList else "nan".toList))) := by
  have hnf : nonfinite F bits = true := (nonfinite_iff hc bits).2 hfin
  have hss := signStr_eq (signbit F bits) sp.sign
  unfold writeFloat
  rw [hp, ok_bind]
  simp only []
  rw [if_pos hnf]
  unfold writeNonfinite
  simp only [hss]
  have hnan : isnan F bits = decide (G.frac (magBits F bits) ≠ 0) := by
    unfold isnan Format.frac
    rw [hc.sig]
  have e1 : (if sp.fill = ['0'] then { sp with fill := [' '] } else sp) =
      { sp with fill := if sp.fill = ['0'] then [' '] else sp.fill } := by
    split <;> rfl
  rw [e1, writePadded_eq _ { sp with fill := if sp.fill = ['0'] then [' '] else sp.fill } _ _ hw, hnan]
  by_cases h0 : G.frac (magBits F bits) = 0
  · cases fs.upper <;> simp [h0]
  · cases fs.upper <;> simp [h0]

/-- the options take a presentation type for floating-point numbers or none -/
theorem writeFloat_badType (F : Flt) (bits : Nat) (sp : Specs) (h : ¬ ∃ fs, parseFloatTypeSpec sp = .ok fs) :
    writeFloat F bits sp = .err "invalid format specifier" := by
  unfold writeFloat
  have : parseFloatTypeSpec sp = .err "invalid format specifier" := by
    unfold parseFloatTypeSpec at *
    split at h <;> first | rfl | exact absurd ⟨_, rfl⟩ h
  rw [this]
  rfl

theorem writeFloatFinite_hex {F : Flt} {G : Format} (h : IsFlt F G) {m : Nat} (hfin : G.Finite m) (sp : Specs) (fs : FloatSpecs)
    (hf : fs.format = .hex) :
    ∃ body, writeFloatFinite F m sp fs = .ok (writePadded true sp (signStr fs.sign ++ body).length (signStr fs.sign ++ body)) ∧
      IsHex fs.upper (G.mag m) sp.precision fs.showpoint body := by
  obtain ⟨h1, h2, -⟩ := convertFloat_spec h hfin
  obtain ⟨text, h3, h4⟩ := formatHexfloat_spec h1 sp.precision fs
  rw [h2] at h4
  refine ⟨text, ?_, h4⟩
  unfold writeFloatFinite
  rw [if_pos hf, h3]
  rfl

theorem parseFloat_format (sp : Specs) (fs : FloatSpecs) (h : parseFloatTypeSpec sp = .ok fs) :
    fs.format = .hex ∨ fs.format = .fixed ∧ sp.type ≠ .none ∨ fs.format = .exp ∧ sp.type ≠ .none ∨
      fs.format = .general ∧ (fs.upper = false ∨ sp.type ≠ .none) := by
  unfold parseFloatTypeSpec at h
  split at h <;> cases h <;> simp_all

/-- no options lead to undefined behaviour -/
theorem writeFloat_ne_ub {F : Flt} {G : Format} (h : IsFlt F G) (hc : Converts F G) (bits : Nat) (sp : Specs) :
    writeFloat F bits sp ≠ .ub := by
  by_cases hp : ∃ fs, parseFloatTypeSpec sp = .ok fs
  swap
  · rw [writeFloat_badType F bits sp hp]; nofun
  obtain ⟨fs, hp⟩ := hp
  unfold writeFloat
  rw [hp, ok_bind]
  simp only []
  by_cases hnf : nonfinite F bits = true
  · rw [if_pos hnf]; nofun
  rw [if_neg hnf]
  have hfin : G.Finite (magBits F bits) := by
    by_contra hx; exact hnf ((nonfinite_iff hc bits).2 hx)
  have key : ∀ sp' s, sp'.precision = sp.precision → sp'.type = sp.type →
      writeFloatFinite F (magBits F bits) sp' { fs with sign := s } ≠ .ub := by
    intro sp' s h1 h2
    rcases parseFloat_format sp fs hp with hf | ⟨hf, ht⟩ | ⟨hf, ht⟩ | ⟨hf, ht⟩
    · obtain ⟨b, hb, -⟩ := writeFloatFinite_hex h hfin sp' { fs with sign := s } hf
      rw [hb]; nofun
    · rw [writeFloatFinite_fixed _ _ _ _ (by exact hf) (by rw [h2]; exact ht)]
      rcases layOut_fixed h hfin (precOr6 sp'.precision) sp' { fs with sign := s } hf with ⟨hb, -⟩ | ⟨b, hb, -⟩
      · rw [hb]; nofun
      · rw [hb]; nofun
    · rw [writeFloatFinite_exp _ _ _ _ (by exact hf) (by rw [h2]; exact ht)]
      obtain ⟨b, hb, -⟩ := layOut_exp h hfin (precOr6 sp'.precision) sp' { fs with sign := s } hf
      rw [hb]
      split <;> nofun
    · by_cases hty : sp'.type ≠ .none ∨ 0 ≤ sp'.precision
      · rw [writeFloatFinite_general _ _ _ _ (by exact hf) hty]
        obtain ⟨b, hb, -⟩ := layOut_general h hfin (max 1 (precOr6 sp'.precision) - 1) sp' { fs with sign := s } hf
        rw [show max 1 (precOr6 sp'.precision) - 1 + 1 = max 1 (precOr6 sp'.precision) by omega] at hb
        rw [hb]; nofun
      · push Not at hty
        rw [writeFloatFinite_short _ _ _ _ (by exact hf) hty.1 hty.2]
        obtain ⟨n, E, hb, -⟩ := layOut_short h hc hfin sp'.precision hty.2 sp' { fs with sign := s } hf
          (ht.resolve_right (fun h' => h' (by rw [← h2]; exact hty.1)))
        rw [hb]; nofun
  generalize (if signbit F bits = true then Sign.minus else if sp.sign = .minus then .none else sp.sign) = s
  split
  · intro hx
    have := key (if sp.width ≠ 0 then { sp with width := sp.width - 1 } else sp) .none (by split <;> rfl) (by split <;> rfl)
    cases hr : writeFloatFinite F (magBits F bits) (if sp.width ≠ 0 then { sp with width := sp.width - 1 } else sp)
        { fs with sign := .none } with
    | ok t => rw [hr] at hx; cases hx
    | err e => rw [hr] at hx; cases hx
    | ub => exact this hr
  · exact key sp _ rfl rfl

/-- only a presentation type for other arguments and a precision close to the largest `int` lead to an error -/
theorem writeFloat_some {F : Flt} {G : Format} (h : IsFlt F G) (hc : Converts F G) (bits : Nat) (sp : Specs)
    (hty : ∃ fs, parseFloatTypeSpec sp = .ok fs) (hpr : sp.precision < 2147482647) : ∃ t, writeFloat F bits sp = .ok t := by
  obtain ⟨fs, hp⟩ := hty
  unfold writeFloat
  rw [hp, ok_bind]
  simp only []
  by_cases hnf : nonfinite F bits = true
  · rw [if_pos hnf]; exact ⟨_, rfl⟩
  rw [if_neg hnf]
  have hfin : G.Finite (magBits F bits) := by
    by_contra hx; exact hnf ((nonfinite_iff hc bits).2 hx)
  have hp6 : precOr6 sp.precision < 2147482647 := by unfold precOr6; split <;> omega
  have key : ∀ sp' s, sp'.precision = sp.precision → sp'.type = sp.type →
      ∃ t, writeFloatFinite F (magBits F bits) sp' { fs with sign := s } = .ok t := by
    intro sp' s h1 h2
    rcases parseFloat_format sp fs hp with hf | ⟨hf, ht⟩ | ⟨hf, ht⟩ | ⟨hf, ht⟩
    · obtain ⟨b, hb, -⟩ := writeFloatFinite_hex h hfin sp' { fs with sign := s } hf
      exact ⟨_, hb⟩
    · rw [writeFloatFinite_fixed _ _ _ _ (by exact hf) (by rw [h2]; exact ht)]
      rcases layOut_fixed h hfin (precOr6 sp'.precision) sp' { fs with sign := s } hf with ⟨-, -, hb⟩ | ⟨b, hb, -⟩
      · rw [h1] at hb; omega
      · exact ⟨_, hb⟩
    · rw [writeFloatFinite_exp _ _ _ _ (by exact hf) (by rw [h2]; exact ht)]
      obtain ⟨b, hb, -⟩ := layOut_exp h hfin (precOr6 sp'.precision) sp' { fs with sign := s } hf
      rw [hb, if_neg (by omega)]
      exact ⟨_, rfl⟩
    · by_cases hty : sp'.type ≠ .none ∨ 0 ≤ sp'.precision
      · rw [writeFloatFinite_general _ _ _ _ (by exact hf) hty]
        obtain ⟨b, hb, -⟩ := layOut_general h hfin (max 1 (precOr6 sp'.precision) - 1) sp' { fs with sign := s } hf
        rw [show max 1 (precOr6 sp'.precision) - 1 + 1 = max 1 (precOr6 sp'.precision) by omega] at hb
        exact ⟨_, hb⟩
      · push Not at hty
        rw [writeFloatFinite_short _ _ _ _ (by exact hf) hty.1 hty.2]
        obtain ⟨n, E, hb, -⟩ := layOut_short h hc hfin sp'.precision hty.2 sp' { fs with sign := s } hf
          (ht.resolve_right (fun h' => h' (by rw [← h2]; exact hty.1)))
        exact ⟨_, hb⟩
  generalize (if signbit F bits = true then Sign.minus else if sp.sign = .minus then .none else sp.sign) = s
  split
  · obtain ⟨t, ht⟩ := key (if sp.width ≠ 0 then { sp with width := sp.width - 1 } else sp) .none
      (by split <;> rfl) (by split <;> rfl)
    rw [ht]
    exact ⟨_, rfl⟩
  · exact key sp _ rfl rfl

/-! ## The texts for each presentation -/

/-- the letter in front of the exponent -/
def markOf (upper : Bool) : Char := if upper then 'E' else 'e'

theorem writeFloat_fixed {F : Flt} {G : Format} (h : IsFlt F G) (hc : Converts F G) (bits : Nat) (hfin : G.Finite (magBits F bits))
    (sp : Specs) (hw : sp.width < 2 ^ 31) (ht : sp.type = .fixedLower ∨ sp.type = .fixedUpper)
    (hbig : G.mag (magBits F bits) * 10 ^ precOr6 sp.precision < 10 ^ 767) :
    ∃ body, IsFixed (G.mag (magBits F bits)) (precOr6 sp.precision) sp.alt body ∧
      writeFloat F bits sp = .ok (placed sp (floatSign (signbit F bits) sp.sign) body) := by
  obtain ⟨fs, hp, hf, hs⟩ : ∃ fs, parseFloatTypeSpec sp = .ok fs ∧ fs.format = .fixed ∧
      fs.showpoint = (sp.alt || decide (sp.precision ≠ 0)) := by
    unfold parseFloatTypeSpec
    rcases ht with ht | ht <;> rw [ht] <;> exact ⟨_, rfl, rfl, rfl⟩
  have hs' : fs.showpoint = (sp.alt || decide (precOr6 sp.precision ≠ 0)) := by
    rw [hs]
    congr 2
    unfold precOr6
    split <;> simp <;> omega
  refine writeFloat_finite hc bits hfin sp hw hp fun sp' s h1 h2 => ?_
  rw [writeFloatFinite_fixed _ _ _ _ (by exact hf) (by rw [h2]; rcases ht with ht | ht <;> rw [ht] <;> decide), h1]
  rcases layOut_fixed h hfin (precOr6 sp.precision) sp' { fs with sign := s } hf with ⟨-, hb, -⟩ | ⟨b, hb, hr⟩
  · exact absurd hbig (not_lt.2 hb)
  · exact ⟨b, hb, hr sp.alt hs' hbig⟩

theorem writeFloat_exp {F : Flt} {G : Format} (h : IsFlt F G) (hc : Converts F G) (bits : Nat) (hfin : G.Finite (magBits F bits))
    (sp : Specs) (hw : sp.width < 2 ^ 31) (upper : Bool) (ht : sp.type = if upper then .expUpper else .expLower)
    (hbig : sp.precision ≠ 2147483647) :
    ∃ body, IsScientific (markOf upper) (G.mag (magBits F bits)) (precOr6 sp.precision) sp.alt body ∧
      writeFloat F bits sp = .ok (placed sp (floatSign (signbit F bits) sp.sign) body) := by
  obtain ⟨fs, hp, hf, hs, hu⟩ : ∃ fs, parseFloatTypeSpec sp = .ok fs ∧ fs.format = .exp ∧
      fs.showpoint = (sp.alt || decide (sp.precision ≠ 0)) ∧ fs.upper = upper := by
    unfold parseFloatTypeSpec
    cases upper <;> rw [ht] <;> exact ⟨_, rfl, rfl, rfl, rfl⟩
  have hs' : fs.showpoint = (sp.alt || decide (precOr6 sp.precision ≠ 0)) := by
    rw [hs]
    congr 2
    unfold precOr6
    split <;> simp <;> omega
  refine writeFloat_finite hc bits hfin sp hw hp fun sp' s h1 h2 => ?_
  rw [writeFloatFinite_exp _ _ _ _ (by exact hf) (by rw [h2, ht]; cases upper <;> decide), h1, if_neg hbig]
  obtain ⟨b, hb, hr⟩ := layOut_exp h hfin (precOr6 sp.precision) sp' { fs with sign := s } hf
  rw [← hu]
  exact ⟨b, hb, hr sp.alt hs'⟩

theorem writeFloat_general {F : Flt} {G : Format} (h : IsFlt F G) (hc : Converts F G) (bits : Nat)
    (hfin : G.Finite (magBits F bits)) (sp : Specs) (hw : sp.width < 2 ^ 31) (upper : Bool)
    (ht : sp.type = (if upper then .generalUpper else .generalLower) ∨ upper = false ∧ sp.type = .none ∧ 0 ≤ sp.precision)
    (hbig : sp.alt = true → max 1 (precOr6 sp.precision) ≤ 767) :
    ∃ body, IsGeneral (markOf upper) (G.mag (magBits F bits)) (max 1 (precOr6 sp.precision)) sp.alt body ∧
      writeFloat F bits sp = .ok (placed sp (floatSign (signbit F bits) sp.sign) body) := by
  obtain ⟨fs, hp, hf, hs, hu⟩ : ∃ fs, parseFloatTypeSpec sp = .ok fs ∧ fs.format = .general ∧
      fs.showpoint = sp.alt ∧ fs.upper = upper := by
    unfold parseFloatTypeSpec
    rcases ht with ht | ⟨rfl, ht, -⟩
    · cases upper <;> rw [ht] <;> exact ⟨_, rfl, rfl, rfl, rfl⟩
    · rw [ht]; exact ⟨_, rfl, rfl, rfl, rfl⟩
  refine writeFloat_finite hc bits hfin sp hw hp fun sp' s h1 h2 => ?_
  have hty : sp'.type ≠ .none ∨ 0 ≤ sp'.precision := by
    rw [h1, h2]
    rcases ht with ht | ⟨-, -, ht⟩
    · left; rw [ht]; cases upper <;> decide
    · right; exact ht
  rw [writeFloatFinite_general _ _ _ _ (by exact hf) hty, h1]
  obtain ⟨b, hb, hr⟩ := layOut_general h hfin (max 1 (precOr6 sp.precision) - 1) sp' { fs with sign := s } hf
  rw [show max 1 (precOr6 sp.precision) - 1 + 1 = max 1 (precOr6 sp.precision) by omega] at hb hr
  rw [← hu, ← hs]
  refine ⟨b, hb, hr fun hx => ?_⟩
  have := hbig (by rw [← hs]; exact hx)
  omega

theorem writeFloat_short {F : Flt} {G : Format} (h : IsFlt F G) (hc : Converts F G) (bits : Nat)
    (hfin : G.Finite (magBits F bits)) (sp : Specs) (hw : sp.width < 2 ^ 31) (ht : sp.type = .none) (hpr : sp.precision < 0) :
    ∃ body, (∃ n E, body = shortText n E sp.alt ∧ (magBits F bits = 0 → n = 0 ∧ E = 0) ∧
        (magBits F bits ≠ 0 → n ≠ 0 ∧ G.Shortest (magBits F bits) n E) ∧ toDecimal F (magBits F bits) = .ok ⟨n, E⟩) ∧
      writeFloat F bits sp = .ok (placed sp (floatSign (signbit F bits) sp.sign) body) := by
  have hp : parseFloatTypeSpec sp = .ok { format := .general, showpoint := sp.alt } := by
    unfold parseFloatTypeSpec
    rw [ht]
  refine writeFloat_finite hc bits hfin sp hw hp fun sp' s h1 h2 => ?_
  rw [writeFloatFinite_short _ _ _ _ rfl (by rw [h2]; exact ht) (by rw [h1]; exact hpr)]
  obtain ⟨n, E, hb, h3, h4⟩ := layOut_short h hc hfin sp'.precision (by rw [h1]; exact hpr) sp'
    { format := .general, showpoint := sp.alt, sign := s } rfl rfl
  exact ⟨_, hb, n, E, rfl, h3, h4⟩

theorem writeFloat_hex {F : Flt} {G : Format} (h : IsFlt F G) (hc : Converts F G) (bits : Nat)
    (hfin : G.Finite (magBits F bits)) (sp : Specs) (hw : sp.width < 2 ^ 31) (upper : Bool)
    (ht : sp.type = if upper then .hexfloatUpper else .hexfloatLower) :
    ∃ body, IsHex upper (G.mag (magBits F bits)) sp.precision sp.alt body ∧
      writeFloat F bits sp = .ok (placed sp (floatSign (signbit F bits) sp.sign) body) := by
  obtain ⟨fs, hp, hf, hs, hu⟩ : ∃ fs, parseFloatTypeSpec sp = .ok fs ∧ fs.format = .hex ∧
      fs.showpoint = sp.alt ∧ fs.upper = upper := by
    unfold parseFloatTypeSpec
    cases upper <;> rw [ht] <;> exact ⟨_, rfl, rfl, rfl, rfl⟩
  refine writeFloat_finite hc bits hfin sp hw hp fun sp' s h1 h2 => ?_
  obtain ⟨b, hb, hr⟩ := writeFloatFinite_hex h hfin sp' { fs with sign := s } hf
  rw [← hu, ← hs, ← h1]
  exact ⟨b, hb, hr⟩

end Fmt
end Efp
