import Verif.Fmt.CheckLemmas

/-!
# What the parser of options leaves behind, wherever it stops
-/

namespace Efp
namespace Fmt

open Spec.Fmt

theorem pniLoop_suffix : ∀ (r : Str) (c : Char) (v n : Nat), (pniLoop c r v n).2.2.2.2 <:+ r
  | [], c, v, n => List.suffix_refl _
  | d :: r, c, v, n => by
    unfold pniLoop
    split
    · exact (pniLoop_suffix r d _ _).trans (List.suffix_cons _ _)
    · exact List.suffix_refl _

theorem pniLoop_value : ∀ (r : Str) (c : Char) (v n : Nat),
    (pniLoop c r v n).1 = ((pniLoop c r v n).2.1 * 10 + ((pniLoop c r v n).2.2.2.1.toNat - 48)) % 2 ^ 32
  | [], c, v, n => rfl
  | d :: r, c, v, n => by
    unfold pniLoop
    split
    · exact pniLoop_value r d _ _
    · rfl

theorem digit_bound {c : Char} (h : isDigit c = true) : c.toNat - 48 ≤ 9 := by
  simp only [isDigit, Bool.and_eq_true, decide_eq_true_eq] at h; omega

theorem pniLoop_last : ∀ (r : Str) (c : Char) (v n : Nat), isDigit c = true → isDigit (pniLoop c r v n).2.2.2.1 = true
  | [], c, v, n, h => h
  | d :: r, c, v, n, h => by
    unfold pniLoop
    split
    · rename_i hd; exact pniLoop_last r d _ _ hd
    · exact h

/-- with few digits the value is small -/
theorem pniLoop_small : ∀ (r : Str) (c : Char) (v n : Nat), isDigit c = true → v < 10 ^ n →
    (pniLoop c r v n).2.2.1 ≤ 9 → (pniLoop c r v n).1 < 10 ^ (pniLoop c r v n).2.2.1
  | [], c, v, n, hc, hv, _ => by
    have := digit_bound hc
    simp only [pniLoop, Nat.pow_succ]
    refine Nat.lt_of_le_of_lt (Nat.mod_le _ _) ?_
    omega
  | d :: r, c, v, n, hc, hv, h9 => by
    have := digit_bound hc
    unfold pniLoop at h9 ⊢
    by_cases hd : isDigit d = true
    · rw [if_pos hd] at h9 ⊢
      refine pniLoop_small r d _ _ hd ?_ h9
      refine Nat.lt_of_le_of_lt (Nat.mod_le _ _) ?_
      rw [Nat.pow_succ]; omega
    · rw [if_neg hd] at h9 ⊢
      simp only [Nat.pow_succ]
      refine Nat.lt_of_le_of_lt (Nat.mod_le _ _) ?_
      omega

theorem parseNonnegativeInt_suffix {b : Str} {e v : Int} {p : Str} (h : parseNonnegativeInt b e = .ok (v, p)) : p <:+ b := by
  cases b with
  | nil => simp [parseNonnegativeInt] at h
  | cons c r =>
    have hl := pniLoop_suffix r c 0 0
    simp only [parseNonnegativeInt] at h
    have : (pniLoop c r 0 0).2.2.2.2 = p := by
      split at h
      · simp only [Res.ok.injEq, Prod.mk.injEq] at h; exact h.2
      · split at h
        · simp only [Res.ok.injEq, Prod.mk.injEq] at h; exact h.2
        · simp only [Res.ok.injEq, Prod.mk.injEq] at h; exact h.2
    rw [← this]
    exact hl.trans (List.suffix_cons _ _)

theorem parseNonnegativeInt_bound {c : Char} {r : Str} {v : Int} {p : Str} (hc : isDigit c = true)
    (h : parseNonnegativeInt (c :: r) (-1) = .ok (v, p)) : -1 ≤ v ∧ v < 2 ^ 31 := by
  simp only [parseNonnegativeInt] at h
  have h2 := pniLoop_small r c 0 0 hc (by simp)
  have h3 := pniLoop_value r c 0 0
  revert h h2 h3
  generalize pniLoop c r 0 0 = x
  obtain ⟨value, prev, count, last, q⟩ := x
  intro h h2 h3
  simp only at h h2 h3
  split at h
  · rename_i h9
    have h2 := h2 h9
    have : 10 ^ count ≤ 10 ^ 9 := Nat.pow_le_pow_right (by decide) h9
    simp only [Res.ok.injEq, Prod.mk.injEq] at h
    omega
  · split at h
    · rename_i h10
      have := Nat.mod_le (prev * 10 + (last.toNat - 48)) (2 ^ 32)
      simp only [Res.ok.injEq, Prod.mk.injEq] at h
      omega
    · simp only [Res.ok.injEq, Prod.mk.injEq] at h
      omega

theorem nameTail_suffix : ∀ r : Str, (nameTail r).2 <:+ r
  | [] => List.suffix_refl _
  | c :: r => by
    unfold nameTail
    split
    · exact (nameTail_suffix r).trans (List.suffix_cons _ _)
    · exact List.suffix_refl _

theorem parseArgId_suffix {b : Str} {id : ArgId} {p : Str} (h : parseArgId b = .ok (id, p)) : p <:+ b := by
  cases b with
  | nil => simp [parseArgId] at h
  | cons c r =>
    simp only [parseArgId] at h
    split at h
    · simp only [doParseArgId] at h
      split at h
      · obtain ⟨⟨i, q⟩, h1, h2⟩ := Res.bind_eq_ok.mp h
        have hq : q <:+ c :: r := by
          unfold parseIndex at h1
          split at h1
          · exact parseNonnegativeInt_suffix h1
          · cases h1; exact List.suffix_cons _ _
        cases q with
        | nil => cases h2
        | cons d q =>
          simp only at h2
          split at h2
          · cases h2
          · cases h2; exact hq
      · split at h
        · cases h
        · cases h
          exact (nameTail_suffix r).trans (List.suffix_cons _ _)
    · cases h; exact List.suffix_refl _

theorem parseDynamicSpec_spec {b : Str} {v v' : Int} {ref ref' : ArgRef} {n n' : Int} {p : Str}
    (h : parseDynamicSpec b v ref n = .ok (v', ref', p, n')) : p <:+ b ∧ (v' = v ∨ (0 ≤ v' ∧ v' < 2 ^ 31)) := by
  cases b with
  | nil => simp [parseDynamicSpec] at h
  | cons c r =>
    simp only [parseDynamicSpec] at h
    by_cases hd : isDigit c = true
    · rw [if_pos hd] at h
      obtain ⟨⟨i, q⟩, h1, h2⟩ := Res.bind_eq_ok.mp h
      have hs := parseNonnegativeInt_suffix h1
      have hb := parseNonnegativeInt_bound hd h1
      simp only at h2
      split at h2
      · cases h2; exact ⟨hs, .inr (by omega)⟩
      · cases h2
    · rw [if_neg hd] at h
      by_cases hb : c = '{'
      · rw [if_pos hb] at h
        cases r with
        | nil => simp at h
        | cons d r' =>
          simp only at h
          obtain ⟨⟨i, q⟩, h1, h2⟩ := Res.bind_eq_ok.mp h
          have := parseArgId_suffix h1
          obtain ⟨⟨rf, nn⟩, h3, h4⟩ := Res.bind_eq_ok.mp h2
          cases q with
          | nil => simp at h4
          | cons e q =>
            simp only at h4
            split at h4
            · cases h4
              exact ⟨((List.suffix_cons _ _).trans this).trans (List.suffix_cons _ _), .inl rfl⟩
            · cases h4
      · rw [if_neg hb] at h
        cases h
        exact ⟨List.suffix_refl _, .inl rfl⟩

theorem parsePrecision_suffix {b : Str} {v v' : Int} {ref ref' : ArgRef} {n n' : Int} {p : Str}
    (h : parsePrecision b v ref n = .ok (v', ref', p, n')) : p <:+ b := by
  match b, h with
  | [], h => simp [parsePrecision] at h
  | [_], h => simp [parsePrecision] at h
  | _ :: d :: r, h =>
    simp only [parsePrecision] at h
    split at h
    · cases h
    · exact (parseDynamicSpec_spec h).1.trans (List.suffix_cons _ _)

/-- what holds of the specs after any part of the options -/
def Parsed (ty : Ty) (sp : Specs) : Prop :=
  sp.width < 2 ^ 31 ∧ (ty.isFloat = false → ty.text = false → sp.precision = -1 ∧ sp.precisionRef = .none)

theorem specLoop_inv {ty : Ty} {sp' : Specs} {p : Str} {n' : Int} (fuel : Nat)
    (ih : ∀ (pos : Str) (cur : St) (sp : Specs) (n : Int), Parsed ty sp → loopAt ty fuel pos cur sp n = .ok (sp', p, n') →
      Parsed ty sp' ∧ p <:+ pos)
    (c b : Char) (r : Str) (cur : St) (sp : Specs) (n : Int) (hs : Parsed ty sp)
    (h : specLoop ty (fuel + 1) c b r cur sp n = .ok (sp', p, n')) : Parsed ty sp' ∧ p <:+ b :: r := by
  have stop : ∀ {n'' : Int}, (Res.ok (sp, b :: r, n'')) = .ok (sp', p, n') → Parsed ty sp' ∧ p <:+ b :: r := by
    intro n'' h; cases h; exact ⟨hs, List.suffix_refl _⟩
  have next : ∀ {cur : St} {sp : Specs} {n : Int}, loopAt ty fuel r cur sp n = .ok (sp', p, n') → Parsed ty sp →
      Parsed ty sp' ∧ p <:+ b :: r := fun h hs =>
    ⟨(ih _ _ _ _ hs h).1, (ih _ _ _ _ hs h).2.trans (List.suffix_cons _ _)⟩
  rw [specLoop_succ] at h
  split at h
  · obtain ⟨_, _, h⟩ := Res.bind_eq_ok.mp h
    exact next h hs
  split at h
  · split at h
    · exact stop h
    · obtain ⟨_, _, h⟩ := Res.bind_eq_ok.mp h
      exact next h hs
  split at h
  · split at h
    · exact stop h
    · obtain ⟨_, _, h⟩ := Res.bind_eq_ok.mp h
      exact next h hs
  split at h
  · obtain ⟨_, _, h⟩ := Res.bind_eq_ok.mp h
    split at h
    · split at h
      · exact stop h
      · cases h
    · split at h
      · exact next h hs
      · exact next h hs
  split at h
  · obtain ⟨_, _, h⟩ := Res.bind_eq_ok.mp h
    obtain ⟨⟨w, ref, pos, nx⟩, h1, h⟩ := Res.bind_eq_ok.mp h
    obtain ⟨h2, h3⟩ := parseDynamicSpec_spec h1
    have hs1 := hs.1
    obtain ⟨h4, h5⟩ := ih _ _ _ _ (show Parsed ty { sp with width := w.toNat, widthRef := ref } from
      ⟨by show w.toNat < 2 ^ 31; omega, hs.2⟩) h
    exact ⟨h4, h5.trans h2⟩
  split at h
  · split at h
    · exact stop h
    · obtain ⟨_, he, h⟩ := Res.bind_eq_ok.mp h
      obtain ⟨⟨w, ref, pos, nx⟩, h1, h⟩ := Res.bind_eq_ok.mp h
      have hf := (enterState_sound he).2.2
      obtain ⟨h4, h5⟩ := ih _ _ _ _ (show Parsed ty { sp with precision := w, precisionRef := ref } from
        ⟨hs.1, fun a b => by rw [a, b] at hf; cases hf⟩) h
      exact ⟨h4, h5.trans (parsePrecision_suffix h1)⟩
  split at h
  · split at h
    · exact stop h
    · obtain ⟨_, _, h⟩ := Res.bind_eq_ok.mp h
      exact next h hs
  cases hp : presOf c with
  | some x =>
    obtain ⟨pr, set⟩ := x
    rw [hp] at h
    simp only at h
    split at h
    · split at h
      · exact stop h
      · cases h
    · cases h
      exact ⟨hs, List.suffix_cons _ _⟩
  | none =>
    rw [hp] at h
    simp only at h
    split at h
    · exact stop h
    · obtain ⟨⟨pos, cur', sp''⟩, h1, h⟩ := Res.bind_eq_ok.mp h
      unfold parseFill at h1
      cases hd : (b :: r).drop (codePointLength b) with
      | nil => rw [hd] at h1; cases h1
      | cons f rest =>
        rw [hd] at h1
        simp only at h1
        split at h1
        · cases h1
        · obtain ⟨c, h2, h3⟩ := Res.bind_eq_ok.mp h1
          cases h3
          obtain ⟨h4, h5⟩ := ih pos cur' { sp with fill := (b :: r).take (codePointLength b), align := parseAlign f } n hs h
          have h6 : f :: pos <:+ b :: r := hd ▸ List.drop_suffix _ _
          exact ⟨h4, h5.trans ((List.suffix_cons _ _).trans h6)⟩

theorem loopAt_inv {ty : Ty} {sp' : Specs} {p : Str} {n' : Int} : ∀ (fuel : Nat) (pos : Str) (cur : St) (sp : Specs) (n : Int),
    Parsed ty sp → loopAt ty fuel pos cur sp n = .ok (sp', p, n') → Parsed ty sp' ∧ p <:+ pos
  | fuel, [], cur, sp, n, hs, h => by
    simp only [loopAt] at h
    cases h
    exact ⟨hs, List.suffix_refl _⟩
  | 0, b :: r, cur, sp, n, hs, h => by cases h
  | fuel + 1, b :: r, cur, sp, n, hs, h => specLoop_inv fuel (loopAt_inv fuel) b b r cur sp n hs h

theorem parsed_start (ty : Ty) : Parsed ty {} := ⟨by decide, fun _ _ => ⟨rfl, rfl⟩⟩

theorem parseFormatSpecs_inv {ty : Ty} {b : Str} {next : Int} {sp : Specs} {p : Str} {next' : Int}
    (h : parseFormatSpecs ty b next = .ok (sp, p, next')) : Parsed ty sp ∧ p <:+ b := by
  match b, h with
  | [], h => cases h; exact ⟨parsed_start ty, List.suffix_refl _⟩
  | [b], h => exact specLoop_inv _ (loopAt_inv _) _ _ _ _ _ _ (parsed_start ty) h
  | b :: n :: r, h => exact specLoop_inv _ (loopAt_inv _) _ _ _ _ _ _ (parsed_start ty) h

end Fmt
end Efp
