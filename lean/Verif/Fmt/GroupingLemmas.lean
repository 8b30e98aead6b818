import Verif.Spec.FmtViews
import Verif.Fmt.ViewParse

/-!
# Digit grouping in threes
-/

namespace Efp
namespace Fmt

open Spec.Fmt

/-- the grouping of `group_digits` -/
abbrev byThree : DigitGrouping := ⟨[3], [',']⟩

theorem byThree_next {g : Nat} {pos : Nat} (h : g ≤ 1) : byThree.next g pos = .ok (((pos + 3 : Nat) : Int), 1, ((pos + 3 : Nat) : Int)) := by
  have : g = 0 ∨ g = 1 := by omega
  rcases this with rfl | rfl <;> rfl

theorem countLoop_eq (n : Nat) : ∀ (fuel g pos count : Nat), g ≤ 1 → (n - 1 - pos) / 3 < fuel →
    byThree.countLoop n fuel g pos count = .ok (count + (n - 1 - pos) / 3)
  | 0, _, _, _, _, h => absurd h (Nat.not_lt_zero _)
  | fuel + 1, g, pos, count, hg, h => by
    rw [DigitGrouping.countLoop, byThree_next hg, Res.bind_ok]
    simp only
    by_cases hc : (n : Int) > ((pos + 3 : Nat) : Int)
    · rw [if_pos hc, countLoop_eq n fuel 1 (pos + 3) (count + 1) (Nat.le_refl _) (by omega)]
      congr 1; omega
    · rw [if_neg hc]
      congr 1; omega

theorem countSeparators_eq (n : Nat) : byThree.countSeparators n = .ok ((n - 1) / 3) := by
  unfold DigitGrouping.countSeparators
  rw [show (0 : Int) = ((0 : Nat) : Int) from rfl, countLoop_eq n (n + 1) 0 0 0 (by omega) (by omega)]
  simp

/-- the multiples of three from `3 * m` down to `3 * k`, and then `acc` -/
def threes (k : Nat) : Nat → List Int → List Int
  | 0, acc => acc
  | m + 1, acc => ((3 * (k + m) : Nat) : Int) :: threes k m acc

theorem threes_push (k : Nat) : ∀ (m : Nat) (acc : List Int), threes (k + 1) m (((3 * k : Nat) : Int) :: acc) = threes k (m + 1) acc
  | 0, acc => rfl
  | m + 1, acc => by
    rw [threes, threes_push k m acc, threes]
    congr 2
    omega

theorem separators_eq (n : Nat) : ∀ (fuel g k : Nat) (acc : List Int), g ≤ 1 → (n - 1 - 3 * k) / 3 < fuel →
    byThree.separators n fuel g ((3 * k : Nat) : Int) acc = .ok (threes (k + 1) ((n - 1 - 3 * k) / 3) acc)
  | 0, _, _, _, _, h => absurd h (Nat.not_lt_zero _)
  | fuel + 1, g, k, acc, hg, h => by
    rw [DigitGrouping.separators, byThree_next hg, Res.bind_ok]
    simp only
    by_cases hc : ((3 * k + 3 : Nat) : Int) = 0 ∨ ((3 * k + 3 : Nat) : Int) ≥ (n : Int)
    · rw [if_pos hc, show (n - 1 - 3 * k) / 3 = 0 by omega]; rfl
    · rw [if_neg hc]
      have := separators_eq n fuel 1 (k + 1) (((3 * (k + 1) : Nat) : Int) :: acc) (Nat.le_refl _) (by omega)
      rw [show 3 * k + 3 = 3 * (k + 1) by omega, this, threes_push, show (n - 1 - 3 * k) / 3 = (n - 1 - 3 * (k + 1)) / 3 + 1 by omega]

theorem commas_short {ds : Str} (h : ds.length ≤ 3) : commas ds = ds := by
  unfold commas; rw [dif_pos h]

theorem commas_long {ds : Str} (h : ¬ ds.length ≤ 3) :
    commas ds = commas (ds.take (ds.length - 3)) ++ ',' :: ds.drop (ds.length - 3) := by
  rw [commas, dif_neg h]

theorem commas_cons (d : Char) : ∀ (n : Nat) (ds : Str), ds.length = n →
    commas (d :: ds) = d :: (if ds ≠ [] ∧ ds.length % 3 = 0 then ',' :: commas ds else commas ds) := by
  intro n
  induction n using Nat.strongRecOn with
  | _ n ih =>
    intro ds hn
    by_cases h : ds.length ≤ 2
    · rw [commas_short (by simp; omega), commas_short (by omega), if_neg]
      rintro ⟨h1, h2⟩
      have : ds.length ≠ 0 := fun h => h1 (List.length_eq_zero_iff.mp h)
      omega
    · rw [commas_long (by simp; omega)]
      have e : (d :: ds).length - 3 = (ds.length - 3) + 1 := by simp; omega
      rw [e, List.take_succ_cons, List.drop_succ_cons, ih (ds.length - 3) (by omega) _ (by simp)]
      by_cases h3 : ds.length = 3
      · rw [show ds.length - 3 = 0 by omega]
        simp only [List.take_zero, List.drop_zero, ne_eq, not_true_eq_false, false_and, if_false]
        rw [commas_short (ds := []) (by simp), if_pos ⟨by rintro rfl; simp at h3, by omega⟩, commas_short (by omega)]
        rfl
      · have hne : ds ≠ [] := by rintro rfl; simp at h
        have hne2 : ds.take (ds.length - 3) ≠ [] := by
          intro h4
          have := congrArg List.length h4
          simp at this
          omega
        have hl : (ds.take (ds.length - 3)).length = ds.length - 3 := by simp
        rw [commas_long (ds := ds) (by omega), hl]
        by_cases h5 : ds.length % 3 = 0
        · rw [if_pos ⟨hne2, by omega⟩, if_pos ⟨hne, h5⟩]; rfl
        · rw [if_neg (fun h => by omega), if_neg (fun h => h5 h.2)]; rfl

theorem commas_length (ds : Str) : (commas ds).length = ds.length + (ds.length - 1) / 3 := by
  induction h : ds.length generalizing ds with
  | zero => rw [List.length_eq_zero_iff.mp h, commas_short (by simp)]; rfl
  | succ n ih =>
    cases ds with
    | nil => cases h
    | cons d ds =>
      rw [List.length_cons, Nat.add_right_cancel_iff] at h
      rw [commas_cons d _ ds rfl]
      split
      · rename_i hc
        have : ds.length ≠ 0 := fun h => hc.1 (List.length_eq_zero_iff.mp h)
        have := ih ds h
        simp only [List.length_cons]
        omega
      · rename_i hc
        have := ih ds h
        have hd : ds = [] ∨ ds.length % 3 ≠ 0 := by
          by_cases h1 : ds = []
          · exact .inl h1
          · exact .inr fun h2 => hc ⟨h1, h2⟩
        simp only [List.length_cons]
        rcases hd with rfl | hd
        · simp at h; subst h; omega
        · omega

theorem applyLoop_eq : ∀ (ds : Str) (m : Nat), 3 * m ≤ ds.length → ds.length ≤ 3 * m + 3 →
    byThree.applyLoop ds (threes 0 (m + 1) []) =
      .ok (if ds ≠ [] ∧ ds.length = 3 * m then ',' :: commas ds else commas ds)
  | [], m, _, _ => by
    simp only [DigitGrouping.applyLoop, ne_eq, not_true_eq_false, false_and, if_false]
    rw [commas_short (by simp)]
  | d :: ds, m, h1, h2 => by
    rw [threes, DigitGrouping.applyLoop]
    by_cases h : (d :: ds).length = 3 * m
    · have : m ≠ 0 := by rintro rfl; simp at h
      obtain ⟨k, rfl⟩ : ∃ k, m = k + 1 := ⟨m - 1, by omega⟩
      rw [if_pos (by rw [h, Nat.zero_add]), if_pos ⟨by simp, h⟩]
      simp only [List.length_cons] at h h1 h2
      rw [applyLoop_eq ds k (by omega) (by omega), Res.bind_ok, commas_cons d _ ds rfl]
      rw [if_neg (fun h' => by omega), if_neg (fun h' => by omega)]
      rfl
    · rw [if_neg (by rw [Nat.zero_add]; omega), if_neg (fun h' => h h'.2)]
      simp only [List.length_cons] at h h1 h2
      have := applyLoop_eq ds m (by omega) (by omega)
      rw [threes] at this
      rw [this, Res.bind_ok, commas_cons d _ ds rfl]
      by_cases hd : ds = []
      · subst hd; simp
      · by_cases h4 : ds.length = 3 * m
        · rw [if_pos ⟨hd, h4⟩, if_pos ⟨hd, by omega⟩]
        · rw [if_neg (fun h' => h4 h'.2), if_neg (fun h' => by omega)]

theorem apply_eq (ds : Str) : byThree.apply ds = .ok (commas ds) := by
  unfold DigitGrouping.apply
  have := separators_eq ds.length (ds.length + 1) 0 0 [0] (by omega) (by omega)
  rw [show ((3 * 0 : Nat) : Int) = 0 from rfl] at this
  rw [this, Res.bind_ok]
  simp only [Nat.zero_add, Nat.mul_zero, Nat.sub_zero]
  rw [show ([0] : List Int) = ((3 * 0 : Nat) : Int) :: [] from rfl, show 1 = 0 + 1 from rfl, threes_push 0]
  simp only [Nat.zero_add]
  rw [applyLoop_eq ds _ (by omega) (by omega)]
  congr 1
  by_cases h : ds = []
  · subst h; rfl
  · have : ds.length ≠ 0 := fun h' => h (List.length_eq_zero_iff.mp h')
    rw [if_neg (fun h' => by omega)]

theorem writeIntGrouped_eq {w v : Nat} (hw : w = 64 ∨ w = 128) (hv : v < 2 ^ w) (sp : Specs) (hs : sp.width < 2 ^ 31) :
    writeIntGrouped w v sp byThree =
      .ok (pad true sp (commas (Nat.toDigits 10 v)).length (commas (Nat.toDigits 10 v))) := by
  have hw' : w = 32 ∨ w = 64 ∨ w = 128 := by omega
  have hl : (Nat.toDigits 10 v).length ≤ 39 := by
    refine (Nat.length_toDigits_le_iff (by omega) (by decide)).2 ?_
    rcases hw with rfl | rfl <;> omega
  unfold writeIntGrouped
  rw [countDigits_eq hw' hv, Res.bind_ok, if_neg (by omega), formatDecimal_eq hw' hv, Res.bind_ok, countSeparators_eq,
    Res.bind_ok, apply_eq, Res.bind_ok, writePadded_eq _ _ _ _ hs, commas_length]

end Fmt
end Efp
