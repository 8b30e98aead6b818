import Verif.Fmt.SpecLemmas

/-!
# The parser has no undefined behaviour
-/

namespace Efp
namespace Fmt

theorem Res.bind_ne_ub {α β : Type} {x : Res α} {f : α → Res β} (hx : x ≠ .ub) (hf : ∀ a, x = .ok a → f a ≠ .ub) :
    (x >>= f) ≠ .ub := by
  cases x with
  | ok a => exact hf a rfl
  | err m => nofun
  | ub => exact absurd rfl hx

theorem parseNonnegativeInt_ne_ub (c : Char) (r : Str) (e : Int) : parseNonnegativeInt (c :: r) e ≠ .ub := by
  simp only [parseNonnegativeInt]
  split
  · nofun
  · split <;> nofun

theorem parseArgId_ne_ub (c : Char) (r : Str) : parseArgId (c :: r) ≠ .ub := by
  simp only [parseArgId]
  split
  · simp only [doParseArgId]
    split
    · apply Res.bind_ne_ub
      · unfold parseIndex
        split
        · exact parseNonnegativeInt_ne_ub _ _ _
        · nofun
      · rintro ⟨i, b⟩ _
        simp only
        cases b with
        | nil => nofun
        | cons d b => simp only; split <;> nofun
    · split <;> nofun
  · nofun

theorem nextArgId_ne_ub (n : Int) : nextArgId n ≠ .ub := by unfold nextArgId; split <;> nofun
theorem checkArgId_ne_ub (n : Int) : checkArgId n ≠ .ub := by unfold checkArgId; split <;> nofun
theorem enterState_ne_ub (cur s : St) (v : Bool) : enterState cur s v ≠ .ub := by unfold enterState; split <;> nofun

theorem dynamicSpecId_ne_ub (id : ArgId) (n : Int) : dynamicSpecId id n ≠ .ub := by
  cases id with
  | auto => exact Res.bind_ne_ub (nextArgId_ne_ub n) (fun _ _ => nofun)
  | index i => exact Res.bind_ne_ub (checkArgId_ne_ub n) (fun _ _ => nofun)
  | name s => nofun

theorem parseDynamicSpec_ne_ub (c : Char) (r : Str) (v : Int) (ref : ArgRef) (n : Int) :
    parseDynamicSpec (c :: r) v ref n ≠ .ub := by
  simp only [parseDynamicSpec]
  split
  · apply Res.bind_ne_ub (parseNonnegativeInt_ne_ub _ _ _)
    intro a _
    split <;> nofun
  · split
    · cases r with
      | nil => nofun
      | cons d r =>
        apply Res.bind_ne_ub (parseArgId_ne_ub _ _)
        intro a _
        apply Res.bind_ne_ub (dynamicSpecId_ne_ub _ _)
        rintro b _
        cases a.2 with
        | nil => nofun
        | cons e q => simp only; split <;> nofun
    · nofun

theorem parsePrecision_ne_ub (c : Char) (r : Str) (v : Int) (ref : ArgRef) (n : Int) :
    parsePrecision (c :: r) v ref n ≠ .ub := by
  cases r with
  | nil => nofun
  | cons d r =>
    simp only [parsePrecision]
    split
    · nofun
    · exact parseDynamicSpec_ne_ub _ _ _ _ _

theorem parseFill_ne_ub (b : Char) (r : Str) (cur : St) (sp : Specs) : parseFill b r cur sp ≠ .ub := by
  unfold parseFill
  split
  · nofun
  · split
    · nofun
    · exact Res.bind_ne_ub (enterState_ne_ub _ _ _) (fun _ _ => nofun)

theorem loopAt_ne_ub (ty : Ty) : ∀ (fuel : Nat) (pos : Str) (cur : St) (sp : Specs) (n : Int),
    pos.length ≤ fuel → loopAt ty fuel pos cur sp n ≠ .ub
  | fuel, [], cur, sp, n, _ => nofun
  | 0, b :: r, cur, sp, n, h => by simp at h
  | fuel + 1, b :: r, cur, sp, n, h => by
    have ih := loopAt_ne_ub ty fuel
    have hr : r.length ≤ fuel := by simpa using h
    change specLoop ty (fuel + 1) b b r cur sp n ≠ _
    rw [specLoop_succ]
    have enter : ∀ (s : St) (v : Bool) (k : St → Res (Specs × Str × Int)), (∀ c, k c ≠ .ub) →
        (enterState cur s v >>= k) ≠ .ub := fun s v k hk => Res.bind_ne_ub (enterState_ne_ub _ _ _) (fun a _ => hk a)
    split
    · exact enter _ _ _ fun c => ih _ _ _ _ hr
    split
    · split
      · nofun
      · exact enter _ _ _ fun c => ih _ _ _ _ hr
    split
    · split
      · nofun
      · exact enter _ _ _ fun c => ih _ _ _ _ hr
    split
    · apply enter
      intro c
      split
      · split <;> nofun
      · split
        · exact ih _ _ _ _ hr
        · exact ih _ _ _ _ hr
    split
    · rename_i hd
      apply enter
      intro c
      apply Res.bind_ne_ub (parseDynamicSpec_ne_ub _ _ _ _ _)
      rintro ⟨w, ref, pos, n1⟩ hp
      have := (parseDynamicSpec_le hp).2 ⟨b, r, rfl, hd⟩
      exact ih _ _ _ _ (by simp at this; omega)
    split
    · split
      · nofun
      · apply enter
        intro c
        apply Res.bind_ne_ub (parsePrecision_ne_ub _ _ _ _ _)
        rintro ⟨w, ref, pos, n1⟩ hp
        have := parsePrecision_le hp
        exact ih _ _ _ _ (by simp at this; omega)
    split
    · split
      · nofun
      · exact enter _ _ _ fun c => ih _ _ _ _ hr
    split
    · split
      · split <;> nofun
      · nofun
    · split
      · nofun
      · apply Res.bind_ne_ub (parseFill_ne_ub _ _ _ _)
        rintro ⟨pos, c, sp1⟩ hp
        have := parseFill_le hp
        exact ih _ _ _ _ (by simp at this; omega)

theorem parseFormatSpecs_ne_ub (ty : Ty) (b : Str) (n : Int) : parseFormatSpecs ty b n ≠ .ub := by
  match b with
  | [] => nofun
  | [b] => exact loopAt_ne_ub ty 1 [b] .start {} n (Nat.le_refl _)
  | b :: x :: r =>
    simp only [parseFormatSpecs]
    by_cases hx : parseAlign x = .none
    · rw [if_pos hx]
      exact loopAt_ne_ub ty (r.length + 2) (b :: x :: r) .start {} n (Nat.le_refl _)
    · rw [if_neg hx, specLoop_fill _ _ _ _ _ _ _ _ (Or.inl (by decide))]
      split
      · nofun
      · apply Res.bind_ne_ub (parseFill_ne_ub _ _ _ _)
        rintro ⟨pos, c, sp1⟩ hp
        have := parseFill_le hp
        exact loopAt_ne_ub _ _ pos _ _ _ (by simp at this; omega)

/-- a handler whose callbacks have no undefined behaviour -/
structure Handler.Safe {σ : Type} (h : Handler σ) : Prop where
  onText : ∀ t s, h.onText t s ≠ .ub
  onArgId : ∀ id s, h.onArgId id s ≠ .ub
  onReplacementField : ∀ id s, h.onReplacementField id s ≠ .ub
  onFormatSpecs : ∀ id b s, h.onFormatSpecs id b s ≠ .ub

variable {σ : Type}

theorem parseReplacementField_ne_ub {h : Handler σ} (hs : h.Safe) (after : Str) (s : σ) :
    parseReplacementField h after s ≠ .ub := by
  cases after with
  | nil => nofun
  | cons c r =>
    simp only [parseReplacementField]
    split
    · refine Res.bind_ne_ub (hs.onArgId _ _) fun a _ => Res.bind_ne_ub (hs.onReplacementField _ _) fun _ _ => nofun
    split
    · exact Res.bind_ne_ub (hs.onText _ _) fun _ _ => nofun
    · refine Res.bind_ne_ub (parseArgId_ne_ub _ _) fun a _ => Res.bind_ne_ub (hs.onArgId _ _) fun i _ => ?_
      cases a.2 with
      | nil => nofun
      | cons d q =>
        simp only
        split
        · exact Res.bind_ne_ub (hs.onReplacementField _ _) fun _ _ => nofun
        split
        · refine Res.bind_ne_ub (hs.onFormatSpecs _ _ _) fun e _ => ?_
          cases e.1 with
          | nil => nofun
          | cons x q => simp only; split <;> nofun
        · nofun

theorem shortLoop_ne_ub {h : Handler σ} (g : h.Good) (hs : h.Safe) : ∀ (fuel : Nat) (text p : Str) (s : σ),
    p.length ≤ fuel → shortLoop h fuel text p s ≠ .ub
  | fuel, text, [], s, _ => by rw [shortLoop_nil]; exact hs.onText _ _
  | 0, text, _ :: _, s, h => by simp at h
  | fuel + 1, text, c :: p, s, hl => by
    have hp : p.length ≤ fuel := by simpa using hl
    simp only [shortLoop]
    split
    · refine Res.bind_ne_ub (hs.onText _ _) fun s1 _ => Res.bind_ne_ub (parseReplacementField_ne_ub hs _ _) ?_
      rintro ⟨q, s2⟩ hq
      have := parseReplacementField_le g hq
      exact shortLoop_ne_ub g hs _ _ q _ (by omega)
    split
    · cases p with
      | nil => nofun
      | cons d p =>
        simp only
        split
        · nofun
        · refine Res.bind_ne_ub (hs.onText _ _) fun s1 _ => shortLoop_ne_ub g hs _ _ _ _ ?_
          simp at hp; omega
    · exact shortLoop_ne_ub g hs _ _ _ _ hp

end Fmt
end Efp
