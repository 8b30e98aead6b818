import Verif.Fmt.Check
import Verif.Fmt.CheckSpec
import Verif.Fmt.Corollaries

/-!
# The compile-time check follows the grammar of format strings for types
-/

namespace Efp
namespace Fmt

open Spec.Fmt

variable {tys : ArgTypes}

/-- a reference to an argument by its place is to an integer -/
def RefOk (tys : ArgTypes) : ArgRef → Prop
  | .index i => ∃ t, tys[i]? = some t ∧ integerLike t.2
  | _ => True

theorem Res.bind_iff {α β : Type} {x : Res α} {f g : α → Res β} {y : β} {P : Prop}
    (h : ∀ a, x = .ok a → (f a = .ok y ↔ g a = .ok y ∧ P)) : (x >>= f) = .ok y ↔ (x >>= g) = .ok y ∧ P := by
  rw [Res.bind_eq_ok, Res.bind_eq_ok]
  constructor
  · rintro ⟨a, h1, h2⟩
    exact ⟨⟨a, h1, ((h a h1).mp h2).1⟩, ((h a h1).mp h2).2⟩
  · rintro ⟨⟨a, h1, h2⟩, h3⟩
    exact ⟨a, h1, (h a h1).mpr ⟨h2, h3⟩⟩

theorem Res.ite_iff {β : Type} {c : Prop} [Decidable c] {f g f' g' : Res β} {y : β} {P : Prop}
    (h : c → (f = .ok y ↔ f' = .ok y ∧ P)) (h' : ¬ c → (g = .ok y ↔ g' = .ok y ∧ P)) :
    (if c then f else g) = .ok y ↔ (if c then f' else g') = .ok y ∧ P := by
  by_cases hc : c
  · rw [if_pos hc, if_pos hc]; exact h hc
  · rw [if_neg hc, if_neg hc]; exact h' hc

/-! ## Widths and precisions -/

theorem checkDynamicSpec_iff (i : Nat) (hi : i < tys.length) : checkDynamicSpec tys i = .ok () ↔ RefOk tys (.index i) := by
  simp only [checkDynamicSpec, RefOk, List.getElem?_eq_getElem hi]
  have := integral_iff tys[i].2
  constructor
  · intro h
    split at h
    · cases h
    · rename_i h1
      refine ⟨_, rfl, this.mp ?_⟩
      simpa using h1
  · rintro ⟨t, ht, h⟩
    cases ht
    rw [if_neg (by simp [this.mpr h])]

theorem refOk_lt {i : Nat} (h : RefOk tys (.index i)) : i < tys.length := by
  obtain ⟨t, h, _⟩ := h
  exact (List.getElem?_eq_some_iff.mp h).1

theorem dynamicSpecIdC_iff (id : ArgId) (n : Int) (x : ArgRef × Int) :
    dynamicSpecIdC tys id n = .ok x ↔ dynamicSpecId id n = .ok x ∧ RefOk tys x.1 := by
  have fin : ∀ (i : Nat) (n' : Int), ((if i ≥ tys.length then Res.err "argument not found" else .ok (i, n')) >>= fun y =>
      checkDynamicSpec tys y.1 >>= fun _ => .ok (ArgRef.index y.1, y.2)) = .ok x ↔
        Res.ok (ArgRef.index i, n') = .ok x ∧ RefOk tys x.1 := by
    intro i n'
    by_cases hi : i ≥ tys.length
    · rw [if_pos hi]
      constructor
      · intro h; cases h
      · rintro ⟨h, hr⟩
        cases h
        have := refOk_lt hr
        omega
    · rw [if_neg hi, Res.bind_ok]
      have := checkDynamicSpec_iff (tys := tys) i (by omega)
      constructor
      · intro h
        obtain ⟨_, h1, h2⟩ := Res.bind_eq_ok.mp h
        cases h2
        exact ⟨rfl, this.mp h1⟩
      · rintro ⟨h, hr⟩
        cases h
        rw [this.mpr hr, Res.bind_ok]
  cases id with
  | auto =>
    simp only [dynamicSpecIdC, dynamicSpecId, nextArgIdC, Res.bind_assoc]
    exact Res.bind_iff fun a _ => fin a.1 a.2
  | index i =>
    simp only [dynamicSpecIdC, dynamicSpecId, checkArgIdC, Res.bind_assoc]
    refine Res.bind_iff fun a _ => ?_
    have := fin i a
    by_cases hi : i ≥ tys.length
    · rw [if_pos hi] at this ⊢; exact this
    · rw [if_neg hi] at this ⊢; exact this
  | name s =>
    simp only [dynamicSpecIdC, dynamicSpecId]
    constructor
    · intro h; cases h; exact ⟨rfl, trivial⟩
    · exact fun h => h.1

theorem parseDynamicSpecC_iff {b : Str} {v : Int} {ref : ArgRef} (hr : RefOk tys ref) (n : Int) (x : Int × ArgRef × Str × Int) :
    parseDynamicSpecC tys b v ref n = .ok x ↔ parseDynamicSpec b v ref n = .ok x ∧ RefOk tys x.2.1 := by
  cases b with
  | nil => simp [parseDynamicSpecC, parseDynamicSpec]
  | cons c r =>
    simp only [parseDynamicSpecC, parseDynamicSpec]
    by_cases hd : isDigit c = true
    · rw [if_pos hd, if_pos hd]
      refine Res.bind_iff fun a _ => ?_
      by_cases hv : a.1 ≠ -1
      · simp only [if_pos hv, Res.ok.injEq]
        constructor
        · rintro rfl; exact ⟨rfl, hr⟩
        · exact fun h => h.1
      · simp [if_neg hv]
    · rw [if_neg hd, if_neg hd]
      by_cases hc : c = '{'
      · rw [if_pos hc, if_pos hc]
        cases r with
        | nil => simp
        | cons d r =>
          refine Res.bind_iff fun a _ => ?_
          rw [Res.bind_eq_ok, Res.bind_eq_ok]
          have key : ∀ y : ArgRef × Int, (match a.2 with
              | [] => Res.err "invalid format string"
              | e :: b' => if e = '}' then .ok (v, y.1, b', y.2) else .err "invalid format string") = .ok x → x.2.1 = y.1 := by
            intro y h
            split at h
            · cases h
            · split at h
              · cases h; rfl
              · cases h
          constructor
          · rintro ⟨y, h1, h2⟩
            have h3 := (dynamicSpecIdC_iff _ _ _).mp h1
            exact ⟨⟨y, h3.1, h2⟩, by rw [key y h2]; exact h3.2⟩
          · rintro ⟨⟨y, h1, h2⟩, h3⟩
            exact ⟨y, (dynamicSpecIdC_iff _ _ _).mpr ⟨h1, by rw [← key y h2]; exact h3⟩, h2⟩
      · rw [if_neg hc, if_neg hc, Res.ok.injEq]
        constructor
        · rintro rfl; exact ⟨rfl, hr⟩
        · exact fun h => h.1

theorem parsePrecisionC_iff {b : Str} {v : Int} {ref : ArgRef} (hr : RefOk tys ref) (n : Int) (x : Int × ArgRef × Str × Int) :
    parsePrecisionC tys b v ref n = .ok x ↔ parsePrecision b v ref n = .ok x ∧ RefOk tys x.2.1 := by
  match b with
  | [] => simp [parsePrecisionC, parsePrecision]
  | [_] => simp [parsePrecisionC, parsePrecision]
  | _ :: d :: r =>
    simp only [parsePrecisionC, parsePrecision]
    by_cases hd : d = '}'
    · simp [if_pos hd]
    · rw [if_neg hd, if_neg hd]; exact parseDynamicSpecC_iff hr n x

/-! ## The loop over the options -/

/-- the checking loop at a position -/
def loopAtC (tys : ArgTypes) (ty : Ty) (fuel : Nat) (pos : Str) (cur : St) (sp : Specs) (next : Int) : Res (Specs × Str × Int) :=
  match pos with
  | [] => .ok (sp, [], next)
  | b :: r => specLoopC tys ty fuel b b r cur sp next

theorem specLoopC_succ (ty : Ty) (fuel : Nat) (c b : Char) (r : Str) (cur : St) (sp : Specs) (next : Int) :
    specLoopC tys ty (fuel + 1) c b r cur sp next =
      (if c = '<' ∨ c = '>' ∨ c = '^' then do
        let cur ← enterState cur .align true
        loopAtC tys ty fuel r cur { sp with align := parseAlign c } next
      else if c = '+' ∨ c = '-' ∨ c = ' ' then
        if ty = .none then .ok (sp, b :: r, next)
        else do
          let cur ← enterState cur .sign (ty.sint || ty.isFloat)
          loopAtC tys ty fuel r cur { sp with sign := if c = '+' then .plus else if c = '-' then .minus else .space } next
      else if c = '#' then
        if ty = .none then .ok (sp, b :: r, next)
        else do
          let cur ← enterState cur .hash ty.arith
          loopAtC tys ty fuel r cur { sp with alt := true } next
      else if c = '0' then do
        let cur ← enterState cur .zero true
        if !ty.arith then
          if ty = .none then .ok (sp, b :: r, next) else .err "format specifier requires numeric argument"
        else if sp.align = .none then loopAtC tys ty fuel r cur { sp with align := .numeric, fill := sp.fill.set 0 '0' } next
        else loopAtC tys ty fuel r cur sp next
      else if isDigit c || c == '{' then do
        let cur ← enterState cur .width true
        let (w, ref, pos, next) ← parseDynamicSpecC tys (b :: r) sp.width sp.widthRef next
        loopAtC tys ty fuel pos cur { sp with width := w.toNat, widthRef := ref } next
      else if c = '.' then
        if ty = .none then .ok (sp, b :: r, next)
        else do
          let cur ← enterState cur .precision (ty.isFloat || ty.text)
          let (p, ref, pos, next) ← parsePrecisionC tys (b :: r) sp.precision sp.precisionRef next
          loopAtC tys ty fuel pos cur { sp with precision := p, precisionRef := ref } next
      else if c = 'L' then
        if ty = .none then .ok (sp, b :: r, next)
        else do
          let cur ← enterState cur .locale ty.arith
          loopAtC tys ty fuel r cur { sp with localized := true } next
      else
        match presOf c with
        | some (p, set) =>
          if !set ty then
            if ty = .none then .ok (sp, b :: r, next) else .err "invalid format specifier"
          else .ok ({ sp with type := p }, r, next)
        | none =>
          if c = '}' ∨ b = '}' then .ok (sp, b :: r, next)
          else do
            let (pos, cur, sp) ← parseFill b r cur sp
            loopAtC tys ty fuel pos cur sp next) := by
  rfl

/-- what the loop has read of width and precision it keeps -/
theorem loopAt_refs (ty : Ty) : ∀ (fuel : Nat) (pos : Str) (cur : St) (sp : Specs) (next : Int) {x : Specs × Str × Int},
    loopAt ty fuel pos cur sp next = .ok x →
    (5 ≤ cur.toNat → x.1.widthRef = sp.widthRef) ∧ (6 ≤ cur.toNat → x.1.precisionRef = sp.precisionRef)
  | fuel, [], cur, sp, next, x, h => by cases h; exact ⟨fun _ => rfl, fun _ => rfl⟩
  | 0, b :: r, cur, sp, next, x, h => by cases h
  | fuel + 1, b :: r, cur, sp, next, x, h => by
    have step : ∀ (s : St) (v : Bool) {pos : Str} {s' : St} {sp' : Specs} {n' : Int}, enterState cur s v = .ok s' →
        loopAt ty fuel pos s' sp' n' = .ok x →
        sp'.widthRef = sp.widthRef ∨ s.toNat ≤ 5 → sp'.precisionRef = sp.precisionRef ∨ s.toNat ≤ 6 →
        (5 ≤ cur.toNat → x.1.widthRef = sp.widthRef) ∧ (6 ≤ cur.toNat → x.1.precisionRef = sp.precisionRef) := by
      intro s v pos s' sp' n' h1 h4 h2 h3
      obtain ⟨rfl, h5, _⟩ := enterState_sound h1
      obtain ⟨h6, h7⟩ := loopAt_refs ty fuel _ _ _ _ h4
      exact ⟨fun hc => (h6 (by omega)).trans (h2.resolve_right (by omega)),
        fun hc => (h7 (by omega)).trans (h3.resolve_right (by omega))⟩
    have stop : ∀ {p : Str} {sp' : Specs} {n : Int}, Res.ok (sp', p, n) = .ok x →
        sp'.widthRef = sp.widthRef → sp'.precisionRef = sp.precisionRef →
        (5 ≤ cur.toNat → x.1.widthRef = sp.widthRef) ∧ (6 ≤ cur.toNat → x.1.precisionRef = sp.precisionRef) := by
      intro p sp' n h h1 h2; cases h; exact ⟨fun _ => h1, fun _ => h2⟩
    change specLoop ty (fuel + 1) b b r cur sp next = _ at h
    rw [specLoop_succ] at h
    split at h
    · obtain ⟨_, h1, h⟩ := Res.bind_eq_ok.mp h
      exact step _ _ h1 h (.inl rfl) (.inl rfl)
    split at h
    · split at h
      · exact stop h rfl rfl
      · obtain ⟨_, h1, h⟩ := Res.bind_eq_ok.mp h
        exact step _ _ h1 h (.inl rfl) (.inl rfl)
    split at h
    · split at h
      · exact stop h rfl rfl
      · obtain ⟨_, h1, h⟩ := Res.bind_eq_ok.mp h
        exact step _ _ h1 h (.inl rfl) (.inl rfl)
    split at h
    · obtain ⟨_, h1, h⟩ := Res.bind_eq_ok.mp h
      split at h
      · split at h
        · exact stop h rfl rfl
        · cases h
      · split at h
        · exact step _ _ h1 h (.inl rfl) (.inl rfl)
        · exact step _ _ h1 h (.inl rfl) (.inl rfl)
    split at h
    · obtain ⟨_, h1, h⟩ := Res.bind_eq_ok.mp h
      obtain ⟨⟨w, ref, pos, nx⟩, h2, h⟩ := Res.bind_eq_ok.mp h
      exact step _ _ h1 h (.inr (by decide)) (.inl rfl)
    split at h
    · split at h
      · exact stop h rfl rfl
      · obtain ⟨_, h1, h⟩ := Res.bind_eq_ok.mp h
        obtain ⟨⟨w, ref, pos, nx⟩, h2, h⟩ := Res.bind_eq_ok.mp h
        exact step _ _ h1 h (.inl rfl) (.inr (by decide))
    split at h
    · split at h
      · exact stop h rfl rfl
      · obtain ⟨_, h1, h⟩ := Res.bind_eq_ok.mp h
        exact step _ _ h1 h (.inl rfl) (.inl rfl)
    cases hp : presOf b with
    | some y =>
      obtain ⟨pr, set⟩ := y
      rw [hp] at h
      simp only at h
      split at h
      · split at h
        · exact stop h rfl rfl
        · cases h
      · exact stop h rfl rfl
    | none =>
      rw [hp] at h
      simp only at h
      split at h
      · exact stop h rfl rfl
      · obtain ⟨⟨pos, cur', sp''⟩, h1, h⟩ := Res.bind_eq_ok.mp h
        unfold parseFill at h1
        split at h1
        · cases h1
        · split at h1
          · cases h1
          · obtain ⟨c1, h2, h3⟩ := Res.bind_eq_ok.mp h1
            cases h3
            exact step _ _ h2 h (.inl rfl) (.inl rfl)

/-- the references that were read are to integers -/
def SpecsOk (tys : ArgTypes) (sp : Specs) : Prop := RefOk tys sp.widthRef ∧ RefOk tys sp.precisionRef

theorem specLoopC_iff (ty : Ty) : ∀ (fuel : Nat) (c b : Char) (r : Str) (cur : St) (sp : Specs) (next : Int)
    (x : Specs × Str × Int), SpecsOk tys sp →
    (specLoopC tys ty fuel c b r cur sp next = .ok x ↔ specLoop ty fuel c b r cur sp next = .ok x ∧ SpecsOk tys x.1)
  | 0, c, b, r, cur, sp, next, x, hs => by simp [specLoopC, specLoop]
  | fuel + 1, c, b, r, cur, sp, next, x, hs => by
    have again : ∀ (pos : Str) (cur : St) (sp : Specs) (next : Int), SpecsOk tys sp →
        (loopAtC tys ty fuel pos cur sp next = .ok x ↔ loopAt ty fuel pos cur sp next = .ok x ∧ SpecsOk tys x.1) := by
      intro pos cur sp next hs
      cases pos with
      | nil =>
        simp only [loopAtC, loopAt, Res.ok.injEq]
        constructor
        · rintro rfl; exact ⟨rfl, hs⟩
        · exact fun h => h.1
      | cons b r => exact specLoopC_iff ty fuel b b r cur sp next x hs
    have stop : ∀ (sp' : Specs) (p : Str) (n : Int), SpecsOk tys sp' →
        (Res.ok (sp', p, n) = .ok x ↔ Res.ok (sp', p, n) = .ok x ∧ SpecsOk tys x.1) := by
      intro sp' p n h
      constructor
      · intro h'; cases h'; exact ⟨rfl, h⟩
      · exact fun h => h.1
    have fail : ∀ m, (Res.err m = .ok x ↔ Res.err m = .ok x ∧ SpecsOk tys x.1) := by
      intro m
      constructor
      · intro h; cases h
      · exact fun h => h.1
    have enter : ∀ (s : St) (v : Bool) (pos : Str) (sp' : Specs), SpecsOk tys sp' →
        ((enterState cur s v >>= fun cur => loopAtC tys ty fuel pos cur sp' next) = .ok x ↔
          (enterState cur s v >>= fun cur => loopAt ty fuel pos cur sp' next) = .ok x ∧ SpecsOk tys x.1) :=
      fun s v pos sp' h => Res.bind_iff fun _ _ => again _ _ _ _ h
    rw [specLoopC_succ, specLoop_succ]
    refine Res.ite_iff (fun _ => enter _ _ _ _ hs) fun _ => ?_
    refine Res.ite_iff (fun _ => Res.ite_iff (fun _ => stop _ _ _ hs) fun _ => enter _ _ _ _ hs) fun _ => ?_
    refine Res.ite_iff (fun _ => Res.ite_iff (fun _ => stop _ _ _ hs) fun _ => enter _ _ _ _ hs) fun _ => ?_
    refine Res.ite_iff (fun _ => Res.bind_iff fun _ _ => Res.ite_iff
      (fun _ => Res.ite_iff (fun _ => stop _ _ _ hs) fun _ => fail _)
      (fun _ => Res.ite_iff (fun _ => again _ _ _ _ hs) fun _ => again _ _ _ _ hs)) fun _ => ?_
    refine Res.ite_iff (fun _ => Res.bind_iff fun cur' hc => ?_) fun _ => ?_
    · obtain ⟨rfl, _, _⟩ := enterState_sound hc
      rw [Res.bind_eq_ok, Res.bind_eq_ok]
      constructor
      · rintro ⟨⟨w, ref, pos, nx⟩, h1, h2⟩
        obtain ⟨h3, h4⟩ := (parseDynamicSpecC_iff hs.1 _ _).mp h1
        obtain ⟨h5, h6⟩ := (again pos _ { sp with width := w.toNat, widthRef := ref } nx ⟨h4, hs.2⟩).mp h2
        exact ⟨⟨_, h3, h5⟩, h6⟩
      · rintro ⟨⟨⟨w, ref, pos, nx⟩, h1, h2⟩, h3⟩
        have h4 : RefOk tys ref := by
          have := (loopAt_refs ty _ _ _ _ _ h2).1 (by decide)
          simp only at this
          rw [← this]
          exact h3.1
        exact ⟨⟨w, ref, pos, nx⟩, (parseDynamicSpecC_iff hs.1 _ _).mpr ⟨h1, h4⟩,
          (again pos _ { sp with width := w.toNat, widthRef := ref } nx ⟨h4, hs.2⟩).mpr ⟨h2, h3⟩⟩
    refine Res.ite_iff (fun _ => Res.ite_iff (fun _ => stop _ _ _ hs) fun _ => Res.bind_iff fun cur' hc => ?_) fun _ => ?_
    · obtain ⟨rfl, _, _⟩ := enterState_sound hc
      rw [Res.bind_eq_ok, Res.bind_eq_ok]
      constructor
      · rintro ⟨⟨w, ref, pos, nx⟩, h1, h2⟩
        obtain ⟨h3, h4⟩ := (parsePrecisionC_iff hs.2 _ _).mp h1
        obtain ⟨h5, h6⟩ := (again pos _ { sp with precision := w, precisionRef := ref } nx ⟨hs.1, h4⟩).mp h2
        exact ⟨⟨_, h3, h5⟩, h6⟩
      · rintro ⟨⟨⟨w, ref, pos, nx⟩, h1, h2⟩, h3⟩
        have h4 : RefOk tys ref := by
          have := (loopAt_refs ty _ _ _ _ _ h2).2 (by decide)
          simp only at this
          rw [← this]
          exact h3.2
        exact ⟨⟨w, ref, pos, nx⟩, (parsePrecisionC_iff hs.2 _ _).mpr ⟨h1, h4⟩,
          (again pos _ { sp with precision := w, precisionRef := ref } nx ⟨hs.1, h4⟩).mpr ⟨h2, h3⟩⟩
    refine Res.ite_iff (fun _ => Res.ite_iff (fun _ => stop _ _ _ hs) fun _ => enter _ _ _ _ hs) fun _ => ?_
    cases hp : presOf c with
    | some y =>
      obtain ⟨pr, set⟩ := y
      exact Res.ite_iff (fun _ => Res.ite_iff (fun _ => stop _ _ _ hs) fun _ => fail _) fun _ => stop _ _ _ hs
    | none =>
      refine Res.ite_iff (fun _ => stop _ _ _ hs) fun _ => Res.bind_iff fun y hy => again _ _ _ _ ?_
      unfold parseFill at hy
      split at hy
      · cases hy
      · split at hy
        · cases hy
        · obtain ⟨c1, h2, h3⟩ := Res.bind_eq_ok.mp hy
          cases h3
          exact hs

theorem parseFormatSpecsC_iff (ty : Ty) (b : Str) (n : Int) (x : Specs × Str × Int) :
    parseFormatSpecsC tys ty b n = .ok x ↔ parseFormatSpecs ty b n = .ok x ∧ SpecsOk tys x.1 := by
  have h0 : SpecsOk tys {} := ⟨trivial, trivial⟩
  match b with
  | [] =>
    simp only [parseFormatSpecsC, parseFormatSpecs, Res.ok.injEq]
    constructor
    · rintro rfl; exact ⟨rfl, h0⟩
    · exact fun h => h.1
  | [b] => exact specLoopC_iff ty _ _ _ _ _ _ _ _ h0
  | b :: c :: r => exact specLoopC_iff ty _ _ _ _ _ _ _ _ h0

/-! ## What a width uses -/

theorem clampT_get (hm : tys.length < 2 ^ 31) (i : Nat) : tys[if i ≤ 2147483647 then i else 2147483647]? = tys[i]? := by
  split
  · rfl
  · rw [List.getElem?_eq_none (by omega), List.getElem?_eq_none (by omega)]

theorem uses_iff (hm : tys.length < 2 ^ 31) (q : Num) (v n n' : Int) : (∃ d, q.uses tys n = some (d, n')) ↔
    ∃ v' ref, numParse q v .none n = some (v', ref, n') ∧ RefOk tys ref := by
  cases q with
  | none =>
    simp only [Num.uses, numParse, Option.some.injEq, Prod.mk.injEq]
    constructor
    · rintro ⟨d, _, rfl⟩; exact ⟨_, _, ⟨rfl, rfl, rfl⟩, trivial⟩
    · rintro ⟨_, _, ⟨_, _, rfl⟩, _⟩; exact ⟨[], rfl, rfl⟩
  | lit x =>
    simp only [Num.uses, numParse, Option.some.injEq, Prod.mk.injEq]
    constructor
    · rintro ⟨d, _, rfl⟩; exact ⟨_, _, ⟨rfl, rfl, rfl⟩, trivial⟩
    · rintro ⟨_, _, ⟨_, _, rfl⟩, _⟩; exact ⟨[], rfl, rfl⟩
  | arg r =>
    simp only [numParse, Option.map_eq_some_iff]
    have fin : ∀ (i : Nat) (k : Int), (∃ d, ((tys[i]?).bind fun t => if integerLike t.2 then some ([ArgRef.index i], k) else none) =
        some (d, n')) ↔ k = n' ∧ RefOk tys (.index i) := by
      intro i k
      constructor
      · rintro ⟨d, h⟩
        obtain ⟨t, h1, h2⟩ := Option.bind_eq_some_iff.mp h
        split at h2
        · rename_i ht; cases h2; exact ⟨rfl, t, h1, ht⟩
        · cases h2
      · rintro ⟨rfl, t, h1, h2⟩
        exact ⟨[.index i], by rw [h1, Option.bind_some, if_pos h2]⟩
    cases r with
    | auto =>
      simp only [Num.uses, Ref.takeT, refOf]
      by_cases hn : n < 0
      · simp [if_pos hn]
      · simp only [if_neg hn, Option.bind_eq_bind, Option.bind_some, fin]
        constructor
        · rintro ⟨rfl, h⟩; exact ⟨_, _, ⟨_, rfl, rfl⟩, h⟩
        · rintro ⟨_, _, ⟨_, h1, h2⟩, h⟩; cases h1; cases h2; exact ⟨rfl, h⟩
    | index i =>
      simp only [Num.uses, Ref.takeT, refOf]
      by_cases hn : 0 < n
      · simp [if_pos hn]
      · simp only [if_neg hn, Option.bind_eq_bind, Option.bind_some, fin]
        constructor
        · rintro ⟨rfl, h⟩
          refine ⟨_, _, ⟨_, rfl, rfl⟩, ?_⟩
          simp only [RefOk] at h ⊢
          rw [clampT_get hm]; exact h
        · rintro ⟨_, _, ⟨_, h1, h2⟩, h⟩
          cases h1; cases h2
          simp only [RefOk] at h ⊢
          rw [clampT_get hm] at h; exact ⟨trivial, h⟩
    | name s =>
      simp only [Num.uses, refOf]
      constructor
      · rintro ⟨d, h⟩; cases h; exact ⟨_, _, ⟨_, rfl, rfl⟩, trivial⟩
      · rintro ⟨_, _, ⟨_, h1, h2⟩, h⟩; cases h1; cases h2; exact ⟨_, rfl⟩

theorem precUses_iff (hm : tys.length < 2 ^ 31) (q : Option Num) (n n' : Int) : (∃ d, precUses tys q n = some (d, n')) ↔
    ∃ v' ref, precParse q n = some (v', ref, n') ∧ RefOk tys ref := by
  cases q with
  | none =>
    simp only [precUses, precParse, Option.some.injEq, Prod.mk.injEq]
    constructor
    · rintro ⟨d, _, rfl⟩; exact ⟨_, _, ⟨rfl, rfl, rfl⟩, trivial⟩
    · rintro ⟨_, _, ⟨_, _, rfl⟩, _⟩; exact ⟨[], rfl, rfl⟩
  | some q => exact uses_iff hm q _ _ _

/-! ## The checker -/

theorem checkCharSpecs_iff {o : Opts} (hv : o.Valid .char) (w p : Int) (wr pr : ArgRef) :
    (∃ b, checkCharSpecs { o.meaning w p with widthRef := wr, precisionRef := pr } = .ok b) ↔ o.FitsChar := by
  unfold checkCharSpecs Opts.FitsChar
  have e : ((o.meaning w p).align = .numeric ∨ (o.meaning w p).sign ≠ .none ∨ (o.meaning w p).alt = true) ↔
      ¬ (o.sign = .none ∧ o.alt = false ∧ (o.zero = true → o.align ≠ .none)) := by
    have := hv.align
    simp only [Opts.meaning]
    by_cases ha : o.align = .none <;> cases hz : o.zero <;> cases hh : o.alt <;> by_cases hs : o.sign = .none <;>
      simp [ha, hs, this]
  have et : (o.meaning w p).type = o.type := rfl
  simp only [et]
  by_cases ht : o.type = .none ∨ o.type = .chr ∨ o.type = .debug
  · rw [if_neg (by rintro ⟨h1, h2, h3⟩; rcases ht with h | h | h <;> contradiction)]
    by_cases hc : ((o.meaning w p).align = .numeric ∨ (o.meaning w p).sign ≠ .none ∨ (o.meaning w p).alt = true)
    · rw [if_pos hc]
      constructor
      · rintro ⟨b, h⟩; cases h
      · intro h; exact absurd (h ht) (e.mp hc)
    · rw [if_neg hc]
      exact ⟨fun _ _ => Classical.not_not.mp fun h => hc (e.mpr h), fun _ => ⟨_, rfl⟩⟩
  · rw [if_pos (by simp only [not_or] at ht; exact ht)]
    exact ⟨fun _ h => absurd h ht, fun _ => ⟨_, rfl⟩⟩

/-- the options a type takes, read by its parser -/
theorem formatterParse_iff (hm : tys.length < 2 ^ 31) {ty : Ty} (h0 : ty ≠ .none) (hc : ty ≠ .custom) (b f : Str) (n n' : Int) :
    formatterParse tys ty b n = .ok ('}' :: f, n') ↔ ∃ (o : Opts) (d1 d2 : List ArgRef) (n2 : Int), o.Valid ty ∧
      (ty = .char → o.FitsChar) ∧ b = o.text ++ '}' :: f ∧ o.width.uses tys n = some (d1, n2) ∧
      precUses tys o.prec n2 = some (d2, n') := by
  simp only [formatterParse, if_neg hc]
  constructor
  · intro h
    obtain ⟨⟨sp, pos, nx⟩, h1, h2⟩ := Res.bind_eq_ok.mp h
    obtain ⟨h4, h3⟩ : Res.ok (pos, nx) = .ok ('}' :: f, n') ∧ (ty = .char → ∃ c, checkCharSpecs sp = .ok c) := by
      simp only at h2
      split at h2
      · obtain ⟨c, h3, h4⟩ := Res.bind_eq_ok.mp h2
        exact ⟨h4, fun _ => ⟨c, h3⟩⟩
      · rename_i hn
        exact ⟨h2, fun h => absurd h hn⟩
    cases h4
    obtain ⟨h5, hr⟩ := (parseFormatSpecsC_iff _ _ _ _).mp h1
    obtain ⟨o, hv, ht, ha⟩ := parseFormatSpecs_sound h0 h5
    obtain ⟨w, wr, n2, p, pr, e1, e2, e3⟩ := (a1_eq hv n _ _).mp ha
    simp only [e3] at hr h3
    obtain ⟨d1, hd1⟩ := (uses_iff hm _ _ _ _).mpr ⟨_, _, e1, hr.1⟩
    obtain ⟨d2, hd2⟩ := (precUses_iff hm _ _ _).mpr ⟨_, _, e2, hr.2⟩
    refine ⟨o, d1, d2, n2, hv, fun hch => ?_, ht, hd1, hd2⟩
    subst hch
    exact (checkCharSpecs_iff hv w p wr pr).mp (h3 rfl)
  · rintro ⟨o, d1, d2, n2, hv, hch, rfl, hd1, hd2⟩
    obtain ⟨w, wr, e1, r1⟩ := (uses_iff hm _ 0 _ _).mp ⟨_, hd1⟩
    obtain ⟨p, pr, e2, r2⟩ := (precUses_iff hm _ _ _).mp ⟨_, hd2⟩
    have ha := (a1_eq hv n _ _).mpr ⟨w, wr, n2, p, pr, e1, e2, rfl⟩
    have h5 := parseFormatSpecs_text h0 hv f n ha
    have h6 := (parseFormatSpecsC_iff (tys := tys) ty (o.text ++ '}' :: f) n _).mpr ⟨h5, r1, r2⟩
    rw [h6, Res.bind_ok]
    simp only
    by_cases hcc : ty = .char
    · subst hcc
      obtain ⟨b, hb⟩ := (checkCharSpecs_iff hv w p wr pr).mpr (hch rfl)
      rw [if_pos rfl, hb, Res.bind_ok]
    · rw [if_neg hcc]

theorem formatterParse_brace (ty : Ty) (n : Int) : formatterParse tys ty ['}'] n = .ok (['}'], n) := by
  unfold formatterParse
  by_cases hc : ty = .custom
  · rw [if_pos hc]
  · rw [if_neg hc, show parseFormatSpecsC tys ty ['}'] n = .ok ({}, ['}'], n) from rfl, Res.bind_ok]
    simp only
    split <;> rfl

theorem argIndexByName_eq (s : Str) : ∀ (i : Nat) (tys : ArgTypes),
    argIndexByName s i tys = (tys.findIdx? fun p => p.1 = some s).map (· + i)
  | i, [] => rfl
  | i, (some m, t) :: r => by
    simp only [argIndexByName, List.findIdx?_cons, argIndexByName_eq s (i + 1) r, Option.some.injEq]
    by_cases h : s = m
    · simp [h]
    · rw [if_neg h]
      simp only [show ¬ m = s from fun h' => h h'.symm, decide_false, Bool.false_eq_true, if_false, Option.map_map]
      congr 1; funext x; simp only [Function.comp]; omega
  | i, (none, t) :: r => by
    simp only [argIndexByName, List.findIdx?_cons, argIndexByName_eq s (i + 1) r]
    simp only [reduceCtorEq, decide_false, Bool.false_eq_true, if_false, Option.map_map]
    congr 1; funext x; simp only [Function.comp]; omega

theorem checker_onArgId (hm : tys.length < 2 ^ 31) (r : Ref) (n : Int) (i : Nat) (n' : Int) :
    (formatStringChecker tys).onArgId (aidOf r) n = .ok (i, n') ↔ r.takeT tys n = some (i, n') ∧ i < tys.length := by
  cases r with
  | auto =>
    simp only [formatStringChecker, aidOf, nextArgIdC, nextArgId, Ref.takeT]
    by_cases hn : n < 0
    · simp [if_pos hn, Res.bind_err]
    · simp only [if_neg hn, Res.bind_ok]
      by_cases hl : n.toNat ≥ tys.length
      · rw [if_pos hl]
        constructor
        · intro h; cases h
        · rintro ⟨h, h'⟩; cases h; omega
      · rw [if_neg hl]
        constructor
        · intro h; cases h; exact ⟨rfl, by omega⟩
        · rintro ⟨h, h'⟩; cases h; rfl
  | index k =>
    simp only [formatStringChecker, aidOf, checkArgIdC, checkArgId, Ref.takeT]
    by_cases hn : 0 < n
    · simp [if_pos hn, Res.bind_err]
    · simp only [if_neg hn, Res.bind_ok]
      by_cases hk : k ≤ 2147483647
      · simp only [if_pos hk]
        by_cases hl : k ≥ tys.length
        · rw [if_pos hl]
          constructor
          · intro h; cases h
          · rintro ⟨h, h'⟩; cases h; omega
        · rw [if_neg hl]
          constructor
          · intro h; cases h; exact ⟨rfl, by omega⟩
          · rintro ⟨h, h'⟩; cases h; rfl
      · simp only [if_neg hk]
        rw [if_pos (by omega)]
        constructor
        · intro h; cases h
        · rintro ⟨h, h'⟩; cases h; omega
  | name s =>
    simp only [formatStringChecker, aidOf, argIndexByName_eq, Ref.takeT]
    cases hi : tys.findIdx? fun p => p.1 = some s with
    | none => simp
    | some j =>
      simp only [Option.map_some, Nat.add_zero]
      have hj : j < tys.length := by
        have := List.findIdx?_eq_some_iff_findIdx_eq.mp hi
        exact this.1
      constructor
      · intro h; cases h; exact ⟨rfl, hj⟩
      · rintro ⟨h, _⟩; cases h; rfl

theorem checker_good : (formatStringChecker tys).Good where
  nil s := rfl
  forward := by
    intro id b s e s' h
    change checkerFormatSpecs tys id b s = _ at h
    unfold checkerFormatSpecs at h
    split at h
    · rename_i x ty hi
      unfold formatterParse at h
      split at h
      · cases h; exact Nat.le_refl _
      · obtain ⟨⟨sp, pos, nx⟩, h1, h2⟩ := Res.bind_eq_ok.mp h
        have h4 : Res.ok (pos, nx) = .ok (e, s') := by
          simp only at h2
          split at h2
          · obtain ⟨c, h3, h4⟩ := Res.bind_eq_ok.mp h2
            exact h4
          · exact h2
        cases h4
        exact parseFormatSpecs_le ((parseFormatSpecsC_iff _ _ _ _).mp h1).1
    · cases h; exact Nat.le_refl _

theorem checker_replacement (i : Nat) (n : Int) : (formatStringChecker tys).onReplacementField i n = .ok n := by
  simp only [formatStringChecker, checkerFormatSpecs]
  cases tys[i]? with
  | none => rfl
  | some p =>
    simp only [formatterParse_brace]
    rfl

theorem field_soundC (hm : tys.length < 2 ^ 31) (hn : ∀ p ∈ tys, p.2 ≠ .none) {after f : Str} {n n' : Int}
    (h : parseReplacementField (formatStringChecker tys) after n = .ok (f, n')) :
    ∃ d, ∀ d', Accepts tys n' f d' → Accepts tys n ('{' :: after) (d ++ d') := by
  have plain : ∀ (r : Ref) {i : Nat} {n1 n2 : Int}, r.Valid →
      (formatStringChecker tys).onArgId (aidOf r) n = .ok (i, n1) →
      (formatStringChecker tys).onReplacementField i n1 = .ok n2 →
      ∀ f d', Accepts tys n2 f d' → Accepts tys n ('{' :: (r.text ++ '}' :: f)) d' := by
    intro r i n1 n2 hr h1 h2 f d' hf
    rw [checker_replacement] at h2
    cases h2
    obtain ⟨h3, h4⟩ := (checker_onArgId hm r n i n1).mp h1
    exact .plain r hr h3 h4 hf
  cases after with
  | nil => simp [parseReplacementField] at h
  | cons c r =>
    simp only [parseReplacementField] at h
    split at h
    · rename_i hc
      obtain ⟨⟨i, s1⟩, h1, h2⟩ := Res.bind_eq_ok.mp h
      obtain ⟨s2, h3, h4⟩ := Res.bind_eq_ok.mp h2
      cases h4
      exact ⟨[], fun d' hd => by rw [hc]; exact plain .auto trivial h1 h3 _ _ hd⟩
    split at h
    · rename_i hc
      obtain ⟨s1, h1, h2⟩ := Res.bind_eq_ok.mp h
      cases h2
      cases h1
      exact ⟨[], fun d' hd => by rw [hc]; exact .opening hd⟩
    · obtain ⟨⟨aid, b⟩, h1, h2⟩ := Res.bind_eq_ok.mp h
      obtain ⟨⟨i, n1⟩, h3, h4⟩ := Res.bind_eq_ok.mp h2
      cases b with
      | nil => cases h4
      | cons d b =>
        simp only at h4
        split at h4
        · rename_i hd
          obtain ⟨s2, h5, h6⟩ := Res.bind_eq_ok.mp h4
          cases h6
          rw [hd] at h1
          obtain ⟨rf, hv, ht, rfl⟩ := parseArgId_sound (Or.inl rfl) h1
          exact ⟨[], fun d' hd' => by rw [ht]; exact plain rf hv h3 h5 _ _ hd'⟩
        split at h4
        · rename_i hd
          obtain ⟨⟨e, s2⟩, h5, h6⟩ := Res.bind_eq_ok.mp h4
          cases e with
          | nil => cases h6
          | cons x e =>
            simp only at h6
            split at h6
            · rename_i hx
              cases h6
              rw [hd] at h1
              obtain ⟨rf, hv, ht, rfl⟩ := parseArgId_sound (Or.inr rfl) h1
              obtain ⟨htk, hi⟩ := (checker_onArgId hm rf n i n1).mp h3
              change checkerFormatSpecs tys i b n1 = _ at h5
              unfold checkerFormatSpecs at h5
              have hi' : tys[i]? = some (tys[i].1, tys[i].2) := List.getElem?_eq_getElem hi
              have h0 := hn _ (List.getElem_mem hi)
              rw [hi'] at h5
              simp only at h5
              rw [hx] at h5
              generalize tys[i].2 = ty at hi' h0 h5
              by_cases hc : ty = .custom
              · subst hc
                simp only [formatterParse, if_true, Res.ok.injEq, Prod.mk.injEq] at h5
                obtain ⟨rfl, rfl⟩ := h5
                exact ⟨[], fun d' hd' => by rw [ht]; exact .custom rf hv htk hi' hd'⟩
              · obtain ⟨o, d1, d2, n2, q1, q2, q3, q4, q5⟩ := (formatterParse_iff hm h0 hc _ _ _ _).mp h5
                refine ⟨d1 ++ d2, fun d' hd' => ?_⟩
                rw [ht, q3]
                exact .opts rf o hv htk hi' hc q1 q2 q4 q5 hd'
            · cases h6
        · cases h4

theorem shortLoop_soundC (hm : tys.length < 2 ^ 31) (hn : ∀ p ∈ tys, p.2 ≠ .none) : ∀ (fuel : Nat) (text p : Str) (n n' : Int),
    shortLoop (formatStringChecker tys) fuel text p n = .ok n' → ∃ d, Accepts tys n p d
  | fuel, text, [], n, n', h => ⟨_, .done n⟩
  | 0, text, _ :: _, n, n', h => by cases h
  | fuel + 1, text, c :: p, n, n', h => by
    simp only [shortLoop] at h
    split at h
    · rename_i hc
      obtain ⟨s1, h1, h2⟩ := Res.bind_eq_ok.mp h
      cases h1
      obtain ⟨⟨q, s2⟩, h3, h4⟩ := Res.bind_eq_ok.mp h2
      obtain ⟨d, e⟩ := field_soundC hm hn h3
      obtain ⟨d', e'⟩ := shortLoop_soundC hm hn fuel [] q s2 n' h4
      exact ⟨_, by rw [hc]; exact e d' e'⟩
    split at h
    · rename_i hc
      cases p with
      | nil => cases h
      | cons d p =>
        simp only at h
        split at h
        · cases h
        · rename_i hd
          have hd : d = '}' := Classical.not_not.mp hd
          obtain ⟨s1, h1, h2⟩ := Res.bind_eq_ok.mp h
          cases h1
          obtain ⟨o, e1⟩ := shortLoop_soundC hm hn fuel [] p _ n' h2
          exact ⟨o, by rw [hc, hd]; exact .closing e1⟩
    · rename_i h1 h2
      obtain ⟨o, e1⟩ := shortLoop_soundC hm hn fuel _ p _ n' h
      exact ⟨o, .char h1 h2 e1⟩

theorem shortLoop_textC (hm : tys.length < 2 ^ 31) (hn : ∀ p ∈ tys, p.2 ≠ .none) {n : Int} {p : Str} {d : List ArgRef}
    (h : Accepts tys n p d) : ∀ (fuel : Nat) (text : Str), p.length ≤ fuel →
    ∃ n', shortLoop (formatStringChecker tys) fuel text p n = .ok n' := by
  have field : ∀ {n n1 : Int} {after f : Str} {fuel : Nat} (tx : Str),
      parseReplacementField (formatStringChecker tys) after n = .ok (f, n1) →
      (∀ (fuel : Nat) (text : Str), f.length ≤ fuel → ∃ n', shortLoop (formatStringChecker tys) fuel text f n1 = .ok n') →
      ('{' :: after).length ≤ fuel → ∃ n', shortLoop (formatStringChecker tys) fuel tx ('{' :: after) n = .ok n' := by
    intro n n1 after f fuel tx hf ih hl
    cases fuel with
    | zero => simp at hl
    | succ fuel =>
      have hlt := parseReplacementField_le (checker_good) hf
      obtain ⟨n', hn⟩ := ih fuel [] (by simp at hl; omega)
      refine ⟨n', ?_⟩
      simp only [shortLoop, if_true]
      rw [show (formatStringChecker tys).onText tx n = .ok n from rfl, Res.bind_ok, hf, Res.bind_ok]
      exact hn
  have specs : ∀ {r : Ref} {n n1 n3 : Int} {i : Nat} {x : Option Str} {ty : Ty} {b f : Str}, r.Valid →
      r.takeT tys n = some (i, n1) → tys[i]? = some (x, ty) → formatterParse tys ty b n1 = .ok ('}' :: f, n3) →
      parseReplacementField (formatStringChecker tys) (r.text ++ ':' :: b) n = .ok (f, n3) := by
    intro r n n1 n3 i x ty b f h1 h2 h3 h4
    rw [field_eval_colon _ r h1, (checker_onArgId hm r n i n1).mpr ⟨h2, (List.getElem?_eq_some_iff.mp h3).1⟩, Res.bind_ok]
    have : (formatStringChecker tys).onFormatSpecs i b n1 = .ok ('}' :: f, n3) := by
      change checkerFormatSpecs tys i b n1 = _
      unfold checkerFormatSpecs
      rw [h3]
      exact h4
    rw [this, Res.bind_ok]
    simp
  induction h with
  | done n => intro fuel text _; rw [shortLoop_nil]; exact ⟨n, rfl⟩
  | @char n c f d h1 h2 _ ih =>
    intro fuel text hl
    cases fuel with
    | zero => simp at hl
    | succ fuel =>
      obtain ⟨n', hn⟩ := ih fuel (text ++ [c]) (by simpa using hl)
      exact ⟨n', by simp only [shortLoop, if_neg h1, if_neg h2]; exact hn⟩
  | @opening n f d _ ih => intro fuel text hl; exact field text rfl ih hl
  | @closing n f d _ ih =>
    intro fuel text hl
    cases fuel with
    | zero => simp at hl
    | succ fuel =>
      obtain ⟨n', hn⟩ := ih fuel [] (by simp at hl; omega)
      refine ⟨n', ?_⟩
      simp only [shortLoop]
      rw [if_neg (by decide), if_pos trivial, if_neg (by simp),
        show (formatStringChecker tys).onText (text ++ ['}']) n = .ok n from rfl, Res.bind_ok, hn]
  | @plain n f d r i n' h1 h2 h3 _ ih =>
    intro fuel text hl
    refine field text ?_ ih hl
    rw [field_eval _ r h1, (checker_onArgId hm r n i n').mpr ⟨h2, h3⟩, Res.bind_ok, checker_replacement, Res.bind_ok]
  | @opts n f d r o i n1 n2 n3 x ty d1 d2 h1 h2 h3 h4 h5 h6 h7 h8 _ ih =>
    intro fuel text hl
    exact field text (specs h1 h2 h3 ((formatterParse_iff hm (hn _ (List.mem_of_getElem? h3)) h4 _ _ _ _).mpr
      ⟨o, d1, d2, n2, h5, h6, rfl, h7, h8⟩)) ih hl
  | @custom n f d r i n1 x h1 h2 h3 _ ih =>
    intro fuel text hl
    refine field text (specs h1 h2 h3 ?_) ih hl
    simp [formatterParse]

theorem checkFormatString_iff (hm : tys.length < 2 ^ 31) (hn : ∀ p ∈ tys, p.2 ≠ .none) (fmt : Str) :
    checkFormatString tys fmt = .ok () ↔ ∃ d, Accepts tys 0 fmt d := by
  unfold checkFormatString
  rw [parseFormatString_eq (checker_good)]
  constructor
  · intro h
    obtain ⟨n', h1, _⟩ := Res.bind_eq_ok.mp h
    exact shortLoop_soundC hm hn _ _ _ _ _ h1
  · rintro ⟨d, h⟩
    obtain ⟨n', h'⟩ := shortLoop_textC hm hn h fmt.length [] (Nat.le_refl _)
    rw [h']
    rfl

end Fmt
end Efp
