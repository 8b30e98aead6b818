import Verif.Fmt.GroupingLemmas

/-!
# Format strings with containers, joined ranges, raw bytes and grouped digits
-/

namespace Efp
namespace Fmt

open Spec.Fmt

variable {l : List (Option Str × Arg)}

/-! ## Options of a view -/

theorem dynamicSpecs_iff {ctx : Args} {sp sp' : Specs} : dynamicSpecs ctx sp = .ok sp' ↔
    ∃ w p, handleDynamicSpec "width" ctx sp.width sp.widthRef = .ok w ∧
      handleDynamicSpec "precision" ctx sp.precision sp.precisionRef = .ok p ∧
      sp' = { sp with width := w.toNat, precision := p, widthRef := .none, precisionRef := .none } := by
  unfold dynamicSpecs
  constructor
  · intro h
    obtain ⟨w, h1, h⟩ := Res.bind_eq_ok.mp h
    obtain ⟨p, h2, h⟩ := Res.bind_eq_ok.mp h
    cases h
    exact ⟨w, p, h1, h2, rfl⟩
  · rintro ⟨w, p, h1, h2, rfl⟩
    rw [h1, Res.bind_ok, h2, Res.bind_ok]

theorem dynamicSpecs_ne_ub (hm : l.length < 2 ^ 31) (sp : Specs) : dynamicSpecs (makeArgs l) sp ≠ .ub :=
  Res.bind_ne_ub (handleDynamicSpec_ne_ub hm _ _ _) fun _ _ =>
    Res.bind_ne_ub (handleDynamicSpec_ne_ub hm _ _ _) fun _ _ => nofun

theorem handleDynamicSpec_bound {what : String} {v : Int} {ref : ArgRef} {w : Int}
    (h : handleDynamicSpec what (makeArgs l) v ref = .ok w) : (ref = .none ∧ w = v) ∨ (0 ≤ w ∧ w ≤ 2147483647) := by
  have key : ∀ a, getDynamicSpec what a = .ok w → 0 ≤ w ∧ w ≤ 2147483647 := by
    intro a h
    have := getDynamicSpec_eq what a
    rw [h] at this
    cases hd : dynValue a with
    | none => rw [hd] at this; obtain ⟨m, hm⟩ := this; cases hm
    | some x => rw [hd] at this; simp only [Agrees, Res.ok.injEq] at this; rw [this]; exact dynValue_bound hd
  cases ref with
  | none => cases h; exact .inl ⟨rfl, rfl⟩
  | index i =>
    obtain ⟨a, _, h⟩ := Res.bind_eq_ok.mp h
    exact .inr (key a h)
  | name s =>
    obtain ⟨a, _, h⟩ := Res.bind_eq_ok.mp h
    exact .inr (key a h)

theorem dynamicSpecs_parsed {ty : Ty} {sp sp' : Specs} (hp : Parsed ty sp)
    (h : dynamicSpecs (makeArgs l) sp = .ok sp') :
    sp'.width < 2 ^ 31 ∧ (ty.isFloat = false → ty.text = false → sp'.precision = -1) := by
  obtain ⟨w, p, h1, h2, rfl⟩ := dynamicSpecs_iff.mp h
  have hw := hp.1
  refine ⟨?_, fun a b => ?_⟩
  · show w.toNat < 2 ^ 31
    rcases handleDynamicSpec_bound h1 with ⟨_, h⟩ | h <;> omega
  · have := hp.2 a b
    rw [this.1, this.2] at h2
    cases h2; rfl

/-- reading options and resolving their width and precision, against the grammar -/
theorem view_iff (hm : l.length < 2 ^ 31) {ty : Ty} (hty : ty ≠ .none) (b f : Str) (n n' : Int) (sp' : Specs) :
    (∃ sp, parseFormatSpecs ty b n = .ok (sp, '}' :: f, n') ∧ dynamicSpecs (makeArgs l) sp = .ok sp') ↔
    ∃ (o : Opts) (w n2 p : Int), o.Valid ty ∧ b = o.text ++ '}' :: f ∧ o.width.value l 0 n = some (w, n2) ∧
      precValue l o.prec n2 = some (p, n') ∧ sp' = o.meaning w p := by
  constructor
  · rintro ⟨sp, h1, h2⟩
    obtain ⟨w, p, h3, h5, rfl⟩ := dynamicSpecs_iff.mp h2
    obtain ⟨o, hv, ht, ha⟩ := parseFormatSpecs_sound hty h1
    obtain ⟨w', wr, n2, p', pr, e1, e2, e3⟩ := (a1_eq hv n _ _).mp ha
    have hw0 := numParse_nonneg (Int.le_refl 0) e1
    have hcast : (((o.meaning w' p').width : Nat) : Int) = w' := by
      change ((w'.toNat : Nat) : Int) = w'
      omega
    rw [e3] at h3 h5
    simp only [hcast] at h3
    have ew := num_agrees hm "width" o.width 0 n
    rw [e1] at ew
    simp only [h3, Res.bind_ok] at ew
    have ep := prec_agrees hm o.prec n2
    rw [e2] at ep
    simp only [show (o.meaning w' p').precision = p' from rfl] at h5
    simp only [h5, Res.bind_ok] at ep
    have hwv : o.width.value l 0 n = some (w, n2) := by
      cases hh : o.width.value l 0 n with
      | none => rw [hh] at ew; obtain ⟨m, hm⟩ := ew; cases hm
      | some y => rw [hh] at ew; simp only [Agrees, Res.ok.injEq] at ew; rw [ew]
    have hpv : precValue l o.prec n2 = some (p, n') := by
      cases hh : precValue l o.prec n2 with
      | none => rw [hh] at ep; obtain ⟨m, hm⟩ := ep; cases hm
      | some y => rw [hh] at ep; simp only [Agrees, Res.ok.injEq] at ep; rw [ep]
    exact ⟨o, w, n2, p, hv, ht, hwv, hpv, by rw [e3]; rfl⟩
  · rintro ⟨o, w, n2, p, hv, rfl, hw, hp, rfl⟩
    have ew := num_agrees hm "width" o.width 0 n
    rw [hw] at ew
    simp only [Agrees] at ew
    cases hnw : numParse o.width 0 .none n with
    | none => rw [hnw] at ew; cases ew
    | some y =>
      obtain ⟨w', wr, n2'⟩ := y
      rw [hnw] at ew
      simp only at ew
      obtain ⟨w1, ew1, ew2⟩ := Res.bind_eq_ok.mp ew
      cases ew2
      have ep := prec_agrees hm o.prec n2
      rw [hp] at ep
      simp only [Agrees] at ep
      cases hnp : precParse o.prec n2 with
      | none => rw [hnp] at ep; cases ep
      | some z =>
        obtain ⟨p', pr, n3'⟩ := z
        rw [hnp] at ep
        simp only at ep
        obtain ⟨p1, ep1, ep2⟩ := Res.bind_eq_ok.mp ep
        cases ep2
        have ha := (a1_eq hv n _ n').mpr ⟨w', wr, n2, p', pr, hnw, hnp, rfl⟩
        refine ⟨_, parseFormatSpecs_text hty hv f n ha, ?_⟩
        have hw0 := numParse_nonneg (Int.le_refl 0) hnw
        have hcast : (((o.meaning w' p').width : Nat) : Int) = w' := by
          change ((w'.toNat : Nat) : Int) = w'
          omega
        exact dynamicSpecs_iff.mpr ⟨w, p, by simp only [hcast]; exact ew1, ep1, rfl⟩

theorem skip_iff (q : Num) (v n n' : Int) : (∃ v' ref, numParse q v .none n = some (v', ref, n')) ↔ q.skip n = some n' := by
  cases q with
  | none => simp [numParse, Num.skip]
  | lit d => simp [numParse, Num.skip]
  | arg r =>
    cases r with
    | auto => by_cases h : n < 0 <;> simp [numParse, Num.skip, refOf, h]
    | index i => by_cases h : 0 < n <;> simp [numParse, Num.skip, refOf, h]
    | name s => simp [numParse, Num.skip, refOf]

theorem precSkip_iff (q : Option Num) (n n' : Int) : (∃ v' ref, precParse q n = some (v', ref, n')) ↔ precSkip q n = some n' := by
  cases q with
  | none => simp [precParse, precSkip]
  | some q => exact skip_iff q _ _ _

/-- reading options without resolving their width and precision -/
theorem nativeParse_iff {ty : Ty} (hty : ty ≠ .none) (b f : Str) (n n' : Int) :
    (∃ sp, nativeParse ty b n = .ok (sp, '}' :: f, n')) ↔
    ∃ (o : Opts) (n2 : Int), o.Valid ty ∧ (ty = .char → o.FitsChar) ∧ b = o.text ++ '}' :: f ∧ o.width.skip n = some n2 ∧
      precSkip o.prec n2 = some n' := by
  constructor
  · rintro ⟨sp, h⟩
    obtain ⟨⟨sp1, pos, nx⟩, h1, h2⟩ := Res.bind_eq_ok.mp h
    obtain ⟨h4, h3⟩ : Res.ok (sp1, pos, nx) = .ok (sp, '}' :: f, n') ∧ (ty = .char → ∃ c, checkCharSpecs sp1 = .ok c) := by
      simp only at h2
      split at h2
      · obtain ⟨c, h3, h4⟩ := Res.bind_eq_ok.mp h2
        exact ⟨h4, fun _ => ⟨c, h3⟩⟩
      · rename_i hn
        exact ⟨h2, fun h => absurd h hn⟩
    cases h4
    obtain ⟨o, hv, ht, ha⟩ := parseFormatSpecs_sound hty h1
    obtain ⟨w', wr, n2, p', pr, e1, e2, e3⟩ := (a1_eq hv n _ _).mp ha
    refine ⟨o, n2, hv, fun hch => ?_, ht, (skip_iff _ _ _ _).mp ⟨_, _, e1⟩, (precSkip_iff _ _ _).mp ⟨_, _, e2⟩⟩
    subst hch
    rw [e3] at h3
    exact (checkCharSpecs_iff hv _ _ wr pr).mp (h3 rfl)
  · rintro ⟨o, n2, hv, hch, rfl, h1, h2⟩
    obtain ⟨w, wr, e1⟩ := (skip_iff _ 0 _ _).mpr h1
    obtain ⟨p, pr, e2⟩ := (precSkip_iff _ _ _).mpr h2
    have ha := (a1_eq hv n _ _).mpr ⟨w, wr, n2, p, pr, e1, e2, rfl⟩
    refine ⟨{ o.meaning w p with widthRef := wr, precisionRef := pr }, ?_⟩
    unfold nativeParse
    rw [parseFormatSpecs_text hty hv f n ha, Res.bind_ok]
    simp only
    by_cases hcc : ty = .char
    · subst hcc
      obtain ⟨b, hb⟩ := (checkCharSpecs_iff hv w p wr pr).mpr (hch rfl)
      rw [if_pos rfl, hb, Res.bind_ok]
    · rw [if_neg hcc]

theorem nativeParse_ok {ty : Ty} {b : Str} {n : Int} {sp : Specs} {p : Str} {n' : Int}
    (h : nativeParse ty b n = .ok (sp, p, n')) : parseFormatSpecs ty b n = .ok (sp, p, n') := by
  obtain ⟨⟨sp1, pos, nx⟩, h1, h2⟩ := Res.bind_eq_ok.mp h
  simp only at h2
  split at h2
  · obtain ⟨c, h3, h4⟩ := Res.bind_eq_ok.mp h2
    cases h4; exact h1
  · cases h2; exact h1

theorem nativeParse_ne_ub (ty : Ty) (b : Str) (n : Int) : nativeParse ty b n ≠ .ub := by
  refine Res.bind_ne_ub (parseFormatSpecs_ne_ub _ _ _) ?_
  rintro ⟨sp, pos, nx⟩ _
  simp only
  split
  · refine Res.bind_ne_ub ?_ fun _ _ => nofun
    unfold checkCharSpecs
    repeat' split
    all_goals nofun
  · nofun

/-! ## Elements of a range -/

theorem nativeFormat_eq (ctx : Args) (sp : Specs) (v : Arg) :
    nativeFormat ctx sp v = (dynamicSpecs ctx sp >>= fun sp => writeSpecs sp v) := by
  unfold nativeFormat
  split
  · rfl
  · rename_i h
    simp only [not_or, Classical.not_not] at h
    obtain ⟨h1, h2⟩ := h
    have : dynamicSpecs ctx sp = .ok sp := by
      refine dynamicSpecs_iff.mpr ⟨sp.width, sp.precision, by rw [h1]; rfl, by rw [h2]; rfl, ?_⟩
      cases sp
      simp only at h1 h2
      subst h1 h2
      rfl
    rw [this, Res.bind_ok]

theorem joined_cons (sep t : Str) (ts : List Str) : joined sep (t :: ts) = t ++ (ts.map (sep ++ ·)).flatten := by
  unfold joined
  induction ts generalizing t with
  | nil => simp
  | cons u ts ih =>
    rw [List.intercalate_cons_cons, ih u]
    simp

theorem joinLoop_agrees {ctx : Args} {sp sp' : Specs} {sep : Str} (hd : dynamicSpecs ctx sp = .ok sp')
    (show_ : Arg → Option Str) : ∀ (vs : List Arg) (out : Str), (∀ v ∈ vs, Agrees (writeSpecs sp' v) (show_ v)) →
    Agrees (joinLoop ctx sp sep vs out) ((vs.mapM show_).map fun ts => out ++ (ts.map (sep ++ ·)).flatten)
  | [], out, _ => by simp [joinLoop, Agrees]
  | v :: vs, out, h => by
    have hv := h v (List.mem_cons_self ..)
    simp only [joinLoop, nativeFormat_eq, hd, Res.bind_ok, List.mapM_cons]
    cases hs : show_ v with
    | none =>
      rw [hs] at hv
      obtain ⟨m, hm⟩ := hv
      rw [hm]
      exact ⟨m, rfl⟩
    | some t =>
      rw [hs] at hv
      simp only [Agrees] at hv
      rw [hv, Res.bind_ok]
      have ih := joinLoop_agrees (sep := sep) hd show_ vs (out ++ sep ++ t) (fun u hu => h u (List.mem_cons_of_mem _ hu))
      cases hvs : vs.mapM show_ with
      | none => rw [hvs] at ih; exact ih
      | some ts =>
        rw [hvs] at ih
        simpa [Agrees] using ih

theorem joinFormat_agrees {ctx : Args} {sp sp' : Specs} {sep : Str} (hd : dynamicSpecs ctx sp = .ok sp')
    (show_ : Arg → Option Str) (vs : List Arg) (h : ∀ v ∈ vs, Agrees (writeSpecs sp' v) (show_ v)) :
    Agrees (joinFormat ctx sp sep vs) ((vs.mapM show_).map (joined sep)) := by
  cases vs with
  | nil => simp [joinFormat, joined, Agrees]
  | cons v vs =>
    have hv := h v (List.mem_cons_self ..)
    simp only [joinFormat, nativeFormat_eq, hd, Res.bind_ok, List.mapM_cons]
    cases hs : show_ v with
    | none =>
      rw [hs] at hv
      obtain ⟨m, hm⟩ := hv
      rw [hm]
      exact ⟨m, rfl⟩
    | some t =>
      rw [hs] at hv
      simp only [Agrees] at hv
      rw [hv, Res.bind_ok]
      have ih := joinLoop_agrees (sep := sep) hd show_ vs t (fun u hu => h u (List.mem_cons_of_mem _ hu))
      cases hvs : vs.mapM show_ with
      | none => rw [hvs] at ih; exact ih
      | some ts =>
        rw [hvs] at ih
        simpa [Agrees, joined_cons] using ih

end Fmt
end Efp
