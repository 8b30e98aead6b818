import Verif.Fmt.ViewLemmas

/-!
# Format strings over items
-/

namespace Efp
namespace Fmt

open Spec.Fmt

variable {l : List (Option Str × Arg)}

/-! ## No undefined behaviour -/

theorem parsed_agrees {ty : Ty} {sp sp' : Specs} (hp : Parsed ty sp) (h : dynamicSpecs (makeArgs l) sp = .ok sp')
    {v : Arg} (hv : v.ty = ty ∧ ArgOk v) (hc : ty ≠ .custom) :
    Agrees (writeSpecs sp' v) (showSpecs isPrintable sp' v) := by
  obtain ⟨rfl, hv⟩ := hv
  obtain ⟨c1, c2⟩ := dynamicSpecs_parsed hp h
  exact writeSpecs_agrees v sp' hv c1 c2 hc

theorem joinFormat_ne_ub (hm : l.length < 2 ^ 31) {ty : Ty} (hc : ty ≠ .custom) {sp : Specs} (hp : Parsed ty sp) (sep : Str)
    {vs : List Arg} (hvs : ∀ v ∈ vs, v.ty = ty ∧ ArgOk v) : joinFormat (makeArgs l) sp sep vs ≠ .ub := by
  cases hd : dynamicSpecs (makeArgs l) sp with
  | ub => exact absurd hd (dynamicSpecs_ne_ub hm sp)
  | ok sp' => exact agrees_ne_ub (joinFormat_agrees hd _ vs fun v hv => parsed_agrees hp hd (hvs v hv) hc)
  | err m =>
    cases vs with
    | nil => nofun
    | cons v vs =>
      simp only [joinFormat, nativeFormat_eq, hd, Res.bind_err]
      nofun

theorem joinArg_ok (hm : l.length < 2 ^ 31) {ty : Ty} (hc : ty ≠ .custom) (sep : Str) {vs : List Arg}
    (hvs : ∀ v ∈ vs, v.ty = ty ∧ ArgOk v) : ArgOk (joinArg (makeArgs l) ty sep vs) := by
  intro pos next
  refine ⟨Res.bind_ne_ub (nativeParse_ne_ub _ _ _) ?_, ?_⟩
  · rintro ⟨sp, p, n⟩ h
    refine Res.bind_ne_ub ?_ fun _ _ => nofun
    exact joinFormat_ne_ub hm hc (parseFormatSpecs_inv (nativeParse_ok h)).1 sep hvs
  · intro pos' next' text h
    obtain ⟨⟨sp, p, n⟩, h1, h⟩ := Res.bind_eq_ok.mp h
    obtain ⟨t, h2, h⟩ := Res.bind_eq_ok.mp h
    cases h
    exact (parseFormatSpecs_inv (nativeParse_ok h1)).2

/-- `"[{}]"` of one argument with a formatter -/
theorem brackets_eq (g : Str → Int → Res (Str × Int × Str)) : vformatTo "[{}]".toList (makeArgs [(none, .custom g)]) =
    (g [] 0 >>= fun x => .ok ('[' :: x.2.2 ++ [']'])) := by
  have hg : getArg (makeArgs [(none, .custom g)]) 0 = .ok (.custom g) := by rw [getArg_eq _ (by simp)]; rfl
  change vformatTo ['[', '{', '}', ']'] _ = _
  rw [vformatTo, if_neg (by decide), parseFormatString, if_pos (by decide)]
  have ho : ∀ s : HSt, (formatHandler (makeArgs [(none, .custom g)])).onReplacementField 0 s =
      (g [] 0 >>= fun x => .ok ⟨s.next, s.out ++ x.2.2⟩) := by
    intro s
    simp only [formatHandler, hg, Res.bind_ok, writeDefault]
    cases g [] 0 <;> rfl
  have ha : (formatHandler (makeArgs [(none, .custom g)])).onArgId .auto ⟨0, ['[']⟩ = .ok (0, ⟨1, ['[']⟩) := rfl
  have ht : ∀ t s, (formatHandler (makeArgs [(none, .custom g)])).onText t s = .ok ⟨s.next, s.out ++ t⟩ := fun _ _ => rfl
  simp only [List.length_cons, List.length_nil, shortLoop, parseReplacementField, ht, Res.bind_ok, List.nil_append,
    show ¬ '[' = '{' by decide, show ¬ '[' = '}' by decide, show ¬ ']' = '{' by decide, show ¬ ']' = '}' by decide,
    if_true, if_false, ha, ho]
  cases g [] 0 <;> rfl

/-! ## Items in fields without options -/

theorem agrees_iff {α : Type} {r : Res α} {o : Option α} (h : Agrees r o) (a : α) : r = .ok a ↔ o = some a := by
  cases o with
  | none => obtain ⟨m, h⟩ := h; rw [h]; simp
  | some t => simp only [Agrees] at h; rw [h]; simp

theorem nativeParse_nil (ty : Ty) (n : Int) : nativeParse ty [] n = .ok ({}, [], n) := by
  unfold nativeParse
  simp only [parseFormatSpecs, Res.bind_ok]
  split <;> rfl

theorem dynamicSpecs_nil (ctx : Args) : dynamicSpecs ctx {} = .ok {} := rfl

theorem join_default {ty : Ty} (hc : ty ≠ .custom) (sep : Str) {vs : List Arg} (hvs : ∀ v ∈ vs, v.ty = ty ∧ ArgOk v) :
    Agrees (writeDefault (joinArg (makeArgs l) ty sep vs)) ((vs.mapM (showSpecs isPrintable {})).map (joined sep)) := by
  simp only [joinArg, writeDefault, nativeParse_nil, Res.bind_ok]
  have := joinFormat_agrees (sep := sep) (dynamicSpecs_nil (makeArgs l)) (showSpecs isPrintable {}) vs
    fun v hv => parsed_agrees (parsed_start ty) (dynamicSpecs_nil (makeArgs l)) (hvs v hv) hc
  cases hs : (vs.mapM (showSpecs isPrintable {})).map (joined sep) with
  | none => rw [hs] at this; obtain ⟨m, h⟩ := this; rw [h]; exact ⟨m, rfl⟩
  | some t => rw [hs] at this; simp only [Agrees] at this; rw [this]; rfl

theorem wrap_agrees {x : Res (Str × Int × Str)} {o : Option Str} (h : Agrees (x >>= fun y => .ok y.2.2) o) (b : Str) (n : Int) :
    Agrees ((x >>= fun y => .ok ('[' :: y.2.2 ++ [']'])) >>= fun t => .ok (b, n, t))
      (o.map fun t => (b, n, '[' :: t ++ [']'])) := by
  cases x with
  | ok y =>
    cases o with
    | none => obtain ⟨m, h⟩ := h; cases h
    | some t => simp only [Agrees, Res.bind_ok, Res.ok.injEq] at h; subst h; rfl
  | err m =>
    cases o with
    | none => exact ⟨m, rfl⟩
    | some t => cases h
  | ub =>
    cases o with
    | none => obtain ⟨m, h⟩ := h; cases h
    | some t => cases h

theorem container_eq (ty : Ty) (vs : List Arg) : ∃ g, containerArg ty vs = .custom g ∧
    (ty ≠ .custom → (∀ v ∈ vs, v.ty = ty ∧ ArgOk v) → ∀ b n,
      Agrees (g b n) ((showItem isPrintable {} (.container ty vs)).map fun t => (b, n, t))) := by
  refine ⟨_, rfl, fun hc hvs b n => ?_⟩
  have := join_default (l := [(none, .custom fun _ _ => .ub)]) hc ", ".toList hvs
  have := wrap_agrees this b n
  simp only [showItem, Option.map_map] at this ⊢
  simp only [joinArg, brackets_eq]
  exact this

/-! ## Items in fields with options -/

theorem skip_of_value {q : Num} {a n w n' : Int} (h : q.value l a n = some (w, n')) : q.skip n = some n' := by
  cases q with
  | none => cases h; rfl
  | lit d => cases h; rfl
  | arg r =>
    simp only [Num.value, Option.bind_eq_bind, Option.bind_eq_some_iff] at h
    obtain ⟨⟨i, n1⟩, h1, a, h2, v, h3, h4⟩ := h
    cases h4
    cases r with
    | auto => 
      simp only [Ref.take] at h1
      simp only [Num.skip]
      split at h1
      · cases h1
      · cases h1; rename_i h; rw [if_neg h]
    | index i =>
      simp only [Ref.take] at h1
      simp only [Num.skip]
      split at h1
      · cases h1
      · cases h1; rename_i h; rw [if_neg h]
    | name s =>
      simp only [Ref.take, Option.map_eq_some_iff] at h1
      obtain ⟨_, _, h1⟩ := h1
      cases h1; rfl

theorem precSkip_of_value {q : Option Num} {n w n' : Int} (h : precValue l q n = some (w, n')) : precSkip q n = some n' := by
  cases q with
  | none => cases h; rfl
  | some q => exact skip_of_value h

/-- the formatter of a joined range, on an empty range -/
theorem joinArg_empty (ctx : Args) {ty : Ty} (hty : ty ≠ .none) (sep : Str) : ∃ g, joinArg ctx ty sep [] = .custom g ∧
    ∀ b f n n' text, g b n = .ok ('}' :: f, n', text) ↔ text = [] ∧
      ∃ (o : Opts) (n2 : Int), o.Valid ty ∧ (ty = .char → o.FitsChar) ∧ b = o.text ++ '}' :: f ∧ o.width.skip n = some n2 ∧
        precSkip o.prec n2 = some n' := by
  refine ⟨_, rfl, fun b f n n' text => ?_⟩
  rw [← nativeParse_iff hty]
  constructor
  · intro h
    obtain ⟨⟨sp, pos, nx⟩, h1, h⟩ := Res.bind_eq_ok.mp h
    obtain ⟨t, h2, h⟩ := Res.bind_eq_ok.mp h
    cases h2; cases h
    exact ⟨rfl, sp, h1⟩
  · rintro ⟨rfl, sp, h⟩
    rw [h]; rfl

/-- the formatter of a joined range -/
theorem joinArg_iff (hm : l.length < 2 ^ 31) {ty : Ty} (hty : ty ≠ .none) (hc : ty ≠ .custom) (sep : Str) {vs : List Arg}
    (hne : vs ≠ []) (hvs : ∀ v ∈ vs, v.ty = ty ∧ ArgOk v) : ∃ g, joinArg (makeArgs l) ty sep vs = .custom g ∧
    ∀ b f n n' text, g b n = .ok ('}' :: f, n', text) ↔
      ∃ (o : Opts) (w n2 p : Int), o.Valid ty ∧ b = o.text ++ '}' :: f ∧ o.width.value l 0 n = some (w, n2) ∧
        precValue l o.prec n2 = some (p, n') ∧ showItem isPrintable (o.meaning w p) (.join ty vs sep) = some text := by
  refine ⟨_, rfl, fun b f n n' text => ?_⟩
  constructor
  · intro h
    obtain ⟨⟨sp, pos, nx⟩, h1, h⟩ := Res.bind_eq_ok.mp h
    obtain ⟨t, h2, h⟩ := Res.bind_eq_ok.mp h
    cases h
    have h1 := nativeParse_ok h1
    cases hd : dynamicSpecs (makeArgs l) sp with
    | ub => exact absurd hd (dynamicSpecs_ne_ub hm sp)
    | err m =>
      cases vs with
      | nil => exact absurd rfl hne
      | cons v vs => simp only [joinFormat, nativeFormat_eq, hd, Res.bind_err] at h2; cases h2
    | ok sp' =>
      obtain ⟨o, w, n2, p, hv, hb, hw, hp, rfl⟩ := (view_iff hm hty b f n _ sp').mp ⟨sp, h1, hd⟩
      refine ⟨o, w, n2, p, hv, hb, hw, hp, ?_⟩
      exact (agrees_iff (joinFormat_agrees hd _ vs fun v hv =>
        parsed_agrees (parseFormatSpecs_inv h1).1 hd (hvs v hv) hc) text).mp h2
  · rintro ⟨o, w, n2, p, hv, rfl, hw, hp, ht⟩
    have hch : ty = .char → o.FitsChar := by
      rintro rfl
      cases vs with
      | nil => exact absurd rfl hne
      | cons v vs =>
        have hv := (hvs v (List.mem_cons_self ..)).1
        cases v with
        | char c =>
          simp only [showItem, List.mapM_cons, Option.map_eq_some_iff] at ht
          obtain ⟨ts, ht, _⟩ := ht
          simp only [Option.bind_eq_bind, Option.bind_eq_some_iff] at ht
          obtain ⟨t, ht, _⟩ := ht
          exact fitsChar_of_show ht
        | _ => cases hv
    obtain ⟨sp2, h2⟩ := (nativeParse_iff hty _ f n n').mpr ⟨o, n2, hv, hch, rfl, skip_of_value hw, precSkip_of_value hp⟩
    obtain ⟨sp, h1, hd⟩ := (view_iff hm hty _ f n n' _).mpr ⟨o, w, n2, p, hv, rfl, hw, hp, rfl⟩
    have h3 := nativeParse_ok h2
    rw [h1] at h3
    cases h3
    rw [h2, Res.bind_ok]
    simp only
    have := (agrees_iff (joinFormat_agrees (sep := sep) hd _ vs fun v hv =>
        parsed_agrees (parseFormatSpecs_inv h1).1 hd (hvs v hv) hc) text).mpr ht
    rw [this, Res.bind_ok]

theorem bytesArg_iff (hm : l.length < 2 ^ 31) (s : Str) : ∃ g, bytesArg (makeArgs l) s = .custom g ∧
    ∀ b f n n' text, g b n = .ok ('}' :: f, n', text) ↔
      ∃ (o : Opts) (w n2 p : Int), o.Valid .string ∧ b = o.text ++ '}' :: f ∧ o.width.value l 0 n = some (w, n2) ∧
        precValue l o.prec n2 = some (p, n') ∧ showItem isPrintable (o.meaning w p) (.bytes s) = some text := by
  refine ⟨_, rfl, fun b f n n' text => ?_⟩
  constructor
  · intro h
    obtain ⟨⟨sp, pos, nx⟩, h1, h⟩ := Res.bind_eq_ok.mp h
    obtain ⟨sp', hd, h⟩ := Res.bind_eq_ok.mp h
    cases h
    obtain ⟨o, w, n2, p, hv, hb, hw, hp, rfl⟩ := (view_iff hm (by nofun) b f n _ sp').mp ⟨sp, h1, hd⟩
    refine ⟨o, w, n2, p, hv, hb, hw, hp, ?_⟩
    rw [writeBytes, writePadded_eq _ _ _ _ (dynamicSpecs_parsed (parseFormatSpecs_inv h1).1 hd).1]
    rfl
  · rintro ⟨o, w, n2, p, hv, rfl, hw, hp, ht⟩
    obtain ⟨sp, h1, hd⟩ := (view_iff hm (by nofun) _ f n n' _).mpr ⟨o, w, n2, p, hv, rfl, hw, hp, rfl⟩
    rw [h1, Res.bind_ok]
    simp only
    rw [hd, Res.bind_ok, writeBytes, writePadded_eq _ _ _ _ (dynamicSpecs_parsed (parseFormatSpecs_inv h1).1 hd).1]
    cases ht; rfl

theorem mod_bound {w : Nat} (v : Int) : (v % 2 ^ w).toNat < 2 ^ w := by
  have h1 : (0 : Int) < 2 ^ w := Int.pow_pos (by decide)
  have h2 := Int.emod_lt_of_pos v h1
  have h3 := Int.emod_nonneg v (by omega : (2 : Int) ^ w ≠ 0)
  have h4 : ((2 ^ w : Nat) : Int) = 2 ^ w := by simp
  omega

theorem groupDigitsArg_iff (hm : l.length < 2 ^ 31) {w : Nat} (hw : w = 64 ∨ w = 128) (v : Int) :
    ∃ g, groupDigitsArg (makeArgs l) w v = .custom g ∧
    ∀ b f n n' text, g b n = .ok ('}' :: f, n', text) ↔
      ∃ (o : Opts) (wd n2 p : Int), o.Valid .int ∧ b = o.text ++ '}' :: f ∧ o.width.value l 0 n = some (wd, n2) ∧
        precValue l o.prec n2 = some (p, n') ∧ showItem isPrintable (o.meaning wd p) (.groupDigits w v) = some text := by
  refine ⟨_, rfl, fun b f n n' text => ?_⟩
  constructor
  · intro h
    obtain ⟨⟨sp, pos, nx⟩, h1, h⟩ := Res.bind_eq_ok.mp h
    obtain ⟨sp', hd, h⟩ := Res.bind_eq_ok.mp h
    obtain ⟨t, ht, h⟩ := Res.bind_eq_ok.mp h
    cases h
    have hpar := (dynamicSpecs_parsed (parseFormatSpecs_inv h1).1 hd).1
    obtain ⟨o, wd, n2, p, hv, hb, hw', hp, rfl⟩ := (view_iff hm (by nofun) b f n _ sp').mp ⟨sp, h1, hd⟩
    refine ⟨o, wd, n2, p, hv, hb, hw', hp, ?_⟩
    rw [writeIntGrouped_eq hw (mod_bound v) _ hpar] at ht
    cases ht; rfl
  · rintro ⟨o, wd, n2, p, hv, rfl, hw', hp, ht⟩
    obtain ⟨sp, h1, hd⟩ := (view_iff hm (by nofun) _ f n n' _).mpr ⟨o, wd, n2, p, hv, rfl, hw', hp, rfl⟩
    rw [h1, Res.bind_ok]
    simp only
    rw [hd, Res.bind_ok, writeIntGrouped_eq hw (mod_bound v) _ (dynamicSpecs_parsed (parseFormatSpecs_inv h1).1 hd).1]
    cases ht; rfl

theorem bytesArg_ok (hm : l.length < 2 ^ 31) (s : Str) : ArgOk (bytesArg (makeArgs l) s) := by
  intro pos next
  refine ⟨Res.bind_ne_ub (parseFormatSpecs_ne_ub _ _ _) fun _ _ => Res.bind_ne_ub (dynamicSpecs_ne_ub hm _) fun _ _ => nofun, ?_⟩
  intro pos' next' text h
  obtain ⟨⟨sp, p, n⟩, h1, h⟩ := Res.bind_eq_ok.mp h
  obtain ⟨t, h2, h⟩ := Res.bind_eq_ok.mp h
  cases h
  exact (parseFormatSpecs_inv h1).2

theorem groupDigitsArg_ok (hm : l.length < 2 ^ 31) {w : Nat} (hw : w = 64 ∨ w = 128) (v : Int) :
    ArgOk (groupDigitsArg (makeArgs l) w v) := by
  intro pos next
  refine ⟨Res.bind_ne_ub (parseFormatSpecs_ne_ub _ _ _) ?_, ?_⟩
  · rintro ⟨sp, p, n⟩ h1
    refine Res.bind_ne_ub (dynamicSpecs_ne_ub hm _) fun sp' hd => Res.bind_ne_ub ?_ fun _ _ => nofun
    rw [writeIntGrouped_eq hw (mod_bound v) _ (dynamicSpecs_parsed (parseFormatSpecs_inv h1).1 hd).1]
    nofun
  · intro pos' next' text h
    obtain ⟨⟨sp, p, n⟩, h1, h⟩ := Res.bind_eq_ok.mp h
    obtain ⟨t, h2, h⟩ := Res.bind_eq_ok.mp h
    obtain ⟨t', h3, h⟩ := Res.bind_eq_ok.mp h
    cases h
    exact (parseFormatSpecs_inv h1).2

theorem containerArg_ok {ty : Ty} (hc : ty ≠ .custom) {vs : List Arg} (hvs : ∀ v ∈ vs, v.ty = ty ∧ ArgOk v) :
    ArgOk (containerArg ty vs) := by
  obtain ⟨g, hg, h⟩ := container_eq ty vs
  rw [hg]
  intro pos next
  have := h hc hvs pos next
  refine ⟨agrees_ne_ub this, fun pos' next' text h' => ?_⟩
  rw [agrees_iff this] at h'
  simp only [Option.map_eq_some_iff] at h'
  obtain ⟨t, _, h'⟩ := h'
  cases h'
  exact List.suffix_refl _

end Fmt
end Efp
