import Verif.Fmt.ArgLemmas
import Verif.Fmt.NoUb

/-!
# `format` follows the grammar of format strings
-/

namespace Efp
namespace Fmt

open Spec.Fmt (Ref Num Opts decimal dynValue precValue nameIndex ArgOk showDefault showSpecs Formats floating textual)

variable {l : List (Option Str × Arg)}

/-! ## Argument references -/

theorem clamp_get (hm : l.length < 2 ^ 31) (i : Nat) :
    l[if i ≤ 2147483647 then i else 2147483647]? = l[i]? := by
  split
  · rfl
  · rw [List.getElem?_eq_none (by omega), List.getElem?_eq_none (by omega)]

theorem onArgId_text (hm : l.length < 2 ^ 31) (r : Ref) (n : Int) (out : Str) {i : Nat} {n' : Int}
    (h : r.take l n = some (i, n')) :
    ∃ i', (formatHandler (makeArgs l)).onArgId (aidOf r) ⟨n, out⟩ = .ok (i', ⟨n', out⟩) ∧ l[i']? = l[i]? := by
  cases r with
  | auto =>
    simp only [Ref.take] at h
    split at h
    · cases h
    · rename_i hn
      cases h
      exact ⟨n.toNat, by simp only [formatHandler, aidOf, nextArgId, if_neg hn]; rfl, rfl⟩
  | index k =>
    simp only [Ref.take] at h
    split at h
    · cases h
    · rename_i hn
      cases h
      exact ⟨_, by simp only [formatHandler, aidOf, checkArgId, if_neg (show ¬ n > 0 from hn)]; rfl, clamp_get hm _⟩
  | name s =>
    simp only [Ref.take, Option.map_eq_some_iff] at h
    obtain ⟨j, h1, h2⟩ := h
    cases h2
    exact ⟨i, by simp only [formatHandler, aidOf, getId_eq l hm, h1], rfl⟩

theorem onArgId_sound (hm : l.length < 2 ^ 31) (r : Ref) (n : Int) (out : Str) {i' : Nat} {s : HSt}
    (h : (formatHandler (makeArgs l)).onArgId (aidOf r) ⟨n, out⟩ = .ok (i', s)) :
    ∃ i, r.take l n = some (i, s.next) ∧ s.out = out ∧ l[i']? = l[i]? := by
  cases r with
  | auto =>
    simp only [formatHandler, aidOf, nextArgId] at h
    split at h
    · cases h
    · rename_i hn
      cases h
      exact ⟨n.toNat, by rw [Ref.take, if_neg hn], rfl, rfl⟩
  | index k =>
    simp only [formatHandler, aidOf, checkArgId] at h
    split at h
    · cases h
    · rename_i hn
      cases h
      exact ⟨k, by rw [Ref.take, if_neg hn], rfl, clamp_get hm _⟩
  | name t =>
    simp only [formatHandler, aidOf, getId_eq l hm] at h
    cases hi : nameIndex l t with
    | none => rw [hi] at h; cases h
    | some j =>
      rw [hi] at h
      cases h
      exact ⟨i', by rw [Ref.take, hi]; rfl, rfl, rfl⟩

/-! ## Widths and precisions -/

theorem getDynamicSpec_eq (what : String) (a : Arg) : Agrees (getDynamicSpec what a) (dynValue a) := by
  have signed : ∀ v : Int, Agrees
      ((if v < 0 then Res.err ("negative " ++ what) else .ok (v % 2 ^ 64).toNat) >>= fun v : Nat =>
        if v > 2147483647 then Res.err "number is too big" else .ok (v : Int))
      (if 0 ≤ v ∧ v % 2 ^ 64 ≤ 2147483647 then some (v % 2 ^ 64) else none) := by
    intro v
    by_cases hv : v < 0
    · rw [if_pos hv, if_neg (by omega)]; exact ⟨_, rfl⟩
    · rw [if_neg hv, Res.bind_ok]
      by_cases hb : v % 2 ^ 64 ≤ 2147483647
      · rw [if_neg (by omega), if_pos (by omega)]
        simp only [Agrees]
        congr 1
        omega
      · rw [if_pos (by omega), if_neg (by omega)]; exact ⟨_, rfl⟩
  have unsigned : ∀ v : Nat, Agrees
      ((if (v : Int) < 0 then Res.err ("negative " ++ what) else .ok ((v : Int) % 2 ^ 64).toNat) >>= fun v : Nat =>
        if v > 2147483647 then Res.err "number is too big" else .ok (v : Int))
      (if v % 2 ^ 64 ≤ 2147483647 then some ((v % 2 ^ 64 : Nat) : Int) else none) := by
    intro v
    rw [if_neg (by omega), Res.bind_ok]
    by_cases hb : v % 2 ^ 64 ≤ 2147483647
    · rw [if_neg (by omega), if_pos hb]
      simp only [Agrees]
      congr 1
    · rw [if_pos (by omega), if_neg hb]; exact ⟨_, rfl⟩
  cases a with
  | int v => exact signed v
  | longLong v => exact signed v
  | int128 v => exact signed v
  | uint v => exact unsigned v
  | ulongLong v => exact unsigned v
  | uint128 v => exact unsigned v
  | _ => exact ⟨_, rfl⟩

/-- a width or precision is read and resolved as the grammar says -/
theorem num_agrees (hm : l.length < 2 ^ 31) (what : String) (q : Num) (v n : Int) :
    Agrees (match numParse q v .none n with
      | none => .err ""
      | some (v', ref, n') => handleDynamicSpec what (makeArgs l) v' ref >>= fun w => .ok (w, n')) (q.value l v n) := by
  have arg : ∀ (i j : Nat) (n' : Int), l[i]? = l[j]? → Agrees (handleDynamicSpec what (makeArgs l) v (.index i) >>= fun w => .ok (w, n'))
      (do
        let a ← l[j]?
        let v ← dynValue a.2
        some (v, n')) := by
    intro i j n' hij
    simp only [handleDynamicSpec]
    rw [getArg_eq l hm, hij]
    cases hj : l[j]? with
    | none => exact ⟨_, rfl⟩
    | some a =>
      simp only [Res.bind_ok]
      have := getDynamicSpec_eq what a.2
      cases hd : dynValue a.2 with
      | none =>
        rw [hd] at this
        obtain ⟨m, hm⟩ := this
        rw [hm]
        simp [Agrees, Res.bind_err, hd]
      | some w =>
        rw [hd] at this
        simp only [Agrees] at this
        rw [this]
        simp [Agrees, Res.bind_ok, hd]
  cases q with
  | none => rfl
  | lit d => rfl
  | arg r =>
    simp only [numParse, Num.value]
    cases r with
    | auto =>
      simp only [refOf, Ref.take]
      by_cases hn : n < 0
      · rw [if_pos hn, if_pos hn]; exact ⟨_, rfl⟩
      · rw [if_neg hn, if_neg hn]; exact arg _ _ _ rfl
    | index i =>
      simp only [refOf, Ref.take]
      by_cases hn : 0 < n
      · rw [if_pos hn, if_pos hn]; exact ⟨_, rfl⟩
      · rw [if_neg hn, if_neg hn]; exact arg _ _ _ (clamp_get hm i)
    | name s =>
      simp only [refOf, Ref.take, Option.map_some]
      cases hi : nameIndex l s with
      | none => exact ⟨"argument not found", by simp only [handleDynamicSpec, getArgByName, getId_eq l hm, hi]; rfl⟩
      | some i =>
        have := arg i i n rfl
        simp only [handleDynamicSpec, getArgByName, getId_eq l hm, hi] at this ⊢
        exact this

theorem dynValue_bound {a : Arg} {v : Int} (h : dynValue a = some v) : 0 ≤ v ∧ v ≤ 2147483647 := by
  cases a <;> simp only [dynValue] at h
  all_goals first
    | cases h; done
    | (split at h
       · cases h; omega
       · cases h)

theorem value_bound {q : Num} (hq : q.Valid) {n w n' : Int} (h : q.value l 0 n = some (w, n')) : 0 ≤ w ∧ w ≤ 2147483647 := by
  cases q with
  | none => simp only [Num.value, Option.some.injEq, Prod.mk.injEq] at h; omega
  | lit d =>
    simp only [Num.value, Option.some.injEq, Prod.mk.injEq] at h
    have := hq.2.2.2
    omega
  | arg r =>
    simp only [Num.value, Option.bind_eq_bind, Option.bind_eq_some_iff] at h
    obtain ⟨⟨i, n1⟩, h1, a, h2, v, h3, h4⟩ := h
    cases h4
    exact dynValue_bound h3

/-- what the parser makes of a precision option -/
def precParse (q : Option Num) (n : Int) : Option (Int × ArgRef × Int) :=
  match q with
  | none => some (-1, .none, n)
  | some p => numParse p (-1) .none n

theorem prec_agrees (hm : l.length < 2 ^ 31) (q : Option Num) (n : Int) :
    Agrees (match precParse q n with
      | none => .err ""
      | some (v', ref, n') => handleDynamicSpec "precision" (makeArgs l) v' ref >>= fun w => .ok (w, n')) (precValue l q n) := by
  cases q with
  | none => rfl
  | some p => exact num_agrees hm _ p _ n

theorem numParse_nonneg {q : Num} {v : Int} (hv : 0 ≤ v) {ref : ArgRef} {n v' : Int} {ref' : ArgRef} {n' : Int}
    (h : numParse q v ref n = some (v', ref', n')) : 0 ≤ v' := by
  cases q with
  | none => simp only [numParse, Option.some.injEq, Prod.mk.injEq] at h; omega
  | lit d => simp only [numParse, Option.some.injEq, Prod.mk.injEq] at h; omega
  | arg r =>
    simp only [numParse, Option.map_eq_some_iff] at h
    obtain ⟨x, _, h⟩ := h
    cases h
    exact hv

/-- the options as a whole -/
theorem a1_eq {ty : Ty} {o : Opts} (hv : o.Valid ty) (n : Int) (sp' : Specs) (n' : Int) :
    a1 o {} n = some (sp', n') ↔ ∃ w wr n2 p pr, numParse o.width 0 .none n = some (w, wr, n2) ∧
      precParse o.prec n2 = some (p, pr, n') ∧ sp' = { o.meaning w p with widthRef := wr, precisionRef := pr } := by
  -- the specs before the width
  let sp0 : Specs := stZero o (stAlt o (stSign o (stAlign o {})))
  have h0 : sp0 = { o.meaning 0 (-1) with type := .none, localized := false } := by
    simp only [sp0, stZero, stAlt, stSign, stAlign, Opts.meaning]
    by_cases ha : o.align = .none
    · have hf : o.fill = [] := by
        cases hf : o.fill with
        | nil => rfl
        | cons x y => exact absurd ha (hv.fill (by rw [hf]; nofun)).1
      by_cases hs : o.sign = .none <;> cases hz : o.zero <;> cases hh : o.alt <;> simp [ha, hf, hs]
    · by_cases hf : o.fill = [] <;> by_cases hs : o.sign = .none <;> cases hz : o.zero <;> cases hh : o.alt <;>
        simp [ha, hf, hs]
  have h1 : a1 o {} n = a5 o sp0 n := rfl
  have hend : ∀ (w : Int) (wr : ArgRef) (p : Int) (pr : ArgRef),
      stType o (stLoc o { sp0 with width := w.toNat, widthRef := wr, precision := p, precisionRef := pr })
        = { o.meaning w p with widthRef := wr, precisionRef := pr } := by
    intro w wr p pr
    rw [h0]
    simp only [stType, stLoc, Opts.meaning]
    by_cases ht : o.type = .none <;> cases hl : o.loc <;> simp [ht]
  have hw0 : sp0.width = 0 ∧ sp0.widthRef = .none ∧ sp0.precision = -1 ∧ sp0.precisionRef = .none := by
    rw [h0]; exact ⟨rfl, rfl, rfl, rfl⟩
  rw [h1, a5, hw0.1, hw0.2.1]
  constructor
  · intro h
    simp only [Option.bind_eq_some_iff] at h
    obtain ⟨⟨w, wr, n2⟩, e1, e2⟩ := h
    simp only [a6] at e2
    cases hp : o.prec with
    | none =>
      rw [hp] at e2
      simp only [a7, Option.some.injEq, Prod.mk.injEq] at e2
      refine ⟨w, wr, n2, -1, .none, e1, ?_, ?_⟩
      · rw [precParse, e2.2]
      · rw [← e2.1, ← hend w wr (-1) .none, ← hw0.2.2.1, ← hw0.2.2.2]
    | some q =>
      rw [hp] at e2
      simp only [Option.bind_eq_some_iff, hw0.2.2.1, hw0.2.2.2] at e2
      obtain ⟨⟨p, pr, n3⟩, e3, e4⟩ := e2
      simp only [a7, Option.some.injEq, Prod.mk.injEq] at e4
      refine ⟨w, wr, n2, p, pr, e1, ?_, ?_⟩
      · rw [precParse, ← e4.2]; exact e3
      · rw [← e4.1, ← hend w wr p pr]
  · rintro ⟨w, wr, n2, p, pr, e1, e2, e3⟩
    rw [show numParse o.width ((0 : Nat) : Int) .none n = _ from e1, Option.bind_some]
    simp only [a6]
    cases hp : o.prec with
    | none =>
      rw [hp, precParse] at e2
      simp only [Option.some.injEq, Prod.mk.injEq] at e2
      obtain ⟨rfl, rfl, rfl⟩ := e2
      rw [e3, ← hend w wr (-1) .none, a7]
      simp only [hw0.2.2.1, hw0.2.2.2]
    | some q =>
      rw [hp, precParse] at e2
      simp only [hw0.2.2.1, hw0.2.2.2, e2, Option.bind_some, a7]
      rw [e3, ← hend w wr p pr]

/-! ## Fields with options -/

theorem ty_ne_none (a : Arg) : a.ty ≠ .none := by cases a <;> nofun

theorem onFormatSpecs_eq (hm : l.length < 2 ^ 31) (i : Nat) {x : Option Str} {a : Arg} (hi : l[i]? = some (x, a))
    (hc : a.ty ≠ .custom) (b : Str) (n : Int) (out : Str) : onFormatSpecs (makeArgs l) i b ⟨n, out⟩ = (do
      let (sp, pos, next) ← parseFormatSpecs a.ty b n
      let w ← handleDynamicSpec "width" (makeArgs l) sp.width sp.widthRef
      let p ← handleDynamicSpec "precision" (makeArgs l) sp.precision sp.precisionRef
      match pos with
      | [] => .err "missing '}' in format string"
      | c :: _ =>
        if c ≠ '}' then .err "missing '}' in format string"
        else do
          let text ← writeSpecs { sp with width := w.toNat, precision := p, widthRef := .none, precisionRef := .none } a
          .ok (pos, ⟨next, out ++ text⟩)) := by
  unfold onFormatSpecs
  rw [getArg_eq l hm, hi]
  simp only [Res.bind_ok]
  cases a <;> first | rfl | exact absurd rfl hc

theorem onFormatSpecs_custom (hm : l.length < 2 ^ 31) (i : Nat) {x : Option Str} {g}
    (hi : l[i]? = some (x, .custom g)) (b : Str) (n : Int) (out : Str) : onFormatSpecs (makeArgs l) i b ⟨n, out⟩ = (do
      let (pos, next, text) ← g b n
      .ok (pos, ⟨next, out ++ text⟩)) := by
  unfold onFormatSpecs
  rw [getArg_eq l hm, hi]
  rfl

/-- the specs that reach the writer satisfy its conditions -/
theorem writer_conditions {a : Arg} {o : Opts} (hv : o.Valid a.ty) {w p n1 n2 n3 : Int}
    (hw : o.width.value l 0 n1 = some (w, n2)) (hp : precValue l o.prec n2 = some (p, n3)) :
    (o.meaning w p).width < 2 ^ 31 ∧ (a.ty.isFloat = false → a.ty.text = false → (o.meaning w p).precision = -1) := by
  refine ⟨?_, ?_⟩
  · have := value_bound hv.width.1 hw
    change w.toNat < 2 ^ 31
    omega
  · intro h1 h2
    change p = -1
    cases hpr : o.prec with
    | none =>
      rw [hpr, precValue] at hp
      cases hp; rfl
    | some q =>
      have := (hv.prec q hpr).1
      rw [← float_iff, ← text_iff, h1, h2] at this
      simp at this

theorem onFormatSpecs_text (hm : l.length < 2 ^ 31) (i : Nat) {x : Option Str} {a : Arg} (hi : l[i]? = some (x, a))
    (hok : ArgOk a) (hc : a.ty ≠ .custom) {o : Opts} (hv : o.Valid a.ty) (f : Str) (out : Str) {n1 n2 n3 w p : Int}
    {text : Str} (hw : o.width.value l 0 n1 = some (w, n2)) (hp : precValue l o.prec n2 = some (p, n3))
    (ht : showSpecs isPrintable (o.meaning w p) a = some text) :
    onFormatSpecs (makeArgs l) i (o.text ++ '}' :: f) ⟨n1, out⟩ = .ok ('}' :: f, ⟨n3, out ++ text⟩) := by
  rw [onFormatSpecs_eq hm i hi hc]
  have ew := num_agrees hm "width" o.width 0 n1
  rw [hw] at ew
  simp only [Agrees] at ew
  cases hnw : numParse o.width 0 .none n1 with
  | none => rw [hnw] at ew; cases ew
  | some y =>
    obtain ⟨w', wr, n2'⟩ := y
    rw [hnw] at ew
    simp only at ew
    obtain ⟨w1, ew1, ew2⟩ := Res.bind_eq_ok.mp ew
    cases ew2
    have ep := prec_agrees hm o.prec n2
    rw [hp] at ep
    simp only [Agrees] at ep
    cases hnp : precParse o.prec n2 with
    | none => rw [hnp] at ep; cases ep
    | some z =>
      obtain ⟨p', pr, n3'⟩ := z
      rw [hnp] at ep
      simp only at ep
      obtain ⟨p1, ep1, ep2⟩ := Res.bind_eq_ok.mp ep
      cases ep2
      have ha := (a1_eq hv n1 _ n3).mpr ⟨w', wr, n2, p', pr, hnw, hnp, rfl⟩
      rw [parseFormatSpecs_text (ty_ne_none a) hv f n1 ha, Res.bind_ok]
      have hw0 := numParse_nonneg (Int.le_refl 0) hnw
      have hcast : (((o.meaning w' p').width : Nat) : Int) = w' := by
        change ((w'.toNat : Nat) : Int) = w'
        omega
      simp only [hcast]
      rw [ew1, Res.bind_ok, show (o.meaning w' p').precision = p' from rfl, ep1, Res.bind_ok]
      obtain ⟨c1, c2⟩ := writer_conditions hv hw hp
      have := writeSpecs_agrees a (o.meaning w p) hok c1 c2 hc
      rw [ht] at this
      simp only [Agrees] at this
      rw [if_neg (by simp)]
      have e : ({ o.meaning w' p' with width := w.toNat, precision := p, widthRef := .none, precisionRef := .none } : Specs)
          = o.meaning w p := rfl
      change (writeSpecs ({ o.meaning w' p' with width := w.toNat, precision := p, widthRef := .none, precisionRef := .none })
        a >>= _) = _
      rw [e, this]
      rfl

theorem onFormatSpecs_sound (hm : l.length < 2 ^ 31) (i : Nat) {x : Option Str} {a : Arg} (hi : l[i]? = some (x, a))
    (hok : ArgOk a) (hc : a.ty ≠ .custom) {b e : Str} {n1 : Int} {out : Str} {s : HSt}
    (h : onFormatSpecs (makeArgs l) i b ⟨n1, out⟩ = .ok (e, s)) :
    ∃ (f : Str) (o : Opts) (w n2 p : Int) (text : Str), e = '}' :: f ∧ o.Valid a.ty ∧ b = o.text ++ '}' :: f ∧ o.width.value l 0 n1 = some (w, n2) ∧
      precValue l o.prec n2 = some (p, s.next) ∧ showSpecs isPrintable (o.meaning w p) a = some text ∧
      s.out = out ++ text := by
  rw [onFormatSpecs_eq hm i hi hc] at h
  obtain ⟨⟨sp, pos, next⟩, h1, h2⟩ := Res.bind_eq_ok.mp h
  simp only at h2
  obtain ⟨w, h3, h4⟩ := Res.bind_eq_ok.mp h2
  obtain ⟨p, h5, h6⟩ := Res.bind_eq_ok.mp h4
  cases pos with
  | nil => cases h6
  | cons c f =>
    simp only at h6
    split at h6
    · cases h6
    · rename_i hcb
      have hcb : c = '}' := Classical.not_not.mp hcb
      subst hcb
      obtain ⟨text, h7, h8⟩ := Res.bind_eq_ok.mp h6
      simp only [Res.ok.injEq, Prod.mk.injEq] at h8
      obtain ⟨rfl, rfl⟩ := h8
      obtain ⟨o, hv, ht, ha⟩ := parseFormatSpecs_sound (ty_ne_none a) h1
      obtain ⟨w', wr, n2, p', pr, e1, e2, e3⟩ := (a1_eq hv n1 _ _).mp ha
      have hw0 := numParse_nonneg (Int.le_refl 0) e1
      have hcast : (((o.meaning w' p').width : Nat) : Int) = w' := by
        change ((w'.toNat : Nat) : Int) = w'
        omega
      rw [e3] at h3 h5 h7
      simp only [hcast] at h3
      have ew := num_agrees hm "width" o.width 0 n1
      rw [e1] at ew
      simp only [h3, Res.bind_ok] at ew
      have ep := prec_agrees hm o.prec n2
      rw [e2] at ep
      simp only [show (o.meaning w' p').precision = p' from rfl] at h5
      simp only [h5, Res.bind_ok] at ep
      have hwv : o.width.value l 0 n1 = some (w, n2) := by
        cases hh : o.width.value l 0 n1 with
        | none => rw [hh] at ew; obtain ⟨m, hm⟩ := ew; cases hm
        | some y => rw [hh] at ew; simp only [Agrees, Res.ok.injEq] at ew; rw [ew]
      have hpv : precValue l o.prec n2 = some (p, next) := by
        cases hh : precValue l o.prec n2 with
        | none => rw [hh] at ep; obtain ⟨m, hm⟩ := ep; cases hm
        | some y => rw [hh] at ep; simp only [Agrees, Res.ok.injEq] at ep; rw [ep]
      obtain ⟨c1, c2⟩ := writer_conditions hv hwv hpv
      have hws := writeSpecs_agrees a (o.meaning w p) hok c1 c2 hc
      change writeSpecs (o.meaning w p) a = .ok text at h7
      rw [h7] at hws
      refine ⟨f, o, w, n2, p, text, rfl, hv, ht, hwv, hpv, ?_, rfl⟩
      cases hh : showSpecs isPrintable (o.meaning w p) a with
      | none => rw [hh] at hws; obtain ⟨m, hm⟩ := hws; cases hm
      | some t => rw [hh] at hws; simp only [Agrees, Res.ok.injEq] at hws; rw [hws]

/-! ## The handler -/

theorem handler_good (hm : l.length < 2 ^ 31) (hok : ∀ p ∈ l, ArgOk p.2) : (formatHandler (makeArgs l)).Good where
  nil s := by simp [formatHandler]
  forward := by
    intro id b s e s' h
    change onFormatSpecs (makeArgs l) id b s = _ at h
    cases hi : l[id]? with
    | none =>
      unfold onFormatSpecs at h
      rw [getArg_eq l hm, hi] at h
      cases h
    | some p =>
      obtain ⟨x, a⟩ := p
      by_cases hc : a.ty = .custom
      · obtain ⟨g, rfl⟩ : ∃ g, a = .custom g := by cases a <;> first | exact ⟨_, rfl⟩ | cases hc
        rw [onFormatSpecs_custom hm id hi] at h
        obtain ⟨⟨pos, nx, t⟩, h1, h2⟩ := Res.bind_eq_ok.mp h
        cases h2
        exact ((hok _ (List.mem_of_getElem? hi) b s.next).2 _ _ _ h1).length_le
      · rw [onFormatSpecs_eq hm id hi hc] at h
        obtain ⟨⟨sp, pos, next⟩, h1, h2⟩ := Res.bind_eq_ok.mp h
        simp only at h2
        obtain ⟨w, h3, h4⟩ := Res.bind_eq_ok.mp h2
        obtain ⟨p, h5, h6⟩ := Res.bind_eq_ok.mp h4
        have := parseFormatSpecs_le h1
        cases pos with
        | nil => cases h6
        | cons c f =>
          simp only at h6
          split at h6
          · cases h6
          · obtain ⟨text, h7, h8⟩ := Res.bind_eq_ok.mp h6
            cases h8
            exact this

theorem agrees_ne_ub {α : Type} {r : Res α} {o : Option α} (h : Agrees r o) : r ≠ .ub := by
  cases o with
  | none => obtain ⟨m, h⟩ := h; rw [h]; nofun
  | some t => simp only [Agrees] at h; rw [h]; nofun

theorem getArg_ne_ub (hm : l.length < 2 ^ 31) (i : Nat) : getArg (makeArgs l) i ≠ .ub := by
  rw [getArg_eq l hm]
  cases l[i]? <;> nofun

theorem handleDynamicSpec_ne_ub (hm : l.length < 2 ^ 31) (what : String) (v : Int) (ref : ArgRef) :
    handleDynamicSpec what (makeArgs l) v ref ≠ .ub := by
  cases ref with
  | none => nofun
  | index i => exact Res.bind_ne_ub (getArg_ne_ub hm i) fun a _ => agrees_ne_ub (getDynamicSpec_eq _ _)
  | name s =>
    refine Res.bind_ne_ub ?_ fun a _ => agrees_ne_ub (getDynamicSpec_eq _ _)
    unfold getArgByName
    split
    · nofun
    · exact getArg_ne_ub hm _

theorem parsed_conditions {ty : Ty} {b : Str} {n : Int} {sp : Specs} {f : Str} {n' : Int} (hty : ty ≠ .none)
    (h : parseFormatSpecs ty b n = .ok (sp, '}' :: f, n')) {w p : Int} (hm : l.length < 2 ^ 31)
    (hw : handleDynamicSpec "width" (makeArgs l) sp.width sp.widthRef = .ok w)
    (hp : handleDynamicSpec "precision" (makeArgs l) sp.precision sp.precisionRef = .ok p) :
    w.toNat < 2 ^ 31 ∧ (ty.isFloat = false → ty.text = false → p = -1) := by
  obtain ⟨o, hv, ht, ha⟩ := parseFormatSpecs_sound hty h
  obtain ⟨w', wr, n2, p', pr, e1, e2, e3⟩ := (a1_eq hv n _ _).mp ha
  have hw0 := numParse_nonneg (Int.le_refl 0) e1
  have hcast : (((o.meaning w' p').width : Nat) : Int) = w' := by
    change ((w'.toNat : Nat) : Int) = w'
    omega
  rw [e3] at hw hp
  simp only [hcast] at hw
  constructor
  · have ew := num_agrees hm "width" o.width 0 n
    rw [e1] at ew
    simp only [hw, Res.bind_ok] at ew
    cases hh : o.width.value l 0 n with
    | none => rw [hh] at ew; obtain ⟨m, hm⟩ := ew; cases hm
    | some y =>
      rw [hh] at ew
      simp only [Agrees, Res.ok.injEq] at ew
      rw [← ew] at hh
      have := value_bound hv.width.1 hh
      omega
  · intro h1 h2
    cases hpr : o.prec with
    | none =>
      rw [hpr, precParse] at e2
      cases e2
      cases hp; rfl
    | some q =>
      have := (hv.prec q hpr).1
      rw [← float_iff, ← text_iff, h1, h2] at this
      simp at this

theorem handler_safe (hm : l.length < 2 ^ 31) (hok : ∀ p ∈ l, ArgOk p.2) : (formatHandler (makeArgs l)).Safe where
  onText t s := nofun
  onArgId id s := by
    cases id with
    | auto => exact Res.bind_ne_ub (nextArgId_ne_ub _) fun _ _ => nofun
    | index n => exact Res.bind_ne_ub (checkArgId_ne_ub _) fun _ _ => nofun
    | name t =>
      simp only [formatHandler]
      split <;> nofun
  onReplacementField i s := by
    refine Res.bind_ne_ub (getArg_ne_ub hm i) fun a ha => Res.bind_ne_ub ?_ fun _ _ => nofun
    rw [getArg_eq l hm] at ha
    cases hi : l[i]? with
    | none => rw [hi] at ha; cases ha
    | some p =>
      rw [hi] at ha
      cases ha
      exact agrees_ne_ub (writeDefault_agrees _ (hok _ (List.mem_of_getElem? hi)))
  onFormatSpecs i b s := by
    change onFormatSpecs (makeArgs l) i b s ≠ _
    cases hi : l[i]? with
    | none =>
      unfold onFormatSpecs
      rw [getArg_eq l hm, hi]
      nofun
    | some p =>
      obtain ⟨x, a⟩ := p
      by_cases hc : a.ty = .custom
      · obtain ⟨g, rfl⟩ : ∃ g, a = .custom g := by cases a <;> first | exact ⟨_, rfl⟩ | cases hc
        rw [onFormatSpecs_custom hm i hi]
        exact Res.bind_ne_ub (hok _ (List.mem_of_getElem? hi) b s.next).1 fun _ _ => nofun
      · rw [onFormatSpecs_eq hm i hi hc]
        refine Res.bind_ne_ub (parseFormatSpecs_ne_ub _ _ _) ?_
        rintro ⟨sp, pos, next⟩ h1
        refine Res.bind_ne_ub (handleDynamicSpec_ne_ub hm _ _ _) fun w hw =>
          Res.bind_ne_ub (handleDynamicSpec_ne_ub hm _ _ _) fun p hp => ?_
        cases pos with
        | nil => nofun
        | cons c f =>
          simp only
          split
          · nofun
          · rename_i hcb
            have hcb : c = '}' := Classical.not_not.mp hcb
            subst hcb
            obtain ⟨c1, c2⟩ := parsed_conditions (ty_ne_none a) h1 hm hw hp
            refine Res.bind_ne_ub ?_ fun _ _ => nofun
            exact agrees_ne_ub (writeSpecs_agrees a _ (hok _ (List.mem_of_getElem? hi)) c1 c2 hc)

/-! ## Fields -/

theorem ref_head (r : Ref) (hr : r.Valid) (x : Char) (b : Str) (hx : x = '}' ∨ x = ':') :
    ∃ c t, r.text ++ x :: b = c :: t ∧ c ≠ '{' ∧ (c = '}' → r = .auto ∧ x = '}') := by
  cases r with
  | auto => exact ⟨x, b, rfl, by rcases hx with rfl | rfl <;> decide, fun h => ⟨rfl, h⟩⟩
  | index n =>
    obtain ⟨c, t, h1, h2, _⟩ := parseIndex_text n x b hx
    exact ⟨c, t, h1, by rintro rfl; revert h2; decide, by rintro rfl; exact absurd h2 (by decide)⟩
  | name s =>
    obtain ⟨c, t, rfl, h1, _⟩ := hr
    exact ⟨c, _, rfl, by rintro rfl; revert h1; decide, by rintro rfl; exact absurd h1 (by decide)⟩

theorem field_plain (hm : l.length < 2 ^ 31) (hok : ∀ p ∈ l, ArgOk p.2) (r : Ref) (hr : r.Valid) {n n' : Int} {i : Nat}
    {a : Option Str × Arg} {text : Str} (ht : r.take l n = some (i, n')) (hi : l[i]? = some a)
    (hs : showDefault a.2 = some text) (f out : Str) :
    parseReplacementField (formatHandler (makeArgs l)) (r.text ++ '}' :: f) ⟨n, out⟩ = .ok (f, ⟨n', out ++ text⟩) := by
  obtain ⟨c, t, hct, hc1, hc2⟩ := ref_head r hr '}' f (Or.inl rfl)
  obtain ⟨i', h1, h2⟩ := onArgId_text hm r n out ht
  have hrep : (formatHandler (makeArgs l)).onReplacementField i' ⟨n', out⟩ = .ok ⟨n', out ++ text⟩ := by
    simp only [formatHandler]
    rw [getArg_eq l hm, h2, hi]
    simp only [Res.bind_ok]
    have := writeDefault_agrees a.2 (hok _ (List.mem_of_getElem? hi))
    rw [hs] at this
    simp only [Agrees] at this
    rw [this]; rfl
  have hid := parseArgId_text r '}' f hr (Or.inl rfl)
  rw [hct] at hid ⊢
  simp only [parseReplacementField]
  by_cases hc : c = '}'
  · obtain ⟨rfl, _⟩ := hc2 hc
    rw [if_pos hc, show ArgId.auto = aidOf .auto from rfl, h1, Res.bind_ok]
    simp only
    rw [hrep, Res.bind_ok]
    simp only [Ref.text, List.nil_append, List.cons.injEq] at hct
    rw [hct.2]
  · rw [if_neg hc, if_neg hc1, hid, Res.bind_ok]
    simp only
    rw [h1, Res.bind_ok]
    simp only
    rw [if_pos trivial, hrep, Res.bind_ok]

theorem field_specs (hm : l.length < 2 ^ 31) (r : Ref) (hr : r.Valid) {n n1 : Int} {i : Nat}
    (ht : r.take l n = some (i, n1)) (b f out : Str) (s : HSt)
    (hs : ∀ i', l[i']? = l[i]? → onFormatSpecs (makeArgs l) i' b ⟨n1, out⟩ = .ok ('}' :: f, s)) :
    parseReplacementField (formatHandler (makeArgs l)) (r.text ++ ':' :: b) ⟨n, out⟩ = .ok (f, s) := by
  obtain ⟨c, t, hct, hc1, hc2⟩ := ref_head r hr ':' b (Or.inr rfl)
  obtain ⟨i', h1, h2⟩ := onArgId_text hm r n out ht
  have hid := parseArgId_text r ':' b hr (Or.inr rfl)
  have hc : c ≠ '}' := fun h => absurd (hc2 h).2 (by decide)
  rw [hct] at hid ⊢
  simp only [parseReplacementField]
  rw [if_neg hc, if_neg hc1, hid, Res.bind_ok]
  simp only
  rw [h1, Res.bind_ok]
  simp only
  rw [if_neg (by decide), if_pos trivial, show (formatHandler (makeArgs l)).onFormatSpecs i' b ⟨n1, out⟩ = _ from hs i' h2,
    Res.bind_ok]
  simp

theorem field_sound (hm : l.length < 2 ^ 31) (hok : ∀ p ∈ l, ArgOk p.2) {after f : Str} {n : Int} {out : Str} {s : HSt}
    (h : parseReplacementField (formatHandler (makeArgs l)) after ⟨n, out⟩ = .ok (f, s)) :
    ∃ text, s.out = out ++ text ∧ ∀ o, Formats isPrintable l s.next f o → Formats isPrintable l n ('{' :: after) (text ++ o) := by
  have plain : ∀ (r : Ref) {i : Nat} {s1 s2 : HSt}, r.Valid →
      (formatHandler (makeArgs l)).onArgId (aidOf r) ⟨n, out⟩ = .ok (i, s1) →
      (formatHandler (makeArgs l)).onReplacementField i s1 = .ok s2 →
      ∃ text, s2.out = out ++ text ∧ ∀ f o, Formats isPrintable l s2.next f o →
        Formats isPrintable l n ('{' :: (r.text ++ '}' :: f)) (text ++ o) := by
    intro r i' s1 s2 hr h1 h2
    obtain ⟨i, ht, ho, hi⟩ := onArgId_sound hm r n out h1
    obtain ⟨a, h3, h4⟩ := Res.bind_eq_ok.mp h2
    obtain ⟨text, h5, h6⟩ := Res.bind_eq_ok.mp h4
    cases h6
    rw [getArg_eq l hm] at h3
    cases hi' : l[i']? with
    | none => rw [hi'] at h3; cases h3
    | some p =>
      rw [hi'] at h3
      cases h3
      have hag := writeDefault_agrees p.2 (hok _ (List.mem_of_getElem? hi'))
      rw [h5] at hag
      have hsd : showDefault p.2 = some text := by
        cases hh : showDefault p.2 with
        | none => rw [hh] at hag; obtain ⟨m, hm⟩ := hag; cases hm
        | some t => rw [hh] at hag; simp only [Agrees, Res.ok.injEq] at hag; rw [hag]
      refine ⟨text, by rw [ho], fun f o hf => ?_⟩
      exact .plain r hr ht (by rw [← hi, hi']) hsd hf
  cases after with
  | nil => simp [parseReplacementField] at h
  | cons c r =>
    simp only [parseReplacementField] at h
    split at h
    · rename_i hc
      obtain ⟨⟨i, s1⟩, h1, h2⟩ := Res.bind_eq_ok.mp h
      obtain ⟨s2, h3, h4⟩ := Res.bind_eq_ok.mp h2
      cases h4
      obtain ⟨text, e1, e2⟩ := plain .auto trivial h1 h3
      exact ⟨text, e1, fun o ho => by rw [hc]; exact e2 _ o ho⟩
    split at h
    · rename_i hc
      obtain ⟨s1, h1, h2⟩ := Res.bind_eq_ok.mp h
      cases h2
      cases h1
      exact ⟨['{'], rfl, fun o ho => by rw [hc]; exact .opening ho⟩
    · obtain ⟨⟨aid, b⟩, h1, h2⟩ := Res.bind_eq_ok.mp h
      obtain ⟨⟨i', s1⟩, h3, h4⟩ := Res.bind_eq_ok.mp h2
      cases b with
      | nil => cases h4
      | cons d b =>
        simp only at h4
        split at h4
        · rename_i hd
          obtain ⟨s2, h5, h6⟩ := Res.bind_eq_ok.mp h4
          cases h6
          rw [hd] at h1
          obtain ⟨rf, hv, ht, rfl⟩ := parseArgId_sound (Or.inl rfl) h1
          obtain ⟨text, e1, e2⟩ := plain rf hv h3 h5
          exact ⟨text, e1, fun o ho => by rw [ht]; exact e2 _ o ho⟩
        split at h4
        · rename_i hd
          obtain ⟨⟨e, s2⟩, h5, h6⟩ := Res.bind_eq_ok.mp h4
          cases e with
          | nil => cases h6
          | cons x e =>
            simp only at h6
            split at h6
            · rename_i hx
              cases h6
              rw [hd] at h1
              obtain ⟨rf, hv, ht, rfl⟩ := parseArgId_sound (Or.inr rfl) h1
              obtain ⟨i, htk, ho, hi⟩ := onArgId_sound hm rf n out h3
              change onFormatSpecs (makeArgs l) i' b s1 = _ at h5
              obtain ⟨n1, out1⟩ := s1
              cases ho
              cases hi' : l[i']? with
              | none =>
                unfold onFormatSpecs at h5
                rw [getArg_eq l hm, hi'] at h5
                cases h5
              | some p =>
                obtain ⟨nm, a⟩ := p
                by_cases hc : a.ty = .custom
                · obtain ⟨g, rfl⟩ : ∃ g, a = .custom g := by cases a <;> first | exact ⟨_, rfl⟩ | cases hc
                  rw [onFormatSpecs_custom hm i' hi'] at h5
                  obtain ⟨⟨pos, nx, t⟩, h7, h8⟩ := Res.bind_eq_ok.mp h5
                  cases h8
                  refine ⟨t, rfl, fun o ho => ?_⟩
                  rw [ht]
                  rw [hx] at h7
                  exact .custom rf hv htk (by rw [← hi, hi']) h7 ho
                · obtain ⟨f', o', w, n2, p, text, q1, q2, q3, q4, q5, q6, q7⟩ :=
                    onFormatSpecs_sound hm i' hi' (hok _ (List.mem_of_getElem? hi')) hc h5
                  cases q1
                  refine ⟨text, q7, fun o ho => ?_⟩
                  rw [ht, q3]
                  exact .opts rf o' hv htk (by rw [← hi, hi']) hc q2 q4 q5 q6 ho
            · cases h6
        · cases h4

/-! ## Format strings -/

theorem shortLoop_sound (hm : l.length < 2 ^ 31) (hok : ∀ p ∈ l, ArgOk p.2) : ∀ (fuel : Nat) (text p : Str) (n : Int)
    (out : Str) (s : HSt), shortLoop (formatHandler (makeArgs l)) fuel text p ⟨n, out⟩ = .ok s →
    ∃ o, Formats isPrintable l n p o ∧ s.out = out ++ (text ++ o)
  | fuel, text, [], n, out, s, h => by
    rw [shortLoop_nil] at h
    cases h
    exact ⟨[], .done n, by simp⟩
  | 0, text, _ :: _, n, out, s, h => by cases h
  | fuel + 1, text, c :: p, n, out, s, h => by
    simp only [shortLoop] at h
    split at h
    · rename_i hc
      obtain ⟨s1, h1, h2⟩ := Res.bind_eq_ok.mp h
      cases h1
      obtain ⟨⟨q, s2⟩, h3, h4⟩ := Res.bind_eq_ok.mp h2
      obtain ⟨t, e1, e2⟩ := field_sound hm hok h3
      obtain ⟨o, e3, e4⟩ := shortLoop_sound hm hok fuel [] q s2.next s2.out s h4
      refine ⟨t ++ o, by rw [hc]; exact e2 o e3, ?_⟩
      rw [e4, e1]; simp
    split at h
    · rename_i hc
      cases p with
      | nil => cases h
      | cons d p =>
        simp only at h
        split at h
        · cases h
        · rename_i hd
          have hd : d = '}' := Classical.not_not.mp hd
          obtain ⟨s1, h1, h2⟩ := Res.bind_eq_ok.mp h
          cases h1
          obtain ⟨o, e1, e2⟩ := shortLoop_sound hm hok fuel [] p _ _ s h2
          refine ⟨'}' :: o, by rw [hc, hd]; exact .closing e1, ?_⟩
          rw [e2]; simp
    · rename_i h1 h2
      obtain ⟨o, e1, e2⟩ := shortLoop_sound hm hok fuel _ p _ _ s h
      refine ⟨c :: o, .char h1 h2 e1, ?_⟩
      rw [e2]; simp

theorem shortLoop_text' (hm : l.length < 2 ^ 31) (hok : ∀ p ∈ l, ArgOk p.2) {n : Int} {p o : Str}
    (h : Formats isPrintable l n p o) : ∀ (fuel : Nat) (text out : Str), p.length ≤ fuel →
    ∃ n', shortLoop (formatHandler (makeArgs l)) fuel text p ⟨n, out⟩ = .ok ⟨n', out ++ (text ++ o)⟩ := by
  have field : ∀ {n n1 : Int} {after f text o : Str} {fuel : Nat} (tx out : Str),
      (∀ out, parseReplacementField (formatHandler (makeArgs l)) after ⟨n, out⟩ = .ok (f, ⟨n1, out ++ text⟩)) →
      (∀ (fuel : Nat) (text out : Str), f.length ≤ fuel →
        ∃ n', shortLoop (formatHandler (makeArgs l)) fuel text f ⟨n1, out⟩ = .ok ⟨n', out ++ (text ++ o)⟩) →
      ('{' :: after).length ≤ fuel →
      ∃ n', shortLoop (formatHandler (makeArgs l)) fuel tx ('{' :: after) ⟨n, out⟩ = .ok ⟨n', out ++ (tx ++ (text ++ o))⟩ := by
    intro n n1 after f text o fuel tx out hf ih hl
    cases fuel with
    | zero => simp at hl
    | succ fuel =>
      have hlt := parseReplacementField_le (handler_good hm hok) (hf (out ++ tx))
      obtain ⟨n', hn⟩ := ih fuel [] (out ++ tx ++ text) (by simp at hl; omega)
      refine ⟨n', ?_⟩
      simp only [shortLoop, if_true]
      rw [show (formatHandler (makeArgs l)).onText tx ⟨n, out⟩ = .ok ⟨n, out ++ tx⟩ from rfl, Res.bind_ok, hf, Res.bind_ok]
      simp only
      rw [hn]
      simp
  induction h with
  | done n =>
    intro fuel text out _
    rw [shortLoop_nil]
    exact ⟨n, by simp [formatHandler]⟩
  | @char n c f o h1 h2 _ ih =>
    intro fuel text out hl
    cases fuel with
    | zero => simp at hl
    | succ fuel =>
      obtain ⟨n', hn⟩ := ih fuel (text ++ [c]) out (by simpa using hl)
      refine ⟨n', ?_⟩
      simp only [shortLoop, if_neg h1, if_neg h2]
      rw [hn]; simp
  | @opening n f o _ ih =>
    intro fuel text out hl
    exact field (text := ['{']) text out (fun _ => rfl) ih hl
  | @closing n f o _ ih =>
    intro fuel text out hl
    cases fuel with
    | zero => simp at hl
    | succ fuel =>
      obtain ⟨n', hn⟩ := ih fuel [] (out ++ (text ++ ['}'])) (by simp at hl; omega)
      refine ⟨n', ?_⟩
      simp only [shortLoop]
      rw [if_neg (by decide), if_pos trivial, if_neg (by simp),
        show (formatHandler (makeArgs l)).onText (text ++ ['}']) ⟨n, out⟩ = .ok ⟨n, out ++ (text ++ ['}'])⟩ from rfl,
        Res.bind_ok, hn]
      simp
  | plain r h1 h2 h3 h4 _ ih =>
    intro fuel text out hl
    exact field text out (fun out => field_plain hm hok r h1 h2 h3 h4 _ out) ih hl
  | @opts n f o r op i n1 n2 n3 a w p t h1 h2 h3 h4 h5 h6 h7 h8 _ ih =>
    intro fuel text out hl
    refine field text out (fun out => field_specs hm r h1 h2 _ f out _ fun i' hi' => ?_) ih hl
    have hi := hi'.trans h3
    exact onFormatSpecs_text hm i' (x := a.1) (a := a.2) hi (hok _ (List.mem_of_getElem? hi)) h4 h5 f out h6 h7 h8
  | @custom n f o r i n1 n2 x g b t h1 h2 h3 h4 _ ih =>
    intro fuel text out hl
    refine field text out (fun out => field_specs hm r h1 h2 b f out _ fun i' hi' => ?_) ih hl
    rw [onFormatSpecs_custom hm i' (hi'.trans h3), h4]
    rfl

/-- the shortcut for the format string of just a field agrees with the loop -/
theorem vformatTo_eq (hm : l.length < 2 ^ 31) (hok : ∀ p ∈ l, ArgOk p.2) (fmt : Str) :
    vformatTo fmt (makeArgs l) =
      (shortLoop (formatHandler (makeArgs l)) fmt.length [] fmt ⟨0, []⟩ >>= fun s => .ok s.out) := by
  unfold vformatTo
  split
  · rename_i hf
    rw [hf]
    simp only [shortLoop, List.length_cons, List.length_nil, if_true]
    rw [show (formatHandler (makeArgs l)).onText [] ⟨0, []⟩ = .ok ⟨0, []⟩ from rfl, Res.bind_ok]
    simp only [parseReplacementField, if_true]
    rw [show (formatHandler (makeArgs l)).onArgId .auto ⟨0, []⟩ = .ok (0, ⟨1, []⟩) from rfl, Res.bind_ok]
    simp only [formatHandler]
    cases getArg (makeArgs l) 0 with
    | err m => rfl
    | ub => rfl
    | ok a =>
      simp only [Res.bind_ok]
      cases writeDefault a with
      | err m => rfl
      | ub => rfl
      | ok t => simp [Res.bind_ok, shortLoop]
  · rw [parseFormatString_eq (handler_good hm hok)]

theorem format_iff (hm : l.length < 2 ^ 31) (hok : ∀ p ∈ l, ArgOk p.2) (fmt out : Str) :
    format fmt l = .ok out ↔ Formats isPrintable l 0 fmt out := by
  unfold format
  rw [vformatTo_eq hm hok]
  constructor
  · intro h
    obtain ⟨s, h1, h2⟩ := Res.bind_eq_ok.mp h
    cases h2
    obtain ⟨o, e1, e2⟩ := shortLoop_sound hm hok _ _ _ _ _ _ h1
    rw [e2]
    exact e1
  · intro h
    obtain ⟨n', hn⟩ := shortLoop_text' hm hok h fmt.length [] [] (Nat.le_refl _)
    rw [hn]
    rfl

theorem format_ne_ub (hm : l.length < 2 ^ 31) (hok : ∀ p ∈ l, ArgOk p.2) (fmt : Str) : format fmt l ≠ .ub := by
  unfold format
  rw [vformatTo_eq hm hok]
  exact Res.bind_ne_ub (shortLoop_ne_ub (handler_good hm hok) (handler_safe hm hok) _ _ _ _ (Nat.le_refl _)) fun _ _ => nofun

end Fmt
end Efp
