import Verif.Fmt.Nested
import Verif.Fmt.ItemLemmas

/-!
# The options that a nested formatter takes for itself
-/

namespace Efp
namespace Fmt

open Spec.Fmt

/-- the options that go to the members: precision, locale and type -/
def innerOpts (o : Opts) : Opts := { prec := o.prec, loc := o.loc, type := o.type }

theorem inner_text (o : Opts) : (innerOpts o).text = t6 o := rfl

theorem inner_valid {ty : Ty} {o : Opts} (hv : o.Valid ty) : (innerOpts o).Valid ty where
  align := nofun
  fill h := absurd rfl h
  sign h := absurd rfl h
  alt := nofun
  zero := nofun
  width := ⟨trivial, nofun⟩
  prec := hv.prec
  loc := hv.loc
  type := hv.type

theorem presents_none {p : Pres} (hp : p ≠ .none) : ¬ Presents .none p := by
  cases p <;> simp [Presents, integerLike, signedInt, floating, textual] at hp ⊢

section
variable {ty : Ty} {o : Opts} (hv : o.Valid ty) {f : Str}
include hv

omit hv in
/-- the parser without a type stops at precision, locale, type and brace -/
theorem stop6 (fuel : Nat) (cur : St) (sp : Specs) (n : Int) :
    loopAt .none (fuel + 1) (t6 o ++ '}' :: f) cur sp n = .ok (sp, t6 o ++ '}' :: f, n) := by
  unfold t6 t7
  cases hp : o.prec with
  | some p =>
    simp only [precText, List.cons_append, loopAt, specLoop_succ]
    rfl
  | none =>
    simp only [precText, List.nil_append]
    by_cases hl : o.loc = true
    · rw [if_pos hl]
      simp only [List.cons_append, loopAt, specLoop_succ]
      rfl
    · rw [if_neg hl, List.nil_append]
      by_cases ht : o.type = .none
      · rw [ht]
        simp only [typeText, List.nil_append, loopAt, specLoop_succ]
        rfl
      · obtain ⟨c, set, h1, h2, h3, h4, h5⟩ := presOf_type o.type ht
        rw [h1]
        simp only [List.cons_append, List.nil_append, loopAt, specLoop_succ]
        simp only [List.mem_cons, not_or, List.not_mem_nil, not_false_eq_true, and_true] at h4
        have : set .none = false := by
          cases hs : set .none with
          | false => rfl
          | true => exact absurd ((h3 .none).mp hs) (presents_none ht)
        simp [h4, h5, h2, this]

theorem nested5 (fuel : Nat) (cur : St) (sp : Specs) (n : Int) (hc : cur.toNat < 5)
    (hf : (t5 o ++ '}' :: f).length ≤ fuel) {v : Int} {ref : ArgRef} {n1 : Int}
    (h1 : numParse o.width sp.width sp.widthRef n = some (v, ref, n1)) :
    loopAt .none fuel (t5 o ++ '}' :: f) cur sp n =
      .ok ({ sp with width := v.toNat, widthRef := ref }, t6 o ++ '}' :: f, n1) := by
  unfold t5 at hf ⊢
  cases fuel with
  | zero => simp at hf
  | succ fuel =>
  by_cases hw : o.width = .none
  · rw [hw] at hf h1 ⊢
    simp only [numParse, Option.some.injEq, Prod.mk.injEq] at h1
    obtain ⟨rfl, rfl, rfl⟩ := h1
    exact stop6 fuel cur sp n
  · obtain ⟨c, r, e6, hd, hb⟩ := head6 hv (f := f)
    have hstop : Stops (t6 o ++ '}' :: f) := by
      intro c' r' he
      rw [e6] at he
      obtain ⟨rfl, rfl⟩ := List.cons.inj he
      exact hd
    have hdyn := parseDynamicSpec_text o.width (t6 o ++ '}' :: f) sp.width sp.widthRef n hv.width.1 hstop
      (by rw [e6]; simp) (fun h => absurd h hw) h1
    have hhead : ∃ d t, o.width.text ++ (t6 o ++ '}' :: f) = d :: t ∧ ((isDigit d = true ∧ d ≠ '0') ∨ d = '{')
        ∧ 1 ≤ o.width.text.length := by
      have hwv := hv.width
      cases hwd : o.width with
      | none => exact absurd hwd hw
      | lit ds =>
        rw [hwd] at hwv
        obtain ⟨⟨q1, q2, _⟩, q3⟩ := hwv
        cases ds with
        | nil => exact absurd rfl q1
        | cons d ds =>
          refine ⟨d, _, rfl, Or.inl ⟨?_, ?_⟩, by simp [Num.text]⟩
          · rw [isDigit_eq]; exact q2 d (by simp)
          · rintro rfl
            exact q3 _ rfl rfl
      | arg r => exact ⟨'{', _, rfl, Or.inr rfl, by simp [Num.text]⟩
    obtain ⟨d, t, q1, q2, q3⟩ := hhead
    have hr : loopAt .none fuel (t6 o ++ '}' :: f) .width { sp with width := v.toNat, widthRef := ref } n1 =
        .ok ({ sp with width := v.toNat, widthRef := ref }, t6 o ++ '}' :: f, n1) := by
      obtain ⟨fuel, rfl⟩ : ∃ k, fuel = k + 1 := ⟨fuel - 1, by simp only [List.length_append, List.length_cons] at hf; omega⟩
      exact stop6 fuel .width _ n1
    have he := enterState_ok cur .width true hc rfl
    rw [List.append_assoc, q1]
    rw [q1] at hdyn
    simp only [loopAt, specLoop_succ]
    have hd1 : ¬ (d = '<' ∨ d = '>' ∨ d = '^') := by
      rintro (rfl | rfl | rfl) <;> revert q2 <;> decide
    have hd2 : ¬ (d = '+' ∨ d = '-' ∨ d = ' ') := by
      rintro (rfl | rfl | rfl) <;> revert q2 <;> decide
    have hd3 : d ≠ '#' := by rintro rfl; revert q2; decide
    have hd4 : d ≠ '0' := by rintro rfl; revert q2; decide
    have hd5 : (isDigit d || d == '{') = true := by
      rcases q2 with h | h
      · simp [h.1]
      · simp [h]
    rw [if_neg hd1, if_neg hd2, if_neg hd3, if_neg hd4, if_pos hd5, he, Res.bind_ok, hdyn, Res.bind_ok]
    exact hr

variable (hs : o.sign = .none) (ha : o.alt = false) (hz : o.zero = false)
include hs ha hz

omit hv in
theorem t2_eq : t2 o = t5 o := by
  unfold t2 t3 t4
  rw [hs, ha, hz]
  rfl

theorem nested1 (fuel : Nat) (sp : Specs) (n : Int) (hfill : o.fill = [])
    (hf : (t1 o ++ '}' :: f).length ≤ fuel) {v : Int} {ref : ArgRef} {n1 : Int}
    (h1 : numParse o.width sp.width sp.widthRef n = some (v, ref, n1)) :
    loopAt .none fuel (t1 o ++ '}' :: f) .start sp n =
      .ok ({ stAlign o sp with width := v.toNat, widthRef := ref }, t6 o ++ '}' :: f, n1) := by
  unfold t1 at hf ⊢
  rw [t2_eq hs ha hz] at hf ⊢
  by_cases hal : o.align = .none
  · rw [stAlign, if_pos hal]
    rw [hal] at hf ⊢
    exact nested5 hv fuel .start sp n (by decide) hf h1
  · have he := enterState_ok .start .align true (by decide) rfl
    cases fuel with
    | zero => simp at hf
    | succ fuel =>
      rw [stAlign, if_neg hal, if_pos hfill]
      cases hs : o.align with
      | none => exact absurd hs hal
      | numeric => exact absurd hs hv.align
      | left =>
        rw [hs] at hf
        simp only [alignText, List.cons_append, List.nil_append, loopAt, specLoop_succ]
        rw [if_pos (by decide), he, Res.bind_ok]
        exact nested5 hv fuel .align { sp with align := .left } n (by decide) (by simpa [alignText] using hf) h1
      | right =>
        rw [hs] at hf
        simp only [alignText, List.cons_append, List.nil_append, loopAt, specLoop_succ]
        rw [if_pos (by decide), he, Res.bind_ok]
        exact nested5 hv fuel .align { sp with align := .right } n (by decide) (by simpa [alignText] using hf) h1
      | center =>
        rw [hs] at hf
        simp only [alignText, List.cons_append, List.nil_append, loopAt, specLoop_succ]
        rw [if_pos (by decide), he, Res.bind_ok]
        exact nested5 hv fuel .align { sp with align := .center } n (by decide) (by simpa [alignText] using hf) h1

/-- fill, alignment and width are read, the rest is left -/
theorem nested_outer (n : Int) {v : Int} {ref : ArgRef} {n1 : Int}
    (h : numParse o.width 0 .none n = some (v, ref, n1)) :
    parseFormatSpecs .none (o.text ++ '}' :: f) n =
      .ok ({ stAlign o {} with width := v.toNat, widthRef := ref }, t6 o ++ '}' :: f, n1) := by
  by_cases hfill : o.fill = []
  · have hlen : (t1 o ++ '}' :: f).length ≤ (t1 o ++ '}' :: f).length := Nat.le_refl _
    have hr := nested1 hv hs ha hz _ {} n hfill hlen (f := f) h
    rw [text_eq, hfill, List.nil_append]
    generalize hpos : t1 o ++ '}' :: f = pos at hr
    match pos, hr, hpos with
    | [], hr, hpos => simp at hpos
    | [b], hr, hpos => exact hr
    | b :: x :: r, hr, hpos =>
      simp only [parseFormatSpecs]
      by_cases hx : parseAlign x = .none
      · rw [if_pos hx]; exact hr
      · -- the second byte is an alignment, so the options are empty
        rw [if_neg hx]
        have ht1 : t1 o = [] := by
          cases e : t1 o with
          | nil => rfl
          | cons y t =>
            exfalso
            rw [e] at hpos
            have hxm : x ∈ t ∨ x = '}' := by
              cases t with
              | nil => right; simp at hpos; exact hpos.2.1.symm
              | cons z t => left; simp at hpos; simp [hpos.2.1]
            rcases hxm with hxm | rfl
            · apply hx
              apply t2_noAlign hv
              unfold t1 at e
              cases ha : o.align <;> rw [ha] at e <;> simp [alignText] at e
              · rw [e]; exact List.mem_cons_of_mem _ hxm
              · rw [e.2]; exact hxm
              · rw [e.2]; exact hxm
              · rw [e.2]; exact hxm
              · rw [e]; exact List.mem_cons_of_mem _ hxm
            · exact hx (by decide)
        rw [ht1, List.nil_append] at hpos
        obtain ⟨rfl, rfl⟩ := List.cons.inj hpos
        rw [specLoop_fill _ _ _ _ _ _ _ _ (Or.inl (by decide)), if_pos rfl]
        -- and reading them changes nothing
        simp only [loopAt] at hr
        rw [show List.length ('}' :: x :: r) = (r.length + 1) + 1 from rfl, specLoop_succ] at hr
        exact hr
  · obtain ⟨hal, b, r, hbr, hb1, hb2, hlen⟩ := hv.fill hfill
    obtain ⟨al, hal1, hal2⟩ : ∃ al, alignText o.align = [al] ∧ parseAlign al = o.align := by
      cases ha : o.align with
      | none => exact absurd ha hal
      | numeric => exact absurd ha hv.align
      | left => exact ⟨_, rfl, by decide⟩
      | right => exact ⟨_, rfl, by decide⟩
      | center => exact ⟨_, rfl, by decide⟩
    have etext : o.text ++ '}' :: f = b :: (r ++ al :: (t5 o ++ '}' :: f)) := by
      rw [text_eq, t1, hal1, hbr, t2_eq hs ha hz]; simp
    rw [etext]
    have htail : ∃ x q, r ++ al :: (t5 o ++ '}' :: f) = x :: q := by
      cases r with
      | nil => exact ⟨_, _, rfl⟩
      | cons x r => exact ⟨_, _, rfl⟩
    obtain ⟨x, q, hxq⟩ := htail
    rw [hxq]
    simp only [parseFormatSpecs]
    have hlow : (if parseAlign x = .none then b else Char.ofNat 0).toNat = 0 ∨
        0xc0 ≤ (if parseAlign x = .none then b else Char.ofNat 0).toNat := by
      by_cases hx : parseAlign x = .none
      · right
        rw [if_pos hx]
        cases r with
        | nil =>
          simp only [List.nil_append, List.cons.injEq] at hxq
          rw [← hxq.1, hal2] at hx
          exact absurd hx hal
        | cons y r => exact fillTail_high b (by rw [← hlen]; simp)
      · left; rw [if_neg hx]; decide
    rw [show q.length + 2 = (q.length + 1) + 1 from rfl, specLoop_fill _ _ _ _ _ _ _ _ hlow, if_neg hb2, ← hxq]
    have hdrop : (b :: (r ++ al :: (t5 o ++ '}' :: f))).drop (codePointLength b) = al :: (t5 o ++ '}' :: f) := by
      rw [codePointLength_eq, ← hlen]; simp
    have htake : (b :: (r ++ al :: (t5 o ++ '}' :: f))).take (codePointLength b) = b :: r := by
      rw [codePointLength_eq, ← hlen]; simp
    simp only [parseFill]
    rw [hdrop, htake]
    simp only
    rw [if_neg hb1, enterState_ok .start .align _ (by decide) (by rw [hal2]; simpa using hal), Res.bind_ok, Res.bind_ok]
    simp only
    have hl : (t5 o ++ '}' :: f).length ≤ q.length + 1 := by
      have := congrArg List.length hxq
      simp at this ⊢
      omega
    rw [stAlign, if_neg hal, if_neg hfill, hbr, hal2]
    exact nested5 hv _ .align { ({} : Specs) with fill := b :: r, align := o.align } n (by decide) hl h

end

/-! ## A field with a user-defined type -/

variable {l : List (Option Str × Arg)}

theorem handler_forward (hm : l.length < 2 ^ 31)
    (hok : ∀ q ∈ l, ∀ g, q.2 = .custom g → ∀ b n p n' t, g b n = .ok (p, n', t) → p <:+ b) :
    (formatHandler (makeArgs l)).Good where
  nil s := by simp [formatHandler]
  forward := by
    intro id b s e s' h
    change onFormatSpecs (makeArgs l) id b s = _ at h
    cases hi : l[id]? with
    | none =>
      unfold onFormatSpecs at h
      rw [getArg_eq l hm, hi] at h
      cases h
    | some p =>
      obtain ⟨x, a⟩ := p
      by_cases hc : a.ty = .custom
      · obtain ⟨g, rfl⟩ : ∃ g, a = .custom g := by cases a <;> first | exact ⟨_, rfl⟩ | cases hc
        rw [onFormatSpecs_custom hm id hi] at h
        obtain ⟨⟨pos, nx, t⟩, h1, h2⟩ := Res.bind_eq_ok.mp h
        cases h2
        exact (hok _ (List.mem_of_getElem? hi) g rfl _ _ _ _ _ h1).length_le
      · rw [onFormatSpecs_eq hm id hi hc] at h
        obtain ⟨⟨sp, pos, next⟩, h1, h2⟩ := Res.bind_eq_ok.mp h
        simp only at h2
        obtain ⟨w, h3, h4⟩ := Res.bind_eq_ok.mp h2
        obtain ⟨p, h5, h6⟩ := Res.bind_eq_ok.mp h4
        have := parseFormatSpecs_le h1
        cases pos with
        | nil => cases h6
        | cons c f =>
          simp only at h6
          split at h6
          · cases h6
          · obtain ⟨text, h7, h8⟩ := Res.bind_eq_ok.mp h6
            cases h8
            exact this

/-- a field for a first argument of user-defined type -/
theorem format_custom_field (g : Str → Int → Res (Str × Int × Str))
    (hg : ∀ b n p n' t, g b n = .ok (p, n', t) → p <:+ b) (hm : l.length < 2 ^ 31 - 1) (hl : ∀ q ∈ l, ArgOk q.2)
    {b : Str} {n' : Int} {text : Str} (h : g b 1 = .ok (['}'], n', text)) :
    format ('{' :: ':' :: b) ((none, .custom g) :: l) = .ok text := by
  have hm' : ((none, Arg.custom g) :: l).length < 2 ^ 31 := by rw [List.length_cons]; omega
  have good : (formatHandler (makeArgs ((none, .custom g) :: l))).Good := by
    refine handler_forward hm' fun q hq g' e => ?_
    rcases List.mem_cons.1 hq with rfl | hq
    · cases e; exact hg
    · have := hl q hq
      rw [e] at this
      intro b n p n' t h
      exact (this b n).2 p n' t h
  unfold format vformatTo
  rw [if_neg (by simp), parseFormatString_eq good]
  have hr : parseReplacementField (formatHandler (makeArgs ((none, .custom g) :: l))) (':' :: b) ⟨0, []⟩ =
      .ok ([], ⟨n', text⟩) := by
    refine field_specs hm' .auto trivial (n := 0) (n1 := 1) (i := 0) rfl b [] [] _ fun i' hi' => ?_
    rw [onFormatSpecs_custom hm' i' (hi'.trans rfl), h]
    rfl
  simp only [shortLoop, List.length_cons, if_true]
  rw [show (formatHandler (makeArgs ((none, .custom g) :: l))).onText [] ⟨0, []⟩ = .ok ⟨0, []⟩ from rfl, Res.bind_ok, hr,
    Res.bind_ok]
  simp [shortLoop, formatHandler, Res.bind_ok]

/-- a nested formatter leaves the position in its options -/
theorem nested_suffix (ty : Ty) (ps : List Part) : ∃ g, nestedArg ty ps = .custom g ∧
    ∀ b n p n' t, g b n = .ok (p, n', t) → p <:+ b := by
  refine ⟨_, rfl, fun b n p' n' t h => ?_⟩
  obtain ⟨⟨sp, inner, pos, nx⟩, k1, k2⟩ := Res.bind_eq_ok.mp h
  obtain ⟨t1, -, k3⟩ := Res.bind_eq_ok.mp k2
  obtain ⟨t2, -, k4⟩ := Res.bind_eq_ok.mp k3
  cases k4
  obtain ⟨⟨sp1, pos1, nx1⟩, j1, j2⟩ := Res.bind_eq_ok.mp k1
  obtain ⟨⟨sp2, pos2, nx2⟩, j3, j4⟩ := Res.bind_eq_ok.mp j2
  cases j4
  exact (parseFormatSpecs_inv (nativeParse_ok j3)).2.trans (parseFormatSpecs_inv j1).2

end Fmt
end Efp
