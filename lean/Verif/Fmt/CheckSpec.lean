import Verif.Spec.FmtCheck
import Verif.Fmt.GrammarLemmas

/-!
# The two grammars: format strings for types and for values
-/

namespace Efp
namespace Fmt

open Spec.Fmt

variable {l : List (Option Str × Arg)}

theorem typesOf_get (i : Nat) : (typesOf l)[i]? = l[i]?.map fun p => (p.1, p.2.ty) := by
  simp [typesOf]

theorem nameIndex_typesOf (s : Str) : (typesOf l).findIdx? (fun p => p.1 = some s) = nameIndex l s := by
  unfold typesOf nameIndex
  rw [List.findIdx?_map]
  rfl

theorem takeT_eq (r : Ref) (n : Int) : r.takeT (typesOf l) n = r.take l n := by
  cases r with
  | auto => rfl
  | index i => rfl
  | name s => simp only [Ref.takeT, Ref.take, nameIndex_typesOf]

theorem dynValue_integral {a : Arg} {v : Int} (h : dynValue a = some v) : integerLike a.ty := by
  cases a <;> simp [dynValue] at h <;> simp [integerLike, signedInt, Arg.ty]

/-- a width that has a value is used rightly -/
theorem uses_of_value {q : Num} {v n w n' : Int} (h : q.value l v n = some (w, n')) :
    ∃ d, q.uses (typesOf l) n = some (d, n') := by
  cases q with
  | none => simp only [Num.value, Option.some.injEq, Prod.mk.injEq] at h; exact ⟨[], by simp [Num.uses, h.2]⟩
  | lit d => simp only [Num.value, Option.some.injEq, Prod.mk.injEq] at h; exact ⟨[], by simp [Num.uses, h.2]⟩
  | arg r =>
    simp only [Num.value, Option.bind_eq_bind, Option.bind_eq_some_iff] at h
    obtain ⟨⟨i, n1⟩, h1, a, h2, x, h3, h4⟩ := h
    cases h4
    have h5 : (typesOf l)[i]? = some (a.1, a.2.ty) := by rw [typesOf_get, h2]; rfl
    have h6 := dynValue_integral h3
    cases r with
    | name s =>
      simp only [Ref.take, Option.map_eq_some_iff] at h1
      obtain ⟨j, _, h1⟩ := h1
      cases h1
      exact ⟨_, rfl⟩
    | auto =>
      refine ⟨[.index i], ?_⟩
      have e : Ref.takeT (typesOf l) .auto n = some (i, n1) := by rw [takeT_eq]; exact h1
      simp only [Num.uses, e, Option.bind_eq_bind, Option.bind_some, h5]
      exact if_pos h6
    | index k =>
      refine ⟨[.index i], ?_⟩
      have e : Ref.takeT (typesOf l) (.index k) n = some (i, n1) := by rw [takeT_eq]; exact h1
      simp only [Num.uses, e, Option.bind_eq_bind, Option.bind_some, h5]
      exact if_pos h6

theorem precUses_of_value {q : Option Num} {n p n' : Int} (h : precValue l q n = some (p, n')) :
    ∃ d, precUses (typesOf l) q n = some (d, n') := by
  cases q with
  | none => simp only [precValue, Option.some.injEq, Prod.mk.injEq] at h; exact ⟨[], by simp [precUses, h.2]⟩
  | some q => exact uses_of_value h

/-- a width whose arguments have values has a value -/
theorem value_of_uses {q : Num} {v n n' : Int} {d : List ArgRef} (h : q.uses (typesOf l) n = some (d, n'))
    (hd : ∀ r ∈ d, ∃ a x, argOf l r = some a ∧ dynValue a = some x ∧ x < 1000000000) :
    ∃ w, q.value l v n = some (w, n') ∧ (∀ r, q = .arg r → 0 ≤ w ∧ w < 1000000000) := by
  have arg : ∀ (r : Ref) (i : Nat) (n1 : Int) (a : Arg), r.take l n = some (i, n1) → l[i]?.map (·.2) = some a →
      (∃ x, dynValue a = some x ∧ x < 1000000000) → ∃ w, Num.value l v (.arg r) n = some (w, n1) ∧
        (∀ r', Num.arg r = .arg r' → 0 ≤ w ∧ w < 1000000000) := by
    rintro r i n1 a h1 h2 ⟨x, h3, h4⟩
    obtain ⟨p, h5, h6⟩ := Option.map_eq_some_iff.mp h2
    refine ⟨x, ?_, fun _ _ => ⟨(dynValue_bound h3).1, h4⟩⟩
    simp only [Num.value, h1, Option.bind_eq_bind, Option.bind_some, h5, h6, h3]
  cases q with
  | none => simp only [Num.uses, Option.some.injEq, Prod.mk.injEq] at h; exact ⟨v, by simp [Num.value, h.2], nofun⟩
  | lit x => simp only [Num.uses, Option.some.injEq, Prod.mk.injEq] at h; exact ⟨decimal x, by simp [Num.value, h.2], nofun⟩
  | arg r =>
    cases r with
    | name s =>
      simp only [Num.uses, Option.some.injEq, Prod.mk.injEq] at h
      obtain ⟨rfl, rfl⟩ := h
      obtain ⟨a, x, h1, h2, h3⟩ := hd (.name s) (by simp)
      simp only [argOf] at h1
      obtain ⟨i, h4, h5⟩ := Option.bind_eq_some_iff.mp h1
      exact arg (.name s) i n a (by simp [Ref.take, h4]) h5 ⟨x, h2, h3⟩
    | auto =>
      simp only [Num.uses, Option.bind_eq_bind, Option.bind_eq_some_iff] at h
      obtain ⟨⟨i, n1⟩, h1, t, h2, h3⟩ := h
      simp only at h3
      split at h3
      · cases h3
        obtain ⟨a, x, h4, h5, h6⟩ := hd (.index i) (by simp)
        exact arg _ i _ a (by rw [← takeT_eq]; exact h1) h4 ⟨x, h5, h6⟩
      · cases h3
    | index k =>
      simp only [Num.uses, Option.bind_eq_bind, Option.bind_eq_some_iff] at h
      obtain ⟨⟨i, n1⟩, h1, t, h2, h3⟩ := h
      simp only at h3
      split at h3
      · cases h3
        obtain ⟨a, x, h4, h5, h6⟩ := hd (.index i) (by simp)
        exact arg _ i _ a (by rw [← takeT_eq]; exact h1) h4 ⟨x, h5, h6⟩
      · cases h3

theorem decimal_lt (d : Str) (hd : ∀ c ∈ d, c.isDigit = true) : decimal d < 10 ^ d.length := by
  have key : ∀ (d : Str) (v : Nat), (∀ c ∈ d, c.isDigit = true) → Nat.ofDigitChars 10 d v < (v + 1) * 10 ^ d.length := by
    intro d
    induction d with
    | nil => intro v _; simp [Nat.ofDigitChars]
    | cons c d ih =>
      intro v h
      have h1 := ih (10 * v + (c.toNat - '0'.toNat)) (fun c hc => h c (by simp [hc]))
      have h2 : c.toNat - '0'.toNat ≤ 9 := by
        have := h c (by simp)
        simp only [Char.isDigit, Bool.and_eq_true, decide_eq_true_eq] at this
        have h3 : c.val.toNat ≤ 57 := this.2
        have : c.toNat ≤ 57 := h3
        have : '0'.toNat = 48 := rfl
        omega
      rw [Nat.ofDigitChars_cons]
      calc _ < (10 * v + (c.toNat - '0'.toNat) + 1) * 10 ^ d.length := h1
        _ ≤ (10 * (v + 1)) * 10 ^ d.length := Nat.mul_le_mul_right _ (by omega)
        _ = _ := by rw [List.length_cons, Nat.pow_succ]; ac_rfl
  have := key d 0 hd
  simpa [decimal] using this

theorem prec_of_uses {q : Option Num} {n n' : Int} {d : List ArgRef} (h : precUses (typesOf l) q n = some (d, n'))
    (hd : ∀ r ∈ d, ∃ a x, argOf l r = some a ∧ dynValue a = some x ∧ x < 1000000000)
    (hv : ∀ p, q = some p → p.Valid) (hs : ShortNumbers (precText q)) :
    ∃ p, precValue l q n = some (p, n') ∧ -1 ≤ p ∧ p < 1000000000 := by
  cases q with
  | none => simp only [precUses, Option.some.injEq, Prod.mk.injEq] at h; exact ⟨-1, by simp [precValue, h.2], by omega, by omega⟩
  | some q =>
    obtain ⟨p, h1, h2⟩ := value_of_uses (v := -1) h hd
    refine ⟨p, h1, ?_⟩
    cases q with
    | none => simp only [Num.value, Option.some.injEq, Prod.mk.injEq] at h1; omega
    | lit x =>
      have hx := hv _ rfl
      have := hs x ⟨['.'], [], by simp [precText, Num.text]⟩ hx.2.1
      have h3 := decimal_lt x hx.2.1
      have h4 : (10 : Nat) ^ x.length ≤ 10 ^ 9 := Nat.pow_le_pow_right (by omega) (by omega)
      simp only [Num.value, Option.some.injEq, Prod.mk.injEq] at h1
      have : decimal x < 10 ^ 9 := by omega
      omega
    | arg r => have := h2 r rfl; omega

/-! ## Options and texts -/

theorem showInt_some {ty : Ty} (hi : integerLike ty) {o : Opts} (hv : o.Valid ty) (hns : o.type ≠ .string)
    (hnd : o.type ≠ .debug) (v w p : Int) : ∃ t, showInt v (o.meaning w p) = some t := by
  have ht := hv.type
  have hb : o.type = .chr ∨ ∃ b, baseOf v.natAbs o.type = some b := by
    generalize o.type = t at ht hns hnd
    cases t <;> first
      | exact .inl rfl
      | exact .inr ⟨_, rfl⟩
      | exact absurd rfl hns
      | exact absurd rfl hnd
      | (exfalso; simp only [Presents, floating] at ht; simp only [integerLike, signedInt] at hi
         rcases ht with rfl | rfl | rfl <;> simp at hi)
      | (exfalso; simp only [Presents, floating] at ht; simp only [integerLike, signedInt] at hi
         rcases ht with rfl | rfl <;> simp at hi)
  unfold showInt
  have e : (o.meaning w p).type = o.type := rfl
  rw [e]
  by_cases hc : o.type = .chr
  · rw [if_pos hc]; exact ⟨_, rfl⟩
  · rw [if_neg hc]
    obtain ⟨b, hb⟩ := hb.resolve_left hc
    obtain ⟨b1, b2, b3⟩ := b
    rw [hb]
    simp only [Option.bind_eq_bind, Option.bind_some]
    by_cases hn : (o.meaning w p).align = .numeric
    · rw [if_pos hn]; exact ⟨_, rfl⟩
    · rw [if_neg hn]; exact ⟨_, rfl⟩

theorem showSpecs_some {a : Arg} (hs : Showable a) (hc : a.ty ≠ .custom) {o : Opts} (hv : o.Valid a.ty)
    (hch : a.ty = .char → o.FitsChar) {w p : Int} (hw : w.toNat < 2 ^ 31) (hp1 : -1 ≤ p) (hp2 : p < 1000000000) :
    ∃ t, showSpecs isPrintable (o.meaning w p) a = some t := by
  have ht := hv.type
  have e : (o.meaning w p).type = o.type := rfl
  have int : ∀ ty, signedInt ty ∨ ty = .uint ∨ ty = .ulongLong ∨ ty = .uint128 → o.Valid ty → ∀ v,
      ∃ t, showInt v (o.meaning w p) = some t := by
    intro ty hi hv v
    have ht := hv.type
    refine showInt_some (ty := ty) ?_ hv ?_ ?_ v w p
    · rcases hi with h | h | h | h <;> simp [integerLike, h]
    · intro h; rw [h] at ht; simp only [signedInt] at hi; simp only [Presents, textual] at ht
      rcases ht with rfl | rfl | rfl <;> simp at hi
    · intro h; rw [h] at ht; simp only [signedInt] at hi; simp only [Presents, textual] at ht
      rcases ht with rfl | rfl | rfl <;> simp at hi
  have flo : ∀ ty, floating ty → Presents ty o.type → Presents .double o.type := by
    intro ty hf ht
    generalize o.type = t at ht
    cases t <;> simp only [Presents, integerLike, signedInt, textual, floating] at hf ht ⊢ <;>
      (try rcases hf with rfl | rfl | rfl <;> simp at ht) <;> simp
  cases a with
  | int v => exact int .int (.inl (.inl rfl)) hv v
  | uint v => exact int .uint (by simp) hv v
  | longLong v => exact int .longLong (.inl (.inr (.inl rfl))) hv v
  | ulongLong v => exact int .ulongLong (by simp) hv v
  | int128 v => exact int .int128 (.inl (.inr (.inr rfl))) hv v
  | uint128 v => exact int .uint128 (by simp) hv v
  | bool v =>
    simp only [showSpecs, showBool, e]
    by_cases h : o.type = .none ∨ o.type = .string
    · rw [if_pos h]; exact ⟨_, rfl⟩
    · rw [if_neg h]
      refine showInt_some (ty := .bool) (by simp [integerLike]) hv (fun h' => h (.inr h')) ?_ _ w p
      intro h'; rw [h'] at ht; simp [Presents, textual, Arg.ty] at ht
  | char c =>
    simp only [showSpecs, showChar, e]
    by_cases h : o.type = .none ∨ o.type = .chr ∨ o.type = .debug
    · rw [if_pos h]
      obtain ⟨h1, h2, h3⟩ := hch rfl h
      rw [if_neg]
      · exact ⟨_, rfl⟩
      · rintro (h4 | h4 | h4)
        · simp only [Opts.meaning] at h4
          split at h4
          · rename_i h5; exact h3 h5.2 h5.1
          · exact hv.align h4
        · exact h4 h1
        · simp [Opts.meaning, h2] at h4
    · rw [if_neg h]
      refine showInt_some (ty := .char) (by simp [integerLike]) hv ?_ (fun h' => h (.inr (.inr h'))) _ w p
      intro h'; rw [h'] at ht; simp [Presents, textual, Arg.ty] at ht
  | float t f =>
    obtain ⟨s, h⟩ := hs.2 (o.meaning w p) hw hp1 hp2 (flo .float (by simp [floating]) ht)
    exact ⟨s, by simp [showSpecs, h, okOnly]⟩
  | double t f =>
    obtain ⟨s, h⟩ := hs.2 (o.meaning w p) hw hp1 hp2 (flo .double (by simp [floating]) ht)
    exact ⟨s, by simp [showSpecs, h, okOnly]⟩
  | longDouble t f =>
    obtain ⟨s, h⟩ := hs.2 (o.meaning w p) hw hp1 hp2 (flo .longDouble (by simp [floating]) ht)
    exact ⟨s, by simp [showSpecs, h, okOnly]⟩
  | cstring addr s =>
    simp only [showSpecs]
    by_cases h : (o.meaning w p).type = .pointer
    · rw [if_pos h]; exact ⟨_, rfl⟩
    · rw [if_neg h, if_neg hs]; exact ⟨_, rfl⟩
  | string s => exact ⟨_, rfl⟩
  | pointer addr => exact ⟨_, rfl⟩
  | custom f => exact absurd rfl hc

theorem showDefault_some {a : Arg} (hs : Showable a) : ∃ t, showDefault a = some t := by
  cases a with
  | float t f => obtain ⟨⟨s, h⟩, _⟩ := hs; exact ⟨s, by simp [showDefault, h, okOnly]⟩
  | double t f => obtain ⟨⟨s, h⟩, _⟩ := hs; exact ⟨s, by simp [showDefault, h, okOnly]⟩
  | longDouble t f => obtain ⟨⟨s, h⟩, _⟩ := hs; exact ⟨s, by simp [showDefault, h, okOnly]⟩
  | cstring addr s => exact ⟨s, if_neg hs⟩
  | custom f => obtain ⟨s, h⟩ := hs [] 0; exact ⟨s, by simp [showDefault, h, okOnly]⟩
  | _ => exact ⟨_, rfl⟩

theorem fitsChar_of_show {c : Char} {o : Opts} {w p : Int} {t : Str} (h : showChar isPrintable c (o.meaning w p) = some t) :
    o.FitsChar := by
  intro ht
  unfold showChar at h
  rw [if_pos (by simpa [Opts.meaning] using ht)] at h
  split at h
  · cases h
  · rename_i hn
    simp only [not_or, Opts.meaning] at hn
    refine ⟨Classical.not_not.mp hn.2.1, by simpa using hn.2.2, fun hz ha => hn.1 (by simp [ha, hz])⟩

/-! ## The grammars -/

theorem accepts_of_formats (hcu : ∀ p ∈ l, ∀ g, p.2 = .custom g → ∀ b n pos n' t, g b n = .ok (pos, n', t) → pos = b ∧ n' = n)
    {n : Int} {fmt out : Str} (h : Formats isPrintable l n fmt out) : ∃ d, Accepts (typesOf l) n fmt d := by
  induction h with
  | done n => exact ⟨_, .done n⟩
  | char h1 h2 _ ih => obtain ⟨d, hd⟩ := ih; exact ⟨d, .char h1 h2 hd⟩
  | opening _ ih => obtain ⟨d, hd⟩ := ih; exact ⟨d, .opening hd⟩
  | closing _ ih => obtain ⟨d, hd⟩ := ih; exact ⟨d, .closing hd⟩
  | @plain n f out r i n' a t h1 h2 h3 h4 _ ih =>
    obtain ⟨d, hd⟩ := ih
    refine ⟨d, .plain r h1 (by rw [takeT_eq]; exact h2) ?_ hd⟩
    simp only [typesOf, List.length_map]
    exact (List.getElem?_eq_some_iff.mp h3).1
  | @opts n f out r o i n1 n2 n3 a w p t h1 h2 h3 h4 h5 h6 h7 h8 _ ih =>
    obtain ⟨d, hd⟩ := ih
    obtain ⟨d1, hd1⟩ := uses_of_value h6
    obtain ⟨d2, hd2⟩ := precUses_of_value h7
    refine ⟨_, .opts r o h1 (by rw [takeT_eq]; exact h2) (by rw [typesOf_get, h3]; rfl) h4 h5 (fun hch => ?_) hd1 hd2 hd⟩
    obtain ⟨x, a⟩ := a
    cases a <;> simp [Arg.ty] at hch
    exact fitsChar_of_show h8
  | @custom n f out r i n1 n2 x g b t h1 h2 h3 h4 _ ih =>
    obtain ⟨d, hd⟩ := ih
    obtain ⟨e1, e2⟩ := hcu _ (List.mem_of_getElem? h3) g rfl _ _ _ _ _ h4
    subst e1 e2
    exact ⟨d, .custom r h1 (by rw [takeT_eq]; exact h2) (by rw [typesOf_get, h3]; rfl) hd⟩

theorem formats_of_accepts (hs : ∀ p ∈ l, Showable p.2) {n : Int} {fmt : Str} {d : List ArgRef}
    (h : Accepts (typesOf l) n fmt d) (hd : ∀ r ∈ d, ∃ a x, argOf l r = some a ∧ dynValue a = some x ∧ x < 1000000000)
    (hf : ShortNumbers fmt) : ∃ out, Formats isPrintable l n fmt out := by
  have cut : ∀ {a b : Str}, ShortNumbers (a ++ b) → ShortNumbers b := fun {a _} h d hd => h d (hd.trans ⟨a, [], by simp⟩)
  induction h with
  | done n => exact ⟨_, .done n⟩
  | @char n c f d h1 h2 _ ih => obtain ⟨o, ho⟩ := ih hd (cut (a := [c]) hf); exact ⟨_, .char h1 h2 ho⟩
  | @opening n f d _ ih => obtain ⟨o, ho⟩ := ih hd (cut (a := ['{', '{']) hf); exact ⟨_, .opening ho⟩
  | @closing n f d _ ih => obtain ⟨o, ho⟩ := ih hd (cut (a := ['}', '}']) hf); exact ⟨_, .closing ho⟩
  | @plain n f d r i n' h1 h2 h3 _ ih =>
    obtain ⟨o, ho⟩ := ih hd (cut (a := '{' :: (r.text ++ ['}'])) (by simpa using hf))
    have hi : i < l.length := by simpa [typesOf] using h3
    obtain ⟨t, ht⟩ := showDefault_some (hs _ (List.getElem_mem hi))
    exact ⟨_, .plain r h1 (by rw [← takeT_eq]; exact h2) (List.getElem?_eq_getElem hi) ht ho⟩
  | @opts n f d r o i n1 n2 n3 x ty d1 d2 h1 h2 h3 h4 h5 h6 h7 h8 _ ih =>
    obtain ⟨out, ho⟩ := ih (fun r hr => hd r (by simp [hr])) (cut (a := '{' :: (r.text ++ ':' :: (o.text ++ ['}']))) (by simpa using hf))
    rw [typesOf_get] at h3
    obtain ⟨p, h9, h10⟩ := Option.map_eq_some_iff.mp h3
    cases h10
    obtain ⟨w, hw1, hw2⟩ := value_of_uses (v := 0) h7 (fun r hr => hd r (by simp [hr]))
    have hpt : ShortNumbers (precText o.prec) := fun d hd => hf d (hd.trans (by
      refine ⟨'{' :: (r.text ++ ':' :: (o.fill ++ (alignText o.align ++ (signOptText o.sign ++ ((if o.alt then ['#'] else []) ++
        ((if o.zero then ['0'] else []) ++ o.width.text)))))), (if o.loc then ['L'] else []) ++ typeText o.type ++ '}' :: f, ?_⟩
      simp [Opts.text]))
    obtain ⟨pv, hp1, hp2, hp3⟩ := prec_of_uses h8 (fun r hr => hd r (by simp [hr])) (fun q hq => (h5.prec q hq).2.1) hpt
    have hwb := value_bound h5.width.1 hw1
    obtain ⟨t, ht⟩ := showSpecs_some (hs _ (List.mem_of_getElem? h9)) h4 h5 h6 (w := w) (by omega) hp2 hp3
    exact ⟨_, .opts r o h1 (by rw [← takeT_eq]; exact h2) h9 h4 h5 hw1 hp1 ht ho⟩
  | @custom n f d r i n1 x h1 h2 h3 _ ih =>
    obtain ⟨out, ho⟩ := ih hd (cut (a := '{' :: (r.text ++ [':', '}'])) (by simpa using hf))
    rw [typesOf_get] at h3
    obtain ⟨p, h9, h10⟩ := Option.map_eq_some_iff.mp h3
    obtain ⟨y, a⟩ := p
    cases a <;> simp [Arg.ty] at h10
    rename_i g
    obtain ⟨t, ht⟩ := hs _ (List.mem_of_getElem? h9) ('}' :: f) n1
    exact ⟨_, .custom r h1 (by rw [← takeT_eq]; exact h2) h9 ht ho⟩

end Fmt
end Efp
