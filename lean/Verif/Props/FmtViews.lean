import Verif.Fmt.ItemFormat
import Verif.Fmt.ItemBare
import Verif.Props.FmtFloatPrec
import Verif.Props.Format

/-!
# Properties of containers, joined ranges, raw bytes and grouped digits in format strings (C114, C115, C116)
-/

namespace Efp
namespace Props

open Efp.Spec Efp.Spec.Fmt Efp.Fmt Dragonbox

/-! ## C114 -/

/-- A format string and its items stand for a text exactly as the grammar says, and the call returns that text. -/
theorem C114_grammar (l : List (Option Str × Item)) (hm : l.length < 2 ^ 31) (hok : ∀ p ∈ l, ItemOk p.2) (fmt out : Str) :
    format fmt (itemArgs l) = .ok out ↔ FormatsItems isPrintable l 0 fmt out := formatItems_iff hm hok fmt out

/-- A call that returns no text throws, whatever the format string is. -/
theorem C114_defined (l : List (Option Str × Item)) (hm : l.length < 2 ^ 31) (hok : ∀ p ∈ l, ItemOk p.2) (fmt : Str) :
    (∃ out, format fmt (itemArgs l) = .ok out) ∨ ∃ e, format fmt (itemArgs l) = .err e := by
  cases h : format fmt (itemArgs l) with
  | ok out => exact Or.inl ⟨out, rfl⟩
  | err e => exact Or.inr ⟨e, rfl⟩
  | ub => exact absurd h (formatItems_ne_ub hm hok fmt)

/-- the values a container holds: integers, `bool`, `char`, texts and pointers, or `float`s and `double`s -/
def Element (ty : Ty) (v : Arg) : Prop :=
  v.ty = ty ∧ ArgOk v ∧ ((¬ floating ty ∧ ty ≠ .custom) ∨ ∃ (K : Kind) (neg : Bool) (m : Nat), v = K.arg neg m)

theorem Element.bare {ty : Ty} {v : Arg} (h : Element ty v) : showSpecs isPrintable {} v = showDefault v := by
  obtain ⟨rfl, h2, ⟨h3, h4⟩ | ⟨K, neg, m, rfl⟩⟩ := h
  · exact showSpecs_bare h3 h4 h2
  · cases K
    · exact congrArg okOnly (writeFloat_bare (Or.inl ⟨rfl, rfl⟩) converts32 _)
    · exact congrArg okOnly (writeFloat_bare (Or.inr ⟨rfl, rfl⟩) converts64 _)

theorem Element.ne_custom {ty : Ty} {v : Arg} (h : Element ty v) : ty ≠ .custom ∧ ty ≠ .none := by
  obtain ⟨rfl, -, ⟨-, h4⟩ | ⟨K, neg, m, rfl⟩⟩ := h
  · exact ⟨h4, ty_ne_none v⟩
  · cases K <;> exact ⟨nofun, nofun⟩

theorem mapM_eq_some {α β : Type} {f : α → Option β} : ∀ {l : List α} {ts : List β}, l.mapM f = some ts ↔ l.map f = ts.map some
  | [], ts => by cases ts <;> simp
  | a :: l, ts => by
    rw [List.mapM_cons]
    cases hf : f a with
    | none => cases ts <;> simp [hf]
    | some b =>
      cases hm : l.mapM f with
      | none =>
        have : ∀ us : List β, l.map f ≠ us.map some := fun us h => by rw [← mapM_eq_some, hm] at h; exact nomatch h
        cases ts with
        | nil => simp
        | cons t ts => simpa [hf] using fun _ => this ts
      | some bs =>
        have := mapM_eq_some.1 hm
        cases ts with
        | nil => simp
        | cons t ts =>
          simp only [Option.pure_def, Option.bind_eq_bind, Option.bind_some, Option.some.injEq, List.cons.injEq, List.map_cons, hf, this]
          rw [List.map_inj_right (fun _ _ h => Option.some.inj h)]

theorem itemOk_container {ty : Ty} {vs : List Arg} (hty : ty ≠ .custom ∧ ty ≠ .none) (hvs : ∀ v ∈ vs, Element ty v) :
    ItemOk (.container ty vs) := ⟨hty.2, hty.1, fun v hv => ⟨(hvs v hv).1, (hvs v hv).2.1⟩⟩

theorem itemOk_join {ty : Ty} {vs : List Arg} (hty : ty ≠ .custom ∧ ty ≠ .none) (hvs : ∀ v ∈ vs, Element ty v) (sep : Str) :
    ItemOk (.join ty vs sep) := itemOk_container hty hvs

theorem ok1' {i : Item} (h : ItemOk i) : ∀ p ∈ [((none : Option Str), i)], ItemOk p.2 := by
  intro p hp
  rw [List.mem_singleton.1 hp]
  exact h

theorem format_bare_iff {a : Arg} (ha : ArgOk a) (text : Str) :
    format "{}".toList [(none, a)] = .ok text ↔ showDefault a = some text := by
  show (getArg (makeArgs [(none, a)]) 0 >>= writeDefault) = _ ↔ _
  rw [getArg_eq _ (by simp)]
  exact agrees_iff (writeDefault_agrees a ha) text

theorem bare_texts {ty : Ty} {vs : List Arg} (hvs : ∀ v ∈ vs, Element ty v) (texts : List Str) :
    vs.mapM (showSpecs isPrintable {}) = some texts ↔ vs.map (fun v => format "{}".toList [(none, v)]) = texts.map .ok := by
  rw [mapM_eq_some]
  induction vs generalizing texts with
  | nil => cases texts <;> simp
  | cons v vs ih =>
    cases texts with
    | nil => simp
    | cons t texts =>
      have hv := hvs v (by simp)
      rw [List.map_cons, List.map_cons, List.map_cons, List.map_cons, List.cons.injEq, List.cons.injEq,
        ih (fun u hu => hvs u (by simp [hu])), hv.bare, format_bare_iff hv.2.1]

/-- `{}` of a container: `[`, the texts its elements have in a `{}` of their own with `, ` between them, `]`; and it
throws if one of them would. -/
theorem C114_container (ty : Ty) (hty : ty ≠ .custom ∧ ty ≠ .none) (vs : List Arg) (hvs : ∀ v ∈ vs, Element ty v) (out : Str) :
    format "{}".toList (itemArgs [(none, .container ty vs)]) = .ok out ↔
      ∃ texts : List Str, vs.map (fun v => format "{}".toList [(none, v)]) = texts.map .ok ∧
        out = '[' :: ", ".toList.intercalate texts ++ [']'] := by
  have hok := itemOk_container hty hvs
  show format _ [(none, Item.toArg (makeArgs (shadows [(none, .container ty vs)])) (.container ty vs))] = _ ↔ _
  rw [format_bare_iff (toArg_ok (by simp) hok), default_items _ ⟨_, rfl, by simp [shadows]⟩ hok]
  simp only [showItemDefault, showItem, Option.map_eq_some_iff, bare_texts hvs]
  exact exists_congr fun t => and_congr_right fun _ => eq_comm

/-- `{}` of a joined range: the texts its elements have in a `{}` of their own with the separator between them. -/
theorem C114_join (ty : Ty) (hty : ty ≠ .custom ∧ ty ≠ .none) (vs : List Arg) (hvs : ∀ v ∈ vs, Element ty v) (sep out : Str) :
    format "{}".toList (itemArgs [(none, .join ty vs sep)]) = .ok out ↔
      ∃ texts : List Str, vs.map (fun v => format "{}".toList [(none, v)]) = texts.map .ok ∧ out = sep.intercalate texts := by
  have hok := itemOk_join hty hvs sep
  show format _ [(none, Item.toArg (makeArgs (shadows [(none, .join ty vs sep)])) (.join ty vs sep))] = _ ↔ _
  rw [format_bare_iff (toArg_ok (by simp) hok), default_items _ ⟨_, rfl, by simp [shadows]⟩ hok]
  simp only [showItemDefault, showItem, Option.map_eq_some_iff, bare_texts hvs]
  exact exists_congr fun t => and_congr_right fun _ => eq_comm

/-- the place of an argument that is not the first one does not depend on the first one -/
theorem value_first {x y : Arg} {l : List (Option Str × Arg)} {q : Num} {a n w n' : Int} (hn : 0 < n)
    (h : q.value ((none, x) :: l) a n = some (w, n')) : q.value ((none, y) :: l) a n = some (w, n') ∧ 0 < n' := by
  cases q with
  | none => cases h; exact ⟨rfl, hn⟩
  | lit d => cases h; exact ⟨rfl, hn⟩
  | arg r =>
    have key : ∀ i m, r.take ((none, x) :: l) n = some (i, m) → r.take ((none, y) :: l) n = some (i, m) ∧ 0 < i ∧ 0 < m := by
      intro i m hr
      cases r with
      | auto =>
        simp only [Ref.take] at hr ⊢
        rw [if_neg (by omega)] at hr ⊢
        cases hr
        exact ⟨rfl, by omega, by omega⟩
      | index k =>
        simp only [Ref.take] at hr
        rw [if_pos hn] at hr
        exact nomatch hr
      | name s =>
        simp only [Ref.take, nameIndex, List.findIdx?_cons, reduceCtorEq, decide_false, Bool.false_eq_true, if_false, Option.map_map,
          Option.map_eq_some_iff, Function.comp_def] at hr ⊢
        obtain ⟨k, h1, h2⟩ := hr
        cases h2
        exact ⟨⟨k, h1, rfl⟩, by omega, hn⟩
    simp only [Num.value, Option.bind_eq_bind, Option.bind_eq_some_iff, Prod.exists] at h ⊢
    obtain ⟨i, m, h1, b, c, h2, v, h3, h4⟩ := h
    obtain ⟨k1, k2, k3⟩ := key i m h1
    cases h4
    refine ⟨⟨i, _, k1, b, c, ?_, _, h3, rfl⟩, k3⟩
    obtain ⟨j, rfl⟩ : ∃ j, i = j + 1 := ⟨i - 1, by omega⟩
    exact h2

theorem gives_first {x y : Arg} {l : List (Option Str × Arg)} {o : Opts} {w p : Int} (h : Gives ((none, x) :: l) o w p) :
    Gives ((none, y) :: l) o w p := by
  obtain ⟨n2, n3, h1, h2⟩ := h
  obtain ⟨k1, k2⟩ := value_first (y := y) (by decide) h1
  refine ⟨n2, n3, k1, ?_⟩
  cases ho : o.prec with
  | none => rw [ho] at h2; exact h2
  | some q => rw [ho] at h2; exact (value_first k2 h2).1

/-- a field with options for an item that comes first -/
theorem item_field {i : Item} (l : List (Option Str × Item)) (hl : l.length < 2 ^ 31 - 1) (hi : ItemOk i)
    (hok : ∀ p ∈ l, ItemOk p.2) (o : Opts) {ty : Ty} (hty : optionType i = some ty) (hv : o.Valid ty) {w p : Int}
    (hg : Gives ((none, i.shadow) :: shadows l) o w p) (hne : ∀ ty sep, i ≠ .join ty [] sep) {text : Str}
    (ht : showItem isPrintable (o.meaning w p) i = some text) : format (field o) (itemArgs ((none, i) :: l)) = .ok text := by
  obtain ⟨n2, n3, h1, h2⟩ := hg
  rw [C114_grammar _ (by rw [List.length_cons]; omega) (by
    intro a ha
    rcases List.mem_cons.1 ha with rfl | ha
    · exact hi
    · exact hok a ha)]
  have := FormatsItems.opts (printable := isPrintable) (l := (none, i) :: l) (n := 0) (f := []) (out := []) .auto o
    (i := 0) (n1 := 1) trivial rfl rfl hty hv h1 h2 ht hne (.done n3)
  rw [List.append_nil] at this
  exact this

/-- Options of a joined range are options of its elements: each of them is written as in a field of its own with these
options and the same further arguments, with the separator in between. -/
theorem C114_join_options (ty : Ty) (vs : List Arg) (hne : vs ≠ []) (hvs : ∀ v ∈ vs, Element ty v) (sep : Str)
    (l : List (Option Str × Item)) (hl : l.length < 2 ^ 31 - 1) (hok : ∀ p ∈ l, ItemOk p.2) (o : Opts) (hv : o.Valid ty)
    (w p : Int) (hg : Gives ((none, .custom fun _ _ => .ub) :: shadows l) o w p) (txt : Arg → Str)
    (ht : ∀ v ∈ vs, showSpecs isPrintable (o.meaning w p) v = some (txt v)) :
    (∀ v ∈ vs, format (field o) (itemArgs ((none, .arg v) :: l)) = .ok (txt v)) ∧
      format (field o) (itemArgs ((none, .join ty vs sep) :: l)) = .ok (sep.intercalate (vs.map txt)) := by
  obtain ⟨u, hu⟩ := List.exists_mem_of_ne_nil vs hne
  have hty := (hvs u hu).ne_custom
  constructor
  · intro v hv'
    obtain ⟨h1, h2, -⟩ := hvs v hv'
    exact item_field (i := .arg v) l hl ⟨by rw [h1]; exact hty.1, h2⟩ hok o (congrArg some h1) hv (gives_first hg) nofun (ht v hv')
  · refine item_field (i := .join ty vs sep) l hl (itemOk_join hty hvs sep) hok o rfl hv hg ?_ ?_
    · rintro ty' sep' h
      cases h
      exact hne rfl
    · show Option.map (joined sep) (vs.mapM _) = _
      rw [(mapM_eq_some (ts := vs.map txt)).2 (by rw [List.map_map]; exact List.map_congr_left ht)]
      rfl

/-- A container takes no options: anything between the colon and the closing brace makes the call throw. -/
theorem C114_container_options (ty : Ty) (hty : ty ≠ .custom ∧ ty ≠ .none) (vs : List Arg) (hvs : ∀ v ∈ vs, Element ty v)
    (c : Char) (hc : c ≠ '}') (rest : Str) :
    ∃ e, format ('{' :: ':' :: c :: rest) (itemArgs [(none, .container ty vs)]) = .err e := by
  have hok := ok1' (itemOk_container hty hvs)
  refine (C114_defined _ (by simp) hok _).resolve_left ?_
  rintro ⟨out, h⟩
  rw [C114_grammar _ (by simp) hok] at h
  have colon : ∀ (r : Ref) (t u : Str), r.Valid → r.text ++ t = ':' :: u → r.text = [] ∧ t = ':' :: u := by
    intro r t u hr h
    cases r with
    | auto => exact ⟨rfl, h⟩
    | index n =>
      exfalso
      cases hd : Nat.toDigits 10 n with
      | nil => exact absurd hd (by simp)
      | cons d ds =>
        simp only [Ref.text, hd, List.cons_append, List.cons.injEq] at h
        have := Nat.isDigit_of_mem_toDigits (b := 10) (n := n) (c := d) (by decide) (by decide) (by rw [hd]; simp)
        rw [h.1] at this
        exact absurd this (by decide)
    | name s =>
      obtain ⟨d, ds, rfl, hd, -⟩ := hr
      simp only [Ref.text, List.cons_append, List.cons.injEq] at h
      rw [h.1] at hd
      exact absurd hd (by decide)
  generalize hf : '{' :: ':' :: c :: rest = f at h
  cases h with
  | done => exact nomatch hf
  | char h1 => cases hf; exact h1 rfl
  | opening => exact nomatch hf
  | closing => exact nomatch hf
  | plain r h1 => cases (colon r _ _ h1 (List.cons.inj hf).2.symm).2
  | opts r o h1 h2 h3 h4 =>
    have := List.mem_of_getElem? h3
    rw [List.mem_singleton] at this
    rw [this] at h4
    exact nomatch h4
  | empty r o h1 h2 h3 =>
    have := List.mem_of_getElem? h3
    rw [List.mem_singleton] at this
    exact nomatch this
  | container r h1 => cases (colon r _ _ h1 (List.cons.inj hf).2.symm).2; exact hc rfl

-- three numbers, and a container of the `double`s 0.5 and 1
example : format "{}".toList (itemArgs [(none, .container .int [.int 1, .int (-20), .int 300])]) = .ok "[1, -20, 300]".toList :=
  (C114_container .int ⟨nofun, nofun⟩ _ (by
    intro v hv
    simp only [List.mem_cons, List.not_mem_nil, or_false] at hv
    rcases hv with rfl | rfl | rfl <;> exact ⟨rfl, by simp only [ArgOk]; decide, Or.inl ⟨by simp [floating], nofun⟩⟩) _).2
    ⟨["1".toList, "-20".toList, "300".toList], by decide +kernel, by decide +kernel⟩
example : Element .double (Kind.double.arg false 0x3FE0000000000000) := ⟨rfl, Kind.arg_ok _ _ _, Or.inr ⟨.double, false, _, rfl⟩⟩
/-- an alignment and a width of one digit are valid options of every type -/
theorem right_valid (t : Ty) (d : Char) (h : d.isDigit = true) (h0 : d ≠ '0') :
    Opts.Valid t { align := .right, width := .lit [d] } where
  align := nofun
  fill := fun h => absurd rfl h
  sign := fun h => absurd rfl h
  alt := nofun
  zero := nofun
  width := by
    refine ⟨⟨nofun, by simpa using h, by simp, ?_⟩, ?_⟩
    · simp only [Char.isDigit, Bool.and_eq_true, decide_eq_true_eq] at h
      have h2 : d.toNat ≤ 57 := h.2
      show 10 * 0 + (d.toNat - 48) ≤ _
      omega
    · rintro d' h'
      cases h'
      simpa using h0
  prec := nofun
  loc := nofun
  type := trivial

-- "{:>4}" of a joined range of characters, with a further argument that is not used
example : format "{:>4}".toList (itemArgs [(none, .join .char [.char 'a', .char 'b'] "|".toList),
    (none, .bytes "x".toList)]) = .ok "   a|   b".toList :=
  (C114_join_options .char [.char 'a', .char 'b'] nofun (by
    intro v hv
    simp only [List.mem_cons, List.not_mem_nil, or_false] at hv
    rcases hv with rfl | rfl <;> exact ⟨rfl, by simp only [ArgOk]; decide, Or.inl ⟨by simp [floating], nofun⟩⟩) "|".toList
    [(none, .bytes "x".toList)] (by simp) (ok1' (by simp only [ItemOk]; unfold Bytes; decide)) _
    (right_valid .char '4' (by decide) (by decide)) 4 (-1) ⟨1, 1, rfl, rfl⟩
    (fun | .char c => ' ' :: ' ' :: ' ' :: [c] | _ => []) (by
      intro v hv
      simp only [List.mem_cons, List.not_mem_nil, or_false] at hv
      rcases hv with rfl | rfl <;> decide +kernel)).2

/-- the bytes of a text -/
def codes (t : Str) : List Nat := t.map Char.toNat

theorem listText_codes (texts : List Str) :
    listText (texts.map codes) = codes ('[' :: ", ".toList.intercalate texts ++ [']']) := by
  have : ∀ (sep : Str) (ts : List Str), (codes sep).intercalate (ts.map codes) = codes (sep.intercalate ts) := by
    intro sep ts
    simp only [List.intercalate, codes, List.map_flatten]
    congr 1
    induction ts with
    | nil => rfl
    | cons t ts ih =>
      cases ts with
      | nil => rfl
      | cons u ts => simp only [List.map_cons, List.intersperse_cons_cons] at ih ⊢; rw [ih]; rfl
  unfold listText
  rw [show ([44, 32] : List Nat) = codes ", ".toList from rfl, this]
  simp [codes]

/-- `{}` of a `Vector` after any history: the loop over its elements in memory gives what the format string says of
the values it holds, and leaves it unchanged. -/
theorem C114_vector {α : Type} (arg : α → Arg) (ty : Ty) (hty : ty ≠ .custom ∧ ty ≠ .none) (harg : ∀ x, Element ty (arg x))
    (txt : α → Str) {k : Efp.Kind} {s : VecS α} {l : List α} (hs : VecReachable k s l)
    (ht : ∀ x ∈ l, format "{}".toList [(none, arg x)] = .ok (txt x)) :
    ∃ out, format "{}".toList (itemArgs [(none, .container ty (l.map arg))]) = .ok out ∧
      Format.ofVector (fun x => codes (txt x)) s = .ok (codes out) s := by
  refine ⟨_, (C114_container ty hty (l.map arg) ?_ _).2 ⟨l.map txt, ?_, rfl⟩, ?_⟩
  · intro v hv
    obtain ⟨x, -, rfl⟩ := List.mem_map.1 hv
    exact harg x
  · rw [List.map_map, List.map_map]
    exact List.map_congr_left ht
  · rw [C72_vector _ hs, ← listText_codes, List.map_map]
    rfl

-- a vector that was filled by three pushes
example : ∃ (s : VecS Nat) (out : Str), VecReachable .trivial s [7, 11, 300] ∧
    format "{}".toList (itemArgs [(none, .container .ulongLong ([7, 11, 300].map fun n => .ulongLong (n % 2 ^ 64)))]) = .ok out ∧
    Format.ofVector (fun n => codes (Nat.toDigits 10 (n % 2 ^ 64))) s = .ok (codes out) s := by
  obtain ⟨s, h, _⟩ := VecS.reachable_example (α := Nat) (k := .trivial) none [.push 7, .push 11, .push 300] [7, 11, 300]
    (fun _ => true) (by simp) (by decide +kernel)
  obtain ⟨out, h1, h2⟩ := C114_vector (fun n => .ulongLong (n % 2 ^ 64)) .ulongLong ⟨nofun, nofun⟩
    (fun n => ⟨rfl, Nat.mod_lt _ (by decide), Or.inl ⟨by simp [floating], nofun⟩⟩) (fun n => Nat.toDigits 10 (n % 2 ^ 64)) h (by decide +kernel)
  exact ⟨s, out, h, h1, h2⟩

/-! ## C115 -/

theorem commas_filter : ∀ (ds : Str), ',' ∉ ds → (commas ds).filter (· ≠ ',') = ds
  | [], _ => by rw [commas_short (by simp)]; rfl
  | d :: ds, h => by
    have ih := commas_filter ds fun h' => h (by simp [h'])
    have hd : d ≠ ',' := fun h' => h (by simp [h'])
    rw [commas_cons d _ ds rfl]
    split <;> simp [hd] <;> simpa using ih

theorem commas_place : ∀ (n : Nat) (ds : Str), ds.length = n → ',' ∉ ds → ∀ k : Nat,
    (commas ds).reverse[k]? = some ',' ↔ k < (commas ds).length ∧ k % 4 = 3 := by
  intro n
  induction n using Nat.strongRecOn with
  | _ n ih =>
    intro ds hn h k
    by_cases hs : ds.length ≤ 3
    · rw [commas_short hs]
      constructor
      · intro h'
        exact absurd (List.mem_reverse.1 (List.mem_of_getElem? h')) h
      · omega
    · rw [commas_long hs, List.reverse_append, List.reverse_cons, List.append_assoc]
      have hl : (ds.drop (ds.length - 3)).reverse.length = 3 := by simp; omega
      have hl2 : (ds.drop (ds.length - 3)).length = 3 := by simp; omega
      rcases Nat.lt_trichotomy k 3 with hk | rfl | hk
      · rw [List.getElem?_append_left (by omega)]
        constructor
        · intro h'
          exact absurd (List.mem_of_mem_drop (List.mem_reverse.1 (List.mem_of_getElem? h'))) h
        · omega
      · rw [List.getElem?_append_right (by omega), hl]
        simp [hl2]
      · rw [List.getElem?_append_right (by omega), hl, List.getElem?_append_right (by simp; omega)]
        have e : k - 3 - [','].length = k - 4 := by simp; omega
        rw [e, ih (ds.length - 3) (by omega) _ (by simp) fun h' => h (List.mem_of_mem_take h')]
        rw [List.length_append, List.length_cons, hl2]
        omega

/-- What `commas` does to a row of digits: the digits stay as they are, and the characters at distance 3, 7, 11, ...
from the end are commas. -/
theorem C115_commas (v : Nat) :
    (commas (Nat.toDigits 10 v)).filter (· ≠ ',') = Nat.toDigits 10 v ∧
      ∀ k : Nat, (commas (Nat.toDigits 10 v)).reverse[k]? = some ',' ↔ k < (commas (Nat.toDigits 10 v)).length ∧ k % 4 = 3 := by
  have h : ',' ∉ Nat.toDigits 10 v := fun h =>
    absurd (Nat.isDigit_of_mem_toDigits (b := 10) (n := v) (c := ',') (by decide) (by decide) h) (by decide)
  exact ⟨commas_filter _ h, commas_place _ _ rfl h⟩

/-- the copies of the fill on each side -/
theorem pad_parts (r : Bool) (sp : Specs) (n : Nat) (body : Str) :
    ∃ left right, left + right = sp.width - n ∧ pad r sp n body = copies left sp.fill ++ body ++ copies right sp.fill ∧
      (sp.align = .left → left = 0) ∧ (sp.align = .right ∨ sp.align = .numeric → right = 0) ∧
      (sp.align = .center → left = (sp.width - n) / 2) ∧ (sp.align = .none → if r then right = 0 else left = 0) := by
  refine ⟨_, _, ?_, rfl, ?_, ?_, ?_, ?_⟩
  · cases sp.align <;> simp only <;> try split
    all_goals omega
  · intro h; rw [h]
  · rintro (h | h) <;> rw [h] <;> exact Nat.sub_self _
  · intro h; rw [h]
  · intro h; rw [h]; cases r <;> simp

/-- `group_digits` of a number that is not negative: its decimal digits with commas, placed in the field; of the options
only fill, alignment, zero flag and width count.  Negative numbers are left out; see `C115_negative`. -/
theorem C115_grouped_partial (w : Nat) (hw : w = 64 ∨ w = 128) (v : Nat) (hv : v < 2 ^ w) (l : List (Option Str × Item))
    (hl : l.length < 2 ^ 31 - 1) (hok : ∀ p ∈ l, ItemOk p.2) (o : Opts) (ho : o.Valid .int) (wd p : Int)
    (hg : Gives ((none, .custom fun _ _ => .ub) :: shadows l) o wd p) :
    ∃ left right, left + right = wd.toNat - (commas (Nat.toDigits 10 v)).length ∧
      format (field o) (itemArgs ((none, .groupDigits w v) :: l)) = .ok (copies left (o.meaning wd p).fill ++
        commas (Nat.toDigits 10 v) ++ copies right (o.meaning wd p).fill) ∧
      (o.align = .left → left = 0) ∧ (o.align = .right ∨ o.align = .none → right = 0) ∧
      (o.align = .center → left = (wd.toNat - (commas (Nat.toDigits 10 v)).length) / 2) := by
  obtain ⟨le, ri, h1, h2, h3, h4, h5, h6⟩ := pad_parts true (o.meaning wd p) (commas (Nat.toDigits 10 v)).length (commas (Nat.toDigits 10 v))
  refine ⟨le, ri, h1, ?_, ?_, ?_, ?_⟩
  · rw [← h2]
    refine item_field (i := .groupDigits w v) l hl hw hok o rfl ho hg nofun ?_
    have : ((v : Int) % 2 ^ w).toNat = v := by
      rw [Int.emod_eq_of_lt (by omega) (by exact_mod_cast hv)]
      rfl
    simp only [showItem, this]
  · intro h; exact h3 (by simp [Opts.meaning, h])
  · rintro (h | h)
    · exact h4 (by simp [Opts.meaning, h])
    · by_cases hz : o.zero = true
      · exact h4 (by simp [Opts.meaning, h, hz])
      · exact h6 (by simp [Opts.meaning, h, hz])
  · intro h; exact h5 (by simp [Opts.meaning, h])

/-- `{}` of `group_digits` of a number that is not negative. -/
theorem C115_default_partial (w : Nat) (hw : w = 64 ∨ w = 128) (v : Nat) (hv : v < 2 ^ w) :
    format "{}".toList (itemArgs [(none, .groupDigits w v)]) = .ok (commas (Nat.toDigits 10 v)) := by
  show format _ [(none, Item.toArg (makeArgs (shadows [(none, .groupDigits w v)])) (.groupDigits w v))] = _
  have hok : ItemOk (.groupDigits w v) := hw
  rw [format_bare_iff (toArg_ok (by simp) hok), default_items _ ⟨_, rfl, by simp [shadows]⟩ hok]
  have : ((v : Int) % 2 ^ w).toNat = v := by
    rw [Int.emod_eq_of_lt (by omega) (by exact_mod_cast hv)]
    rfl
  simp only [showItemDefault, showItem, this]
  rw [pad_of_le _ _ _ _ (Nat.zero_le _)]

/-- **C115 is false for negative numbers:** they are printed as if they were unsigned, with no minus sign. -/
theorem C115_negative (w : Nat) (hw : w = 64 ∨ w = 128) (v : Int) (hlo : -2 ^ w ≤ v) (hhi : v < 0) :
    format "{}".toList (itemArgs [(none, .groupDigits w v)]) = .ok (commas (Nat.toDigits 10 (2 ^ w + v).toNat)) := by
  show format _ [(none, Item.toArg (makeArgs (shadows [(none, .groupDigits w v)])) (.groupDigits w v))] = _
  have hok : ItemOk (.groupDigits w v) := hw
  rw [format_bare_iff (toArg_ok (by simp) hok), default_items _ ⟨_, rfl, by simp [shadows]⟩ hok]
  have : v % 2 ^ w = 2 ^ w + v := by
    rw [← Int.add_emod_left, Int.emod_eq_of_lt (by omega) (by omega)]
  simp only [showItemDefault, showItem, this]
  rw [pad_of_le _ _ _ _ (Nat.zero_le _)]

example : format "{}".toList (itemArgs [(none, .groupDigits 64 1234567)]) = .ok "1,234,567".toList := by
  rw [show (1234567 : Int) = ((1234567 : Nat) : Int) from rfl, C115_default_partial 64 (by simp) 1234567 (by decide)]
  decide +kernel
example : format "{}".toList (itemArgs [(none, .groupDigits 64 (-1))]) = .ok "18,446,744,073,709,551,615".toList := by
  rw [C115_negative 64 (by simp) (-1) (by decide) (by decide)]
  decide +kernel
example : format "{:>9}".toList (itemArgs [(none, .groupDigits 64 12345)]) = .ok "   12,345".toList := by decide +kernel
example := C115_grouped_partial 64 (by simp) 12345 (by decide) [] (by simp) (by simp) _ (right_valid .int '9' (by decide) (by decide))
  9 (-1) ⟨1, 1, rfl, rfl⟩

/-! ## C116 -/

/-- `bytes`: all the bytes, whatever the precision is, padded to as many bytes as the width says. -/
theorem C116_bytes (s : Str) (hs : Bytes s) (l : List (Option Str × Item))
    (hl : l.length < 2 ^ 31 - 1) (hok : ∀ p ∈ l, ItemOk p.2) (o : Opts) (ho : o.Valid .string) (w p : Int)
    (hg : Gives ((none, .custom fun _ _ => .ub) :: shadows l) o w p) :
    ∃ left right, left + right = w.toNat - s.length ∧
      format (field o) (itemArgs ((none, .bytes s) :: l)) = .ok (copies left (o.meaning w p).fill ++ s ++
        copies right (o.meaning w p).fill) ∧
      (o.align = .left ∨ o.align = .none → left = 0) ∧ (o.align = .right → right = 0) ∧
      (o.align = .center → left = (w.toNat - s.length) / 2) := by
  obtain ⟨le, ri, h1, h2, h3, h4, h5, h6⟩ := pad_parts false (o.meaning w p) s.length s
  refine ⟨le, ri, h1, ?_, ?_, ?_, ?_⟩
  · rw [← h2]
    exact item_field (i := .bytes s) l hl hs hok o rfl ho hg nofun rfl
  · rintro (h | h)
    · exact h3 (by simp [Opts.meaning, h])
    · have hz : ¬ o.zero = true := fun hz => by
        rcases ho.zero hz with h' | h' <;> simp [integerLike, signedInt, floating] at h'
      exact h6 (by simp [Opts.meaning, h, hz])
  · intro h; exact h4 (Or.inl (by simp [Opts.meaning, h]))
  · intro h; exact h5 (by simp [Opts.meaning, h])

-- two bytes that are one character of one column are padded as two
example : format "{:>4}".toList (itemArgs [(none, .bytes [Char.ofNat 0xC3, Char.ofNat 0xA9])]) =
    .ok [' ', ' ', Char.ofNat 0xC3, Char.ofNat 0xA9] := by decide +kernel
example := C116_bytes [Char.ofNat 0xC3, Char.ofNat 0xA9] (by unfold Bytes; decide) [] (by simp) (by simp) _
  (right_valid .string '4' (by decide) (by decide)) 4 (-1) ⟨1, 1, rfl, rfl⟩
-- the precision cuts a string but not bytes
example : format "{:.2}".toList (itemArgs [(none, .bytes "abc".toList)]) = .ok "abc".toList ∧
    format "{:.2}".toList (itemArgs [(none, .arg (.string "abc".toList))]) = .ok "ab".toList := by decide +kernel

end Props
end Efp
