import Verif.Fmt.ItemLemmas

/-!
# `format` over items follows the grammar for items
-/

namespace Efp
namespace Fmt

open Spec.Fmt

variable {l : List (Option Str × Item)}

theorem shadows_length : (shadows l).length = l.length := by simp [shadows]
theorem itemArgs_length : (itemArgs l).length = l.length := by simp [itemArgs]

theorem itemArgs_get (i : Nat) : (itemArgs l)[i]? = l[i]?.map fun p => (p.1, p.2.toArg (makeArgs (shadows l))) := by
  simp [itemArgs]

theorem shadows_get (i : Nat) : (shadows l)[i]? = l[i]?.map fun p => (p.1, p.2.shadow) := by simp [shadows]

theorem nameIndex_items (s : Str) : nameIndex (itemArgs l) s = nameIndex (shadows l) s := by
  simp only [nameIndex, itemArgs, shadows, List.findIdx?_map]
  rfl

theorem take_items (r : Ref) (n : Int) : r.take (itemArgs l) n = r.take (shadows l) n := by
  cases r with
  | auto => rfl
  | index i => rfl
  | name s => simp only [Ref.take, nameIndex_items]

theorem dynValue_toArg (ctx : Args) (it : Item) : dynValue (it.toArg ctx) = dynValue it.shadow := by cases it <;> rfl

theorem value_items (q : Num) (a n : Int) : q.value (itemArgs l) a n = q.value (shadows l) a n := by
  cases q with
  | none => rfl
  | lit d => rfl
  | arg r =>
    simp only [Num.value, take_items]
    cases r.take (shadows l) n with
    | none => rfl
    | some x =>
      obtain ⟨i, n1⟩ := x
      simp only [Option.bind_eq_bind, Option.bind_some, itemArgs_get, shadows_get]
      cases l[i]? with
      | none => rfl
      | some y => simp only [Option.map_some, Option.bind_some, dynValue_toArg]

theorem precValue_items (q : Option Num) (n : Int) : precValue (itemArgs l) q n = precValue (shadows l) q n := by
  cases q with
  | none => rfl
  | some q => exact value_items q _ _

theorem toArg_ok (hm : l.length < 2 ^ 31) {it : Item} (h : ItemOk it) : ArgOk (it.toArg (makeArgs (shadows l))) := by
  have hm' : (shadows l).length < 2 ^ 31 := by rw [shadows_length]; exact hm
  cases it with
  | arg a => exact h.2
  | container ty vs => exact containerArg_ok h.2.1 h.2.2
  | join ty vs sep => exact joinArg_ok hm' h.2.1 sep h.2.2
  | bytes s => exact bytesArg_ok hm' s
  | groupDigits w v => exact groupDigitsArg_ok hm' h v

theorem itemArgs_ok (hm : l.length < 2 ^ 31) (hok : ∀ p ∈ l, ItemOk p.2) : ∀ p ∈ itemArgs l, ArgOk p.2 := by
  intro p hp
  simp only [itemArgs, List.mem_map] at hp
  obtain ⟨q, hq, rfl⟩ := hp
  exact toArg_ok hm (hok q hq)

theorem default_items (ctx : Args) (hctx : ∃ l' : List (Option Str × Arg), ctx = makeArgs l' ∧ l'.length < 2 ^ 31)
    {it : Item} (h : ItemOk it) (text : Str) :
    showDefault (it.toArg ctx) = some text ↔ showItemDefault isPrintable it = some text := by
  obtain ⟨l', rfl, hl⟩ := hctx
  cases it with
  | arg a => exact Iff.rfl
  | container ty vs =>
    simp only [showItemDefault]
    simp only [Item.toArg]
    rw [← agrees_iff (writeDefault_agrees _ (containerArg_ok h.2.1 h.2.2))]
    obtain ⟨g, hg, h'⟩ := container_eq ty vs
    have := h' h.2.1 h.2.2 [] 0
    rw [hg]
    simp only [writeDefault]
    cases hs : showItem isPrintable {} (.container ty vs) with
    | none => rw [hs] at this; obtain ⟨m, e⟩ := this; simp [e, Res.bind_err]
    | some t => rw [hs] at this; simp only [Option.map_some, Agrees] at this; simp [this, Res.bind_ok]
  | join ty vs sep =>
    simp only [Item.toArg]
    rw [← agrees_iff (writeDefault_agrees _ (joinArg_ok hl h.2.1 sep h.2.2))]
    exact agrees_iff (join_default h.2.1 sep h.2.2) text
  | bytes s =>
    simp only [Item.toArg]
    rw [← agrees_iff (writeDefault_agrees _ (bytesArg_ok hl s))]
    simp only [bytesArg, writeDefault, parseFormatSpecs, Res.bind_ok, dynamicSpecs_nil, writeBytes,
      writePadded_eq false {} s.length s (by decide), showItemDefault, showItem]
    simp
  | groupDigits w v =>
    simp only [Item.toArg]
    rw [← agrees_iff (writeDefault_agrees _ (groupDigitsArg_ok hl h v))]
    simp only [groupDigitsArg, writeDefault, parseFormatSpecs, Res.bind_ok, dynamicSpecs_nil,
      writeIntGrouped_eq h (mod_bound v) {} (by decide), showItemDefault, showItem]
    simp

theorem items_of_formats (hm : l.length < 2 ^ 31) (hok : ∀ p ∈ l, ItemOk p.2) {n : Int} {fmt out : Str}
    (h : Formats isPrintable (itemArgs l) n fmt out) : FormatsItems isPrintable l n fmt out := by
  have hm' : (shadows l).length < 2 ^ 31 := by rw [shadows_length]; exact hm
  induction h with
  | done n => exact .done n
  | char h1 h2 _ ih => exact .char h1 h2 ih
  | opening _ ih => exact .opening ih
  | closing _ ih => exact .closing ih
  | @plain n f out r i n' a t h1 h2 h3 h4 _ ih =>
    rw [take_items] at h2
    simp only [itemArgs_get, Option.map_eq_some_iff] at h3
    obtain ⟨⟨x, it⟩, h3, rfl⟩ := h3
    exact .plain r h1 h2 h3 ((default_items _ ⟨_, rfl, hm'⟩ (hok _ (List.mem_of_getElem? h3)) t).mp h4) ih
  | @opts n f out r o i n1 n2 n3 a w p t h1 h2 h3 h4 h5 h6 h7 h8 _ ih =>
    rw [take_items] at h2
    rw [value_items] at h6
    rw [precValue_items] at h7
    simp only [itemArgs_get, Option.map_eq_some_iff] at h3
    obtain ⟨⟨x, it⟩, h3, rfl⟩ := h3
    cases it with
    | arg a => exact .opts r o h1 h2 h3 rfl h5 h6 h7 h8 (by nofun) ih
    | _ => exact absurd rfl h4
  | @custom n f out r i n1 n2 x g b t h1 h2 h3 h4 _ ih =>
    rw [take_items] at h2
    simp only [itemArgs_get, Option.map_eq_some_iff] at h3
    obtain ⟨⟨x, it⟩, h3, he⟩ := h3
    simp only [Prod.mk.injEq] at he
    obtain ⟨rfl, he⟩ := he
    have hit := hok _ (List.mem_of_getElem? h3)
    cases it with
    | arg a => exact absurd (congrArg Arg.ty he) hit.1
    | container ty vs =>
      obtain ⟨g', hg, h⟩ := container_eq ty vs
      rw [Item.toArg, hg] at he
      cases he
      have := (agrees_iff (h hit.2.1 hit.2.2 b n1) _).mp h4
      simp only [Option.map_eq_some_iff] at this
      obtain ⟨t', ht, e⟩ := this
      cases e
      exact .container r h1 h2 h3 ht ih
    | join ty vs sep =>
      by_cases hne : vs = []
      · subst hne
        obtain ⟨g', hg, h⟩ := joinArg_empty (makeArgs (shadows l)) hit.1 sep
        rw [Item.toArg, hg] at he
        cases he
        obtain ⟨rfl, o, n', h5, h6, rfl, h7, h8⟩ := (h _ _ _ _ _).mp h4
        exact .empty r o h1 h2 h3 h5 h6 h7 h8 ih
      · obtain ⟨g', hg, h⟩ := joinArg_iff hm' hit.1 hit.2.1 sep hne hit.2.2
        rw [Item.toArg, hg] at he
        cases he
        obtain ⟨o, w, n', p, h5, rfl, h6, h7, h8⟩ := (h _ _ _ _ _).mp h4
        exact .opts r o h1 h2 h3 rfl h5 h6 h7 h8 (by rintro ty' sep' e; cases e; exact hne rfl) ih
    | bytes s =>
      obtain ⟨g', hg, h⟩ := bytesArg_iff hm' s
      rw [Item.toArg, hg] at he
      cases he
      obtain ⟨o, w, n', p, h5, rfl, h6, h7, h8⟩ := (h _ _ _ _ _).mp h4
      exact .opts r o h1 h2 h3 rfl h5 h6 h7 h8 (by nofun) ih
    | groupDigits w v =>
      obtain ⟨g', hg, h⟩ := groupDigitsArg_iff hm' hit v
      rw [Item.toArg, hg] at he
      cases he
      obtain ⟨o, w, n', p, h5, rfl, h6, h7, h8⟩ := (h _ _ _ _ _).mp h4
      exact .opts r o h1 h2 h3 rfl h5 h6 h7 h8 (by nofun) ih

theorem formats_of_items (hm : l.length < 2 ^ 31) (hok : ∀ p ∈ l, ItemOk p.2) {n : Int} {fmt out : Str}
    (h : FormatsItems isPrintable l n fmt out) : Formats isPrintable (itemArgs l) n fmt out := by
  have hm' : (shadows l).length < 2 ^ 31 := by rw [shadows_length]; exact hm
  induction h with
  | done n => exact .done n
  | char h1 h2 _ ih => exact .char h1 h2 ih
  | opening _ ih => exact .opening ih
  | closing _ ih => exact .closing ih
  | @plain n f out r i n' a t h1 h2 h3 h4 _ ih =>
    obtain ⟨x, it⟩ := a
    exact .plain r h1 (by rw [take_items]; exact h2) (by rw [itemArgs_get, h3]; rfl)
      ((default_items _ ⟨_, rfl, hm'⟩ (hok _ (List.mem_of_getElem? h3)) t).mpr h4) ih
  | @opts n f out r o i n1 n2 n3 a ty w p t h1 h2 h3 h4 h5 h6 h7 h8 h9 _ ih =>
    obtain ⟨x, it⟩ := a
    have hit := hok _ (List.mem_of_getElem? h3)
    have h2' : r.take (itemArgs l) n = some (i, n1) := by rw [take_items]; exact h2
    have h3' : (itemArgs l)[i]? = some (x, it.toArg (makeArgs (shadows l))) := by rw [itemArgs_get, h3]; rfl
    cases it with
    | arg a =>
      cases h4
      exact .opts r o h1 h2' h3' hit.1 h5 (by rw [value_items]; exact h6) (by rw [precValue_items]; exact h7) h8 ih
    | container ty vs => cases h4
    | join ty vs sep =>
      cases h4
      have hne : vs ≠ [] := by rintro rfl; exact h9 ty sep rfl
      obtain ⟨g', hg, h⟩ := joinArg_iff hm' hit.1 hit.2.1 sep hne hit.2.2
      exact .custom r h1 h2' (by rw [h3', Item.toArg, hg]) ((h _ _ _ _ _).mpr ⟨o, w, n2, p, h5, rfl, h6, h7, h8⟩) ih
    | bytes s =>
      cases h4
      obtain ⟨g', hg, h⟩ := bytesArg_iff hm' s
      exact .custom r h1 h2' (by rw [h3', Item.toArg, hg]) ((h _ _ _ _ _).mpr ⟨o, w, n2, p, h5, rfl, h6, h7, h8⟩) ih
    | groupDigits k v =>
      cases h4
      obtain ⟨g', hg, h⟩ := groupDigitsArg_iff hm' hit v
      exact .custom r h1 h2' (by rw [h3', Item.toArg, hg]) ((h _ _ _ _ _).mpr ⟨o, w, n2, p, h5, rfl, h6, h7, h8⟩) ih
  | @empty n f out r o i n1 n2 n3 x ty sep h1 h2 h3 h4 h5 h6 h7 _ ih =>
    have hit := hok _ (List.mem_of_getElem? h3)
    obtain ⟨g', hg, h⟩ := joinArg_empty (makeArgs (shadows l)) hit.1 sep
    have := Formats.custom (printable := isPrintable) (l := itemArgs l) r h1 (by rw [take_items]; exact h2)
      (by rw [itemArgs_get, h3]; simp only [Option.map_some, Item.toArg, hg]; rfl)
      ((h _ _ _ _ _).mpr ⟨rfl, o, n2, h4, h5, rfl, h6, h7⟩) ih
    exact this
  | @container n f out r i n1 x ty vs t h1 h2 h3 h4 _ ih =>
    have hit := hok _ (List.mem_of_getElem? h3)
    obtain ⟨g', hg, h⟩ := container_eq ty vs
    exact .custom r h1 (by rw [take_items]; exact h2) (by rw [itemArgs_get, h3]; simp only [Option.map_some, Item.toArg, hg]; rfl)
      ((agrees_iff (h hit.2.1 hit.2.2 _ n1) _).mpr (by rw [h4]; rfl)) ih

/-- what `format` makes of items -/
theorem formatItems_iff (hm : l.length < 2 ^ 31) (hok : ∀ p ∈ l, ItemOk p.2) (fmt out : Str) :
    format fmt (itemArgs l) = .ok out ↔ FormatsItems isPrintable l 0 fmt out := by
  rw [format_iff (by rw [itemArgs_length]; exact hm) (itemArgs_ok hm hok)]
  exact ⟨items_of_formats hm hok, formats_of_items hm hok⟩

theorem formatItems_ne_ub (hm : l.length < 2 ^ 31) (hok : ∀ p ∈ l, ItemOk p.2) (fmt : Str) : format fmt (itemArgs l) ≠ .ub :=
  format_ne_ub (by rw [itemArgs_length]; exact hm) (itemArgs_ok hm hok) fmt

end Fmt
end Efp
