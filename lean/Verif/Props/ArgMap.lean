import Verif.Spec.ArgMap
import Verif.Props.Fmt

/-!
# Properties of the arguments of `format` (C131) and of `string_view` (C132)
-/

namespace Efp
namespace Props

open Efp.Spec.Fmt Efp.Fmt

theorem toSigned_eq {w : Nat} (hw : w = 32 ∨ w = 64 ∨ w = 128) {v : Int} (h1 : -(2 ^ (w - 1) : Nat) ≤ v)
    (h2 : v < (2 ^ (w - 1) : Nat)) : toSigned w v = v := by
  unfold toSigned
  rcases hw with rfl | rfl | rfl <;> (simp only; split <;> omega)

theorem toUnsigned_eq {w : Nat} (hw : w = 32 ∨ w = 64 ∨ w = 128) {v : Int} (h1 : 0 ≤ v) (h2 : v < (2 ^ w : Nat)) :
    (toUnsigned w v : Int) = v := by
  unfold toUnsigned
  rcases hw with rfl | rfl | rfl <;> omega

theorem mapInt_ok (t : CInt) (v : Int) (h1 : least t ≤ v) (h2 : v ≤ greatest t) :
    ArgOk (mapInt t v) ∧ intValue (mapInt t v) = some v := by
  have s : ∀ {w}, w = 32 ∨ w = 64 ∨ w = 128 → -(2 ^ (w - 1) : Nat) ≤ v → v < (2 ^ (w - 1) : Nat) → toSigned w v = v :=
    fun h => toSigned_eq h
  have u : ∀ {w}, w = 32 ∨ w = 64 ∨ w = 128 → 0 ≤ v → v < (2 ^ w : Nat) → (toUnsigned w v : Int) = v :=
    fun h => toUnsigned_eq h
  cases t <;> simp only [least, greatest] at h1 h2 <;> simp only [mapInt, ArgOk, intValue, Option.some.injEq]
  case schar => rw [s (.inl rfl) (by omega) (by omega)]; omega
  case uchar => have := u (.inl rfl) h1 (by omega); omega
  case short => rw [s (.inl rfl) (by omega) (by omega)]; omega
  case ushort => have := u (.inl rfl) h1 (by omega); omega
  case int => rw [s (.inl rfl) (by omega) (by omega)]; omega
  case uint => have := u (.inl rfl) h1 (by omega); omega
  case long => rw [s (.inr (.inl rfl)) (by omega) (by omega)]; omega
  case ulong => have := u (.inr (.inl rfl)) h1 (by omega); omega
  case llong => rw [s (.inr (.inl rfl)) (by omega) (by omega)]; omega
  case ullong => have := u (.inr (.inl rfl)) h1 (by omega); omega
  case int128 => rw [s (.inr (.inr rfl)) (by omega) (by omega)]; omega
  case uint128 => have := u (.inr (.inr rfl)) h1 (by omega); omega

theorem argMap_ok (p : Passed) (h : Fits p) : ArgOk (argMap p) ∧ showDefault (argMap p) = plainText p := by
  have hi : ∀ t v, least t ≤ v ∧ v ≤ greatest t →
      ArgOk (mapInt t v) ∧ showDefault (mapInt t v) = some (showIntDefault v) := by
    intro t v h
    obtain ⟨h1, h2⟩ := mapInt_ok t v h.1 h.2
    refine ⟨h1, ?_⟩
    cases e : mapInt t v <;> rw [e] at h2 <;> simp only [intValue, Option.some.injEq, reduceCtorEq] at h2 <;> subst h2 <;> rfl
  induction p with
  | integer t v => exact hi t v h
  | formatAs t v => exact hi t v h
  | named n p ih => exact ih h
  | bool v => exact ⟨trivial, rfl⟩
  | char c => exact ⟨h, rfl⟩
  | charPtr a s => exact ⟨h, rfl⟩
  | string s => exact ⟨h, rfl⟩
  | pointer a => exact ⟨h, rfl⟩

theorem passedArgs_ok {l : List Passed} (h : ∀ p ∈ l, Fits p) : ∀ q ∈ passedArgs l, ArgOk q.2 := by
  intro q hq
  obtain ⟨p, hp, rfl⟩ := List.mem_map.mp hq
  exact (argMap_ok p (h p hp)).1

theorem passedArgs_length (l : List Passed) : (passedArgs l).length = l.length := List.length_map _

/-! ## C131 -/

/-- Whatever the caller passes, in any number and of any of these types, as many empty fields print the values passed: no
value is changed by the conversion to the types the library stores. -/
theorem C131_values (l : List Passed) (hm : l.length < 2 ^ 31) (h : ∀ p ∈ l, Fits p) (ts : List Str)
    (ht : l.mapM plainText = some ts) : format (fields l.length) (passedArgs l) = .ok ts.flatten := by
  have hl := passedArgs_length l
  refine C93_automatic (passedArgs l) (by omega) (passedArgs_ok h) l.length (by omega) ts ?_
  rw [← hl, List.take_length]
  clear hl hm
  unfold passedArgs
  rw [List.mapM_map, ← ht]
  clear ht
  induction l with
  | nil => rfl
  | cons p l ih =>
    rw [List.mapM_cons, List.mapM_cons, ih fun q hq => h q (List.mem_cons_of_mem _ hq),
      ← (argMap_ok p (h p List.mem_cons_self)).2]
    rfl

/-- An integer of any of the twelve integer types prints as decimal digits that read back as the integer; so does an
object with a `format_as` that returns one. -/
theorem C131_integer (p : Passed) (h : Fits p) (v : Int) (hv : number p = some v) :
    ∃ t, format ['{', '}'] (passedArgs [p]) = .ok t ∧ readInt 10 t = v := by
  have hp : plainText p = some (showIntDefault v) := by
    induction p with
    | integer t w => cases hv; rfl
    | formatAs t w => cases hv; rfl
    | named n p ih => exact ih h hv
    | _ => cases hv
  refine ⟨showIntDefault v, ?_, readInt_of (by decide) (by decide) v false⟩
  have := C131_values [p] (by simp) (by simpa using h) [showIntDefault v] (by simp [hp])
  simpa [fields] using this

/-- An argument passed under a name prints in a field of that name, whatever stands before and behind it; the first of
that name does. -/
theorem C131_named (a b : List Passed) (name : Str) (p : Passed) (hm : a.length + b.length + 1 < 2 ^ 31)
    (h : ∀ q ∈ a ++ .named name p :: b, Fits q) (hn : (Ref.name name).Valid)
    (hfirst : ∀ q, Passed.named name q ∉ a) (t : Str) (ht : plainText p = some t) :
    format ('{' :: (name ++ ['}'])) (passedArgs (a ++ .named name p :: b)) = .ok t := by
  have hidx : nameIndex (passedArgs (a ++ .named name p :: b)) name = some a.length := by
    unfold nameIndex passedArgs
    rw [List.findIdx?_map, List.findIdx?_append, List.findIdx?_eq_none_iff.mpr]
    · rw [List.findIdx?_cons]
      simp [argName]
    · intro q hq
      cases q with
      | named n q =>
        by_cases e : n = name
        · exact absurd (e ▸ hq) (hfirst q)
        · simp [argName, e]
      | _ => simp [argName]
  refine (C93_name _ (by rw [passedArgs_length]; simp; omega) (passedArgs_ok h) name hn).1 a.length
    (some name, argMap (.named name p)) t hidx ?_ ?_
  · simp [passedArgs, argName]
  · rw [(argMap_ok _ (h _ (by simp))).2]
    exact ht

/-- the least `long long`, an object that becomes a `signed char`, a `bool` and a named `unsigned short` -/
example : format "{}{}{}{}".toList (passedArgs [.integer .llong (-2 ^ 63), .formatAs .schar (-5), .bool true,
    .named ['x'] (.integer .ushort 65535)]) = .ok "-9223372036854775808-5true65535".toList := by decide +kernel
/-- they fit their types -/
example : ∀ p ∈ ([.integer .llong (-2 ^ 63), .formatAs .schar (-5), .bool true, .named ['x'] (.integer .ushort 65535)] :
    List Passed), Fits p := by
  intro p hp
  simp only [List.mem_cons, List.not_mem_nil, or_false] at hp
  rcases hp with rfl | rfl | rfl | rfl
  · exact ⟨by decide, by decide⟩
  · exact ⟨by decide, by decide⟩
  · trivial
  · exact ⟨by decide, by decide⟩
/-- a name in the middle -/
example : format "{xy}".toList (passedArgs [.integer .int 1, .named ['x', 'y'] (.charPtr 8 ['o', 'k']), .pointer 255]) =
    .ok ['o', 'k'] := by decide +kernel

/-! ## C132 -/

/-- what `compare` should answer -/
def Answers (a b : Str) (r : Int) : Prop := (r < 0 ↔ Before a b) ∧ (r = 0 ↔ a = b) ∧ (r > 0 ↔ Before b a)

theorem before_cons {c d : Char} {a b : Str} :
    Before (c :: a) (d :: b) ↔ c.toNat < d.toNat ∨ (c = d ∧ Before a b) := by
  constructor
  · intro h
    cases h with
    | head _ _ h => exact .inl h
    | tail _ h => exact .inr ⟨rfl, h⟩
  · rintro (h | ⟨rfl, h⟩)
    · exact .head _ _ h
    · exact .tail _ h

theorem not_before_nil {a : Str} : ¬ Before a [] := by
  intro h; cases h

theorem before_nil {a : Str} : Before [] a ↔ a ≠ [] := by
  cases a with
  | nil => exact ⟨fun h => absurd h not_before_nil, fun h => absurd rfl h⟩
  | cons c a => exact ⟨fun _ => by simp, fun _ => .nil _ _⟩

theorem char_ext {c d : Char} (h : c.toNat = d.toNat) : c = d := Char.toNat_inj.mp h

theorem compare_cons (c d : Char) (a b : Str) : View.compare (c :: a) (d :: b) =
    if c.toNat < d.toNat then some (-1) else if d.toNat < c.toNat then some 1 else View.compare a b := by
  unfold View.compare
  have e : (if (c :: a).length < (d :: b).length then (c :: a).length else (d :: b).length) =
      (if a.length < b.length then a.length else b.length) + 1 := by
    simp only [List.length_cons]; split <;> split <;> omega
  simp only [e, View.traitsCompare]
  by_cases h1 : c.toNat < d.toNat
  · simp [h1]
  · by_cases h2 : d.toNat < c.toNat
    · simp [h1, h2]
    · simp [h1, h2]

theorem compare_ok : ∀ a b : Str, ∃ r, View.compare a b = some r ∧ Answers a b r
  | [], [] => ⟨0, rfl, by simp [Answers, not_before_nil]⟩
  | [], d :: b => ⟨-1, by simp [View.compare, View.traitsCompare], by simp [Answers, not_before_nil, before_nil]⟩
  | c :: a, [] => ⟨1, by simp [View.compare, View.traitsCompare], by simp [Answers, not_before_nil, before_nil]⟩
  | c :: a, d :: b => by
    rw [compare_cons]
    by_cases h1 : c.toNat < d.toNat
    · refine ⟨-1, if_pos h1, ?_⟩
      have : c ≠ d := by rintro rfl; omega
      have h2 : ¬ d.toNat < c.toNat := by omega
      simp [Answers, before_cons, h1, h2, this, this.symm]
    · rw [if_neg h1]
      by_cases h2 : d.toNat < c.toNat
      · refine ⟨1, if_pos h2, ?_⟩
        have : c ≠ d := by rintro rfl; omega
        simp [Answers, before_cons, h1, h2, this, this.symm]
      · rw [if_neg h2]
        obtain rfl := char_ext (show c.toNat = d.toNat by omega)
        obtain ⟨r, h, h3⟩ := compare_ok a b
        refine ⟨r, h, ?_⟩
        simpa [Answers, before_cons] using h3

/-- `compare` of two views answers below, at or above zero as the one text stands before, is equal to, or stands behind the
other in a dictionary of byte sequences; it reads no byte outside the views, whatever their sizes. -/
theorem C132_compare (a b : Str) : ∃ r, View.compare a b = some r ∧ (r < 0 ↔ Before a b) ∧ (r = 0 ↔ a = b) ∧
    (r > 0 ↔ Before b a) := compare_ok a b

/-- The six operators answer accordingly. -/
theorem C132_operators (a b : Str) :
    (View.eq a b = some true ↔ a = b) ∧ (View.ne a b = some true ↔ a ≠ b) ∧ (View.lt a b = some true ↔ Before a b) ∧
    (View.le a b = some true ↔ Before a b ∨ a = b) ∧ (View.gt a b = some true ↔ Before b a) ∧
    (View.ge a b = some true ↔ Before b a ∨ a = b) ∧
    View.eq a b ≠ none ∧ View.ne a b ≠ none ∧ View.lt a b ≠ none ∧ View.le a b ≠ none ∧ View.gt a b ≠ none ∧
    View.ge a b ≠ none := by
  obtain ⟨r, h, h1, h2, h3⟩ := compare_ok a b
  simp only [View.eq, View.ne, View.lt, View.le, View.gt, View.ge, h, Option.map_some, Option.some.injEq, decide_eq_true_eq,
    ne_eq, reduceCtorEq, not_false_eq_true, and_true]
  rw [← h1, ← h2, ← h3]
  refine ⟨?_, ?_, ?_, ?_, ?_, ?_⟩ <;> omega

/-- The order is total: of two texts exactly one of less, equal and greater holds; and it is transitive. -/
theorem C132_total (a b : Str) :
    (View.lt a b = some true ∧ View.eq a b = some false ∧ View.gt a b = some false) ∨
    (View.lt a b = some false ∧ View.eq a b = some true ∧ View.gt a b = some false) ∨
    (View.lt a b = some false ∧ View.eq a b = some false ∧ View.gt a b = some true) := by
  obtain ⟨r, h, -⟩ := compare_ok a b
  simp only [View.eq, View.lt, View.gt, h, Option.map_some, Option.some.injEq, decide_eq_true_eq, decide_eq_false_iff_not]
  omega

theorem before_trans {a b c : Str} (h1 : Before a b) (h2 : Before b c) : Before a c := by
  induction h1 generalizing c with
  | nil x b => exact before_nil.mpr (by rintro rfl; exact not_before_nil h2)
  | @head x y a b h =>
    cases c with
    | nil => exact absurd h2 not_before_nil
    | cons z c =>
      rcases before_cons.mp h2 with h3 | ⟨rfl, h3⟩
      · exact .head _ _ (by omega)
      · exact .head _ _ h
  | @tail x a b h ih =>
    cases c with
    | nil => exact absurd h2 not_before_nil
    | cons z c =>
      rcases before_cons.mp h2 with h3 | ⟨rfl, h3⟩
      · exact .head _ _ h3
      · exact .tail _ (ih h3)

/-- Transitivity: sorting views with `<` is well defined. -/
theorem C132_transitive (a b c : Str) (h1 : View.lt a b = some true) (h2 : View.lt b c = some true) :
    View.lt a c = some true :=
  (C132_operators a c).2.2.1.mpr (before_trans ((C132_operators a b).2.2.1.mp h1) ((C132_operators b c).2.2.1.mp h2))

theorem traitsCompare_prefix : ∀ b a : Str, b.length ≤ a.length →
    ∃ r, View.traitsCompare b.length a b = some r ∧ (r = 0 ↔ b <+: a)
  | [], a, _ => ⟨0, rfl, by simp⟩
  | d :: b, [], h => by simp at h
  | d :: b, c :: a, h => by
    obtain ⟨r, h1, h2⟩ := traitsCompare_prefix b a (by simpa using h)
    simp only [List.length_cons, View.traitsCompare, List.cons_prefix_cons]
    by_cases h3 : c.toNat < d.toNat
    · exact ⟨-1, if_pos h3, ⟨fun e => by omega, fun e => by rw [e.1] at h3; omega⟩⟩
    · by_cases h4 : d.toNat < c.toNat
      · exact ⟨1, by rw [if_neg h3, if_pos h4], ⟨fun e => by omega, fun e => by rw [e.1] at h3 h4; omega⟩⟩
      · obtain rfl := char_ext (show c.toNat = d.toNat by omega)
        exact ⟨r, by rw [if_neg h3, if_neg h4, h1], by simpa using h2⟩

/-- `starts_with` tells whether the one text begins with the other, or with a character, and reads nothing outside. -/
theorem C132_starts_with (a b : Str) (c : Char) :
    (View.startsWith a b = some true ↔ ∃ rest, a = b ++ rest) ∧ View.startsWith a b ≠ none ∧
    (View.startsWithChar a c = some true ↔ ∃ rest, a = c :: rest) ∧ View.startsWithChar a c ≠ none := by
  have h1 : ∃ r, View.startsWith a b = some r ∧ (r = true ↔ ∃ rest, a = b ++ rest) := by
    unfold View.startsWith
    by_cases h : a.length ≥ b.length
    · obtain ⟨r, h1, h2⟩ := traitsCompare_prefix b a h
      refine ⟨decide (r = 0), by rw [if_pos h, h1]; rfl, ?_⟩
      rw [decide_eq_true_eq, h2]
      exact ⟨fun ⟨t, e⟩ => ⟨t, e.symm⟩, fun ⟨t, e⟩ => ⟨t, e.symm⟩⟩
    · refine ⟨false, if_neg h, by simp, ?_⟩
      rintro ⟨t, rfl⟩
      simp at h
  have h2 : ∃ r, View.startsWithChar a c = some r ∧ (r = true ↔ ∃ rest, a = c :: rest) := by
    cases a with
    | nil => exact ⟨false, rfl, by simp⟩
    | cons d a => exact ⟨decide (d = c), by simp [View.startsWithChar], by simp⟩
  obtain ⟨r1, e1, h1⟩ := h1
  obtain ⟨r2, e2, h2⟩ := h2
  rw [e1, e2]
  simp [h1, h2]

/-- After `remove_prefix(n)` of at most the size, the view is the text without its first `n` bytes; a view starts with `p`
exactly when `p` and what is left behind it make up the text. -/
theorem C132_remove_prefix (a : Str) (n : Nat) (h : n ≤ a.length) :
    ∃ r, View.removePrefix n a = some r ∧ a = a.take n ++ r ∧ r.length = a.length - n ∧
      View.startsWith a (a.take n) = some true :=
  ⟨a.drop n, if_pos h, (List.take_append_drop n a).symm, List.length_drop,
    (C132_starts_with a (a.take n) 'x').1.mpr ⟨a.drop n, (List.take_append_drop n a).symm⟩⟩

/-- "ab" before "b", a prefix first, bytes above 127 behind ASCII -/
example : View.lt "ab".toList "b".toList = some true ∧ View.lt "ab".toList "abc".toList = some true ∧
    View.gt [Char.ofNat 200] ['z'] = some true ∧ View.startsWith "abc".toList "ab".toList = some true ∧
    View.startsWith "a".toList "ab".toList = some false ∧ View.removePrefix 1 "abc".toList = some "bc".toList := by
  decide +kernel

end Props
end Efp
