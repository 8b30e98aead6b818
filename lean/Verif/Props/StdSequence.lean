import Verif.StdSequence
import Verif.CyclicViewLemmas
import Verif.Props.Prelude

/-!
# Standard containers passed to the list functions (C162)

Vocabulary: `StdSeq` is a standard container and `vals` its values; `asArg` passes it to a list function; `nth` is a reference to an
element and `load` reads it.
-/

namespace Efp
namespace Props

open StdSequence

variable {α β ω : Type}

/-- the English property for one container: reading element `i` gives value `i` -/
def ReadsValues (as : StdSeq α) : Prop :=
  ∀ (ω : Type) (w : ω) (i : Nat) (a : α), as.vals[i]? = some a → (do let b ← nth i as; load as b : Cpp ω α) w = .ok a w

/-- every container but `std::vector<bool>` -/
def Unpacked (as : StdSeq α) : Prop := ∀ vals, as ≠ .packed vals

/-- C162: element `i` is read as value `i`, for every container but `std::vector<bool>`. -/
theorem C162_nth_partial (as : StdSeq α) (h : Unpacked as) : ReadsValues as := by
  intro ω w i a ha
  have hi := (List.getElem?_eq_some_iff.1 ha).1
  cases as with
  | array vals =>
    have hi : i < vals.length := hi
    show (index (.array vals) i >>= _ : Cpp ω α) w = _
    rw [index, if_pos hi]
    show (match vals[i]? with | some a => pure a | none => Cpp.ub .oob : Cpp ω α) w = _
    rw [show vals[i]? = some a from ha]; rfl
  | vector vals nl =>
    have hi : i < vals.length := hi
    show (index (.vector vals nl) i >>= _ : Cpp ω α) w = _
    rw [index, if_pos hi]
    show (match vals[i]? with | some a => pure a | none => Cpp.ub .oob : Cpp ω α) w = _
    rw [show vals[i]? = some a from ha]; rfl
  | string vals z =>
    have hi : i < vals.length := hi
    show (index (.string vals z) i >>= _ : Cpp ω α) w = _
    rw [index, if_pos (Nat.le_of_lt hi)]
    show (match (vals ++ [z])[i]? with | some a => pure a | none => Cpp.ub .oob : Cpp ω α) w = _
    rw [List.getElem?_append_left hi, show vals[i]? = some a from ha]; rfl
  | packed vals => exact absurd rfl (h vals)

theorem reads_ok (as : StdSeq α) (h : Unpacked as) (w : ω) : ∀ r i, i + r = as.vals.length →
    reads as r i w = .ok (as.vals.drop i) w
  | 0, i, e => by rw [List.drop_eq_nil_of_le (by omega)]; rfl
  | r + 1, i, e => by
    have hi : i < as.vals.length := by omega
    have h1 := C162_nth_partial as h ω w i _ (List.getElem?_eq_getElem hi)
    have h2 := reads_ok as h w r (i + 1) (by omega)
    have : reads as (r + 1) i = (do let a ← (do let b ← nth i as; load as b); let rest ← reads as r (i + 1); pure (a :: rest) : Cpp ω (List α)) := by
      funext w'
      simp only [reads, bind_assoc]
    rw [this, Cpp.bind_ok h1, Cpp.bind_ok h2, List.drop_eq_getElem_cons hi]
    rfl

/-- C162: a list function sees the values of the container, as an argument of the static size of a `std::array` and of dynamic
size otherwise. -/
theorem C162_argument_partial (as : StdSeq α) (h : Unpacked as) (hd : as.vals.length < Prelude.dyn) (w : ω) :
    ∃ a, asArg as w = .ok a w ∧ a.valid ∧ a.vals = as.vals ∧
      a.ty = (match as with | .array vals => .array vals.length | _ => .vector) := by
  have h1 := reads_ok as h w (length as) 0 (by simp [length])
  refine ⟨_, by unfold asArg; rw [Cpp.bind_ok h1]; rfl, ?_, by simp, by cases as <;> rfl⟩
  cases as with
  | array vals => exact ⟨⟨by simp [StdSeq.vals], hd⟩, by simp⟩
  | vector vals nl =>
    refine ⟨by simpa [StdSeq.ty] using hd, ?_⟩
    cases vals with
    | nil => exact fun _ => ⟨rfl, rfl⟩
    | cons x l => simp
  | string vals z => exact ⟨by simpa [StdSeq.ty] using hd, by simp⟩
  | packed vals => exact absurd rfl (h vals)

/-- C162: the folds -/
theorem C162_folds_partial (as : StdSeq α) (h : Unpacked as) (hd : as.vals.length < Prelude.dyn) (f : β → α → β) (g : α → β → β)
    (z : β) (w : ω) :
    (do let a ← asArg as; Prelude.foldl (fun b x => pure (f b x)) z a : Cpp ω β) w = .ok (as.vals.foldl f z) w ∧
    (do let a ← asArg as; Prelude.foldr (fun x b => pure (g x b)) z a : Cpp ω β) w = .ok (as.vals.foldr g z) w := by
  obtain ⟨a, h1, -, h3, -⟩ := C162_argument_partial as h hd w
  obtain ⟨e1, e2⟩ := C44_folds_pure a f g z w
  rw [Cpp.bind_ok h1, Cpp.bind_ok h1, e1, e2, h3]
  exact ⟨rfl, rfl⟩

/-- C162: `filter` -/
theorem C162_filter_partial (as : StdSeq α) (h : Unpacked as) (hd : as.vals.length < Prelude.dyn) (k : Kind) (d : α) (p : α → Bool)
    (w : ω) :
    ∃ r, (do let a ← asArg as; Prelude.filter k d (fun x => pure (p x)) a : Cpp ω (Prelude.Res α)) w = .ok r w ∧
      r.contents = .ok (as.vals.filter p) := by
  obtain ⟨a, h1, h2, h3, -⟩ := C162_argument_partial as h hd w
  obtain ⟨r, r1, r2⟩ := C43_filter_pure k d p a h2 w
  exact ⟨r, by rw [Cpp.bind_ok h1]; exact r1, by rw [r2, h3]⟩

/-- C162: `map`, for results that are trivially copied or of static size -/
theorem C162_map_partial (as : StdSeq α) (h : Unpacked as) (hd : as.vals.length < Prelude.dyn) (k : Kind)
    (hk : k = .trivial ∨ ∃ vals, as = .array vals) (f : α → β) (e : β) (w : ω) :
    ∃ r, (do let a ← asArg as; Prelude.map k e (fun ys => pure (Prelude.unary f ys e)) [a] : Cpp ω (Prelude.Res β)) w = .ok r w ∧
      r.contents = .ok (as.vals.map f) := by
  obtain ⟨a, h1, h2, h3, h4⟩ := C162_argument_partial as h hd w
  have h := C42_map k e (fun ys => (pure (Prelude.unary f ys e) : Cpp ω β)) [a] (by simp) (by simpa using h2) (by
    rcases hk with hk | ⟨vals, rfl⟩
    · exact .inl hk
    · refine .inr ?_
      have : vals.length < Prelude.dyn := hd
      simp [h4, Prelude.SeqTy.isStaticSize, Prelude.SeqTy.ctSize]; omega) w
  rw [mapM_pure] at h
  have e' : (Prelude.rows ([a].map Prelude.Inp.vals)).map (fun ys => Prelude.unary f ys e) = a.vals.map f := by
    rw [List.map_cons, List.map_nil, rows_one, List.map_map]; rfl
  rw [e', h3] at h
  obtain ⟨r, r1, r2⟩ := h
  exact ⟨r, by rw [Cpp.bind_ok h1]; exact r1, r2⟩

/-- C162: assigning through `nth` changes that value and no other; out of range it is undefined. -/
theorem C162_assign_partial (as : StdSeq α) (h : Unpacked as) (i : Nat) (a : α) :
    (i < as.vals.length → ∃ bs, assign i a as = .ok () bs ∧ bs.vals = as.vals.set i a ∧ bs.ty = as.ty) ∧
    (as.vals.length ≤ i → assign i a as = .ub .oob) := by
  cases as with
  | array vals =>
    refine ⟨fun hi => ⟨.array (vals.set i a), if_pos hi, rfl, ?_⟩, fun hi => if_neg (Nat.not_lt.2 hi)⟩
    simp [StdSeq.ty]
  | vector vals nl => exact ⟨fun hi => ⟨.vector (vals.set i a) nl, if_pos hi, rfl, rfl⟩, fun hi => if_neg (Nat.not_lt.2 hi)⟩
  | string vals z => exact ⟨fun hi => ⟨.string (vals.set i a) z, if_pos hi, rfl, rfl⟩, fun hi => if_neg (Nat.not_lt.2 hi)⟩
  | packed vals => exact absurd rfl (h vals)

/-- C162 is false of `std::vector<bool>`: `nth` returns a reference to a temporary, and reading any element of any such container is
undefined. -/
theorem C162_refuted : (¬ ∀ as : StdSeq Bool, ReadsValues as) ∧
    ∀ (vals : List Bool) (i : Nat) (w : ω), i < vals.length →
      (do let b ← nth i (.packed vals); load (.packed vals) b : Cpp ω Bool) w = .ub .wildPtr := by
  have key : ∀ {ω : Type} (vals : List Bool) (i : Nat) (w : ω), i < vals.length →
      (do let b ← nth i (.packed vals); load (.packed vals) b : Cpp ω Bool) w = .ub .wildPtr := by
    intro ω vals i w hi
    show (index (.packed vals) i >>= _ : Cpp ω Bool) w = _
    rw [index, List.getElem?_eq_getElem hi]
    rfl
  refine ⟨fun h => ?_, key⟩
  have h1 := h (.packed [true]) Unit () 0 true rfl
  rw [key [true] 0 () (by decide)] at h1
  exact nomatch h1

/-- C162: so every list function that looks at an element of a `std::vector<bool>` is undefined. -/
theorem C162_bool_argument (vals : List Bool) (hne : vals ≠ []) (w : ω) : asArg (.packed vals) w = .ub .wildPtr := by
  cases vals with
  | nil => exact absurd rfl hne
  | cons x l => rfl

/-- C162: reading one position beyond a `std::basic_string` gives the terminating zero; beyond the other containers it is
undefined. -/
theorem C162_past_the_end (as : StdSeq α) (w : ω) : (do let b ← nth (length as) as; load as b : Cpp ω α) w =
    match as with
    | .string _ zero => .ok zero w
    | _ => .ub .oob := by
  cases as with
  | array vals =>
    show (index (.array vals) vals.length >>= _ : Cpp ω α) w = _
    rw [index, if_neg (Nat.lt_irrefl _)]; rfl
  | vector vals nl =>
    show (index (.vector vals nl) vals.length >>= _ : Cpp ω α) w = _
    rw [index, if_neg (Nat.lt_irrefl _)]; rfl
  | string vals z =>
    show (index (.string vals z) vals.length >>= _ : Cpp ω α) w = _
    rw [index, if_pos (Nat.le_refl _)]
    show (match (vals ++ [z])[vals.length]? with | some a => pure a | none => Cpp.ub .oob : Cpp ω α) w = _
    rw [List.getElem?_concat_length]; rfl
  | packed vals =>
    show (index (.packed vals) vals.length >>= _ : Cpp ω α) w = _
    rw [index, List.getElem?_eq_none (Nat.le_refl _)]; rfl

-- a `std::array<int, 3>` and a `std::string`
example : Unpacked (.array [3, 1, 2]) ∧ ([3, 1, 2] : List Nat).length < Prelude.dyn ∧
    (do let a ← asArg (.array [3, 1, 2]); Prelude.foldl (fun b x => pure (b + x)) 0 a : Cpp Unit Nat) () = .ok 6 () :=
  ⟨nofun, by decide, by decide⟩
example : Unpacked (.string ['e', 'f', 'p'] (Char.ofNat 0)) ∧
    (do let b ← nth 1 (.string ['e', 'f', 'p'] (Char.ofNat 0)); load (.string ['e', 'f', 'p'] (Char.ofNat 0)) b : Cpp Unit Char) () =
      .ok 'f' () := ⟨nofun, by decide⟩

end Props
end Efp
