import Verif.ViewLemmas

/-!
# Properties of views and of the view-returning functions (C16, C48-C50)

An argument sequence `as : Inp α` is any existing `Array`, `ArrVec`, `Vector` or view: `as.valid` says that its
length fits its static type.  A length argument is a run-time number (`.rt n`) or a compile-time `Size<n>`
(`.ct n`).  `v.contents` reads the view element by element through its pointer; a read outside the viewed
sequence is `.ub`.
-/

namespace Efp
namespace Props

open Prelude

variable {α σ : Type}

/-! ### C48 -/

/-- C48: for every `n` (run-time or compile-time, also beyond the length) `take` and `drop` return views that
can be read without leaving the sequence, of the first `n` elements and of the rest; put together they are the
sequence. -/
theorem C48_take_drop (as : Inp α) (hv : as.valid) (n : NArg) (s : σ) :
    ∃ v w xs ys, take n as s = .ok v s ∧ drop n as s = .ok w s ∧
      v.contents s = .ok xs s ∧ w.contents s = .ok ys s ∧
      xs.length = min n.val as.vals.length ∧ xs ++ ys = as.vals ∧
      v.size = xs.length ∧ w.size = ys.length := by
  obtain ⟨v, h1, _, h2, _, h3⟩ := take_run (ω := σ) hv n s
  obtain ⟨w, h4, _, h5, _, h6⟩ := drop_run (ω := σ) hv n s
  refine ⟨v, w, as.vals.take n.val, as.vals.drop n.val, h1, h4, by rw [h3]; rfl, by rw [h6]; rfl, ?_,
    List.take_append_drop _ _, ?_, ?_⟩
  · simp
  · simp [h2]
  · simp [h5]

/-- C48: the static view types chosen by `take` and `drop` hold the number of elements viewed -/
theorem C48_types (as : Inp α) (hv : as.valid) (n : NArg) (s : σ) :
    ∃ v w, take n as s = .ok v s ∧ drop n as s = .ok w s ∧ Holds v.ty v.size ∧ Holds w.ty w.size := by
  obtain ⟨v, h1, h1', h2, _, h3⟩ := take_run (ω := σ) hv n s
  obtain ⟨w, h4, h4', h5, _, h6⟩ := drop_run (ω := σ) hv n s
  exact ⟨v, w, h1, h4, by rw [h1', h2]; exact takeTy_holds hv n, by rw [h4', h5]; exact dropTy_holds hv n⟩

example : (⟨.arrVec 5, [1, 2, 3], 7, false⟩ : Inp Nat).valid := by decide
example : ∃ v, take (.ct 2) (⟨.arrVec 5, [1, 2, 3], 7, false⟩ : Inp Nat) () = .ok v () ∧
    v.ty = .arrVec 2 ∧ v.contents () = .ok [1, 2] () := ⟨_, rfl, by decide, rfl⟩
example : ∃ v, drop (.rt 9) (⟨.array 3, [1, 2, 3], 7, false⟩ : Inp Nat) () = .ok v () ∧
    v.ty = .arrVec 3 ∧ v.contents () = .ok [] () := ⟨_, rfl, by decide, rfl⟩
example : ∃ v, drop (.ct 1) (⟨.array 3, [1, 2, 3], 7, false⟩ : Inp Nat) () = .ok v () ∧
    v.ty = .array 2 ∧ v.contents () = .ok [2, 3] () := ⟨_, rfl, by decide, rfl⟩

/-- C48: where `n` is at most the length, as their documentation demands, `take_unsafe` and `drop_unsafe` return what
`take` and `drop` return, in view types that hold it -/
theorem C48_unsafe (as : Inp α) (hv : as.valid) (n : NArg) (hn : n.val ≤ as.vals.length) (s : σ) :
    ∃ v w, takeUnsafe n as s = .ok v s ∧ dropUnsafe n as s = .ok w s ∧
      v.contents s = .ok (as.vals.take n.val) s ∧ w.contents s = .ok (as.vals.drop n.val) s ∧
      Holds v.ty v.size ∧ Holds w.ty w.size ∧
      v.size = n.val ∧ w.size = as.vals.length - n.val := by
  obtain ⟨v, h1, h2, h3, h4⟩ := takeUnsafe_run (ω := σ) hv n hn s
  obtain ⟨w, h5, h6, h7, h8⟩ := dropUnsafe_run (ω := σ) hv n hn s
  exact ⟨v, w, h1, h5, by rw [h4]; rfl, by rw [h8]; rfl, by rw [h3]; exact h2, by rw [h7]; exact h6, h3, h7⟩

example : ∃ v, takeUnsafe (.ct 2) (⟨.arrVec 5, [1, 2, 3], 7, false⟩ : Inp Nat) () = .ok v () ∧
    v.ty = .array 2 ∧ v.contents () = .ok [1, 2] () := ⟨_, rfl, by decide, rfl⟩
example : ∃ v, dropUnsafe (.ct 2) (⟨.arrVec 5, [1, 2, 3], 7, false⟩ : Inp Nat) () = .ok v () ∧
    v.ty = .arrVec 3 ∧ v.contents () = .ok [3] () := ⟨_, rfl, by decide, rfl⟩

/-- C48: a view converted to a view of a more general class (`ArrayView` to `ArrVecView` of sufficient capacity, either
to `VectorView`) shows the same elements -/
theorem C48_converted (v : View α) (m : Nat) (s : σ) :
    (v.toArrVecView m).contents s = v.contents s ∧ v.toVectorView.contents s = v.contents s ∧
      (v.size ≤ m → Holds (v.toArrVecView m).ty (v.toArrVecView m).size) ∧
      Holds v.toVectorView.ty v.toVectorView.size := by
  have key : ∀ w : View α, w.ptr = v.ptr → w.size = v.size → w.contents s = v.contents s := by
    intro w h1 h2
    unfold View.contents
    rw [h2]
    have : ∀ n i, (w.readFrom i n : Cpp σ (List α)) = v.readFrom i n := by
      intro n
      induction n with
      | zero => intro i; rfl
      | succ n ih => intro i; simp only [View.readFrom, View.at_, h1, ih]
    rw [this]
  refine ⟨key _ rfl rfl, key _ rfl rfl, fun h => ?_, ?_⟩
  · exact h
  · simp [Holds, View.toVectorView]

example : ((⟨.array 2, some ⟨7, 1, [1, 2, 3]⟩, 2, none⟩ : View Nat).toArrVecView 4).contents () = .ok [2, 3] () := rfl

/-! ### C49 -/

/-- C49, the part that holds: with bounds in range and in order `slice` views exactly the elements
`start .. end - 1`.  Missing: clamping (false, see below). -/
theorem C49_slice_in_range_partial (as : Inp α) (hv : as.valid) (st en : NArg) (h : st.val ≤ en.val)
    (he : en.val ≤ as.vals.length) (s : σ) :
    ∃ v, slice st en as s = .ok v s ∧ v.contents s = .ok ((as.vals.drop st.val).take (en.val - st.val)) s := by
  obtain ⟨v, h1, _, h2⟩ := slice_run (ω := σ) hv st en h he s
  exact ⟨v, h1, by rw [h2]; rfl⟩

/-- C49 holds in full for an `Array` sliced with compile-time bounds in order: the result is clamped. -/
theorem C49_slice_static_partial (as : Inp α) (n : Nat) (ht : as.ty = .array n) (hv : as.valid) (st en : Nat)
    (h : st ≤ en) (s : σ) :
    ∃ v, slice (.ct st) (.ct en) as s = .ok v s ∧ v.contents s = .ok ((as.vals.drop st).take (en - st)) s := by
  obtain ⟨v, h1, h2⟩ := slice_static (ω := σ) hv ht st en s
  rw [sub64_le h] at h2
  exact ⟨v, h1, by rw [h2]; rfl⟩

/-- C49 is false: for EVERY vector that owns storage and run-time bounds `start < end` with `end` beyond the
length, the call succeeds and reading the view leaves the sequence. -/
theorem C49_slice_overruns (as : Inp α) (ht : as.ty = .vector) (hn : as.null = false) (st en : Nat)
    (h : st < en) (he : as.vals.length < en) (s : σ) :
    ∃ v, slice (.rt st) (.rt en) as s = .ok v s ∧ v.contents s = .ub .oob := by
  refine ⟨_, slice_vector as ht hn st en s, ?_⟩
  unfold View.contents
  rw [View.readFrom_oob (l := ⟨as.blk, st, as.vals⟩) rfl]
  · exact sub64_le (Nat.le_of_lt h) ▸ (by omega : 0 < en - st)
  · show as.vals.length < st + 0 + sub64 en st
    rw [sub64_le (Nat.le_of_lt h)]; omega

/-- C49 is false for reversed bounds too: `end < start` gives a view of almost 2^64 elements instead of an
empty one, so reading it leaves the sequence. -/
theorem C49_slice_reversed (as : Inp α) (ht : as.ty = .vector) (hv : as.valid) (hn : as.null = false) (st en : Nat)
    (h : en < st) (hst : st < 2 ^ 63) (s : σ) :
    ∃ v, slice (.rt st) (.rt en) as s = .ok v s ∧ v.size ≥ 2 ^ 63 ∧ v.contents s = .ub .oob := by
  have hs : sub64 en st = 2 ^ 64 - (st - en) := by unfold sub64; rw [if_neg (by omega)]
  refine ⟨_, slice_vector as ht hn st en s, ?_, ?_⟩
  · show sub64 en st ≥ 2 ^ 63
    omega
  · have hl := hv.lt
    unfold dyn at hl
    unfold View.contents
    rw [View.readFrom_oob (l := ⟨as.blk, st, as.vals⟩) rfl]
    · show 0 < sub64 en st
      omega
    · show as.vals.length < st + 0 + sub64 en st
      omega

/-- C49 is false even with compile-time bounds if they are reversed: `slice(2_c, 1_c, Array{1,2,3})` is `{3}` -/
theorem C49_slice_static_reversed (s : σ) :
    ∃ v, slice (.ct 2) (.ct 1) (⟨.array 3, [1, 2, 3], 0, false⟩ : Inp Nat) s = .ok v s ∧
      v.contents s = .ok [3] s := by
  obtain ⟨v, h1, h2⟩ := slice_static (ω := σ) (as := (⟨.array 3, [1, 2, 3], 0, false⟩ : Inp Nat)) (by decide) rfl 2 1 s
  refine ⟨v, h1, ?_⟩
  rw [h2]
  rfl

example : ∃ v, slice (.rt 1) (.rt 3) (⟨.vector, [1, 2, 3, 4], 0, false⟩ : Inp Nat) () = .ok v () ∧
    v.contents () = .ok [2, 3] () := ⟨_, rfl, rfl⟩
example : ∃ v, slice (.ct 1) (.ct 9) (⟨.array 3, [1, 2, 3], 0, false⟩ : Inp Nat) () = .ok v () ∧
    v.contents () = .ok [2, 3] () := ⟨_, rfl, rfl⟩
example : ∃ v, slice (.rt 1) (.rt 9) (⟨.vector, [1, 2, 3], 0, false⟩ : Inp Nat) () = .ok v () ∧
    v.contents () = .ub .oob := ⟨_, rfl, rfl⟩

/-! ### C50 -/

/-- C50: on a non-empty sequence `x :: l` with last element `z` -/
theorem C50_nonempty (as : Inp α) (hv : as.valid) (hne : as.vals ≠ []) (s : σ) :
    (∃ x, head as s = .ok x s ∧ as.vals.head? = some x) ∧
    (∃ z, last as s = .ok z s ∧ as.vals.getLast? = some z) ∧
    (∃ v l, tail as s = .ok v s ∧ v.contents s = .ok l s ∧ l = as.vals.tail) ∧
    (∃ v l, init as s = .ok v s ∧ v.contents s = .ok l s ∧ l = as.vals.dropLast) := by
  have hl : 0 < as.vals.length := List.length_pos_iff.mpr hne
  refine ⟨⟨as.vals[0], ?_, ?_⟩, ⟨as.vals[as.vals.length - 1], ?_, ?_⟩, ?_, ?_⟩
  · unfold head
    rw [if_neg (by unfold length; omega), nth_ok (a := as.vals[0]) (by simp)]; rfl
  · rw [List.head?_eq_getElem?]; simp
  · unfold last
    rw [if_neg (by unfold length; omega),
      nth_ok (a := as.vals[as.vals.length - 1]) (by unfold length; simp [hl])]; rfl
  · rw [List.getLast?_eq_getElem?]; simp
  · obtain ⟨v, h1, _, h2⟩ := tail_run (ω := σ) hv hne s
    exact ⟨v, _, h1, by rw [h2]; rfl, rfl⟩
  · obtain ⟨v, h1, _, h2⟩ := init_run (ω := σ) hv hne s
    exact ⟨v, _, h1, by rw [h2]; rfl, rfl⟩

/-- C50: all four throw on an empty sequence (and, by `C50_nonempty`, on no other) -/
theorem C50_empty (as : Inp α) (he : as.vals = []) (s : σ) :
    head as s = .thrown s ∧ last as s = .thrown s ∧ tail as s = .thrown s ∧ init as s = .thrown s := by
  have hl : length as = 0 := by unfold length; rw [he]; rfl
  refine ⟨?_, ?_, ?_, ?_⟩
  · unfold head; rw [if_pos hl]
  · unfold last; rw [if_pos hl]
  · unfold tail; rw [if_pos hl]
  · unfold init; rw [if_pos hl]

/-- C50: `is_null` tells the two apart: a client that asks it first never sees `head` throw -/
theorem C50_guard (as : Inp α) (s : σ) :
    (isNull as = true ↔ as.vals = []) ∧ (isNull as = true ↔ head as s = .thrown s) := by
  have h0 : isNull as = true ↔ as.vals = [] := by simp [isNull, length]
  refine ⟨h0, h0.trans ⟨fun h => (C50_empty as h s).1, fun h => ?_⟩⟩
  rcases hv : as.vals with _ | ⟨a, l⟩
  · rfl
  · unfold head at h
    rw [if_neg (by unfold length; rw [hv]; simp), nth_ok (a := a) (by rw [hv]; rfl)] at h
    cases h

example : isNull (⟨.vector, [7], 0, false⟩ : Inp Nat) = false := by decide

example : ∃ v, tail (⟨.arrVec 4, [1, 2, 3], 0, false⟩ : Inp Nat) () = .ok v () ∧ v.ty = .arrVec 3 ∧
    v.contents () = .ok [2, 3] () := ⟨_, rfl, by decide, rfl⟩
example : last (⟨.vector, [1, 2, 3], 0, false⟩ : Inp Nat) () = .ok 3 () := rfl
example : tail (⟨.vector, [], 0, true⟩ : Inp Nat) () = .thrown () := rfl

/-! ### C16 -/

/-- C16 is false: views of two different sequences never compare equal, whatever their contents. -/
theorem C16_distinct_sequences_never_equal (as bs : Inp α) (ha : as.valid) (hb : bs.valid) (hty : as.ty = bs.ty)
    (hna : as.null = false) (hnb : bs.null = false) (hblk : as.blk ≠ bs.blk) (n : NArg) (s : σ) :
    ∃ v w, take n as s = .ok v s ∧ take n bs s = .ok w s ∧ v.eqv w s = .ok false s := by
  obtain ⟨v, h1, h2, _, h3, _⟩ := take_run (ω := σ) ha n s
  obtain ⟨w, h4, h5, _, h6, _⟩ := take_run (ω := σ) hb n s
  refine ⟨v, w, h1, h4, ?_⟩
  have hp : samePtr v.ptr w.ptr = false := by
    rw [h3, h6]
    simp [data, hna, hnb, samePtr, hblk]
  unfold View.eqv
  cases v.ty <;> simp [hp]

/-- C16, the part that holds: if two views of the same class over the same memory compare equal, they have the
same contents.  `hmem`: both pointers see the same memory. Missing: the converse, which is false. -/
theorem C16_equal_views_same_contents_partial (v w : View α) (hty : v.ty = w.ty)
    (hv : Holds v.ty v.size) (hw : Holds w.ty w.size)
    (hmem : ∀ a b, v.ptr = some a → w.ptr = some b → a.blk = b.blk → a.elems = b.elems) (s : σ)
    (heq : v.eqv w s = .ok true s) : v.contents s = w.contents s := by
  have key : samePtr v.ptr w.ptr = true ∧ v.size = w.size := by
    unfold View.eqv at heq
    cases ht : v.ty with
    | array n =>
      rw [ht] at heq
      have h1 : v.size = n := by rw [ht] at hv; exact hv
      have h2 : w.size = n := by rw [← hty, ht] at hw; exact hw
      simp at heq
      exact ⟨heq, h1.trans h2.symm⟩
    | arrVec n =>
      rw [ht] at heq
      simpa using heq
    | vector =>
      rw [ht] at heq
      simp only at heq
      split at heq
      · next h => simpa using h
      · simp at heq
  obtain ⟨h1, h2⟩ := key
  have hptr : v.ptr = w.ptr := by
    cases hv' : v.ptr with
    | none => cases hw' : w.ptr with
      | none => rfl
      | some b => rw [hv', hw'] at h1; simp [samePtr] at h1
    | some a => cases hw' : w.ptr with
      | none => rw [hv', hw'] at h1; simp [samePtr] at h1
      | some b =>
        rw [hv', hw'] at h1
        simp [samePtr] at h1
        have := hmem a b hv' hw' h1.1
        cases a; cases b; simp_all
  unfold View.contents
  rw [h2]
  have : ∀ n i, (v.readFrom i n : Cpp σ (List α)) = w.readFrom i n := by
    intro n
    induction n with
    | zero => intro i; rfl
    | succ n ih =>
      intro i
      simp only [View.readFrom, View.at_, hptr, ih]
  rw [this]

/-- C16: comparing two `VectorView`s made from equal `ArrVecView`s reads an uninitialised `_capacity`. -/
theorem C16_converted_views_uninitialised (v : View α) (s : σ) :
    v.toVectorView.eqv v.toVectorView s = .ub .deadRead := by
  have : samePtr v.ptr v.ptr = true := by cases v.ptr <;> simp [samePtr]
  simp [View.eqv, View.toVectorView, this]

/-- two equal vectors whose views differ -/
example : ∃ v w, take (.rt 2) (⟨.vector, [1, 2], 0, false⟩ : Inp Nat) () = .ok v () ∧
    take (.rt 2) (⟨.vector, [1, 2], 1, false⟩ : Inp Nat) () = .ok w () ∧
    v.contents () = w.contents () ∧ v.eqv w () = .ok false () := ⟨_, _, rfl, rfl, rfl, rfl⟩
example : ∃ v, take (.rt 2) (⟨.vector, [1, 2], 0, false⟩ : Inp Nat) () = .ok v () ∧ v.eqv v () = .ok true () :=
  ⟨_, rfl, rfl⟩

end Props
end Efp
