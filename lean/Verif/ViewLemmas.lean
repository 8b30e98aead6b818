import Verif.View
import Verif.PreludeRuns

/-!
# Lemmas about views
-/

namespace Efp
namespace Prelude

variable {α σ ω : Type}

theorem View.at_ok {v : View α} {l : Loc α} (hp : v.ptr = some l) {i : Nat} {a : α}
    (h : l.elems[l.off + i]? = some a) : (v.at_ i : Cpp σ α) = pure a := by
  unfold View.at_; simp only [hp, h]

theorem View.readFrom_ok {v : View α} {l : Loc α} (hp : v.ptr = some l) (xs pre post : List α)
    (i : Nat) (he : l.elems = pre ++ (xs ++ post)) (hi : pre.length = l.off + i) :
    (v.readFrom i xs.length : Cpp σ (List α)) = pure xs := by
  induction xs generalizing i pre with
  | nil => rfl
  | cons x xs ih =>
    have h1 : l.elems[l.off + i]? = some x := by rw [he, ← hi]; simp
    simp only [List.length_cons, View.readFrom]
    rw [View.at_ok hp h1, pure_bind, ih (pre ++ [x]) (i + 1) (by simp [he]) (by simp; omega), pure_bind]

/-- a view of `xs` inside `pre ++ xs ++ post` -/
theorem View.contents_ok {v : View α} {l : Loc α} (hp : v.ptr = some l) (xs pre post : List α)
    (he : l.elems = pre ++ (xs ++ post)) (ho : pre.length = l.off) (hs : v.size = xs.length) :
    (v.contents : Cpp σ (List α)) = pure xs := by
  unfold View.contents
  rw [hs]
  exact View.readFrom_ok hp xs pre post 0 he (by omega)

theorem View.contents_empty {v : View α} (hs : v.size = 0) : (v.contents : Cpp σ (List α)) = pure [] := by
  unfold View.contents; rw [hs]; rfl

theorem data_null {as : Inp α} (hv : as.valid) (h : data as = none) : as.ty = .vector ∧ as.vals = [] := by
  unfold data at h
  cases hn : as.null with
  | true => exact hv.2 hn
  | false => rw [hn] at h; simp at h

/-- which static view types are right for a view of `n` elements, and what the constructor then stores -/
theorem mkView_run {t : SeqTy} {as : Inp α} (hv : as.valid) (off n : Nat) (ht : Holds t n) (hn : off + n ≤ as.vals.length)
    (s : σ) : ∃ v, mkView t (addPtr (data as) off) n s = .ok v s ∧ v.ty = t ∧ v.size = n ∧
      v.ptr = addPtr (data as) off ∧ (v.contents : Cpp ω (List α)) = pure ((as.vals.drop off).take n) := by
  have hnull : addPtr (data as) off = none → n = 0 := by
    intro h
    have : data as = none := by unfold addPtr at h; simpa using h
    have := (data_null hv this).2
    rw [this] at hn; simp at hn; omega
  have hc : ∀ v : View α, v.size = n → v.ptr = addPtr (data as) off →
      (v.contents : Cpp ω (List α)) = pure ((as.vals.drop off).take n) := by
    intro v h1 h2
    by_cases h0 : n = 0
    · subst h0; simpa using View.contents_empty h1
    · cases hd : data as with
      | none => exact absurd (hnull (by simp [addPtr, hd])) h0
      | some l =>
        have hl : l = ⟨as.blk, 0, as.vals⟩ := by
          unfold data at hd
          split at hd <;> simp at hd
          exact hd.symm
        subst hl
        rw [hd] at h2
        refine View.contents_ok h2 _ (as.vals.take off) ((as.vals.drop off).drop n) ?_ ?_ ?_
        · simp [addPtr, -List.drop_drop, List.take_append_drop]
        · simp [addPtr]; omega
        · rw [h1]; simp; omega
  cases t with
  | array m =>
    have hm : n = m := ht
    subst hm
    refine ⟨⟨.array n, addPtr (data as) off, n, none⟩, ?_, rfl, rfl, rfl, hc _ rfl rfl⟩
    simp only [mkView]
    rw [if_neg (by rintro ⟨h1, h2⟩; have := hnull h2; omega)]; rfl
  | arrVec m =>
    refine ⟨⟨.arrVec m, addPtr (data as) off, n, none⟩, ?_, rfl, rfl, rfl, hc _ rfl rfl⟩
    simp only [mkView]
    rw [if_neg (by rintro ⟨h1, h2⟩; have := hnull h2; omega)]; rfl
  | vector =>
    refine ⟨⟨.vector, addPtr (data as) off, n, some n⟩, ?_, rfl, rfl, rfl, hc _ rfl rfl⟩
    simp only [mkView]
    rw [if_neg (by rintro ⟨h1, h2⟩; have := hnull h2; omega)]; rfl

theorem NArg.val_rt (n : Nat) : (NArg.rt n).val = n := rfl
theorem NArg.val_ct (n : Nat) : (NArg.ct n).val = n := rfl

theorem addPtr_zero (p : Option (Loc α)) : addPtr p 0 = p := by cases p <;> rfl

theorem ty_cases {as : Inp α} (hv : as.valid) :
    (∃ n, as.ty = .array n ∧ as.vals.length = n ∧ n < dyn) ∨
    (∃ n, as.ty = .arrVec n ∧ as.vals.length ≤ n ∧ n < dyn) ∨ (as.ty = .vector ∧ as.vals.length < dyn) := by
  have h := hv.1
  revert h
  cases as.ty with
  | array n => intro h; exact .inl ⟨n, rfl, h⟩
  | arrVec n => intro h; exact .inr (.inl ⟨n, rfl, h⟩)
  | vector => intro h; exact .inr (.inr ⟨rfl, h⟩)

theorem static_array {n : Nat} (h : n < dyn) : (SeqTy.array n).isStaticSize = true := by
  simp [SeqTy.isStaticSize, SeqTy.ctSize]; omega
theorem static_arrVec (n : Nat) : (SeqTy.arrVec n).isStaticSize = false := by
  simp [SeqTy.isStaticSize, SeqTy.ctSize]
theorem staticCap_array {n : Nat} (h : n < dyn) : (SeqTy.array n).isStaticCap = true := by
  simp [SeqTy.isStaticCap, SeqTy.ctCap]; omega
theorem staticCap_arrVec {n : Nat} (h : n < dyn) : (SeqTy.arrVec n).isStaticCap = true := by
  simp [SeqTy.isStaticCap, SeqTy.ctCap]; omega
theorem static_vector : SeqTy.vector.isStaticSize = false := rfl
theorem staticCap_vector : SeqTy.vector.isStaticCap = false := rfl

theorem takeTy_holds {as : Inp α} (hv : as.valid) (n : NArg) :
    Holds (takeTy n as.ty) (min n.val as.vals.length) := by
  rcases ty_cases hv with ⟨m, h1, h2, h3⟩ | ⟨m, h1, h2, h3⟩ | ⟨h1, h3⟩ <;> rw [h1] <;> cases n with
  | rt n =>
    simp only [takeTy, staticCap_array, staticCap_arrVec, staticCap_vector, h3, if_true, Holds, NArg.val, SeqTy.ctCap,
      Bool.false_eq_true, if_false]
    try omega
  | ct n =>
    simp only [takeTy, static_array, static_arrVec, static_vector, h3, if_true, Holds, NArg.val, SeqTy.ctCap, SeqTy.ctSize,
      Bool.false_eq_true, if_false]
    try omega

theorem take_run {as : Inp α} (hv : as.valid) (n : NArg) (s : σ) :
    ∃ v, take n as s = .ok v s ∧ v.ty = takeTy n as.ty ∧ v.size = min n.val as.vals.length ∧ v.ptr = data as ∧
      (v.contents : Cpp ω (List α)) = pure (as.vals.take n.val) := by
  obtain ⟨v, h1, h2, h3, h4, h5⟩ := mkView_run (ω := ω) hv 0 (min n.val as.vals.length) (takeTy_holds hv n)
    (by omega) s
  rw [addPtr_zero] at h1 h4
  refine ⟨v, h1, h2, h3, h4, ?_⟩
  rw [h5, List.drop_zero]
  congr 1
  by_cases h : n.val ≤ as.vals.length
  · rw [show min n.val as.vals.length = n.val by omega]
  · rw [List.take_of_length_le (i := n.val) (by omega), List.take_of_length_le (by omega)]

theorem dropTy_holds {as : Inp α} (hv : as.valid) (n : NArg) :
    Holds (dropTy n as.ty) (as.vals.length - n.val) := by
  rcases ty_cases hv with ⟨m, h1, h2, h3⟩ | ⟨m, h1, h2, h3⟩ | ⟨h1, h3⟩ <;> rw [h1] <;> cases n with
  | rt n =>
    simp only [dropTy, staticCap_array, staticCap_arrVec, staticCap_vector, h3, if_true, Holds, NArg.val, SeqTy.ctCap,
      Bool.false_eq_true, if_false]
    try omega
  | ct n =>
    simp only [dropTy, static_array, static_arrVec, static_vector, staticCap_arrVec, staticCap_vector, h3, if_true, Holds,
      NArg.val, SeqTy.ctCap, SeqTy.ctSize, Bool.false_eq_true, if_false]
    try (by_cases hmn : m > n <;> simp only [hmn, if_true, if_false] <;> omega)

theorem boundDrop_eq (n : NArg) (as : Inp α) : boundDrop n as = min n.val as.vals.length := by
  unfold boundDrop length; split <;> omega

theorem drop_run {as : Inp α} (hv : as.valid) (n : NArg) (s : σ) :
    ∃ v, drop n as s = .ok v s ∧ v.ty = dropTy n as.ty ∧ v.size = as.vals.length - n.val ∧
      v.ptr = addPtr (data as) (min n.val as.vals.length) ∧
      (v.contents : Cpp ω (List α)) = pure (as.vals.drop n.val) := by
  obtain ⟨v, h1, h2, h3, h4, h5⟩ := mkView_run (ω := ω) hv (min n.val as.vals.length) (as.vals.length - n.val)
    (dropTy_holds hv n) (by omega) s
  refine ⟨v, ?_, h2, h3, h4, ?_⟩
  · unfold drop
    rw [boundDrop_eq]
    rw [show length as - min n.val as.vals.length = as.vals.length - n.val by unfold length; omega]
    exact h1
  · rw [h5]
    congr 1
    by_cases h : n.val ≤ as.vals.length
    · rw [show min n.val as.vals.length = n.val by omega]
      rw [List.take_of_length_le (by simp)]
    · rw [show as.vals.length - n.val = 0 by omega, List.drop_eq_nil_of_le (as := as.vals) (i := n.val) (by omega)]
      simp

theorem takeUnsafeTy_holds {as : Inp α} (hv : as.valid) (n : NArg) (hn : n.val ≤ as.vals.length) :
    Holds (takeUnsafeTy n as.ty) n.val := by
  rcases ty_cases hv with ⟨m, h1, h2, h3⟩ | ⟨m, h1, h2, h3⟩ | ⟨h1, h3⟩ <;> rw [h1] <;> cases n with
  | rt n =>
    simp only [NArg.val] at hn
    simp only [takeUnsafeTy, staticCap_array, staticCap_arrVec, staticCap_vector, h3, if_true, Holds, NArg.val, SeqTy.ctCap,
      Bool.false_eq_true, if_false]
    try omega
  | ct n => simp only [takeUnsafeTy, Holds, NArg.val]

theorem takeUnsafe_run {as : Inp α} (hv : as.valid) (n : NArg) (hn : n.val ≤ as.vals.length) (s : σ) :
    ∃ v, takeUnsafe n as s = .ok v s ∧ Holds v.ty n.val ∧ v.size = n.val ∧
      (v.contents : Cpp ω (List α)) = pure (as.vals.take n.val) := by
  obtain ⟨v, h1, h2, h3, _, h5⟩ := mkView_run (ω := ω) hv 0 n.val (takeUnsafeTy_holds hv n hn) (by omega) s
  rw [addPtr_zero] at h1
  exact ⟨v, h1, by rw [h2]; exact takeUnsafeTy_holds hv n hn, h3, by rw [h5, List.drop_zero]⟩

theorem dropUnsafeTy_holds {as : Inp α} (hv : as.valid) (n : NArg) (hn : n.val ≤ as.vals.length) :
    Holds (dropUnsafeTy n as.ty) (as.vals.length - n.val) := by
  rcases ty_cases hv with ⟨m, h1, h2, h3⟩ | ⟨m, h1, h2, h3⟩ | ⟨h1, h3⟩ <;> rw [h1] <;> cases n with
  | rt n =>
    simp only [NArg.val] at hn
    simp only [dropUnsafeTy, staticCap_array, staticCap_arrVec, staticCap_vector, h3, if_true, Holds, NArg.val, SeqTy.ctCap,
      Bool.false_eq_true, if_false]
    try omega
  | ct n =>
    simp only [NArg.val] at hn
    simp only [dropUnsafeTy, static_array, static_arrVec, static_vector, staticCap_arrVec, staticCap_vector, h3, if_true,
      Holds, NArg.val, SeqTy.ctCap, SeqTy.ctSize, Bool.false_eq_true, if_false]
    try (unfold sub64; split <;> omega)

theorem dropUnsafe_run {as : Inp α} (hv : as.valid) (n : NArg) (hn : n.val ≤ as.vals.length) (s : σ) :
    ∃ v, dropUnsafe n as s = .ok v s ∧ Holds v.ty (as.vals.length - n.val) ∧ v.size = as.vals.length - n.val ∧
      (v.contents : Cpp ω (List α)) = pure (as.vals.drop n.val) := by
  obtain ⟨v, h1, h2, h3, _, h5⟩ := mkView_run (ω := ω) hv n.val (as.vals.length - n.val) (dropUnsafeTy_holds hv n hn)
    (by omega) s
  refine ⟨v, ?_, by rw [h2]; exact dropUnsafeTy_holds hv n hn, h3, ?_⟩
  · unfold dropUnsafe
    rw [show sub64 (length as) n.val = as.vals.length - n.val by unfold sub64 length; rw [if_pos hn]]
    exact h1
  · rw [h5, List.take_of_length_le (by simp)]

theorem tailTy_holds {as : Inp α} (hv : as.valid) (hne : as.vals ≠ []) :
    Holds (tailTy as.ty) (as.vals.length - 1) := by
  have hl : 0 < as.vals.length := List.length_pos_iff.mpr hne
  rcases ty_cases hv with ⟨m, h1, h2, h3⟩ | ⟨m, h1, h2, h3⟩ | ⟨h1, h3⟩ <;> rw [h1] <;>
    simp only [tailTy, static_array, static_arrVec, static_vector, staticCap_arrVec, staticCap_vector, h3, if_true, Holds,
      SeqTy.ctCap, SeqTy.ctSize, Bool.false_eq_true, if_false] <;> try omega

theorem tail_run {as : Inp α} (hv : as.valid) (hne : as.vals ≠ []) (s : σ) :
    ∃ v, tail as s = .ok v s ∧ v.ty = tailTy as.ty ∧ (v.contents : Cpp ω (List α)) = pure as.vals.tail := by
  have hl : 0 < as.vals.length := List.length_pos_iff.mpr hne
  obtain ⟨v, h1, h2, h3, h4, h5⟩ := mkView_run (ω := ω) hv 1 (as.vals.length - 1) (tailTy_holds hv hne) (by omega) s
  refine ⟨v, ?_, h2, ?_⟩
  · unfold tail
    rw [if_neg (by unfold length; omega)]
    exact h1
  · rw [h5, List.take_of_length_le (by simp)]
    simp

theorem init_run {as : Inp α} (hv : as.valid) (hne : as.vals ≠ []) (s : σ) :
    ∃ v, init as s = .ok v s ∧ v.ty = tailTy as.ty ∧ (v.contents : Cpp ω (List α)) = pure as.vals.dropLast := by
  have hl : 0 < as.vals.length := List.length_pos_iff.mpr hne
  obtain ⟨v, h1, h2, h3, h4, h5⟩ := mkView_run (ω := ω) hv 0 (as.vals.length - 1) (tailTy_holds hv hne) (by omega) s
  rw [addPtr_zero] at h1
  refine ⟨v, ?_, h2, ?_⟩
  · unfold init
    rw [if_neg (by unfold length; omega)]
    exact h1
  · rw [h5, List.drop_zero, ← List.dropLast_eq_take]

theorem sub64_le {a b : Nat} (h : b ≤ a) : sub64 a b = a - b := by unfold sub64; rw [if_pos h]

theorem NArg.val_sub {e s : NArg} (h : s.val ≤ e.val) : (e.sub s).val = e.val - s.val := by
  cases e <;> cases s <;> simp only [NArg.sub, NArg.val] at h ⊢ <;> exact sub64_le h

theorem sliceTy_holds {as : Inp α} (hv : as.valid) (s e : NArg) (h : s.val ≤ e.val) (he : e.val ≤ as.vals.length) :
    Holds (sliceTy s e as.ty) (e.val - s.val) := by
  have hd := dropTy_holds hv s
  have hval := NArg.val_sub h
  unfold sliceTy
  generalize hn : e.sub s = n at hval ⊢
  rcases ty_cases hv with ⟨m, h1, h2, h3⟩ | ⟨m, h1, h2, h3⟩ | ⟨h1, h3⟩ <;> rw [h1] at hd ⊢ <;>
    (revert hd; cases ht : dropTy s _ with
      | array j =>
        intro hd
        have hj : as.vals.length - s.val = j := hd
        have hjd : j < dyn := by have := hv.lt; omega
        cases n <;> simp only [takeTy, staticCap_array, static_array, hjd, if_true, Holds, NArg.val_rt, NArg.val_ct, SeqTy.ctCap, SeqTy.ctSize] at hval ⊢ <;> omega
      | arrVec j =>
        intro hd
        have hj : as.vals.length - s.val ≤ j := hd
        have hval' := hval
        cases n with
        | rt n =>
          simp only [takeTy, NArg.val_rt, NArg.val_ct, SeqTy.ctCap] at hval ⊢
          split
          · simp only [Holds]; omega
          · trivial
        | ct n => simp only [takeTy, static_arrVec, Bool.false_eq_true, if_false, Holds, NArg.val_rt, NArg.val_ct, SeqTy.ctCap] at hval ⊢; omega
      | vector =>
        intro hd
        have := hv.lt
        cases n with
        | rt n => simp only [takeTy, staticCap_vector, Bool.false_eq_true, if_false, Holds]
        | ct n => simp only [takeTy, static_vector, Bool.false_eq_true, if_false, Holds, NArg.val_rt, NArg.val_ct, SeqTy.ctCap] at hval ⊢; omega)

theorem slice_run {as : Inp α} (hv : as.valid) (s e : NArg) (h : s.val ≤ e.val) (he : e.val ≤ as.vals.length)
    (w : σ) : ∃ v, slice s e as w = .ok v w ∧ v.ty = sliceTy s e as.ty ∧
      (v.contents : Cpp ω (List α)) = pure ((as.vals.drop s.val).take (e.val - s.val)) := by
  obtain ⟨v, h1, h2, h3, h4, h5⟩ := mkView_run (ω := ω) hv s.val (e.val - s.val) (sliceTy_holds hv s e h he) (by omega) w
  refine ⟨v, ?_, h2, h5⟩
  unfold slice
  rw [sub64_le h]
  exact h1

/-- reading past the end of the viewed sequence -/
theorem View.readFrom_oob {v : View α} {l : Loc α} (hp : v.ptr = some l) (n i : Nat) (hn : 0 < n)
    (h : l.elems.length < l.off + i + n) : (v.readFrom i n : Cpp σ (List α)) = Cpp.ub .oob := by
  induction n generalizing i with
  | zero => omega
  | succ n ih =>
    simp only [View.readFrom, View.at_, hp]
    cases hx : l.elems[l.off + i]? with
    | none => rfl
    | some a =>
      have : l.off + i < l.elems.length := (List.getElem?_eq_some_iff.mp hx).1
      rw [ih (i + 1) (by omega) (by omega)]
      rfl

/-- `slice` on a vector with a non-null pointer stores exactly what it is given -/
theorem slice_vector (as : Inp α) (ht : as.ty = .vector) (hn : as.null = false) (s e : Nat) (w : σ) :
    slice (.rt s) (.rt e) as w =
      .ok ⟨.vector, some ⟨as.blk, s, as.vals⟩, sub64 e s, some (sub64 e s)⟩ w := by
  simp [slice, sliceTy, NArg.sub, takeTy, dropTy, ht, staticCap_vector, mkView, data, hn, addPtr, NArg.val]

theorem sliceTy_static {n : Nat} (hn : n < dyn) (s e : Nat) :
    sliceTy (.ct s) (.ct e) (.array n) = .array (min (sub64 e s) (n - s)) := by
  have h1 : (if n > s then n - s else 0) = n - s := by split <;> omega
  have h2 : n - s < dyn := by omega
  simp [sliceTy, NArg.sub, takeTy, dropTy, static_array hn, SeqTy.ctSize, h1, static_array h2]

/-- `slice` with static bounds on an `Array` -/
theorem slice_static {as : Inp α} {n : Nat} (hv : as.valid) (ht : as.ty = .array n) (s e : Nat) (w : σ) :
    ∃ v, slice (.ct s) (.ct e) as w = .ok v w ∧
      (v.contents : Cpp ω (List α)) = pure ((as.vals.drop s).take (sub64 e s)) := by
  have hv1 := hv.1
  rw [ht] at hv1
  obtain ⟨h1, h2⟩ := hv1
  have hnull : as.null = false := by
    cases hh : as.null with
    | false => rfl
    | true => have := (hv.2 hh).1; rw [ht] at this; cases this
  have hd : addPtr (data as) s = some ⟨as.blk, s, as.vals⟩ := by simp [addPtr, data, hnull]
  refine ⟨⟨.array (min (sub64 e s) (n - s)), some ⟨as.blk, s, as.vals⟩, min (sub64 e s) (n - s), none⟩, ?_, ?_⟩
  · unfold slice
    rw [ht, sliceTy_static h2]
    simp only [mkView, NArg.val, hd]
    rw [if_neg (by simp)]; rfl
  · by_cases hs : s ≤ n
    · refine View.contents_ok rfl _ (as.vals.take s) ((as.vals.drop s).drop (sub64 e s)) ?_ ?_ ?_
      · simp [-List.drop_drop, List.take_append_drop]
      · simp; omega
      · simp; omega
    · rw [List.drop_eq_nil_of_le (as := as.vals) (i := s) (by omega), List.take_nil]
      refine View.contents_empty ?_
      show min (sub64 e s) (n - s) = 0
      omega

end Prelude
end Efp
