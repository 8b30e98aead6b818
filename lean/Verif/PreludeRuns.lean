import Verif.PreludeLemmas

/-! One lemma per list function: what its run computes. -/

namespace Efp
namespace Prelude

variable {α β γ σ ω : Type}

/-! ### loops over the elements of a sequence -/

theorem forUp_list {body : Nat → Cpp σ Unit} {g : γ → Cpp σ Unit} (l pre : List γ)
    (h : ∀ i a, (pre ++ l)[i]? = some a → pre.length ≤ i → body i = g a) :
    forUp body pre.length l.length = forM l g := by
  induction l generalizing pre with
  | nil => rfl
  | cons a l ih =>
    rw [List.length_cons, forUp_succ, h pre.length a (by simp) (Nat.le_refl _), List.forM_cons]
    have := ih (pre ++ [a]) (fun i b hb hi => h i b (by simpa using hb) (by simp at hi; omega))
    simp only [List.length_append, List.length_cons, List.length_nil, Nat.zero_add] at this
    rw [this]

theorem forUp_vals {body : Nat → Cpp σ Unit} {g : γ → Cpp σ Unit} (l : List γ)
    (h : ∀ i a, l[i]? = some a → body i = g a) : forUp body 0 l.length = forM l g :=
  forUp_list l [] (fun i a ha _ => h i a (by simpa using ha))

theorem forEach_eq {f : List α → Cpp σ Unit} {ass : List (Inp α)} (hne : ass ≠ [])
    (hv : ∀ as ∈ ass, as.valid) : forEach f ass = forM (rows (ass.map Inp.vals)) f := by
  unfold forEach
  rw [rows_eq hne hv, forM_map]
  refine forUp_eq_forM 0 _ (fun i _ hi => ?_)
  unfold forEachBody
  rw [nths_ok (fun as ha => by have := minLength_le as ha; omega), pure_bind]

theorem forEachWithIndex_eq {f : Nat → List α → Cpp σ Unit} {ass : List (Inp α)} (hne : ass ≠ [])
    (hv : ∀ as ∈ ass, as.valid) :
    forEachWithIndex f ass = forM (List.range (shortest (ass.map Inp.vals)))
      (fun i => f i (row i (ass.map Inp.vals))) := by
  unfold forEachWithIndex
  rw [← minLength_eq hne hv, List.range_eq_range']
  refine forUp_eq_forM 0 _ (fun i _ hi => ?_)
  unfold forEachIxBody
  rw [nths_ok (fun as ha => by have := minLength_le as ha; omega), pure_bind]

theorem forIndex_eq (f : Nat → Cpp σ Unit) (n : Nat) : forIndex f n = forM (List.range n) f := by
  unfold forIndex
  rw [List.range_eq_range']
  exact forUp_eq_forM 0 _ (fun _ _ _ => rfl)

theorem row_singleton (l : List α) : rows [l] = l.map (fun a => [a]) := by
  unfold rows shortest row
  apply List.ext_getElem?
  intro i
  simp only [List.getElem?_map, List.filterMap_cons, List.filterMap_nil]
  by_cases h : i < l.length
  · simp [h]
  · simp [h]

theorem forM_flatMap {δ : Type} (l : List γ) (f : γ → List δ) (g : δ → Cpp σ Unit) :
    forM (l.flatMap f) g = forM l (fun x => forM (f x) g) := by
  induction l with
  | nil => rfl
  | cons x l ih => rw [List.flatMap_cons, forM_append, List.forM_cons, ih]

theorem cartesianForEach_eq (f : List α → Cpp σ Unit) {ass : List (Inp α)} (hne : ass ≠ [])
    (hv : ∀ as ∈ ass, as.valid) : cartesianForEach f ass = forM (combos (ass.map Inp.vals)) f := by
  induction ass generalizing f with
  | nil => exact absurd rfl hne
  | cons as ass ih =>
    cases ass with
    | nil =>
      simp only [cartesianForEach]
      rw [forEach_eq (by simp) hv]
      simp only [List.map_cons, List.map_nil, row_singleton, combos, List.map_cons, List.map_nil]
      congr 1
      induction as.vals with
      | nil => rfl
      | cons x l ih => simp [ih]
    | cons bs ass =>
      simp only [cartesianForEach, List.map_cons]
      rw [combos, forM_flatMap]
      refine forUp_vals as.vals (fun i a ha => ?_)
      unfold cartLoop
      rw [nth_ok ha, pure_bind]
      show cartesianForEach (fun xs => f (a :: xs)) (bs :: ass) = _
      rw [ih _ (by simp) (fun x hx => hv x (by simp [hx])), forM_map]
      rfl

theorem cartesianForIndex_eq (f : List Nat → Cpp σ Unit) {ns : List Nat} (hne : ns ≠ []) :
    cartesianForIndex f ns = forM (combos (ns.map List.range)) f := by
  induction ns generalizing f with
  | nil => exact absurd rfl hne
  | cons n ns ih =>
    cases ns with
    | nil =>
      simp only [cartesianForIndex]
      rw [forIndex_eq]
      simp only [List.map_cons, List.map_nil, combos]
      rw [forM_flatMap]
      congr 1
      funext i
      simp [List.forM_cons]
    | cons m ns =>
      simp only [cartesianForIndex, List.map_cons]
      rw [combos, forM_flatMap]
      rw [List.range_eq_range']
      refine forUp_eq_forM 0 _ (fun i _ _ => ?_)
      rw [ih _ (by simp), forM_map]
      rfl

/-! ### element-wise assignment: map, map_with_index, from_function -/

/-- result elements that can be assigned into the result object: trivial ones, or any ones if the result
is an `Array` -/
theorem naryTy_fits {k : Kind} {ass : List (Inp α)} (hne : ass ≠ []) (hv : ∀ as ∈ ass, as.valid)
    (hk : k = .trivial ∨ ∀ as ∈ ass, as.ty.isStaticSize = true) :
    Fits k (naryTy (ass.map Inp.ty)) (minLength ass) := by
  unfold naryTy
  by_cases h1 : (ass.map Inp.ty).all SeqTy.isStaticSize = true
  · rw [if_pos h1]
    show minimum _ = minimum _
    congr 1
    simp only [List.map_map]
    apply List.map_congr_left
    intro as ha
    have hs : as.ty.isStaticSize = true := by
      rw [List.all_eq_true] at h1
      exact h1 _ (List.mem_map.mpr ⟨as, ha, rfl⟩)
    have := (hv as ha).1
    revert this hs
    simp only [Function.comp, length]
    cases as.ty <;> simp [SeqTy.isStaticSize, SeqTy.ctSize] <;> omega
  · have hk : k = .trivial := by
      rcases hk with hk | hk
      · exact hk
      · exfalso; apply h1
        rw [List.all_eq_true]
        intro t ht
        obtain ⟨as, ha, rfl⟩ := List.mem_map.mp ht
        exact hk as ha
    rw [if_neg h1]
    by_cases h2 : (ass.map Inp.ty).all SeqTy.isStaticCap = true
    · rw [if_pos h2]
      refine ⟨?_, hk⟩
      have hm : minimum ((ass.map Inp.ty).map SeqTy.ctCap) ∈ (ass.map Inp.ty).map SeqTy.ctCap := by
        refine minimum_mem (by simpa using hne) ?_
        intro x hx
        simp only [List.map_map, List.mem_map, Function.comp] at hx
        obtain ⟨as, ha, rfl⟩ := hx
        have := (hv as ha).1
        revert this
        cases as.ty <;> simp [SeqTy.ctCap] <;> omega
      simp only [List.map_map] at hm
      obtain ⟨as, ha, he⟩ := List.mem_map.mp hm
      simp only [List.map_map]
      rw [← he]
      have h3 := minLength_le as ha
      have h4 := (hv as ha).1
      have h5 := (hv as ha).lt
      revert h4
      simp only [Function.comp]
      cases as.ty <;> simp [SeqTy.ctCap] <;> omega
    · rw [if_neg h2]; exact hk

theorem naryTy_dyn (ts : List SeqTy) (h : ∀ m, naryTy ts ≠ .array m) : (naryTy ts).ctSize = dyn := by
  revert h
  cases naryTy ts <;> simp [SeqTy.ctSize]

theorem mapM_rows {f : List α → Cpp ω β} {ass : List (Inp α)} (hne : ass ≠ [])
    (hv : ∀ as ∈ ass, as.valid) :
    (rows (ass.map Inp.vals)).mapM f =
      (List.range' 0 (minLength ass)).mapM (fun i => f (row i (ass.map Inp.vals))) := by
  rw [rows_eq hne hv, List.mapM_map]
  rfl

theorem map_gives {k : Kind} (d : β) (f : List α → Cpp ω β) {ass : List (Inp α)} (hne : ass ≠ [])
    (hv : ∀ as ∈ ass, as.valid) (hk : k = .trivial ∨ ∀ as ∈ ass, as.ty.isStaticSize = true) (w : ω) :
    Gives k (naryTy (ass.map Inp.ty)) (map k d f ass w) ((rows (ass.map Inp.vals)).mapM f w) := by
  rw [mapM_rows hne hv]
  refine tabulate_gives (naryTy_fits hne hv hk) d _ (naryTy_dyn _) (fun i hi => ?_) w
  unfold mapBody
  rw [nths_ok (fun as ha => by have := minLength_le as ha; omega), pure_bind]

theorem mapWithIndex_gives {k : Kind} (d : β) (f : Nat → List α → Cpp ω β) {ass : List (Inp α)}
    (hne : ass ≠ []) (hv : ∀ as ∈ ass, as.valid)
    (hk : k = .trivial ∨ ∀ as ∈ ass, as.ty.isStaticSize = true) (w : ω) :
    Gives k (naryTy (ass.map Inp.ty)) (mapWithIndex k d f ass w)
      ((List.range (shortest (ass.map Inp.vals))).mapM (fun i => f i (row i (ass.map Inp.vals))) w) := by
  rw [← minLength_eq hne hv, List.range_eq_range']
  refine tabulate_gives (naryTy_fits hne hv hk) d _ (naryTy_dyn _) (fun i hi => ?_) w
  unfold mapIxBody
  rw [nths_ok (fun as ha => by have := minLength_le as ha; omega), pure_bind]

theorem fromFunction_gives {k : Kind} (d : β) (n : NArg) (f : Nat → Cpp ω β)
    (hk : k = .trivial ∨ ∃ m, n = .ct m) (w : ω) :
    Gives k (fromFunctionTy n) (fromFunction k d n f w) ((List.range n.val).mapM f w) := by
  rw [List.range_eq_range']
  refine tabulate_gives ?_ d _ ?_ (fun i hi => rfl) w
  · cases n with
    | rt n => rcases hk with hk | ⟨m, hm⟩
              · exact hk
              · cases hm
    | ct n => rfl
  · cases n with
    | rt n => intro _; simp [fromFunctionTy, SeqTy.isStaticSize, SeqTy.ctSize]
    | ct n => intro h; exact absurd rfl (h n)

/-! ### writing at a running position: append, concat, intercalate, cartesian_map -/

/-- the running position equals the number of elements written -/
def At (k : Kind) (t : SeqTy) (n : Nat) (bs : List β) (s : Fr β ω) : Prop :=
  Filling k n s.res bs ∧ s.res.ty = t ∧ s.idx = bs.length

theorem emit_run {k : Kind} {t : SeqTy} {n : Nat} {bs : List β} {s : Fr β ω} (h : At k t n bs s)
    (hlt : bs.length < n) (a : β) : ∃ s', emit k a s = .ok () s' ∧ s'.w = s.w ∧ At k t n (bs ++ [a]) s' := by
  obtain ⟨h1, h2, h3⟩ := h
  obtain ⟨r', hr, hf, ht⟩ := h1.set hlt a
  refine ⟨{ s with res := r', idx := s.idx + 1 }, ?_, rfl, hf, ht.trans h2, by simp [h3]⟩
  have : onRes (Res.set k s.idx a) s = .ok () { s with res := r' } := by
    unfold onRes; rw [h3, hr]; rfl
  unfold emit
  rw [Cpp.bind_ok this]

theorem emitAll_run {k : Kind} {t : SeqTy} {n : Nat} (cs : List β) {bs : List β} {s : Fr β ω}
    (h : At k t n bs s) (hlt : bs.length + cs.length ≤ n) :
    ∃ s', forM cs (emit k) s = .ok () s' ∧ s'.w = s.w ∧ At k t n (bs ++ cs) s' := by
  induction cs generalizing bs s with
  | nil => exact ⟨s, rfl, rfl, by simpa using h⟩
  | cons c cs ih =>
    obtain ⟨s1, e1, w1, h1⟩ := emit_run h (by simp at hlt; omega) c
    obtain ⟨s2, e2, w2, h2⟩ := ih h1 (by simp at hlt ⊢; omega)
    refine ⟨s2, ?_, w2.trans w1, by simpa using h2⟩
    rw [List.forM_cons, Cpp.bind_ok e1, e2]

theorem appendImpl_eq (k : Kind) (as : Inp α) :
    (appendImpl k as : Cpp (Fr α ω) Unit) = forM as.vals (emit k) := by
  refine forUp_vals as.vals (fun i a ha => ?_)
  unfold copyElem
  rw [nth_ok ha, pure_bind]

theorem appendAll_eq (k : Kind) (ass : List (Inp α)) :
    (appendAll k ass : Cpp (Fr α ω) Unit) = forM ((ass.map Inp.vals).flatten) (emit k) := by
  induction ass with
  | nil => rfl
  | cons as ass ih =>
    simp only [appendAll, List.map_cons, List.flatten_cons]
    rw [forM_append, appendImpl_eq, ih]

/-- the common shape of functions that resize the result and then write `n` elements -/
theorem written_gives {k : Kind} {t : SeqTy} {n : Nat} (hfit : Fits k t n) (d : β) (c : Prop) [Decidable c]
    (hc : (∀ m, t ≠ .array m) → c) {body : Cpp (Fr β ω) Unit} {cs : List β}
    (hb : body = forM cs (emit k)) (hn : cs.length = n) (w : ω) :
    Gives k t (withResult t d (do
        if c then onRes (Res.resize k n)
        body) w) (.ok cs w) := by
  obtain ⟨r, r', hr, hf, hty, hres⟩ := prepare (ω := ω) hfit d c hc
  refine withResult_gives hr ?_
  obtain ⟨s', h1, h2, h3, h4, h5⟩ := emitAll_run (k := k) (t := t) (n := n) cs (bs := [])
    (s := (⟨r', 0, w⟩ : Fr β ω)) ⟨hf, hty, rfl⟩ (by simp; omega)
  refine ⟨s', ?_, h2, (by simpa using h3 : Filling k n s'.res cs).done hn, h4⟩
  have h6 := hres 0 w
  by_cases hcc : c
  · rw [if_pos hcc] at h6
    rw [if_pos hcc, Cpp.bind_ok h6, hb]; exact h1
  · rw [if_neg hcc] at h6
    have := (Out.ok.inj h6).2
    simp only [if_neg hcc]
    rw [this, hb]; exact h1

theorem sum_eq (l : List Nat) : sum l = l.sum := by
  unfold sum
  rw [List.sum_eq_foldl_nat]

theorem appendTy_fits {k : Kind} {ass : List (Inp α)} (hv : ∀ as ∈ ass, as.valid)
    (hk : k = .trivial ∨ ∀ as ∈ ass, as.ty.isStaticSize = true) :
    Fits k (appendTy (ass.map Inp.ty)) (sum (ass.map length)) := by
  unfold appendTy
  by_cases h1 : (ass.map Inp.ty).all SeqTy.isStaticSize = true
  · rw [if_pos h1]
    show sum _ = sum _
    congr 1
    simp only [List.map_map]
    apply List.map_congr_left
    intro as ha
    have hs : as.ty.isStaticSize = true := by
      rw [List.all_eq_true] at h1
      exact h1 _ (List.mem_map.mpr ⟨as, ha, rfl⟩)
    have := (hv as ha).1
    revert this hs
    simp only [Function.comp, length]
    cases as.ty <;> simp [SeqTy.isStaticSize, SeqTy.ctSize] <;> omega
  · have hk' : k = .trivial := by
      rcases hk with hk | hk
      · exact hk
      · exfalso; apply h1
        rw [List.all_eq_true]
        intro t ht
        obtain ⟨as, ha, rfl⟩ := List.mem_map.mp ht
        exact hk as ha
    rw [if_neg h1]
    by_cases h2 : (ass.map Inp.ty).all SeqTy.isStaticCap = true
    · rw [if_pos h2]
      refine ⟨?_, hk'⟩
      rw [sum_eq, sum_eq]
      clear h1 h2
      induction ass with
      | nil => simp
      | cons as ass ih =>
        have h3 := ih (fun a ha => hv a (by simp [ha])) (.inl hk')
        have h4 : length as ≤ as.ty.ctCap := by
          have h4 := (hv as (by simp)).1
          have h5 := (hv as (by simp)).lt
          revert h4
          unfold length
          cases as.ty <;> simp [SeqTy.ctCap] <;> omega
        simp only [List.map_cons, List.sum_cons]
        exact Nat.add_le_add h4 h3
    · rw [if_neg h2]; exact hk'

theorem append_gives {k : Kind} (d : α) {order ass : List (Inp α)} (ho : order.Perm ass)
    (hv : ∀ as ∈ ass, as.valid) (hk : k = .trivial ∨ ∀ as ∈ ass, as.ty.isStaticSize = true) (w : ω) :
    Gives k (appendTy (ass.map Inp.ty)) (append k d order ass w) (.ok (order.map Inp.vals).flatten w) := by
  refine written_gives (appendTy_fits hv hk) d _ ?_ (appendAll_eq k order) ?_ w
  · cases appendTy (ass.map Inp.ty) <;> simp [SeqTy.ctSize]
  · rw [sum_eq, List.length_flatten]
    have := (ho.map length).sum_nat
    rw [List.map_map]; exact this

/-! ### concat and intercalate -/

theorem sumLens_eq (ass : Inp2 α) (l pre : List (Inp α)) (acc : Nat) (h : ass.rows = pre ++ l) :
    (sumLens ass pre.length l.length acc : Cpp σ Nat) = pure (acc + (l.map length).sum) := by
  induction l generalizing pre acc with
  | nil => simp [sumLens]
  | cons a l ih =>
    have h1 : ass.seq.vals[pre.length]? = some a := by
      show ass.rows[pre.length]? = some a
      rw [h]; simp
    have := ih (pre ++ [a]) (acc + length a) (by simp [h])
    simp only [List.length_append, List.length_cons, List.length_nil, Nat.zero_add] at this
    simp only [List.length_cons, sumLens]
    rw [nth_ok h1, pure_bind, this]
    simp [Nat.add_assoc]

theorem sumLens_all (ass : Inp2 α) :
    (sumLens ass 0 (length ass.seq) 0 : Cpp σ Nat) = pure ((ass.rows.map length).sum) := by
  have := sumLens_eq (σ := σ) ass ass.rows [] 0 (by simp)
  simpa [length, Inp2.seq] using this

theorem sum_le_of {l : List (Inp α)} {c : Nat} (h : ∀ as ∈ l, length as ≤ c) :
    (l.map length).sum ≤ l.length * c := by
  induction l with
  | nil => simp
  | cons a l ih =>
    have h1 := h a (by simp)
    have h2 := ih (fun b hb => h b (by simp [hb]))
    simp only [List.map_cons, List.sum_cons, List.length_cons, Nat.succ_mul]
    omega

theorem sum_eq_of {l : List (Inp α)} {c : Nat} (h : ∀ as ∈ l, length as = c) :
    (l.map length).sum = l.length * c := by
  induction l with
  | nil => simp
  | cons a l ih =>
    have h1 := h a (by simp)
    have h2 := ih (fun b hb => h b (by simp [hb]))
    simp only [List.map_cons, List.sum_cons, List.length_cons, Nat.succ_mul]
    omega

theorem Inp.valid.le_cap {as : Inp α} (h : as.valid) : length as ≤ as.ty.ctCap := by
  have h4 := h.1
  have h5 := h.lt
  revert h4
  unfold length
  cases as.ty <;> simp [SeqTy.ctCap] <;> omega

theorem Inp.valid.eq_size {as : Inp α} (h : as.valid) (hs : as.ty.isStaticSize = true) :
    length as = as.ty.ctSize := by
  have h4 := h.1
  revert h4 hs
  unfold length
  cases as.ty <;> simp [SeqTy.ctSize, SeqTy.isStaticSize] <;> omega

theorem Inp.valid.static_cap {as : Inp α} (hs : as.ty.isStaticSize = true) :
    as.ty.ctCap = as.ty.ctSize := by
  revert hs
  cases as.ty <;> simp [SeqTy.ctSize, SeqTy.ctCap, SeqTy.isStaticSize]

theorem static_cap {t : SeqTy} (hs : t.isStaticSize = true) : t.ctCap = t.ctSize := by
  revert hs
  cases t <;> simp [SeqTy.ctSize, SeqTy.ctCap, SeqTy.isStaticSize]

theorem concatTy_fits {k : Kind} {ass : Inp2 α} (hv : ass.valid)
    (hk : k = .trivial ∨ (ass.outer.isStaticSize = true ∧ ass.inner.isStaticSize = true)) :
    Fits k (concatTy ass.outer ass.inner) ((ass.rows.map length).sum) := by
  obtain ⟨hv1, hv2⟩ := hv
  unfold concatTy
  by_cases h1 : (ass.outer.isStaticSize && ass.inner.isStaticSize) = true
  · rw [if_pos h1]
    rw [Bool.and_eq_true] at h1
    show _ * _ = _
    have ho : ass.rows.length = ass.outer.ctSize := hv1.eq_size h1.1
    rw [sum_eq_of (c := ass.inner.ctSize) ?_, ho]
    intro as ha
    obtain ⟨h2, h3⟩ := hv2 as ha
    have := h2.eq_size (by rw [h3]; exact h1.2)
    rw [this, h3]
  · have hk : k = .trivial := by
      rcases hk with hk | hk
      · exact hk
      · exact absurd (by rw [hk.1, hk.2]; rfl) h1
    rw [if_neg h1]
    by_cases h2 : (ass.outer.isStaticCap && ass.inner.isStaticCap) = true
    · rw [if_pos h2]
      have hs := sum_le_of (l := ass.rows) (c := ass.inner.ctCap) (fun as ha => by
        obtain ⟨h2, h3⟩ := hv2 as ha
        rw [← h3]; exact h2.le_cap)
      have ho : ass.rows.length ≤ ass.outer.ctCap := hv1.le_cap
      have hm := Nat.mul_le_mul_right ass.inner.ctCap ho
      split
      · next h3 =>
        rw [← static_cap h3]
        exact ⟨by omega, hk⟩
      · split
        · next h3 =>
          rw [← static_cap h3]
          exact ⟨by omega, hk⟩
        · exact ⟨by omega, hk⟩
    · rw [if_neg h2]; exact hk

theorem forM_rows (k : Kind) (l : List (Inp α)) :
    (forM l (fun as => appendImpl k as) : Cpp (Fr α ω) Unit) = forM ((l.map Inp.vals).flatten) (emit k) := by
  induction l with
  | nil => rfl
  | cons a l ih =>
    rw [List.forM_cons, ih, List.map_cons, List.flatten_cons, forM_append, appendImpl_eq]

theorem concat_gives {k : Kind} (d : α) {ass : Inp2 α} (hv : ass.valid)
    (hk : k = .trivial ∨ (ass.outer.isStaticSize = true ∧ ass.inner.isStaticSize = true)) (w : ω) :
    Gives k (concatTy ass.outer ass.inner) (concat k d ass w) (.ok (ass.rows.map Inp.vals).flatten w) := by
  unfold concat
  rw [sumLens_all]
  simp only [pure_bind]
  refine written_gives (concatTy_fits hv hk) d _ ?_ ?_ ?_ w
  · cases concatTy ass.outer ass.inner <;> simp [SeqTy.ctSize, SeqTy.isStaticSize]
  · rw [← forM_rows]
    refine forUp_vals ass.rows (fun i a ha => ?_)
    unfold concatBody
    rw [nth_ok (as := ass.seq) ha, pure_bind]
  · rw [List.length_flatten, List.map_map]
    rfl

theorem intercalateTy_fits {k : Kind} {dl : Inp α} {ass : Inp2 α} (hd : dl.valid) (hv : ass.valid)
    (hne : ass.rows ≠ [])
    (hk : k = .trivial ∨
      (dl.ty.isStaticSize = true ∧ ass.outer.isStaticSize = true ∧ ass.inner.isStaticSize = true)) :
    Fits k (intercalateTy dl.ty ass.outer ass.inner)
      ((ass.rows.map length).sum + (ass.rows.length - 1) * length dl) := by
  obtain ⟨hv1, hv2⟩ := hv
  have hpos : 0 < ass.rows.length := List.length_pos_iff.mpr hne
  unfold intercalateTy
  by_cases h1 : (dl.ty.isStaticSize && ass.outer.isStaticSize && ass.inner.isStaticSize) = true
  · rw [if_pos h1]
    simp only [Bool.and_eq_true] at h1
    obtain ⟨⟨h1, h2⟩, h3⟩ := h1
    show sub64 _ _ = _
    have ho : ass.rows.length = ass.outer.ctSize := hv1.eq_size h2
    rw [sum_eq_of (c := ass.inner.ctSize) ?_, ho, hd.eq_size h1]
    · rw [ho] at hpos
      obtain ⟨m, hm⟩ : ∃ m, ass.outer.ctSize = m + 1 := ⟨ass.outer.ctSize - 1, by omega⟩
      rw [hm]
      unfold sub64
      have e : (m + 1) * (ass.inner.ctSize + dl.ty.ctSize) =
          (m + 1) * ass.inner.ctSize + m * dl.ty.ctSize + dl.ty.ctSize := by
        rw [Nat.mul_add, Nat.succ_mul m dl.ty.ctSize]; omega
      rw [e, if_pos (by omega)]
      simp
    · intro as ha
      obtain ⟨h4, h5⟩ := hv2 as ha
      have := h4.eq_size (by rw [h5]; exact h3)
      rw [this, h5]
  · have hk : k = .trivial := by
      rcases hk with hk | hk
      · exact hk
      · exact absurd (by rw [hk.1, hk.2.1, hk.2.2]; rfl) h1
    rw [if_neg h1]
    by_cases h2 : (dl.ty.isStaticCap && ass.outer.isStaticCap && ass.inner.isStaticCap) = true
    · rw [if_pos h2]
      refine ⟨?_, hk⟩
      have hs := sum_le_of (l := ass.rows) (c := ass.inner.ctCap) (fun as ha => by
        obtain ⟨h2, h3⟩ := hv2 as ha
        rw [← h3]; exact h2.le_cap)
      have ho : ass.rows.length ≤ ass.outer.ctCap := hv1.le_cap
      have hl := hd.le_cap
      obtain ⟨m, hm⟩ : ∃ m, ass.outer.ctCap = m + 1 := ⟨ass.outer.ctCap - 1, by omega⟩
      rw [hm]
      unfold sub64
      have e : (m + 1) * (ass.inner.ctCap + dl.ty.ctCap) =
          (m + 1) * ass.inner.ctCap + m * dl.ty.ctCap + dl.ty.ctCap := by
        rw [Nat.mul_add, Nat.succ_mul m dl.ty.ctCap]; omega
      rw [e, if_pos (by omega)]
      have h5 : (ass.rows.length - 1) * length dl ≤ m * dl.ty.ctCap := Nat.mul_le_mul (by omega) hl
      have h6 : ass.rows.length * ass.inner.ctCap ≤ (m + 1) * ass.inner.ctCap :=
        Nat.mul_le_mul_right _ (by omega)
      omega
    · rw [if_neg h2]; exact hk

theorem intercalate_snoc (d x : List α) (pre : List (List α)) :
    List.intercalate d (pre ++ [x]) = pre.flatMap (fun l => l ++ d) ++ x := by
  induction pre with
  | nil => simp [List.intercalate]
  | cons a pre ih =>
    have : List.intercalate d (a :: (pre ++ [x])) = a ++ d ++ List.intercalate d (pre ++ [x]) := by
      cases pre with
      | nil => simp [List.intercalate]
      | cons b pre => simp [List.intercalate]
    rw [List.cons_append, this, ih]
    simp

theorem intercalate_gives {k : Kind} (d : α) {dl : Inp α} {ass : Inp2 α} (hd : dl.valid) (hv : ass.valid)
    (hst : ass.outer = .array 0 → dl.ty.isStaticSize = true → ass.inner.isStaticSize = true → dl.vals = [])
    (hk : k = .trivial ∨
      (dl.ty.isStaticSize = true ∧ ass.outer.isStaticSize = true ∧ ass.inner.isStaticSize = true)) (w : ω) :
    Gives k (intercalateTy dl.ty ass.outer ass.inner) (intercalate k d dl ass w)
      (.ok (List.intercalate dl.vals (ass.rows.map Inp.vals)) w) := by
  unfold intercalate
  by_cases h0 : ass.rows = []
  · have hl : length ass.seq = 0 := by show ass.rows.length = 0; rw [h0]; rfl
    rw [if_pos hl, h0]
    unfold intercalateTy
    by_cases h1 : (dl.ty.isStaticSize && ass.outer.isStaticSize && ass.inner.isStaticSize) = true
    · rw [if_pos h1]
      simp only [Bool.and_eq_true] at h1
      obtain ⟨⟨h1, h2⟩, h3⟩ := h1
      have ho : ass.rows.length = ass.outer.ctSize := hv.1.eq_size h2
      rw [h0] at ho
      have ho' : ass.outer = .array 0 := by
        revert ho h2
        cases ass.outer <;> simp [SeqTy.ctSize, SeqTy.isStaticSize] <;> omega
      have hdl := hst ho' h1 h3
      have hds : dl.ty.ctSize = 0 := by rw [← hd.eq_size h1, length, hdl]; rfl
      rw [← ho, hds]
      obtain ⟨u, hu, hr⟩ := ArrS.mk0_run 0 d
      have e : sub64 (([] : List (Inp α)).length * (ass.inner.ctSize + 0)) 0 = 0 := by simp [sub64]
      rw [e]
      have hr' : Res.make (.array 0) d = .ok () (.array u) := by simp only [Res.make, hu]; rfl
      refine withResult_gives hr' ⟨_, rfl, rfl, hr, by simp [Res.ty, hr.n_eq]⟩
    · rw [if_neg h1]
      have hk : k = .trivial := by
        rcases hk with hk | hk
        · exact hk
        · exact absurd (by rw [hk.1, hk.2.1, hk.2.2]; rfl) h1
      subst hk
      split
      · exact withResult_gives rfl ⟨_, rfl, rfl, AvS.rep_mk0 _ _, rfl⟩
      · exact withResult_gives rfl ⟨_, rfl, rfl, VecS.rep_mk0 _ _, rfl⟩
  · have hl : length ass.seq = ass.rows.length := rfl
    have hpos : 0 < ass.rows.length := List.length_pos_iff.mpr h0
    rw [if_neg (by omega), sumLens_all]
    simp only [pure_bind]
    rw [hl]
    obtain ⟨pre, x, hx⟩ : ∃ pre x, ass.rows = pre ++ [x] := by
      rcases List.eq_nil_or_concat ass.rows with h | ⟨p, x, h⟩
      · exact absurd h h0
      · exact ⟨p, x, by simpa using h⟩
    refine written_gives (intercalateTy_fits hd hv h0 hk) d _ ?_ ?_ ?_ w
    · cases intercalateTy dl.ty ass.outer ass.inner <;> simp [SeqTy.ctSize]
    · have h1 : ass.seq.vals[ass.rows.length - 1]? = some x := by
        show ass.rows[ass.rows.length - 1]? = some x
        rw [hx]; simp
      rw [nth_ok h1, pure_bind, hx, List.map_append, List.map_cons, List.map_nil, intercalate_snoc,
        forM_append, appendImpl_eq, forM_flatMap, forM_map]
      congr 1
      have : (pre ++ [x]).length - 1 = pre.length := by simp
      rw [this]
      refine forUp_vals pre (fun i a ha => ?_)
      have h2 : ass.seq.vals[i]? = some a := by
        show ass.rows[i]? = some a
        rw [hx, List.getElem?_append_left (List.getElem?_eq_some_iff.mp ha).1]; exact ha
      unfold intercalateBody
      rw [nth_ok h2, pure_bind, appendImpl_eq, appendImpl_eq, forM_append]
    · rw [hx, List.map_append, List.map_cons, List.map_nil, intercalate_snoc]
      simp only [List.length_append, List.length_flatMap, List.map_append, List.sum_append, List.map_cons,
        List.map_nil, List.sum_cons, List.sum_nil, List.length_cons, List.length_nil, length]
      have : ∀ l : List (Inp α), ((l.map Inp.vals).map (fun a => a.length + dl.vals.length)).sum =
          (l.map length).sum + l.length * dl.vals.length := by
        intro l
        induction l with
        | nil => simp
        | cons a l ih =>
          simp only [List.map_cons, List.sum_cons, List.length_cons, Nat.succ_mul, length] at ih ⊢
          omega
      rw [this]
      simp only [Nat.add_sub_cancel, Nat.add_zero, Nat.zero_add]
      have e : (List.map length pre).sum = (List.map (fun as : Inp α => as.vals.length) pre).sum := rfl
      omega

/-! ### cartesian_map -/

theorem product_foldl (l : List Nat) (a : Nat) : l.foldl (· * ·) a = a * product l := by
  unfold product
  induction l generalizing a with
  | nil => simp
  | cons x l ih =>
    simp only [List.foldl_cons, Nat.one_mul]
    rw [ih, ih x, Nat.mul_assoc]

theorem product_cons (x : Nat) (l : List Nat) : product (x :: l) = x * product l := by
  show (x :: l).foldl (· * ·) 1 = _
  simp only [List.foldl_cons, Nat.one_mul]
  exact product_foldl l x

theorem combos_length (ls : List (List α)) : (combos ls).length = product (ls.map List.length) := by
  induction ls with
  | nil => rfl
  | cons l ls ih =>
    rw [List.map_cons, product_cons, ← ih]
    simp only [combos]
    induction l with
    | nil => simp
    | cons a l ihl =>
      rw [List.flatMap_cons, List.length_append, ihl]
      simp [Nat.succ_mul]; omega

theorem cartesianTy_fits {k : Kind} {ass : List (Inp α)} (hv : ∀ as ∈ ass, as.valid)
    (hk : k = .trivial ∨ ∀ as ∈ ass, as.ty.isStaticSize = true) :
    Fits k (cartesianTy (ass.map Inp.ty)) (product (ass.map length)) := by
  unfold cartesianTy
  by_cases h1 : (ass.map Inp.ty).all SeqTy.isStaticSize = true
  · rw [if_pos h1]
    show product _ = product _
    congr 1
    simp only [List.map_map]
    apply List.map_congr_left
    intro as ha
    rw [List.all_eq_true] at h1
    exact ((hv as ha).eq_size (h1 _ (List.mem_map.mpr ⟨as, ha, rfl⟩))).symm
  · have hk' : k = .trivial := by
      rcases hk with hk | hk
      · exact hk
      · exfalso; apply h1
        rw [List.all_eq_true]
        intro t ht
        obtain ⟨as, ha, rfl⟩ := List.mem_map.mp ht
        exact hk as ha
    rw [if_neg h1]
    split
    · refine ⟨?_, hk'⟩
      clear h1 hk
      induction ass with
      | nil => simp
      | cons as ass ih =>
        simp only [List.map_cons, product_cons]
        exact Nat.mul_le_mul (hv as (by simp)).le_cap
          (ih (fun a ha => hv a (by simp [ha])) (by simp_all))
    · exact hk'

theorem cartInner_sim {k : Kind} {t : SeqTy} {n : Nat} (f : γ → Cpp ω β) (xs : List γ) {bs : List β}
    {s : Fr β ω} (h : At k t n bs s) (hlt : bs.length + xs.length ≤ n) :
    Sim (fun cs s' => At k t n (bs ++ cs) s' ∧ cs.length = xs.length)
      (forM xs (fun x => (do let b ← onW (f x); emit k b : Cpp (Fr β ω) Unit)) s) (xs.mapM f s.w) := by
  induction xs generalizing bs s with
  | nil => exact ⟨s, rfl, rfl, by simpa using h, rfl⟩
  | cons x xs ih =>
    rw [List.forM_cons, mapM_cons_append]
    refine Sim.mono (Sim.bind (P := fun cs s' => cs.length = 1 ∧ At k t n (bs ++ cs) s')
      (Q := fun cs ds s' => cs.length = 1 ∧ At k t n ((bs ++ cs) ++ ds) s' ∧ ds.length = xs.length) ?_ ?_) ?_
    · refine Sim.call (fun b w => ?_)
      obtain ⟨s', h1, h2, h3⟩ := emit_run (s := { s with w := w }) (k := k) (t := t) (n := n) (bs := bs) h
        (by simp at hlt; omega) b
      exact ⟨s', h1, h2, rfl, h3⟩
    · rintro cs u ⟨h1, h2⟩
      exact Sim.mono (ih h2 (by simp [h1] at hlt ⊢; omega)) (fun ds v hv => ⟨h1, hv⟩)
    · rintro es u ⟨cs, ds, rfl, h1, h2, h3⟩
      exact ⟨by simpa using h2, by simp [h1, h3]; omega⟩

theorem cartesianMap_gives {k : Kind} (d : β) (f : List α → Cpp ω β) {ass : List (Inp α)} (hne : ass ≠ [])
    (hv : ∀ as ∈ ass, as.valid) (hk : k = .trivial ∨ ∀ as ∈ ass, as.ty.isStaticSize = true) (w : ω) :
    Gives k (cartesianTy (ass.map Inp.ty)) (cartesianMap k d f ass w)
      ((combos (ass.map Inp.vals)).mapM f w) := by
  have hlen : (combos (ass.map Inp.vals)).length = product (ass.map length) := by
    rw [combos_length, List.map_map]; rfl
  obtain ⟨r, r', hr, hf, hty, hres⟩ := prepare (ω := ω) (cartesianTy_fits hv hk) d
    ((cartesianTy (ass.map Inp.ty)).ctSize = dyn)
    (by cases cartesianTy (ass.map Inp.ty) <;> simp [SeqTy.ctSize])
  refine withResult_gives hr ?_
  have h0 := cartInner_sim (k := k) (t := cartesianTy (ass.map Inp.ty)) (n := product (ass.map length)) f
    (combos (ass.map Inp.vals)) (bs := []) (s := (⟨r', 0, w⟩ : Fr β ω)) ⟨hf, hty, rfl⟩ (by simp [hlen])
  have e : cartMapProg k f ass ⟨r, 0, w⟩ =
      forM (combos (ass.map Inp.vals)) (fun x => (do let b ← onW (f x); emit k b : Cpp (Fr β ω) Unit))
        ⟨r', 0, w⟩ := by
    have h1 := hres 0 w
    unfold cartMapProg
    rw [cartesianForEach_eq _ hne hv]
    by_cases hcc : (cartesianTy (ass.map Inp.ty)).ctSize = dyn
    · rw [if_pos hcc] at h1
      rw [if_pos hcc, Cpp.bind_ok h1]
      rfl
    · rw [if_neg hcc] at h1
      have := (Out.ok.inj h1).2
      simp only [if_neg hcc]
      rw [this]; rfl
  rw [e]
  refine Sim.mono h0 ?_
  rintro cs s ⟨⟨h1, h2, _⟩, h3⟩
  exact ⟨(by simpa using h1 : Filling k _ s.res cs).done (h3.trans hlen), h2⟩

/-! ### push_back based functions: filter, elem_indices, find_indices -/

theorem Done.push {k : Kind} {r : Res β} {l : List β} (h : Done k r l) (hna : ∀ m, r.ty ≠ .array m)
    (hc : ∀ m, r.ty = .arrVec m → l.length < m) (b : β) :
    ∃ r', Res.push k b r = .ok () r' ∧ Done k r' (l ++ [b]) ∧ r'.ty = r.ty := by
  cases r with
  | array s => exact absurd rfl (hna s.n)
  | arrVec s =>
    obtain ⟨t, ht, hr⟩ := AvS.pushBack_run h b (hc _ rfl)
    have hcap := hr.cap
    refine ⟨.arrVec t, by simp only [Res.push, ht]; rfl, ?_, by simp [Res.ty, hcap]⟩
    show AvS.Rep k t.cap t (l ++ [b])
    rw [hcap]; exact hr
  | vector s =>
    obtain ⟨t, ht, hr, _⟩ := VecS.pushBack_run h b
    exact ⟨.vector t, by simp only [Res.push, ht]; rfl, hr, rfl⟩

theorem select_sim {k : Kind} {t : SeqTy} (p : γ → Cpp ω Bool) (v : γ → β) (items : List γ) {bs : List β}
    {s : Fr β ω} (h : Done k s.res bs) (ht : s.res.ty = t) (hna : ∀ m, t ≠ .array m)
    (hc : ∀ m, t = .arrVec m → bs.length + items.length ≤ m) :
    Sim (fun cs s' => Done k s'.res (bs ++ cs) ∧ s'.res.ty = t)
      (forM items (fun x => (do let b ← onW (p x)
                                if b then onRes (Res.push k (v x)) else pure () : Cpp (Fr β ω) Unit)) s)
      ((do let r ← filterCalls p items; pure (r.map v)) s.w) := by
  induction items generalizing bs s with
  | nil => exact ⟨s, rfl, rfl, by simpa using h, ht⟩
  | cons x xs ih =>
    rw [List.forM_cons]
    have e : (do let r ← filterCalls p (x :: xs); pure (r.map v) : Cpp ω (List β)) =
        (do let cs ← (do let b ← p x; pure (if b then [v x] else []))
            let ds ← (do let r ← filterCalls p xs; pure (r.map v))
            pure (cs ++ ds)) := by
      simp only [filterCalls, bind_assoc, pure_bind]
      congr 1
      funext b
      congr 1
      funext r
      cases b <;> simp
    rw [e]
    refine Sim.mono (Sim.bind (P := fun cs s' => cs.length ≤ 1 ∧ Done k s'.res (bs ++ cs) ∧ s'.res.ty = t)
      (Q := fun cs ds s' => Done k s'.res ((bs ++ cs) ++ ds) ∧ s'.res.ty = t) ?_ ?_) ?_
    · cases hs : p x s.w with
      | ok b w =>
        rw [Cpp.bind_ok hs, Cpp.bind_ok (onW_ok hs)]
        cases b with
        | false => exact ⟨_, rfl, rfl, by simp, by simpa using h, ht⟩
        | true =>
          obtain ⟨r', hr, hd, hty⟩ := h.push (by rw [ht]; exact hna)
            (fun m hm => by have := hc m (by rw [← ht, hm]); simp at this; omega) (v x)
          refine ⟨{ s with res := r', w := w }, ?_, rfl, by simp, hd, hty.trans ht⟩
          simp only [if_true, onRes, hr]; rfl
      | thrown w =>
        rw [Cpp.bind_thrown hs, Cpp.bind_thrown (onW_thrown hs)]
        exact ⟨_, rfl, rfl⟩
      | ub u =>
        rw [Cpp.bind_ub hs, Cpp.bind_ub (onW_ub hs)]
        exact rfl
    · rintro cs u ⟨h1, h2, h3⟩
      exact ih h2 h3 (fun m hm => by have := hc m hm; simp at this ⊢; omega)
    · rintro es u ⟨cs, ds, rfl, h1, h2⟩
      exact ⟨by simpa using h1, h2⟩

theorem filterTy_ok {as : Inp α} (hv : as.valid) :
    (∀ m, filterTy as.ty ≠ .array m) ∧ (∀ m, filterTy as.ty = .arrVec m → as.vals.length ≤ m) := by
  have h := hv.le_cap
  unfold filterTy
  split
  · refine ⟨by simp, fun m hm => ?_⟩
    cases hm; exact h
  · exact ⟨by simp, by simp⟩

theorem select_gives {k : Kind} {as : Inp α} (hv : as.valid) (d : β) {body : Nat → Cpp (Fr β ω) Unit}
    {items : List γ} (p : γ → Cpp ω Bool) (v : γ → β) (hl : items.length = as.vals.length)
    (hb : ∀ i x, items[i]? = some x → body i = (do
      let b ← onW (p x)
      if b then onRes (Res.push k (v x)) else pure ())) (w : ω) :
    Gives k (filterTy as.ty) (withResult (filterTy as.ty) d (forUp body 0 (length as)) w)
      ((do let r ← filterCalls p items; pure (r.map v)) w) := by
  obtain ⟨h1, h2⟩ := filterTy_ok hv
  have e : forUp body 0 (length as) = forM items (fun x => (do
      let b ← onW (p x)
      if b then onRes (Res.push k (v x)) else pure () : Cpp (Fr β ω) Unit)) := by
    unfold length
    rw [← hl]
    exact forUp_vals items hb
  rw [e]
  have key : ∀ r : Res β, Done k r [] → r.ty = filterTy as.ty →
      Sim (fun cs s' => Done k s'.res cs ∧ s'.res.ty = filterTy as.ty)
      (forM items (fun x => (do let b ← onW (p x)
                                if b then onRes (Res.push k (v x)) else pure () : Cpp (Fr β ω) Unit)) ⟨r, 0, w⟩)
      ((do let r ← filterCalls p items; pure (r.map v)) w) := by
    intro r hr ht
    have := select_sim (k := k) (t := filterTy as.ty) p v items (bs := []) (s := (⟨r, 0, w⟩ : Fr β ω)) hr ht h1
      (fun m hm => by have := h2 m hm; simp; omega)
    simpa using this
  revert h1 h2 key
  cases filterTy as.ty with
  | array m => intro h1; exact absurd rfl (h1 m)
  | arrVec m => intro _ _ key; exact withResult_gives rfl (key _ (AvS.rep_mk0 k m) rfl)
  | vector => intro _ _ key; exact withResult_gives rfl (key _ (VecS.rep_mk0 k {}) rfl)

theorem filter_gives {k : Kind} {as : Inp α} (hv : as.valid) (d : α) (p : α → Cpp ω Bool) (w : ω) :
    Gives k (filterTy as.ty) (filter k d p as w) (filterCalls p as.vals w) := by
  have := select_gives (k := k) hv d (body := filterBody k p as) (items := as.vals) p id rfl
    (fun i x hx => by unfold filterBody; rw [nth_ok hx, pure_bind]; rfl) w
  unfold filter
  simpa using this

theorem findIndices_gives {as : Inp α} (hv : as.valid) (p : α → Cpp ω Bool) (w : ω) :
    Gives .trivial (filterTy as.ty) (findIndices p as w)
      ((do let r ← filterCalls (fun q : α × Nat => p q.1) as.vals.zipIdx; pure (r.map Prod.snd)) w) := by
  refine select_gives hv 0 (items := as.vals.zipIdx) (fun q : α × Nat => p q.1) Prod.snd (by simp) ?_ w
  rintro i ⟨a, j⟩ hx
  simp only [List.getElem?_zipIdx, Option.map_eq_some_iff, Prod.mk.injEq] at hx
  obtain ⟨b, hb, rfl, hj⟩ := hx
  have : j = i := by omega
  subst this
  unfold indicesBody
  rw [nth_ok hb, pure_bind]

/-! ### folds and searches -/

theorem foldlLoop_eq (f : β → α → Cpp ω β) (as : Inp α) (l pre : List α) (h : as.vals = pre ++ l) (r : β) :
    foldlLoop f as pre.length l.length r = l.foldlM f r := by
  induction l generalizing pre r with
  | nil => rfl
  | cons a l ih =>
    have h1 : as.vals[pre.length]? = some a := by rw [h]; simp
    simp only [List.length_cons, foldlLoop, List.foldlM_cons]
    rw [nth_ok h1, pure_bind]
    congr 1
    funext r'
    have := ih (pre ++ [a]) (by simp [h]) r'
    simpa using this

theorem foldl_eq (f : β → α → Cpp ω β) (z : β) (as : Inp α) : foldl f z as = as.vals.foldlM f z :=
  foldlLoop_eq f as as.vals [] rfl z

theorem foldrLoop_eq (f : α → β → Cpp ω β) (as : Inp α) (n : Nat) (hn : n ≤ as.vals.length) (r : β) :
    foldrLoop f as n r = (as.vals.take n).foldrM f r := by
  induction n generalizing r with
  | zero => simp [foldrLoop]
  | succ n ih =>
    have hlt : n < as.vals.length := by omega
    have h1 : as.vals[n + 1 - 1]? = some as.vals[n] := by simp [hlt]
    simp only [foldrLoop]
    rw [nth_ok h1, pure_bind, ← List.take_append_getElem hlt, List.foldrM_append]
    simp only [List.foldrM_cons, List.foldrM_nil, pure_bind]
    congr 1
    funext r'
    exact ih (by omega) r'

theorem foldr_eq (f : α → β → Cpp ω β) (z : β) (as : Inp α) : foldr f z as = as.vals.foldrM f z := by
  unfold foldr length
  rw [foldrLoop_eq f as _ (Nat.le_refl _), List.take_length]

theorem scan_eq (p : α → Cpp ω Bool) (as : Inp α) (l pre : List α) (h : as.vals = pre ++ l) :
    scan p as pre.length l.length = (do let r ← firstMatch p l; pure (r.map (pre.length + ·))) := by
  induction l generalizing pre with
  | nil => rfl
  | cons a l ih =>
    have h1 : as.vals[pre.length]? = some a := by rw [h]; simp
    simp only [List.length_cons, scan, firstMatch]
    rw [nth_ok h1, pure_bind, bind_assoc]
    congr 1
    funext b
    cases b with
    | true => simp
    | false =>
      have := ih (pre ++ [a]) (by simp [h])
      simp only [List.length_append, List.length_cons, List.length_nil, Nat.zero_add] at this
      simp only [Bool.false_eq_true, if_false, bind_assoc, pure_bind]
      rw [this]
      congr 1
      funext r
      cases r <;> simp [Nat.add_assoc, Nat.add_comm 1]

theorem findIndex_eq (p : α → Cpp ω Bool) (as : Inp α) : findIndex p as = firstMatch p as.vals := by
  have := scan_eq p as as.vals [] rfl
  unfold findIndex length
  simp only [List.length_nil] at this
  rw [this]
  conv => rhs; rw [← bind_pure (firstMatch p as.vals)]
  congr 1
  funext r
  cases r <;> simp

theorem find_eq (p : α → Cpp ω Bool) (as : Inp α) :
    find p as = (do let r ← firstMatch p as.vals; pure r.isSome) := by
  have := findIndex_eq p as
  unfold findIndex at this
  unfold find
  rw [this]

/-! ### pure client functions -/

theorem filterCalls_pure (q : α → Bool) (l : List α) :
    (filterCalls (fun a => pure (q a)) l : Cpp ω (List α)) = pure (l.filter q) := by
  induction l with
  | nil => rfl
  | cons a l ih =>
    simp only [filterCalls, pure_bind, ih, List.filter_cons]

theorem firstMatch_pure (q : α → Bool) (l : List α) :
    (firstMatch (fun a => pure (q a)) l : Cpp ω (Option Nat)) = pure (l.findIdx? q) := by
  induction l with
  | nil => rfl
  | cons a l ih =>
    simp only [firstMatch, pure_bind, ih, List.findIdx?_cons]
    cases q a <;> simp

/-! ### for_each_mut -/

theorem row_overwrite (i : Nat) (yss ls : List (List α)) (h : yss.length ≤ i) :
    row i (overwrite yss ls) = row i ls := by
  have key : ∀ (l : List α) (j : Nat),
      (l.mapIdx (fun i a => ((yss[i]?).bind (fun ys => ys[j]?)).getD a))[i]? = l[i]? := by
    intro l j
    rw [List.getElem?_mapIdx, List.getElem?_eq_none h]
    simp
  unfold row overwrite
  rw [List.mapIdx_eq_zipIdx_map, List.filterMap_map]
  have h2 : ((fun l : List α => l[i]?) ∘ fun q : List α × Nat =>
      q.1.mapIdx (fun i a => ((yss[i]?).bind (fun ys => ys[q.2]?)).getD a)) =
      ((fun l : List α => l[i]?) ∘ Prod.fst) := by
    funext q
    exact key q.1 q.2
  rw [h2, ← List.filterMap_map]
  congr 1
  simp

theorem writeBack_vals (i : Nat) (ys : List α) (ass : List (Inp α)) :
    (writeBack i ys ass).map Inp.vals =
      (ass.map Inp.vals).mapIdx (fun j l => match ys[j]? with | some y => l.set i y | none => l) := by
  apply List.ext_getElem?
  intro j
  simp only [writeBack, List.getElem?_map, List.getElem?_mapIdx, Option.map_map]
  cases ass[j]? with
  | none => rfl
  | some as => simp only [Option.map_some, Function.comp]; cases ys[j]? <;> rfl

theorem writeBack_ty (i : Nat) (ys : List α) (ass : List (Inp α)) :
    (writeBack i ys ass).map Inp.ty = ass.map Inp.ty := by
  apply List.ext_getElem?
  intro j
  simp only [writeBack, List.getElem?_map, List.getElem?_mapIdx, Option.map_map]
  cases ass[j]? with
  | none => rfl
  | some as => simp only [Option.map_some, Function.comp]; cases ys[j]? <;> rfl

theorem overwrite_snoc (yss : List (List α)) (ys : List α) (ls : List (List α)) :
    (overwrite yss ls).mapIdx (fun j l => match ys[j]? with | some y => l.set yss.length y | none => l) =
      overwrite (yss ++ [ys]) ls := by
  unfold overwrite
  apply List.ext_getElem?
  intro j
  simp only [List.getElem?_mapIdx, Option.map_map]
  cases ls[j]? with
  | none => rfl
  | some l =>
    simp only [Option.map_some, Function.comp, Option.some.injEq]
    apply List.ext_getElem?
    intro i
    cases hy : ys[j]? with
    | none =>
      simp only [List.getElem?_mapIdx]
      congr 1
      funext a
      by_cases h : i < yss.length
      · rw [List.getElem?_append_left h]
      · rw [List.getElem?_eq_none (by omega)]
        by_cases h2 : i = yss.length
        · subst h2; simp [hy]
        · rw [List.getElem?_eq_none (by simp; omega)]
    | some y =>
      simp only [List.getElem?_set, List.getElem?_mapIdx]
      by_cases h2 : yss.length = i
      · subst h2
        simp only [if_true, List.length_mapIdx]
        by_cases h3 : yss.length < l.length
        · simp [h3, hy]
        · simp [h3]
      · rw [if_neg h2]
        congr 1
        funext a
        by_cases h : i < yss.length
        · rw [List.getElem?_append_left h]
        · rw [List.getElem?_eq_none (by omega), List.getElem?_eq_none (by simp; omega)]

theorem overwrite_nil (ls : List (List α)) : overwrite [] ls = ls := by
  unfold overwrite
  apply List.ext_getElem?
  intro j
  simp only [List.getElem?_mapIdx]
  cases ls[j]? with
  | none => rfl
  | some l =>
    simp only [Option.map_some, Option.some.injEq]
    apply List.ext_getElem?
    intro i
    simp [List.getElem?_mapIdx]

/-- a mutating loop follows its specification -/
def MutSim (ass : List (Inp α)) (yss : List (List α)) (o : Out (List (Inp α) × ω) Unit)
    (spec : Out ω (List (List α))) : Prop :=
  match spec with
  | .ok zss w => ∃ ass', o = .ok () (ass', w) ∧ ass'.map Inp.ty = ass.map Inp.ty ∧
      ass'.map Inp.vals = overwrite (yss ++ zss) (ass.map Inp.vals)
  | .thrown w => ∃ ass', o = .thrown (ass', w)
  | .ub u => o = .ub u

theorem overwrite_length (yss ls : List (List α)) (j : Nat) :
    ((overwrite yss ls)[j]?).map List.length = (ls[j]?).map List.length := by
  unfold overwrite
  rw [List.getElem?_mapIdx, Option.map_map]
  cases ls[j]? with
  | none => rfl
  | some l => simp

theorem mutLoop (f : Nat → List α → Cpp ω (List α)) (ass : List (Inp α)) (m lo : Nat)
    (hlo : ∀ as ∈ ass, lo + m ≤ as.vals.length) (cur : List (Inp α)) (w : ω) (yss : List (List α))
    (hy : yss.length = lo) (ht : cur.map Inp.ty = ass.map Inp.ty)
    (hvv : cur.map Inp.vals = overwrite yss (ass.map Inp.vals)) :
    MutSim ass yss (forUp (forEachIxMutBody f) lo m (cur, w))
      ((List.range' lo m).mapM (fun i => f i (row i (ass.map Inp.vals))) w) := by
  induction m generalizing lo cur w yss with
  | zero => exact ⟨cur, rfl, ht, by simpa using hvv⟩
  | succ m ih =>
    have hcur : ∀ as ∈ cur, lo < as.vals.length := by
      intro as ha
      obtain ⟨j, hj, he⟩ := List.getElem_of_mem ha
      have h1 : (cur.map Inp.vals)[j]? = some as.vals := by simp [hj, he]
      have h2 := overwrite_length yss (ass.map Inp.vals) j
      rw [← hvv, h1] at h2
      cases h3 : (ass.map Inp.vals)[j]? with
      | none => rw [h3] at h2; simp at h2
      | some l =>
        rw [h3] at h2
        simp at h2 h3
        obtain ⟨b, hb, rfl⟩ := h3
        have := hlo b (List.mem_of_getElem? hb)
        omega
    have hrow : row lo (cur.map Inp.vals) = row lo (ass.map Inp.vals) := by
      rw [hvv, row_overwrite _ _ _ (by omega)]
    rw [forUp_succ, List.range'_succ, List.mapM_cons]
    have hbody : ∀ s2 : ω, forEachIxMutBody f lo (cur, s2) =
        (do let ys ← onW2 (f lo (row lo (ass.map Inp.vals)))
            Cpp.modify (fun t : List (Inp α) × ω => (writeBack lo ys t.1, t.2))) (cur, s2) := by
      intro s2
      unfold forEachIxMutBody forEachMutBody
      simp only
      rw [nths_ok hcur, pure_bind, hrow]
    cases hs : f lo (row lo (ass.map Inp.vals)) w with
    | ok ys w1 =>
      have h1 : onW2 (f lo (row lo (ass.map Inp.vals))) (cur, w) = .ok ys (cur, w1) := by
        unfold onW2; simp only [hs]; rfl
      have h2 : forEachIxMutBody f lo (cur, w) = .ok () (writeBack lo ys cur, w1) := by
        rw [hbody, Cpp.bind_ok h1]
      rw [Cpp.bind_ok h2, Cpp.bind_ok hs]
      have h3 := ih (lo + 1) (fun as ha => by have := hlo as ha; omega) (writeBack lo ys cur) w1 (yss ++ [ys])
        (by simp [hy]) ((writeBack_ty lo ys cur).trans ht)
        (by rw [writeBack_vals, hvv, ← hy, overwrite_snoc])
      cases hr : (List.range' (lo + 1) m).mapM (fun i => f i (row i (ass.map Inp.vals))) w1 with
      | ok zss w2 =>
        rw [hr] at h3
        obtain ⟨ass', h4, h5, h6⟩ := h3
        rw [Cpp.bind_ok hr]
        exact ⟨ass', h4, h5, by simpa using h6⟩
      | thrown w2 =>
        rw [hr] at h3
        rw [Cpp.bind_thrown hr]; exact h3
      | ub u =>
        rw [hr] at h3
        rw [Cpp.bind_ub hr]; exact h3
    | thrown w1 =>
      have h1 : onW2 (f lo (row lo (ass.map Inp.vals))) (cur, w) = .thrown (cur, w1) := by
        unfold onW2; simp only [hs]; rfl
      have h2 : forEachIxMutBody f lo (cur, w) = .thrown (cur, w1) := by
        rw [hbody, Cpp.bind_thrown h1]
      rw [Cpp.bind_thrown h2, Cpp.bind_thrown hs]
      exact ⟨cur, rfl⟩
    | ub u =>
      have h1 : onW2 (f lo (row lo (ass.map Inp.vals))) (cur, w) = .ub u := by
        unfold onW2; simp only [hs]; rfl
      have h2 : forEachIxMutBody f lo (cur, w) = .ub u := by
        rw [hbody, Cpp.bind_ub h1]
      rw [Cpp.bind_ub h2, Cpp.bind_ub hs]
      exact rfl

theorem forEachWithIndexMut_sim (f : Nat → List α → Cpp ω (List α)) {ass : List (Inp α)} (hne : ass ≠ [])
    (hv : ∀ as ∈ ass, as.valid) (w : ω) :
    MutSim ass [] (forEachWithIndexMut f (ass, w))
      ((List.range (shortest (ass.map Inp.vals))).mapM (fun i => f i (row i (ass.map Inp.vals))) w) := by
  rw [← minLength_eq hne hv, List.range_eq_range']
  exact mutLoop f ass (minLength ass) 0 (fun as ha => by have := minLength_le as ha; omega) ass w [] rfl rfl
    (overwrite_nil _).symm

theorem forEachMut_sim (f : List α → Cpp ω (List α)) {ass : List (Inp α)} (hne : ass ≠ [])
    (hv : ∀ as ∈ ass, as.valid) (w : ω) :
    MutSim ass [] (forEachMut f (ass, w)) ((rows (ass.map Inp.vals)).mapM f w) := by
  have := forEachWithIndexMut_sim (fun _ => f) hne hv w
  rw [rows, List.mapM_map]
  exact this

end Prelude
end Efp
