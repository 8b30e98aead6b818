import Verif.Spec.SortAny
import Verif.SortMerge
import Verif.SortTim

/-!
# The sorts under an arbitrary comparator

The comparator may throw, contradict itself and change its answers from call to call.
-/

namespace Efp
namespace Sorting

open Spec

variable {α β γ : Type} {k : Kind} {comp : Comparator α} {led : Ledger} {l : List α}
  {T : Mem α → Prop} {Q : β → Mem α → Prop}

theorem ends_bind {p : Counted α γ} {f : γ → Counted α β} {R : γ → Mem α → Prop} {s : Mem α × Nat}
    (hp : Ends T R (p s)) (hf : ∀ b m c, R b m → Ends T Q (f b (m, c))) : Ends T Q ((p >>= f) s) := by
  rw [Cpp.bind_run]
  cases h : p s with
  | ok b s' => rw [h] at hp; exact hf b s'.1 s'.2 hp
  | thrown s' => rw [h] at hp; exact hp
  | ub w => rw [h] at hp; exact hp

theorem ends_lift {p : Cpp (Mem α) γ} {f : γ → Counted α β} {m m' : Mem α} {c : Nat} {b : γ} (hp : p m = .ok b m')
    (hf : Ends T Q (f b (m', c))) : Ends T Q ((lift p >>= f) (m, c)) := by
  have : lift p (m, c) = .ok b (m', c) := by simp only [lift, hp]
  rw [Cpp.bind_ok this]
  exact hf

theorem ends_lift' {p : Cpp (Mem α) β} {m m' : Mem α} {c : Nat} {b : β} (hp : p m = .ok b m') (hq : Q b m') :
    Ends T Q (lift p (m, c)) := by
  have : lift p (m, c) = .ok b (m', c) := by simp only [lift, hp]
  rw [this]
  exact hq

theorem ends_cmp {f : Bool → Counted α β} {a b : α} {m : Mem α} {c : Nat} (ht : T m)
    (hf : ∀ r c, Ends T Q (f r (m, c))) : Ends T Q ((cmp comp a b >>= f) (m, c)) := by
  rw [Cpp.bind_run]
  simp only [cmp]
  cases comp c a b with
  | some r => exact hf r _
  | none => exact ht

theorem _root_.Efp.Spec.Ends.mono {T' : Mem α → Prop} {Q' : β → Mem α → Prop} {o : Out (Mem α × Nat) β} (h : Ends T Q o)
    (ht : ∀ m, T m → T' m) (hq : ∀ b m, Q b m → Q' b m) : Ends T' Q' o := by
  cases o with
  | ok b s => exact hq _ _ h
  | thrown s => exact ht _ h
  | ub w => exact h

theorem _root_.Efp.Spec.Same.refl : Same led l (St led l) := ⟨l, rfl, .refl _⟩
theorem _root_.Efp.Spec.Same.of {l' : List α} (h : l'.Perm l) : Same led l (St led l') := ⟨l', rfl, h⟩

theorem _root_.Efp.Spec.Same.drawn {m : Mem α} (h : Same led l m) : Drawn led l m := by
  obtain ⟨l', h1, h2⟩ := h
  exact ⟨l', h1, h2.length_eq, fun x hx => h2.mem_iff.1 hx⟩

theorem _root_.Efp.Spec.Same.hole {m : Mem α} (h : Same led l m) (hne : l ≠ []) : OneHole led l m := by
  obtain ⟨l', h1, h2⟩ := h
  cases l' with
  | nil => exact absurd (List.Perm.nil_eq h2).symm hne
  | cons a l' => exact ⟨[], .live a, l', a, by simpa [St] using h1, rfl, h2⟩

/-! ### heapsort -/

theorem pickLarger_any {n largest c : Nat} {l' : List α} {cnt : Nat} (hp : l'.Perm l) (hn : n ≤ l'.length) (hl : largest < n) :
    Ends (Same led l) (fun r m => m = St led l' ∧ r < n ∧ (r = largest ∨ r = c)) (pickLargerC comp n largest c (St led l', cnt)) := by
  unfold pickLargerC
  by_cases hc : c < n
  · rw [if_pos hc]
    refine ends_lift (read_get (by omega)) (ends_lift (read_get (by omega)) (ends_cmp (Same.of hp) fun r c' => ?_))
    cases r with
    | true => exact ⟨rfl, hc, Or.inr rfl⟩
    | false => exact ⟨rfl, hl, Or.inl rfl⟩
  · rw [if_neg hc]
    exact ⟨rfl, hl, Or.inl rfl⟩

theorem heapify_any : ∀ (fuel n i : Nat) (l' : List α) (cnt : Nat), l'.Perm l → n ≤ l'.length → i < n → n - i ≤ fuel →
    Ends (Same led l) (fun _ => Same led l) (heapifyFC k comp fuel n i (St led l', cnt))
  | 0, n, i, _, _, _, _, h1, h2 => by omega
  | fuel + 1, n, i, l', cnt, hp, hn, hi, hf => by
    unfold heapifyFC
    refine ends_bind (pickLarger_any hp hn hi) fun l1 m c h1 => ?_
    obtain ⟨rfl, h1, h1'⟩ := h1
    refine ends_bind (pickLarger_any hp hn h1) fun l2 m c h2 => ?_
    obtain ⟨rfl, h2, h2'⟩ := h2
    by_cases hne : l2 ≠ i
    · rw [if_pos hne]
      refine ends_lift (swap_run (by omega) (by omega)) ?_
      exact heapify_any fuel n l2 _ _ ((swapL_perm _ _).trans hp) (by simpa using hn) h2 (by omega)
    · rw [if_neg hne]
      exact Same.of hp

theorem build_any (n : Nat) : ∀ (c : Nat) (l' : List α) (cnt : Nat), l'.Perm l → n ≤ l'.length → c ≤ n →
    Ends (Same led l) (fun _ => Same led l) (buildLoopC k comp n c (St led l', cnt))
  | 0, l', cnt, hp, _, _ => Same.of hp
  | i + 1, l', cnt, hp, hn, hc => by
    unfold buildLoopC
    refine ends_bind (heapify_any _ _ _ _ _ hp hn (by omega) (by omega)) fun _ m c h => ?_
    obtain ⟨l2, rfl, h2⟩ := h
    exact build_any n i l2 c h2 (by rw [h2.length_eq, ← hp.length_eq]; exact hn) (by omega)

theorem extract_any : ∀ (c : Nat) (l' : List α) (cnt : Nat), l'.Perm l → c ≤ l'.length →
    Ends (Same led l) (fun _ => Same led l) (extractLoopC k comp c (St led l', cnt))
  | 0, l', cnt, hp, _ => Same.of hp
  | 1, l', cnt, hp, _ => Same.of hp
  | i + 2, l', cnt, hp, hc => by
    unfold extractLoopC
    refine ends_lift (swap_run (by omega) (by omega)) ?_
    refine ends_bind (heapify_any (l := l) _ _ _ _ _ ((swapL_perm _ _).trans hp) (by rw [swapL_length]; omega) (by omega) (by omega)) fun _ m c h => ?_
    obtain ⟨l2, rfl, h2⟩ := h
    exact extract_any (i + 1) l2 c h2 (by rw [h2.length_eq, ← hp.length_eq]; omega)

theorem heapsort_any (cnt : Nat) : Ends (Same led l) (fun _ => Same led l) (heapsortC k comp (St led l, cnt)) := by
  unfold heapsortC
  refine ends_lift (Cpp.get_run _) ?_
  have hlen : (St led l).cells.length = l.length := by simp [St]
  rw [hlen]
  by_cases h : l.length > 1
  · rw [if_pos h]
    refine ends_bind (build_any _ _ _ _ (.refl _) (Nat.le_refl _) (by omega)) fun _ m c h => ?_
    obtain ⟨l2, rfl, h2⟩ := h
    exact extract_any _ l2 c h2 (by rw [h2.length_eq]; exact Nat.le_refl _)
  · rw [if_neg h]
    exact extract_any _ l cnt (.refl _) (Nat.le_refl _)

/-! ### quicksort -/

theorem partLoop_any (pivot : α) (low : Nat) : ∀ (n j i : Nat) (l' : List α) (cnt : Nat), l'.Perm l → l'.length < SZ →
    j + n < l'.length → low ≤ (i + 1) % SZ → (i + 1) % SZ ≤ j →
    Ends (Same led l) (fun i' m => Same led l m ∧ low ≤ (i' + 1) % SZ ∧ (i' + 1) % SZ ≤ j + n) (partLoopC k comp pivot j n i (St led l', cnt))
  | 0, j, i, l', cnt, hp, _, _, h1, h2 => ⟨Same.of hp, h1, h2⟩
  | n + 1, j, i, l', cnt, hp, hsz, hn, h1, h2 => by
    unfold partLoopC
    refine ends_lift (read_get (by omega)) (ends_cmp (Same.of hp) fun r c => ?_)
    cases r with
    | true =>
      rw [if_pos rfl]
      refine ends_lift (swap_run (by omega) (by omega)) ?_
      have e : ((i + 1) % SZ + 1) % SZ = (i + 1) % SZ + 1 := Nat.mod_eq_of_lt (by omega)
      refine (partLoop_any pivot low n (j + 1) ((i + 1) % SZ) _ c ((swapL_perm _ _).trans hp) (by rw [swapL_length]; exact hsz)
        (by rw [swapL_length]; omega) (by omega) (by omega)).mono (fun _ h => h) fun b m h => ⟨h.1, h.2.1, by omega⟩
    | false =>
      rw [if_neg (by decide)]
      exact (partLoop_any pivot low n (j + 1) i _ c hp hsz (by omega) h1 (by omega)).mono (fun _ h => h) fun b m h => ⟨h.1, h.2.1, by omega⟩

theorem partition_any (low high : Nat) (l' : List α) (cnt : Nat) (hp : l'.Perm l) (hsz : l'.length < SZ) (h1 : low < high)
    (h2 : high < l'.length) :
    Ends (Same led l) (fun i m => Same led l m ∧ low ≤ i ∧ i ≤ high) (partitionC k comp low high (St led l', cnt)) := by
  unfold partitionC
  refine ends_lift (read_get (by omega)) ?_
  have e : ((low + SZ - 1) % SZ + 1) % SZ = low := by
    by_cases h0 : low = 0
    · subst h0
      decide
    · rw [show low + SZ - 1 = low - 1 + SZ by omega, Nat.add_mod_right, Nat.mod_eq_of_lt (show low - 1 < SZ by omega),
        Nat.mod_eq_of_lt (by omega)]
      omega
  refine ends_bind (partLoop_any _ low _ _ _ _ _ hp hsz (by omega) (by omega) (by omega)) fun i m c h => ?_
  obtain ⟨⟨l2, rfl, h3⟩, h4, h5⟩ := h
  have hl2 : l2.length = l'.length := by rw [h3.length_eq, hp.length_eq]
  refine ends_lift (swap_run (by omega) (by omega)) ?_
  exact ⟨Same.of ((swapL_perm _ _).trans h3), h4, by omega⟩

theorem quicksortF_any : ∀ (fuel low high : Nat) (l' : List α) (cnt : Nat), l'.Perm l → l'.length < SZ → high < l'.length →
    high - low < fuel → Ends (Same led l) (fun _ => Same led l) (quicksortFC k comp fuel low high (St led l', cnt))
  | 0, _, _, _, _, _, _, _, h => by omega
  | fuel + 1, low, high, l', cnt, hp, hsz, hh, hf => by
    unfold quicksortFC
    by_cases h : low < high
    · rw [if_pos h]
      refine ends_bind (partition_any low high l' cnt hp hsz h hh) fun pi m c hpi => ?_
      obtain ⟨⟨l2, rfl, h2⟩, h3, h4⟩ := hpi
      have hl2 : l2.length = l'.length := by rw [h2.length_eq, hp.length_eq]
      by_cases h0 : pi ≠ 0
      · rw [if_pos h0]
        refine ends_bind (quicksortF_any fuel low (pi - 1) l2 c h2 (by omega) (by omega) (by omega)) fun _ m c h => ?_
        obtain ⟨l3, rfl, h5⟩ := h
        have hl3 : l3.length = l'.length := by rw [h5.length_eq, hp.length_eq]
        exact quicksortF_any fuel (pi + 1) high l3 c h5 (by omega) (by omega) (by omega)
      · rw [if_neg h0]
        exact quicksortF_any fuel (pi + 1) high l2 c h2 (by omega) (by omega) (by omega)
    · rw [if_neg h]
      exact Same.of hp

theorem quicksort_any (hsz : l.length < SZ) (cnt : Nat) :
    Ends (Same led l) (fun _ => Same led l) (quicksortC k comp (St led l, cnt)) := by
  unfold quicksortC
  refine ends_lift (Cpp.get_run _) ?_
  have hlen : (St led l).cells.length = l.length := by simp [St]
  rw [hlen]
  by_cases h : l.length ≠ 0
  · rw [if_pos h]
    exact quicksortF_any _ _ _ _ _ (.refl _) hsz (by omega) (by omega)
  · rw [if_neg h]
    exact Same.refl

/-! ### insertion sort -/

/-- storage with a hole at `j` where `key` belongs -/
def HoleAt (led : Ledger) (l : List α) (key : α) (j : Nat) (m : Mem α) : Prop :=
  ∃ pre c post, m = ⟨pre.map .live ++ c :: post.map .live, led⟩ ∧ pre.length = j ∧ c.alive = true ∧ (pre ++ key :: post).Perm l

theorem insLoop_any (key : α) (left : Nat) : ∀ (j : Nat) (m : Mem α) (cnt : Nat), HoleAt led l key j m →
    Ends (OneHole led l) (fun j' => HoleAt led l key j') (insLoopC k comp key left j (m, cnt))
  | 0, m, cnt, h => h
  | j + 1, m, cnt, h => by
    unfold insLoopC
    by_cases hj : j + 1 > left
    · rw [if_pos hj]
      obtain ⟨pre, c, post, rfl, h2, h3, h4⟩ := h
      rcases List.eq_nil_or_concat pre with rfl | ⟨us, u, rfl⟩
      · simp at h2
      simp only [List.concat_eq_append] at *
      have hu : us.length = j := by simpa using h2
      have hread : Mem.read j (⟨(us ++ [u]).map .live ++ c :: post.map .live, led⟩ : Mem α) =
          .ok u ⟨(us ++ [u]).map .live ++ c :: post.map .live, led⟩ := by
        have := Mem.read_mid (led := led) (pre := us.map .live) (post := c :: post.map .live) (a := u) (i := j) (by simpa using hu)
        simpa using this
      refine ends_lift hread (ends_cmp ⟨_, c, post, key, rfl, h3, h4⟩ fun r cnt' => ?_)
      cases r with
      | false =>
        rw [if_neg (by decide)]
        exact ⟨_, c, post, rfl, h2, h3, h4⟩
      | true =>
        rw [if_pos rfl]
        have hmv : Mem.moveOut k j (⟨(us ++ [u]).map .live ++ c :: post.map .live, led⟩ : Mem α) =
            .ok u ⟨us.map .live ++ husk k u :: c :: post.map .live, led⟩ := by
          have := Mem.moveOut_mid (k := k) (led := led) (pre := us.map .live) (post := c :: post.map .live) (a := u) (i := j) (by simpa using hu)
          simpa using this
        have hasg : Mem.assign k (j + 1) u (⟨us.map .live ++ husk k u :: c :: post.map .live, led⟩ : Mem α) =
            .ok () ⟨us.map .live ++ husk k u :: (u :: post).map .live, led⟩ := by
          have := Mem.assign_mid (k := k) (led := led) (pre := us.map .live ++ [husk k u]) (post := post.map .live) (c := c) (a := u)
            (i := j + 1) (by simp [hu]) (fun _ => h3)
          simpa using this
        have hb : (do let y ← Mem.moveOut k j; Mem.assign k (j + 1) y : Cpp (Mem α) Unit)
            (⟨(us ++ [u]).map .live ++ c :: post.map .live, led⟩ : Mem α) =
            .ok () ⟨us.map .live ++ husk k u :: (u :: post).map .live, led⟩ := by
          rw [Cpp.bind_ok hmv, hasg]
        refine ends_lift hb ?_
        refine insLoop_any key left j _ cnt' ⟨us, husk k u, u :: post, rfl, hu, by simp, ?_⟩
        refine List.Perm.trans ?_ h4
        rw [List.append_assoc]
        exact List.Perm.append_left _ (List.Perm.swap u key post)
    · rw [if_neg hj]
      exact h

theorem insOne_any (left i : Nat) (l' : List α) (cnt : Nat) (hp : l'.Perm l) (hi : i < l'.length) :
    Ends (OneHole led l) (fun _ => Same led l) (insOneC k comp left i (St led l', cnt)) := by
  unfold insOneC
  have hl : l' = l'.take i ++ l'[i] :: l'.drop (i + 1) := by
    rw [← List.drop_eq_getElem_cons hi, List.take_append_drop]
  have hmv : Mem.moveOut k i (St led l') = .ok l'[i] ⟨(l'.take i).map .live ++ husk k l'[i] :: (l'.drop (i + 1)).map .live, led⟩ := by
    have := Mem.moveOut_mid (k := k) (led := led) (pre := (l'.take i).map .live) (post := (l'.drop (i + 1)).map .live) (a := l'[i])
      (i := i) (by simp; omega)
    rw [← this]
    congr 1
    rw [← List.map_cons (f := Cell.live), ← List.map_append, ← hl]
    rfl
  refine ends_lift hmv ?_
  refine ends_bind (insLoop_any l'[i] left i _ cnt ⟨_, _, _, rfl, by simp; omega, by simp, hl ▸ hp⟩) fun j m c h => ?_
  obtain ⟨pre, d, post, rfl, h2, h3, h4⟩ := h
  refine ends_lift' (Mem.assign_mid (by simpa using h2) (fun _ => h3)) ⟨pre ++ l'[i] :: post, by simp [St], h4⟩

theorem insRange_any (left : Nat) : ∀ (n i : Nat) (l' : List α) (cnt : Nat), l'.Perm l → i + n ≤ l'.length →
    Ends (OneHole led l) (fun _ => Same led l) (forUp (insOneC k comp left) i n (St led l', cnt))
  | 0, i, l', cnt, hp, _ => Same.of hp
  | n + 1, i, l', cnt, hp, hn => by
    rw [forUp_succ]
    refine ends_bind (insOne_any left i l' cnt hp (by omega)) fun _ m c h => ?_
    obtain ⟨l2, rfl, h2⟩ := h
    exact insRange_any left n (i + 1) l2 c h2 (by rw [h2.length_eq, ← hp.length_eq]; omega)

theorem insertionSort_any (l' : List α) (cnt : Nat) (hp : l'.Perm l) :
    Ends (OneHole led l) (fun _ => Same led l) (insertionSortC k comp (St led l', cnt)) := by
  unfold insertionSortC
  refine ends_lift (Cpp.get_run _) ?_
  have hlen : (St led l').cells.length = l'.length := by simp [St]
  rw [hlen]
  by_cases h : l'.length ≠ 0
  · rw [if_pos h]
    exact insRange_any _ _ _ _ _ hp (by omega)
  · rw [if_neg h]
    exact Same.of hp

theorem sortUnstable_any (hsz : l.length < SZ) (cnt : Nat) :
    Ends (OneHole led l) (fun _ => Same led l) (sortUnstableC k comp (St led l, cnt)) := by
  unfold sortUnstableC
  refine ends_lift (Cpp.get_run _) ?_
  have hlen : (St led l).cells.length = l.length := by simp [St]
  rw [hlen]
  by_cases h : l.length ≤ 1
  · rw [if_pos h]
    exact Same.refl
  · rw [if_neg h]
    have hne : l ≠ [] := by rintro rfl; exact h (by simp)
    refine ends_bind ((quicksortF_any _ _ _ _ _ (.refl _) hsz (by omega) (by omega)).mono (fun _ hs => hs.hole hne) fun _ _ hs => hs) fun _ m c hs => ?_
    obtain ⟨l2, rfl, h2⟩ := hs
    exact insertionSort_any l2 c h2

/-! ### sort -/

theorem rotate_run (start start2 : Nat) (l' : List α) (h1 : start < start2) (h2 : start2 < l'.length) :
    ∃ l2, (do
      let value ← Mem.read start2
      forDown (shiftOne k) start2 (start2 - start)
      Mem.assign k start value : Cpp (Mem α) Unit) (St led l') = .ok () (St led l2) ∧ l2.Perm l' := by
  have hl : l' = l'.take start ++ (l'.take start2).drop start ++ l'[start2] :: l'.drop (start2 + 1) := by
    have e4 : l'.take start2 = l'.take start ++ (l'.take start2).drop start := by
      have := (List.take_append_drop start (l'.take start2)).symm
      rwa [List.take_take, Nat.min_eq_left (by omega)] at this
    rw [← e4, ← List.drop_eq_getElem_cons h2, List.take_append_drop]
  have hP : (l'.take start).length = start := by simp; omega
  have hX : ((l'.take start2).drop start).length = start2 - start := by simp; omega
  generalize l'.take start = P at hl hP
  generalize (l'.take start2).drop start = X at hl hX
  generalize l'.drop (start2 + 1) = R at hl
  have hread : Mem.read start2 (St led l') = .ok l'[start2] (St led l') := read_get h2
  generalize l'[start2] = y at hl hread
  obtain ⟨z, hz⟩ := shift_run (k := k) (led := led) X P R y
  have hsh : forDown (shiftOne k) start2 (start2 - start) (St led l') = .ok () (St led (P ++ z :: (X ++ R))) := by
    rw [hl]
    rw [hP, hX, show start + (start2 - start) = start2 by omega] at hz
    exact hz
  refine ⟨P ++ y :: (X ++ R), ?_, ?_⟩
  · rw [Cpp.bind_ok hread, Cpp.bind_ok hsh]
    exact assign_St hP
  · rw [hl, List.append_assoc]
    exact List.Perm.append_left _ List.perm_middle.symm

theorem timLoop_any (end_ : Nat) : ∀ (fuel start mid start2 : Nat) (l' : List α) (cnt : Nat), l'.Perm l → start2 = mid + 1 →
    end_ < l'.length → start ≤ start2 → (start2 - start) + (end_ + 1 - start2) < fuel →
    Ends (Same led l) (fun _ => Same led l) (timLoopC k comp end_ fuel start mid start2 (St led l', cnt))
  | 0, _, _, _, _, _, _, _, _, _, h => by omega
  | fuel + 1, start, mid, start2, l', cnt, hp, h1, h2, h3, hf => by
    unfold timLoopC
    by_cases h : start ≤ mid ∧ start2 ≤ end_
    · rw [if_pos h]
      refine ends_lift (read_get (by omega)) (ends_lift (read_get (by omega)) (ends_cmp (Same.of hp) fun r c => ?_))
      cases r with
      | false =>
        rw [if_pos rfl]
        exact timLoop_any end_ fuel (start + 1) mid start2 l' c hp h1 h2 (by omega) (by omega)
      | true =>
        rw [if_neg (by decide)]
        obtain ⟨l2, h4, h5⟩ := rotate_run (k := k) (led := led) start start2 l' (by omega) (by omega)
        refine ends_lift h4 ?_
        exact timLoop_any end_ fuel (start + 1) (mid + 1) (start2 + 1) l2 c (h5.trans hp) (by omega) (by rw [h5.length_eq]; exact h2)
          (by omega) (by omega)
    · rw [if_neg h]
      exact Same.of hp

theorem timMerge_any (start mid end_ : Nat) (l' : List α) (cnt : Nat) (hp : l'.Perm l) (h1 : start ≤ mid) (h2 : mid < end_)
    (h3 : end_ < l'.length) : Ends (Same led l) (fun _ => Same led l) (timMergeC k comp start mid end_ (St led l', cnt)) := by
  unfold timMergeC
  refine ends_lift (read_get (by omega)) (ends_lift (read_get (by omega)) (ends_cmp (Same.of hp) fun r c => ?_))
  cases r with
  | false =>
    rw [if_pos rfl]
    exact Same.of hp
  | true =>
    rw [if_neg (by decide)]
    exact timLoop_any end_ _ _ _ _ _ _ hp rfl h3 (by omega) (by omega)

theorem mergePass_any (n size : Nat) (hsz : 0 < size) : ∀ (fuel left : Nat) (l' : List α) (cnt : Nat), l'.Perm l → n = l'.length →
    n < fuel + left → 0 < fuel → Ends (Same led l) (fun _ => Same led l) (mergePassC k comp n size fuel left (St led l', cnt))
  | 0, _, _, _, _, _, _, h => by omega
  | fuel + 1, left, l', cnt, hp, hn, hf, _ => by
    unfold mergePassC
    by_cases h : left < n
    · rw [if_pos h]
      generalize hr : (if left + 2 * size - 1 < n - 1 then left + 2 * size - 1 else n - 1) = right
      have hrn : right < l'.length := by rw [← hr]; split <;> omega
      by_cases hm : left + size - 1 < right
      · rw [if_pos hm]
        refine ends_bind (timMerge_any _ _ _ _ _ hp (by omega) hm hrn) fun _ m c hs => ?_
        obtain ⟨l2, rfl, h2⟩ := hs
        exact mergePass_any n size hsz fuel (left + 2 * size) l2 c h2 (by rw [h2.length_eq, ← hp.length_eq]; exact hn) (by omega) (by omega)
      · rw [if_neg hm]
        exact mergePass_any n size hsz fuel (left + 2 * size) l' cnt hp hn (by omega) (by omega)
    · rw [if_neg h]
      exact Same.of hp

theorem sizeLoop_any (n : Nat) : ∀ (fuel size : Nat) (l' : List α) (cnt : Nat), l'.Perm l → n = l'.length → 0 < size →
    n < fuel + size → 0 < fuel → Ends (Same led l) (fun _ => Same led l) (sizeLoopC k comp n fuel size (St led l', cnt))
  | 0, _, _, _, _, _, _, _, h => by omega
  | fuel + 1, size, l', cnt, hp, hn, hsz, hf, _ => by
    unfold sizeLoopC
    by_cases h : size < n
    · rw [if_pos h]
      refine ends_bind (mergePass_any n size hsz (n + 1) 0 l' cnt hp hn (by omega) (by omega)) fun _ m c hs => ?_
      obtain ⟨l2, rfl, h2⟩ := hs
      exact sizeLoop_any n fuel (2 * size) l2 c h2 (by rw [h2.length_eq, ← hp.length_eq]; exact hn) (by omega) (by omega) (by omega)
    · rw [if_neg h]
      exact Same.of hp

theorem runsLoop_any (n : Nat) : ∀ (fuel i : Nat) (l' : List α) (cnt : Nat), l'.Perm l → n = l'.length →
    n < fuel + i → 0 < fuel → Ends (OneHole led l) (fun _ => Same led l) (runsLoopC k comp n fuel i (St led l', cnt))
  | 0, _, _, _, _, _, _, h => by omega
  | fuel + 1, i, l', cnt, hp, hn, hf, _ => by
    unfold runsLoopC
    by_cases h : i < n
    · rw [if_pos h]
      have hlen : i + 1 + ((if i + 31 < n - 1 then i + 31 else n - 1) - i) ≤ l'.length := by split <;> omega
      refine ends_bind (insRange_any i _ _ l' cnt hp hlen) fun _ m c hs => ?_
      obtain ⟨l2, rfl, h2⟩ := hs
      exact runsLoop_any n fuel (i + 32) l2 c h2 (by rw [h2.length_eq, ← hp.length_eq]; exact hn) (by omega) (by omega)
    · rw [if_neg h]
      exact Same.of hp

theorem sort_any (hne : l ≠ []) (cnt : Nat) : Ends (OneHole led l) (fun _ => Same led l) (sortC k comp (St led l, cnt)) := by
  unfold sortC
  refine ends_lift (Cpp.get_run _) ?_
  have hlen : (St led l).cells.length = l.length := by simp [St]
  rw [hlen]
  refine ends_bind (runsLoop_any l.length _ _ l cnt (.refl _) rfl (by omega) (by omega)) fun _ m c hs => ?_
  obtain ⟨l2, rfl, h2⟩ := hs
  exact (sizeLoop_any l.length _ _ l2 c h2 h2.length_eq.symm (by omega) (by omega) (by omega)).mono (fun _ h => h.hole hne) fun _ _ h => h

/-! ### merge sort -/

theorem mergeLoop_any (fuel : Nat) (xs ys junk pre post : List α) (cnt : Nat) (hj : junk.length = xs.length + ys.length)
    (hf : xs.length + ys.length ≤ fuel) (hlen : (pre ++ junk ++ post).length = l.length)
    (hm : ∀ x, x ∈ pre ∨ x ∈ junk ∨ x ∈ post ∨ x ∈ xs ∨ x ∈ ys → x ∈ l) :
    Ends (Drawn led l) (fun _ m => ∃ zs, m = St led (pre ++ zs ++ post) ∧ zs.Perm (xs ++ ys))
      (mergeLoopC k comp fuel xs ys pre.length (St led (pre ++ junk ++ post), cnt)) := by
  induction fuel generalizing xs ys junk pre cnt with
  | zero =>
    have hx : xs = [] := List.length_eq_zero_iff.mp (by omega)
    have hy : ys = [] := List.length_eq_zero_iff.mp (by omega)
    subst hx; subst hy
    exact ends_lift' (mergeTail_run [] [] junk pre post hj) ⟨_, rfl, .refl _⟩
  | succ fuel ih =>
    cases xs with
    | nil => exact ends_lift' (mergeTail_run [] ys junk pre post hj) ⟨_, rfl, .refl _⟩
    | cons x xs =>
      cases ys with
      | nil => exact ends_lift' (mergeTail_run (x :: xs) [] junk pre post hj) ⟨_, rfl, .refl _⟩
      | cons y ys =>
        cases junk with
        | nil => simp at hj
        | cons z junk =>
          simp only [List.length_cons] at hj hf
          have hasg : ∀ a, Mem.assign k pre.length a (St led (pre ++ z :: junk ++ post)) =
              .ok () (St led ((pre ++ [a]) ++ junk ++ post)) := by
            intro a
            have := assign_St (k := k) (led := led) (pre := pre) (post := junk ++ post) (a := z) (b := a) rfl
            simpa using this
          unfold mergeLoopC
          refine ends_cmp ⟨_, rfl, hlen, ?_⟩ fun r c => ?_
          · intro a ha
            apply hm
            simp only [List.mem_append] at ha
            rcases ha with (h | h) | h
            · exact Or.inl h
            · exact Or.inr (Or.inl h)
            · exact Or.inr (Or.inr (Or.inl h))
          · cases r with
            | true =>
              rw [if_pos rfl]
              refine ends_lift (hasg x) ?_
              rw [show pre.length + 1 = (pre ++ [x]).length by simp]
              refine (ih xs (y :: ys) junk (pre ++ [x]) c (by simp; omega) (by simp; omega) (by simp at hlen ⊢; omega) ?_).mono (fun _ h => h) ?_
              · intro a ha
                apply hm
                simp only [List.mem_append, List.mem_cons, List.not_mem_nil, or_false] at ha ⊢
                rcases ha with (h | h) | h | h | h | h | h <;> simp [h]
              · rintro _ m ⟨zs, h1, h2⟩
                exact ⟨x :: zs, by simpa using h1, by simpa using h2⟩
            | false =>
              rw [if_neg (by decide)]
              refine ends_lift (hasg y) ?_
              rw [show pre.length + 1 = (pre ++ [y]).length by simp]
              refine (ih (x :: xs) ys junk (pre ++ [y]) c (by simp; omega) (by simp; omega) (by simp at hlen ⊢; omega) ?_).mono (fun _ h => h) ?_
              · intro a ha
                apply hm
                simp only [List.mem_append, List.mem_cons, List.not_mem_nil, or_false] at ha ⊢
                rcases ha with (h | h) | h | h | (h | h) | h <;> simp [h]
              · rintro _ m ⟨zs, h1, h2⟩
                exact ⟨y :: zs, by simpa using h1, (h2.cons y).trans
                  (by simpa using (List.perm_middle (l₁ := x :: xs) (l₂ := ys) (a := y)).symm)⟩

theorem merge_any (left middle right : Nat) (l' : List α) (cnt : Nat) (hp : l'.Perm l) (h1 : left ≤ middle) (h2 : middle < right)
    (h3 : right < l'.length) : Ends (Drawn led l) (fun _ => Same led l) (mergeC k comp left middle right (St led l', cnt)) := by
  obtain ⟨P, xs, x, y, ys, R, hl, hs, hm, he, _, _⟩ := split_merge l' left middle right h1 h2 h3
  have r1 : readRange left (middle - left + 1) (St led l') = .ok (xs ++ [x]) (St led l') := by
    have := readRange_run (led := led) (xs ++ [x]) P (y :: ys ++ R)
    rw [hl, hs, show middle - P.length + 1 = (xs ++ [x]).length by simp; omega]
    simpa using this
  have r2 : readRange (middle + 1) (right - middle) (St led l') = .ok (y :: ys) (St led l') := by
    have := readRange_run (led := led) (y :: ys) (P ++ (xs ++ [x])) R
    rw [show (P ++ (xs ++ [x])).length = middle + 1 by simp; omega, show (y :: ys).length = right - middle by simp; omega, ← hl] at this
    exact this
  unfold mergeC
  refine ends_lift r1 (ends_lift r2 ?_)
  have e : St led l' = St led (P ++ (xs ++ [x] ++ y :: ys) ++ R) := by rw [hl]; simp
  rw [e, hs]
  refine (mergeLoop_any (l := l) _ (xs ++ [x]) (y :: ys) (xs ++ [x] ++ y :: ys) P R cnt (by simp; omega) (by simp; omega) ?_ ?_).mono (fun _ h => h) ?_
  · rw [← hp.length_eq, hl]
    simp
  · intro a ha
    rw [← hp.mem_iff, hl]
    simp only [List.mem_append, List.mem_cons, List.not_mem_nil, or_false] at ha ⊢
    rcases ha with h | ((h | h) | h | h) | h | (h | h) | h | h <;> simp [h]
  · rintro _ m ⟨zs, rfl, h5⟩
    refine ⟨_, rfl, List.Perm.trans ?_ hp⟩
    rw [hl, List.append_assoc P (xs ++ [x])]
    exact (List.Perm.append_left _ h5).append_right _

theorem mergeSortF_any : ∀ (fuel left right : Nat) (l' : List α) (cnt : Nat), l'.Perm l → right < l'.length → right - left < fuel →
    Ends (Drawn led l) (fun _ => Same led l) (mergeSortFC k comp fuel left right (St led l', cnt))
  | 0, _, _, _, _, _, _, h => by omega
  | fuel + 1, left, right, l', cnt, hp, hr, hf => by
    unfold mergeSortFC
    by_cases h : left < right
    · rw [if_pos h]
      refine ends_bind (mergeSortF_any fuel left _ l' cnt hp (by omega) (by omega)) fun _ m c hs => ?_
      obtain ⟨l2, rfl, h2⟩ := hs
      have e2 : l2.length = l'.length := by rw [h2.length_eq, hp.length_eq]
      refine ends_bind (mergeSortF_any fuel _ right l2 c h2 (by omega) (by omega)) fun _ m c hs => ?_
      obtain ⟨l3, rfl, h3⟩ := hs
      have e3 : l3.length = l'.length := by rw [h3.length_eq, hp.length_eq]
      exact merge_any _ _ _ l3 c h3 (by omega) (by omega) (by omega)
    · rw [if_neg h]
      exact Same.of hp

end Sorting
end Efp
