import Verif.Layout

/-!
# Lemmas about layouts
-/

namespace Efp.Layout

/-- A power of two. -/
def P2 (a : Nat) : Prop := ∃ k, a = 2 ^ k

theorem P2.pos {a : Nat} (h : P2 a) : 0 < a := by
  obtain ⟨k, rfl⟩ := h; exact Nat.two_pow_pos k

theorem P2.dvd {a b : Nat} (ha : P2 a) (hb : P2 b) (h : a ≤ b) : a ∣ b := by
  obtain ⟨k, rfl⟩ := ha
  obtain ⟨l, rfl⟩ := hb
  exact Nat.pow_dvd_pow 2 ((Nat.pow_le_pow_iff_right (by omega)).mp h)

theorem dvd_alignUp (x a : Nat) : a ∣ alignUp x a := Nat.dvd_mul_left _ _

theorem le_alignUp (x : Nat) {a : Nat} (h : 0 < a) : x ≤ alignUp x a := by
  unfold alignUp
  have h1 := Nat.div_add_mod (x + (a - 1)) a
  have h2 := Nat.mod_lt (x + (a - 1)) h
  rw [Nat.mul_comm] at h1
  omega

theorem alignUp_zero {a : Nat} (h : 0 < a) : alignUp 0 a = 0 := by
  unfold alignUp
  rw [Nat.div_eq_of_lt (by omega)]; simp

theorem alignUp_dvd {x a : Nat} (h : 0 < a) (hd : a ∣ x) : alignUp x a = x := by
  obtain ⟨k, rfl⟩ := hd
  unfold alignUp
  rw [Nat.mul_add_div h, Nat.div_eq_of_lt (by omega), Nat.add_zero, Nat.mul_comm]

theorem foldl_max (xs : List Nat) : ∀ m : Nat,
    m ≤ xs.foldl (fun a b => if a > b then a else b) m ∧
    (∀ x ∈ xs, x ≤ xs.foldl (fun a b => if a > b then a else b) m) ∧
    (xs.foldl (fun a b => if a > b then a else b) m = m ∨
      xs.foldl (fun a b => if a > b then a else b) m ∈ xs) := by
  induction xs with
  | nil => intro m; simp
  | cons y ys ih =>
    intro m
    obtain ⟨h1, h2, h3⟩ := ih (if m > y then m else y)
    simp only [List.foldl_cons]
    have hm : m ≤ (if m > y then m else y) := by split <;> omega
    have hy : y ≤ (if m > y then m else y) := by split <;> omega
    refine ⟨by omega, ?_, ?_⟩
    · intro x hx
      rcases List.mem_cons.mp hx with rfl | hx
      · omega
      · exact h2 x hx
    · rcases h3 with h3 | h3
      · rw [h3]
        split
        · exact .inl rfl
        · exact .inr (List.mem_cons_self ..)
      · exact .inr (List.mem_cons_of_mem _ h3)

theorem le_maxOf {xs : List Nat} {x : Nat} (h : x ∈ xs) : x ≤ maxOf xs := (foldl_max xs 0).2.1 x h

theorem maxOf_mem {xs : List Nat} (hne : xs ≠ []) (hpos : ∀ x ∈ xs, 0 < x) : maxOf xs ∈ xs := by
  rcases (foldl_max xs 0).2.2 with h | h
  · obtain ⟨y, ys, rfl⟩ := List.exists_cons_of_ne_nil hne
    have h1 := hpos y (List.mem_cons_self ..)
    have h2 : y ≤ maxOf (y :: ys) := le_maxOf (List.mem_cons_self ..)
    have h3 : maxOf (y :: ys) = 0 := h
    omega
  · exact h

/-- A member that can be laid out. -/
def Ok (T : Ty) : Prop := P2 T.align ∧ 0 < T.size

theorem maxOf_align {ms : List Ty} (hne : ms ≠ []) (hok : ∀ m ∈ ms, Ok m) : P2 (maxOf (ms.map Ty.align)) := by
  have h := maxOf_mem (xs := ms.map Ty.align) (by simpa using hne)
    (fun x hx => by obtain ⟨m, hm, rfl⟩ := List.mem_map.mp hx; exact (hok m hm).1.pos)
  obtain ⟨m, hm, he⟩ := List.mem_map.mp h
  rw [← he]; exact (hok m hm).1

theorem align_dvd {ms : List Ty} (hok : ∀ m ∈ ms, Ok m) {m : Ty} (hm : m ∈ ms) :
    m.align ∣ maxOf (ms.map Ty.align) := by
  have hne : ms ≠ [] := List.ne_nil_of_mem hm
  exact (hok m hm).1.dvd (maxOf_align hne hok) (le_maxOf (List.mem_map_of_mem hm))

theorem offsets_length (ms : List Ty) : ∀ o, (offsets o ms).length = ms.length := by
  induction ms with
  | nil => intro o; rfl
  | cons m ms ih => intro o; simp [offsets, ih]

theorem le_endOf (ms : List Ty) (hok : ∀ m ∈ ms, Ok m) : ∀ o, o ≤ endOf o ms := by
  induction ms with
  | nil => intro o; exact Nat.le_refl _
  | cons m ms ih =>
    intro o
    have h1 := le_alignUp o (hok m (List.mem_cons_self ..)).1.pos
    have h2 := ih (fun m' h => hok m' (List.mem_cons_of_mem _ h)) (alignUp o m.align + m.size)
    simp only [endOf]; omega

theorem getD_lt {xs : List Nat} {i : Nat} (h : i < xs.length) : xs.getD i 0 = xs[i] := by
  simp [List.getD, List.getElem?_eq_getElem h]

theorem offsets_spec (ms : List Ty) (hok : ∀ m ∈ ms, Ok m) : ∀ o i (hi : i < ms.length),
    ms[i].align ∣ (offsets o ms).getD i 0 ∧ o ≤ (offsets o ms).getD i 0 ∧
    (offsets o ms).getD i 0 + ms[i].size ≤ endOf o ms := by
  induction ms with
  | nil => intro o i hi; exact absurd hi (Nat.not_lt_zero _)
  | cons m ms ih =>
    intro o i hi
    have hm := hok m (List.mem_cons_self ..)
    have hok' : ∀ m' ∈ ms, Ok m' := fun m' h => hok m' (List.mem_cons_of_mem _ h)
    have h1 := le_alignUp o hm.1.pos
    cases i with
    | zero =>
      simp only [offsets, List.getD_cons_zero, List.getElem_cons_zero, endOf]
      exact ⟨dvd_alignUp _ _, h1, le_endOf ms hok' _⟩
    | succ i =>
      obtain ⟨h2, h3, h4⟩ := ih hok' (alignUp o m.align + m.size) i (by simpa using hi)
      simp only [offsets, List.getD_cons_succ, List.getElem_cons_succ, endOf]
      exact ⟨h2, by omega, h4⟩

theorem offsets_apart (ms : List Ty) (hok : ∀ m ∈ ms, Ok m) : ∀ o i j (hi : i < ms.length) (_ : j < ms.length),
    i < j → (offsets o ms).getD i 0 + ms[i].size ≤ (offsets o ms).getD j 0 := by
  induction ms with
  | nil => intro o i j hi; exact absurd hi (Nat.not_lt_zero _)
  | cons m ms ih =>
    intro o i j hi hj hij
    have hok' : ∀ m' ∈ ms, Ok m' := fun m' h => hok m' (List.mem_cons_of_mem _ h)
    obtain ⟨j, rfl⟩ : ∃ j', j = j' + 1 := ⟨j - 1, by omega⟩
    have hj' : j < ms.length := by simpa using hj
    cases i with
    | zero =>
      simp only [offsets, List.getD_cons_zero, List.getElem_cons_zero, List.getD_cons_succ]
      exact (offsets_spec ms hok' _ j hj').2.1
    | succ i =>
      simp only [offsets, List.getD_cons_succ, List.getElem_cons_succ]
      exact ih hok' _ i j (by simpa using hi) hj' (by omega)

/-- A type of objects: its size is a multiple of its alignment. -/
def Full (T : Ty) : Prop := Ok T ∧ T.align ∣ T.size

theorem classTy_full {ms : List Ty} (hne : ms ≠ []) (hok : ∀ m ∈ ms, Ok m) : Full (classTy ms) := by
  have hp := maxOf_align hne hok
  refine ⟨⟨hp, ?_⟩, dvd_alignUp _ _⟩
  obtain ⟨m, ms', rfl⟩ := List.exists_cons_of_ne_nil hne
  have h1 := (offsets_spec (m :: ms') hok 0 0 (by simp)).2.2
  have h2 := (hok m (List.mem_cons_self ..)).2
  have h3 := le_alignUp (endOf 0 (m :: ms')) hp.pos
  simp only [List.getElem_cons_zero] at h1
  show 0 < alignUp (endOf 0 (m :: ms')) _
  omega

/-- A member of a class lies inside the class and is aligned when the class is. -/
theorem member_in {ms : List Ty} (hok : ∀ m ∈ ms, Ok m) {p : Nat} (hp : (classTy ms).align ∣ p)
    {i : Nat} (hi : i < ms.length) :
    ms[i].align ∣ p + offset ms i ∧ offset ms i + ms[i].size ≤ (classTy ms).size := by
  have hne : ms ≠ [] := by intro h; subst h; exact absurd hi (Nat.not_lt_zero _)
  obtain ⟨h1, _, h3⟩ := offsets_spec ms hok 0 i hi
  have h4 := align_dvd hok (List.getElem_mem hi)
  have h5 := le_alignUp (endOf 0 ms) (maxOf_align hne hok).pos
  refine ⟨Nat.dvd_add (Nat.dvd_trans h4 hp) h1, ?_⟩
  show (offsets 0 ms).getD i 0 + _ ≤ alignUp (endOf 0 ms) _
  omega

theorem rawStorage_eq {A : Ty} (hA : Full A) (n : Nat) :
    rawStorage A n = ⟨n * A.size, A.align⟩ := by
  have h := hA.1.1.pos
  have hm : maxOf [A.align] = A.align := by
    show (if 0 > A.align then 0 else A.align) = A.align
    rw [if_neg (by omega)]
  simp only [rawStorage, classTy, List.map_cons, List.map_nil, hm, endOf, alignUp_zero h, Nat.zero_add]
  rw [alignUp_dvd h (Nat.dvd_mul_left_of_dvd hA.2 n)]

theorem rawStorage_ok {A : Ty} (hA : Full A) {n : Nat} (hn : 0 < n) : Ok (rawStorage A n) := by
  rw [rawStorage_eq hA n]
  exact ⟨hA.1.1, Nat.mul_pos hn hA.1.2⟩

theorem word_ok : Ok word := ⟨⟨3, rfl⟩, by decide⟩

end Efp.Layout
