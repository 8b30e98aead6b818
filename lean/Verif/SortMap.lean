import Verif.Sort
import Verif.SortLemmas

/-!
# The sorts look at the elements only through the comparator

Renaming the elements by a function `f` before a sort is the same as renaming them after it, when the
comparator on the original elements is the comparator on the renamed ones seen through `f`.
-/

namespace Efp
namespace Sorting

variable {α β γ δ γ' δ' : Type} {f : β → α} {k : Kind} {comp : α → α → Bool}

/-- the slot with its element renamed -/
def mapCell (f : β → α) : Cell β → Cell α
  | .raw => .raw
  | .moved => .moved
  | .live b => .live (f b)

/-- the storage with its elements renamed -/
def mapMem (f : β → α) (m : Mem β) : Mem α := ⟨m.cells.map (mapCell f), m.led⟩

/-- the outcome with elements and result renamed -/
def mapOut (f : β → α) (g : γ → γ') : Out (Mem β) γ → Out (Mem α) γ'
  | .ok b s => .ok (g b) (mapMem f s)
  | .thrown s => .thrown (mapMem f s)
  | .ub w => .ub w

/-- the operation `q` on renamed elements is the operation `p` with its outcome renamed -/
def Renames (f : β → α) (g : γ → γ') (p : Cpp (Mem β) γ) (q : Cpp (Mem α) γ') : Prop :=
  ∀ m, q (mapMem f m) = mapOut f g (p m)

theorem Renames.bind {g : γ → γ'} {g' : δ → δ'} {p : Cpp (Mem β) γ} {q : Cpp (Mem α) γ'} {P : γ → Cpp (Mem β) δ}
    {Q : γ' → Cpp (Mem α) δ'} (h : Renames f g p q) (h' : ∀ b, Renames f g' (P b) (Q (g b))) :
    Renames f g' (p >>= P) (q >>= Q) := by
  intro m
  rw [Cpp.bind_run, Cpp.bind_run, h m]
  cases p m with
  | ok b s => exact h' b s
  | thrown s => rfl
  | ub w => rfl

theorem renames_pure (g : γ → γ') (b : γ) : Renames f g (pure b) (pure (g b)) := fun _ => rfl

theorem renames_ub (g : γ → γ') (w : UB) : Renames f g (Cpp.ub w) (Cpp.ub w) := fun _ => rfl

theorem renames_get : Renames f (mapMem f) Cpp.get Cpp.get := fun _ => rfl

theorem renames_ite {c : Prop} [Decidable c] {g : γ → γ'} {p p' : Cpp (Mem β) γ} {q q' : Cpp (Mem α) γ'}
    (h : Renames f g p q) (h' : Renames f g p' q') : Renames f g (if c then p else p') (if c then q else q') := by
  split
  · exact h
  · exact h'

theorem mapMem_get (m : Mem β) (i : Nat) : (mapMem f m).cells[i]? = (m.cells[i]?).map (mapCell f) := by
  simp [mapMem]

theorem mapMem_length (m : Mem β) : (mapMem f m).cells.length = m.cells.length := by simp [mapMem]

theorem mapMem_set (m : Mem β) (i : Nat) (c : Cell β) :
    ({ mapMem f m with cells := (mapMem f m).cells.set i (mapCell f c) } : Mem α) = mapMem f { m with cells := m.cells.set i c } := by
  simp [mapMem, List.map_set]

theorem mapCell_alive (c : Cell β) : (mapCell f c).alive = c.alive := by cases c <;> rfl

theorem renames_read (i : Nat) : Renames f f (Mem.read i) (Mem.read i) := by
  intro m
  unfold Mem.read
  rw [mapMem_get]
  cases m.cells[i]? with
  | none => rfl
  | some c => cases c <;> rfl

theorem renames_moveOut (i : Nat) : Renames f f (Mem.moveOut k i) (Mem.moveOut k i) := by
  intro m
  unfold Mem.moveOut
  rw [mapMem_get]
  cases m.cells[i]? with
  | none => rfl
  | some c =>
    cases c with
    | raw => rfl
    | moved => rfl
    | live a =>
      cases k with
      | trivial => rfl
      | managed => exact congrArg (Out.ok (f a)) (mapMem_set m i .moved)

theorem renames_take (i : Nat) : Renames f (mapCell f) (take k i) (take k i) := by
  intro m
  unfold take
  rw [mapMem_get]
  cases m.cells[i]? with
  | none => rfl
  | some c =>
    cases c with
    | raw => rfl
    | moved =>
      cases k with
      | trivial => rfl
      | managed => exact congrArg (Out.ok _) (mapMem_set m i .moved)
    | live a =>
      cases k with
      | trivial => rfl
      | managed => exact congrArg (Out.ok _) (mapMem_set m i .moved)

theorem renames_assign (i : Nat) (a : β) : Renames f id (Mem.assign k i a) (Mem.assign k i (f a)) := by
  intro m
  unfold Mem.assign
  rw [mapMem_get]
  cases m.cells[i]? with
  | none => rfl
  | some c =>
    simp only [Option.map_some, mapCell_alive]
    split
    · rfl
    · exact congrArg (Out.ok ()) (mapMem_set m i (.live a))

theorem renames_put (i : Nat) (a : Cell β) : Renames f id (put k i a) (put k i (mapCell f a)) := by
  intro m
  unfold put
  rw [mapMem_get]
  cases m.cells[i]? with
  | none => rfl
  | some c =>
    simp only [Option.map_some, mapCell_alive]
    split
    · rfl
    · exact congrArg (Out.ok ()) (mapMem_set m i a)

theorem renames_swap (i j : Nat) : Renames f id (swap k i j) (swap k i j) := by
  unfold swap
  exact (renames_take i).bind fun t => (renames_take j).bind fun b => (renames_put i b).bind fun _ => renames_put j t

theorem renames_forUp {p : Nat → Cpp (Mem β) Unit} {q : Nat → Cpp (Mem α) Unit} (h : ∀ i, Renames f id (p i) (q i)) :
    ∀ n lo, Renames f id (forUp p lo n) (forUp q lo n)
  | 0, _ => renames_pure id ()
  | n + 1, lo => (h lo).bind fun _ => renames_forUp h n (lo + 1)

theorem renames_forDown {p : Nat → Cpp (Mem β) Unit} {q : Nat → Cpp (Mem α) Unit} (h : ∀ i, Renames f id (p i) (q i)) :
    ∀ n hi, Renames f id (forDown p hi n) (forDown q hi n)
  | 0, _ => renames_pure id ()
  | n + 1, hi => (h hi).bind fun _ => renames_forDown h n (hi - 1)

/-- the comparator on the original elements -/
@[reducible] def via (f : β → α) (comp : α → α → Bool) : β → β → Bool := fun a b => comp (f a) (f b)

/-! ## merge sort -/

theorem renames_readRange : ∀ n i, Renames f (List.map f) (readRange i n) (readRange i n)
  | 0, _ => renames_pure (List.map f) []
  | n + 1, i => (renames_read i).bind fun a => (renames_readRange n (i + 1)).bind fun l => renames_pure (List.map f) (a :: l)

theorem renames_writeAll : ∀ (l : List β) i, Renames f id (writeAll k i l) (writeAll k i (l.map f))
  | [], _ => renames_pure id ()
  | a :: l, i => (renames_assign i a).bind fun _ => renames_writeAll l (i + 1)

theorem renames_mergeLoop : ∀ (fuel : Nat) (xs ys : List β) (i : Nat),
    Renames f id (mergeLoop k (via f comp) fuel xs ys i) (mergeLoop k comp fuel (xs.map f) (ys.map f) i) := by
  intro fuel
  have tail : ∀ (xs ys : List β) (i : Nat), Renames f id
      (do writeAll k i xs; writeAll k (i + xs.length) ys : Cpp (Mem β) Unit)
      (do writeAll k i (xs.map f); writeAll k (i + (xs.map f).length) (ys.map f) : Cpp (Mem α) Unit) := by
    intro xs ys i
    rw [List.length_map]
    exact (renames_writeAll xs i).bind fun _ => renames_writeAll ys _
  induction fuel with
  | zero =>
    intro xs ys i
    cases xs with
    | nil => cases ys <;> exact tail [] _ i
    | cons x xs =>
      cases ys with
      | nil => exact tail (x :: xs) [] i
      | cons y ys => exact renames_ub id .diverge
  | succ fuel ih =>
    intro xs ys i
    cases xs with
    | nil => cases ys <;> exact tail [] _ i
    | cons x xs =>
      cases ys with
      | nil => exact tail (x :: xs) [] i
      | cons y ys =>
        exact renames_ite ((renames_assign i x).bind fun _ => ih xs (y :: ys) (i + 1))
          ((renames_assign i y).bind fun _ => ih (x :: xs) ys (i + 1))

theorem renames_mergeSortF : ∀ (fuel left right : Nat),
    Renames f id (mergeSortF k (via f comp) fuel left right) (mergeSortF k comp fuel left right)
  | 0, _, _ => renames_ub id .diverge
  | fuel + 1, left, right => by
    unfold mergeSortF
    refine renames_ite ?_ (renames_pure id ())
    refine (renames_mergeSortF fuel left _).bind fun _ => (renames_mergeSortF fuel _ right).bind fun _ => ?_
    unfold merge
    exact (renames_readRange _ _).bind fun l => (renames_readRange _ _).bind fun r => renames_mergeLoop _ l r _

theorem renames_mergeSort (left right : Nat) :
    Renames f id (mergeSortBy k (via f comp) left right) (mergeSortBy k comp left right) := renames_mergeSortF _ _ _

/-! ## heapsort -/

theorem renames_pickLarger (n l c : Nat) : Renames f id (pickLarger (via f comp) n l c) (pickLarger comp n l c) := by
  unfold pickLarger
  exact renames_ite ((renames_read l).bind fun a => (renames_read c).bind fun b => renames_pure id _) (renames_pure id l)

theorem renames_heapifyF : ∀ (fuel n i : Nat), Renames f id (heapifyF k (via f comp) fuel n i) (heapifyF k comp fuel n i)
  | 0, _, _ => renames_ub id .diverge
  | fuel + 1, n, i => by
    unfold heapifyF
    exact (renames_pickLarger _ _ _).bind fun a => (renames_pickLarger _ _ _).bind fun b =>
      renames_ite ((renames_swap _ _).bind fun _ => renames_heapifyF fuel n b) (renames_pure id ())

theorem renames_buildLoop (n : Nat) : ∀ c, Renames f id (buildLoop k (via f comp) n c) (buildLoop k comp n c)
  | 0 => renames_pure id ()
  | c + 1 => (renames_heapifyF _ _ _).bind fun _ => renames_buildLoop n c

theorem renames_extractLoop : ∀ c, Renames f id (extractLoop k (via f comp) c) (extractLoop k comp c)
  | 0 => renames_pure id ()
  | 1 => renames_pure id ()
  | c + 2 => by
    unfold extractLoop
    refine (renames_swap _ _).bind fun _ => ?_
    refine Renames.bind (renames_heapifyF _ _ _) fun _ => ?_
    exact renames_extractLoop (c + 1)

theorem renames_heapsort : Renames f id (heapsortBy k (via f comp)) (heapsortBy k comp) := by
  unfold heapsortBy
  refine renames_get.bind fun m => ?_
  rw [mapMem_length]
  exact renames_ite ((renames_buildLoop _ _).bind fun _ => renames_extractLoop _) (renames_extractLoop _)

/-! ## insertion sort -/

theorem renames_insLoop (key : β) (left : Nat) : ∀ j,
    Renames f id (insLoop k (via f comp) key left j) (insLoop k comp (f key) left j)
  | 0 => renames_pure id 0
  | j + 1 => by
    unfold insLoop
    exact renames_ite ((renames_read j).bind fun x => renames_ite ((renames_moveOut j).bind fun y =>
      (renames_assign _ y).bind fun _ => renames_insLoop key left j) (renames_pure id _)) (renames_pure id _)

theorem renames_insertionRange (left right : Nat) :
    Renames f id (insertionRange k (via f comp) left right) (insertionRange k comp left right) := by
  refine renames_forUp (fun i => ?_) _ _
  unfold insOne
  exact (renames_moveOut i).bind fun key => (renames_insLoop key left i).bind fun j => renames_assign j key

theorem renames_insertionSort : Renames f id (insertionSortBy k (via f comp)) (insertionSortBy k comp) := by
  unfold insertionSortBy
  refine renames_get.bind fun m => ?_
  rw [mapMem_length]
  exact renames_ite (renames_insertionRange _ _) (renames_pure id ())

/-! ## quicksort -/

theorem renames_partLoop (pivot : β) : ∀ n j i,
    Renames f id (partLoop k (via f comp) pivot j n i) (partLoop k comp (f pivot) j n i)
  | 0, _, i => renames_pure id i
  | n + 1, j, i => by
    unfold partLoop
    exact (renames_read j).bind fun x => renames_ite ((renames_swap _ _).bind fun _ => renames_partLoop pivot n _ _)
      (renames_partLoop pivot n _ _)

theorem renames_partition (low high : Nat) :
    Renames f id (partition k (via f comp) low high) (partition k comp low high) := by
  unfold partition
  exact (renames_read high).bind fun p => (renames_partLoop p _ _ _).bind fun i => (renames_swap _ _).bind fun _ =>
    renames_pure id _

theorem renames_quicksortF : ∀ (fuel low high : Nat),
    Renames f id (quicksortF k (via f comp) fuel low high) (quicksortF k comp fuel low high)
  | 0, _, _ => renames_ub id .diverge
  | fuel + 1, low, high => by
    unfold quicksortF
    exact renames_ite ((renames_partition low high).bind fun p =>
      renames_ite ((renames_quicksortF fuel low _).bind fun _ => renames_quicksortF fuel _ high) (renames_quicksortF fuel _ high))
      (renames_pure id ())

theorem renames_quicksort : Renames f id (quicksortBy k (via f comp)) (quicksortBy k comp) := by
  unfold quicksortBy
  refine renames_get.bind fun m => ?_
  rw [mapMem_length]
  exact renames_ite (renames_quicksortF _ _ _) (renames_pure id ())

theorem renames_sortUnstable : Renames f id (sortUnstableBy k (via f comp)) (sortUnstableBy k comp) := by
  unfold sortUnstableBy
  refine renames_get.bind fun m => ?_
  rw [mapMem_length]
  exact renames_ite (renames_pure id ()) ((renames_quicksortF _ _ _).bind fun _ => renames_insertionSort)

/-! ## timsort -/

theorem renames_timLoop (e : Nat) : ∀ (fuel s m s2 : Nat),
    Renames f id (timLoop k (via f comp) e fuel s m s2) (timLoop k comp e fuel s m s2)
  | 0, _, _, _ => renames_ub id .diverge
  | fuel + 1, s, m, s2 => by
    unfold timLoop
    refine renames_ite ?_ (renames_pure id ())
    refine (renames_read s2).bind fun b => (renames_read s).bind fun a => renames_ite (renames_timLoop e fuel _ _ _) ?_
    refine (renames_read s2).bind fun v => (renames_forDown (fun i => ?_) _ _).bind fun _ =>
      (renames_assign s v).bind fun _ => renames_timLoop e fuel _ _ _
    unfold shiftOne
    exact (renames_read _).bind fun x => renames_assign i x

theorem renames_timMerge (s m e : Nat) : Renames f id (timMerge k (via f comp) s m e) (timMerge k comp s m e) := by
  unfold timMerge
  exact (renames_read m).bind fun a => (renames_read _).bind fun b => renames_ite (renames_pure id ()) (renames_timLoop e _ _ _ _)

theorem renames_runsLoop (n : Nat) : ∀ (fuel i : Nat), Renames f id (runsLoop k (via f comp) n fuel i) (runsLoop k comp n fuel i)
  | 0, _ => renames_ub id .diverge
  | fuel + 1, i => by
    unfold runsLoop
    exact renames_ite ((renames_insertionRange _ _).bind fun _ => renames_runsLoop n fuel _) (renames_pure id ())

theorem renames_mergePass (n size : Nat) : ∀ (fuel i : Nat),
    Renames f id (mergePass k (via f comp) n size fuel i) (mergePass k comp n size fuel i)
  | 0, _ => renames_ub id .diverge
  | fuel + 1, i => by
    unfold mergePass
    exact renames_ite (renames_ite ((renames_timMerge _ _ _).bind fun _ => renames_mergePass n size fuel _) (renames_mergePass n size fuel _))
      (renames_pure id ())

theorem renames_sizeLoop (n : Nat) : ∀ (fuel i : Nat), Renames f id (sizeLoop k (via f comp) n fuel i) (sizeLoop k comp n fuel i)
  | 0, _ => renames_ub id .diverge
  | fuel + 1, i => by
    unfold sizeLoop
    exact renames_ite ((renames_mergePass _ _ _ _).bind fun _ => renames_sizeLoop n fuel _) (renames_pure id ())

theorem renames_sort : Renames f id (sortBy k (via f comp)) (sortBy k comp) := by
  unfold sortBy
  refine renames_get.bind fun m => ?_
  rw [mapMem_length]
  exact (renames_runsLoop _ _ _).bind fun _ => renames_sizeLoop _ _ _

/-! ## Reading off a run -/

theorem mapMem_St (led : Ledger) (l : List β) : mapMem f (St led l) = St led (l.map f) := by
  simp [mapMem, St, mapCell]

theorem Renames.ok {p : Cpp (Mem β) Unit} {q : Cpp (Mem α) Unit} (h : Renames f id p q) {led : Ledger} {l l' : List β}
    (hp : p (St led l) = .ok () (St led l')) : q (St led (l.map f)) = .ok () (St led (l'.map f)) := by
  have := h (St led l)
  rw [mapMem_St, hp] at this
  rw [this, mapOut, mapMem_St]

end Sorting
end Efp
