import Verif.Sort

/-!
# The sorts of `sort.hpp` with a count of the comparisons

The same definitions as in `Verif/Sort.lean`, on a state that also counts the calls of the comparison function.
The comparison function may also throw, contradict itself and change its answers from call to call;
`Verif/SortCostLemmas.lean` shows that with one that does not, they do the same to the elements.
-/

namespace Efp
namespace Sorting

variable {α β : Type}

/-- a computation that counts comparisons -/
abbrev Counted (α β : Type) := Cpp (Mem α × Nat) β

/-- a statement without comparisons -/
def lift (p : Cpp (Mem α) β) : Counted α β := fun s =>
  match p s.1 with
  | .ok b m => .ok b (m, s.2)
  | .thrown m => .thrown (m, s.2)
  | .ub w => .ub w

/-- any comparison function object: what the `n`-th call answers for two elements, `none` if it throws.  It may
contradict itself and may depend on the calls made before. -/
abbrev Comparator (α : Type) := Nat → α → α → Option Bool

/-- a comparison function that never throws and always answers alike -/
def always (comp : α → α → Bool) : Comparator α := fun _ a b => some (comp a b)

/-- a call of the comparison function; the count of the calls made so far is also the number of this call -/
def cmp (comp : Comparator α) (a b : α) : Counted α Bool := fun s =>
  match comp s.2 a b with
  | some r => .ok r (s.1, s.2 + 1)
  | none => .thrown (s.1, s.2 + 1)

/-- the merging loop and the two loops after it, sort.hpp 25-39 -/
def mergeLoopC (kd : Kind) (comp : Comparator α) : (fuel : Nat) → (lefts rights : List α) → (k : Nat) → Counted α Unit
  | fuel + 1, x :: xs, y :: ys, k => do
    let b ← cmp comp x y
    if b then do
      lift (Mem.assign kd k x)
      mergeLoopC kd comp fuel xs (y :: ys) (k + 1)
    else do
      lift (Mem.assign kd k y)
      mergeLoopC kd comp fuel (x :: xs) ys (k + 1)
  | 0, _ :: _, _ :: _, _ => Cpp.ub .diverge
  | _, xs, ys, k => lift do
    writeAll kd k xs
    writeAll kd (k + xs.length) ys

/-- `merge`, sort.hpp 11-40 -/
def mergeC (kd : Kind) (comp : Comparator α) (left middle right : Nat) : Counted α Unit := do
  let lefts ← lift (readRange left (middle - left + 1))
  let rights ← lift (readRange (middle + 1) (right - middle))
  mergeLoopC kd comp (middle - left + 1 + (right - middle)) lefts rights left

/-- `merge_sort_by`, sort.hpp 43-52, with at most `fuel` nested calls -/
def mergeSortFC (kd : Kind) (comp : Comparator α) : (fuel : Nat) → (left right : Nat) → Counted α Unit
  | fuel + 1, left, right =>
    if left < right then do
      mergeSortFC kd comp fuel left (left + (right - left) / 2)
      mergeSortFC kd comp fuel (left + (right - left) / 2 + 1) right
      mergeC kd comp left (left + (right - left) / 2) right
    else pure ()
  | 0, _, _ => Cpp.ub .diverge

/-- `if (c < n && comp(arr[largest], arr[c])) largest = c;`, sort.hpp 61-65 -/
def pickLargerC (comp : Comparator α) (n largest c : Nat) : Counted α Nat :=
  if c < n then do
    let a ← lift (Mem.read largest)
    let b ← lift (Mem.read c)
    let r ← cmp comp a b
    pure (if r then c else largest)
  else pure largest

/-- `max_heapify_by`, sort.hpp 56-72, with at most `fuel` nested calls -/
def heapifyFC (k : Kind) (comp : Comparator α) : (fuel n i : Nat) → Counted α Unit
  | fuel + 1, n, i => do
    let l1 ← pickLargerC comp n i (2 * i + 1)
    let largest ← pickLargerC comp n l1 (2 * i + 2)
    if largest ≠ i then do
      lift (swap k i largest)
      heapifyFC k comp fuel n largest
    else pure ()
  | 0, _, _ => Cpp.ub .diverge

/-- the loop of `heapsort_by` that builds the heap, sort.hpp 81-83 -/
def buildLoopC (k : Kind) (comp : Comparator α) (n : Nat) : (c : Nat) → Counted α Unit
  | 0 => pure ()
  | i + 1 => do
    heapifyFC k comp (n + 1) n i
    buildLoopC k comp n i

/-- the loop of `heapsort_by` that empties the heap, sort.hpp 87-90 -/
def extractLoopC (k : Kind) (comp : Comparator α) : (c : Nat) → Counted α Unit
  | 0 => pure ()
  | 1 => pure ()
  | i + 2 => do
    lift (swap k 0 (i + 1))
    heapifyFC k comp (i + 1 + 1) (i + 1) 0
    extractLoopC k comp (i + 1)

/-- `heapsort_by`, sort.hpp 75-91 -/
def heapsortC (k : Kind) (comp : Comparator α) : Counted α Unit := do
  let m ← lift Cpp.get
  if m.cells.length > 1 then buildLoopC k comp m.cells.length (m.cells.length / 2) else pure ()
  extractLoopC k comp m.cells.length

/-- the inner loop of `insertion_sort_by_`, sort.hpp 99-102 -/
def insLoopC (k : Kind) (comp : Comparator α) (key : α) (left : Nat) : (j : Nat) → Counted α Nat
  | 0 => pure 0
  | j + 1 =>
    if j + 1 > left then do
      let x ← lift (Mem.read j)
      let b ← cmp comp key x
      if b then do
        lift (do let y ← Mem.moveOut k j; Mem.assign k (j + 1) y)
        insLoopC k comp key left j
      else pure (j + 1)
    else pure (j + 1)

/-- body of the outer loop, sort.hpp 96-104 -/
def insOneC (k : Kind) (comp : Comparator α) (left i : Nat) : Counted α Unit := do
  let key ← lift (Mem.moveOut k i)
  let j ← insLoopC k comp key left i
  lift (Mem.assign k j key)

/-- `insertion_sort_by_`, sort.hpp 93-106 -/
def insertionRangeC (k : Kind) (comp : Comparator α) (left right : Nat) : Counted α Unit :=
  forUp (insOneC k comp left) (left + 1) (right - left)

/-- `insertion_sort_by`, sort.hpp 109-114 -/
def insertionSortC (k : Kind) (comp : Comparator α) : Counted α Unit := do
  let m ← lift Cpp.get
  if m.cells.length ≠ 0 then insertionRangeC k comp 0 (m.cells.length - 1) else pure ()

/-- loop of `partition_by`, sort.hpp 122-127 -/
def partLoopC (k : Kind) (comp : Comparator α) (pivot : α) : (j n i : Nat) → Counted α Nat
  | _, 0, i => pure i
  | j, n + 1, i => do
    let x ← lift (Mem.read j)
    let b ← cmp comp x pivot
    if b then do
      lift (swap k ((i + 1) % SZ) j)
      partLoopC k comp pivot (j + 1) n ((i + 1) % SZ)
    else partLoopC k comp pivot (j + 1) n i

/-- `partition_by`, sort.hpp 118-130 -/
def partitionC (k : Kind) (comp : Comparator α) (low high : Nat) : Counted α Nat := do
  let pivot ← lift (Mem.read high)
  let i ← partLoopC k comp pivot low (high - low) ((low + SZ - 1) % SZ)
  lift (swap k ((i + 1) % SZ) high)
  pure ((i + 1) % SZ)

/-- `quicksort_by`, sort.hpp 134-141, with at most `fuel` nested calls -/
def quicksortFC (k : Kind) (comp : Comparator α) : (fuel low high : Nat) → Counted α Unit
  | fuel + 1, low, high =>
    if low < high then do
      let pi ← partitionC k comp low high
      if pi ≠ 0 then quicksortFC k comp fuel low (pi - 1) else pure ()
      quicksortFC k comp fuel (pi + 1) high
    else pure ()
  | 0, _, _ => Cpp.ub .diverge

/-- `quicksort` with a comparator, sort.hpp 215-219 -/
def quicksortC (k : Kind) (comp : Comparator α) : Counted α Unit := do
  let m ← lift Cpp.get
  if m.cells.length ≠ 0 then quicksortFC k comp (m.cells.length - 1 - 0 + 1) 0 (m.cells.length - 1) else pure ()

/-- `sort_unstable_by`, sort.hpp 146-151 and 249-252 -/
def sortUnstableC (k : Kind) (comp : Comparator α) : Counted α Unit := do
  let m ← lift Cpp.get
  if m.cells.length ≤ 1 then pure ()
  else do
    quicksortFC k comp (m.cells.length - 1 - 0 + 1) 0 (m.cells.length - 1)
    insertionSortC k comp

/-- loop of `timsort_merge`, sort.hpp 163-183 -/
def timLoopC (k : Kind) (comp : Comparator α) (end_ : Nat) : (fuel start mid start2 : Nat) → Counted α Unit
  | fuel + 1, start, mid, start2 =>
    if start ≤ mid ∧ start2 ≤ end_ then do
      let b ← lift (Mem.read start2)
      let a ← lift (Mem.read start)
      let r ← cmp comp b a
      if r = false then timLoopC k comp end_ fuel (start + 1) mid start2
      else do
        lift do
          let value ← Mem.read start2
          forDown (shiftOne k) start2 (start2 - start)
          Mem.assign k start value
        timLoopC k comp end_ fuel (start + 1) (mid + 1) (start2 + 1)
    else pure ()
  | 0, _, _, _ => Cpp.ub .diverge

/-- `timsort_merge`, sort.hpp 154-184 -/
def timMergeC (k : Kind) (comp : Comparator α) (start mid end_ : Nat) : Counted α Unit := do
  let a ← lift (Mem.read mid)
  let b ← lift (Mem.read (mid + 1))
  let r ← cmp comp a b
  if r = false then pure ()
  else timLoopC k comp end_ (end_ - start + 2) start mid (mid + 1)

/-- the loop of `timsort_by` over the runs, sort.hpp 193-194 -/
def runsLoopC (k : Kind) (comp : Comparator α) (n : Nat) : (fuel i : Nat) → Counted α Unit
  | fuel + 1, i =>
    if i < n then do
      insertionRangeC k comp i (if i + 31 < n - 1 then i + 31 else n - 1)
      runsLoopC k comp n fuel (i + 32)
    else pure ()
  | 0, _ => Cpp.ub .diverge

/-- the loop over one pass of merges, sort.hpp 200-210 -/
def mergePassC (k : Kind) (comp : Comparator α) (n size : Nat) : (fuel left : Nat) → Counted α Unit
  | fuel + 1, left =>
    if left < n then do
      if left + size - 1 < (if left + 2 * size - 1 < n - 1 then left + 2 * size - 1 else n - 1) then
        timMergeC k comp left (left + size - 1) (if left + 2 * size - 1 < n - 1 then left + 2 * size - 1 else n - 1)
      else pure ()
      mergePassC k comp n size fuel (left + 2 * size)
    else pure ()
  | 0, _ => Cpp.ub .diverge

/-- the loop over the sizes, sort.hpp 197-211 -/
def sizeLoopC (k : Kind) (comp : Comparator α) (n : Nat) : (fuel size : Nat) → Counted α Unit
  | fuel + 1, size =>
    if size < n then do
      mergePassC k comp n size (n + 1) 0
      sizeLoopC k comp n fuel (2 * size)
    else pure ()
  | 0, _ => Cpp.ub .diverge

/-- `sort_by`, sort.hpp 188-211 and 244-247 -/
def sortC (k : Kind) (comp : Comparator α) : Counted α Unit := do
  let m ← lift Cpp.get
  runsLoopC k comp m.cells.length (m.cells.length + 1) 0
  sizeLoopC k comp m.cells.length (m.cells.length + 1) 32

end Sorting
end Efp
