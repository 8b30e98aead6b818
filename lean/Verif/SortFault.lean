import Verif.SortCost

/-!
# The sorts of `sort.hpp` with elements whose copies, moves and assignments throw

The same definitions as in `Verif/SortCost.lean`, except that every construction and assignment of an element is a point
where the element type may throw.  The counter numbers all calls of user code: comparisons, constructions, assignments.
-/

namespace Efp
namespace Sorting

variable {α β : Type}

/-- what an object that took part in a failed construction or assignment is left as: a living object in any case -/
inductive Aftermath (α : Type) where
  | untouched
  | value (a : α)
  | movedFrom
  deriving DecidableEq, Repr

/-- the slot after the failed call -/
def Aftermath.on : Aftermath α → Cell α → Cell α
  | .untouched, c => c
  | .value a, _ => .live a
  | .movedFrom, _ => .moved

/-- a failed call: what it leaves of the object it moved from and of the object it assigned to.  (It cannot change an
object it copies from: that is `const`.) -/
structure Fault (α : Type) where
  src : Aftermath α
  dst : Aftermath α
  deriving DecidableEq, Repr

/-- the code supplied by the user: the comparison function, and for each construction or assignment of an element, if
it throws and what it then leaves behind -/
structure Client (α : Type) where
  comp : Comparator α
  fault : Nat → Option (Fault α)

/-- an object that took part in a failed call, if it stands in a slot of the vector -/
def spoil (a : Aftermath α) : Option Nat → List (Cell α) → List (Cell α)
  | some i, cs => cs.modify i a.on
  | none, cs => cs

/-- the storage after a failed call which moved from slot `src?` and assigned to slot `dst?` -/
def wreck (f : Fault α) (src? dst? : Option Nat) (m : Mem α) : Mem α :=
  { m with cells := spoil f.dst dst? (spoil f.src src? m.cells) }

/-- one construction or assignment `p` of an element, moving from slot `src?`, assigning to slot `dst?`.  The slots are
looked up before the call: a bad index is undefined whether or not the call throws. -/
def call (e : Client α) (src? dst? : Option Nat) (p : Cpp (Mem α) β) : Counted α β := fun s =>
  match p s.1 with
  | .ub w => .ub w
  | .thrown m => .thrown (m, s.2 + 1)
  | .ok b m =>
    match e.fault s.2 with
    | none => .ok b (m, s.2 + 1)
    | some f => .thrown (wreck f src? dst? s.1, s.2 + 1)

/-- `a = efp::move(b);`, meta.hpp 755, on the slots `i` and `j` -/
def moveSlot (k : Kind) (i j : Nat) : Cpp (Mem α) Unit := do
  let b ← take k j
  put k i b

/-- `swap(arr[i], arr[j])`, meta.hpp 752-757 -/
def swapX (k : Kind) (e : Client α) (i j : Nat) : Counted α Unit := do
  let temp ← call e (some i) none (take k i)
  call e (some j) (some i) (moveSlot k i j)
  call e none (some j) (put k j temp)

/-! ## merge sort -/

/-- `lefts.push_back(arr[left + i])`, sort.hpp 19-23.  Simplified: the temporary `Vector` is a list; everything that can
throw inside one `push_back` (the copy, the allocation, the moves to the new block) is one failing call. -/
def readRangeX (e : Client α) : (i n : Nat) → Counted α (List α)
  | _, 0 => pure []
  | i, n + 1 => do
    let a ← call e none none (Mem.read i)
    let l ← readRangeX e (i + 1) n
    pure (a :: l)

/-- `while (i < n1) arr[k++] = lefts[i++];`, sort.hpp 35-39 -/
def writeAllX (kd : Kind) (e : Client α) : (k : Nat) → List α → Counted α Unit
  | _, [] => pure ()
  | k, a :: l => do
    call e none (some k) (Mem.assign kd k a)
    writeAllX kd e (k + 1) l

/-- the merging loop and the two loops after it, sort.hpp 25-39 -/
def mergeLoopX (kd : Kind) (e : Client α) : (fuel : Nat) → (lefts rights : List α) → (k : Nat) → Counted α Unit
  | fuel + 1, x :: xs, y :: ys, k => do
    let b ← cmp e.comp x y
    if b then do
      call e none (some k) (Mem.assign kd k x)
      mergeLoopX kd e fuel xs (y :: ys) (k + 1)
    else do
      call e none (some k) (Mem.assign kd k y)
      mergeLoopX kd e fuel (x :: xs) ys (k + 1)
  | 0, _ :: _, _ :: _, _ => Cpp.ub .diverge
  | _, xs, ys, k => do
    writeAllX kd e k xs
    writeAllX kd e (k + xs.length) ys

/-- `merge`, sort.hpp 11-40 -/
def mergeX (kd : Kind) (e : Client α) (left middle right : Nat) : Counted α Unit := do
  let lefts ← readRangeX e left (middle - left + 1)
  let rights ← readRangeX e (middle + 1) (right - middle)
  mergeLoopX kd e (middle - left + 1 + (right - middle)) lefts rights left

/-- `merge_sort_by`, sort.hpp 43-52, with at most `fuel` nested calls -/
def mergeSortX (kd : Kind) (e : Client α) : (fuel : Nat) → (left right : Nat) → Counted α Unit
  | fuel + 1, left, right =>
    if left < right then do
      mergeSortX kd e fuel left (left + (right - left) / 2)
      mergeSortX kd e fuel (left + (right - left) / 2 + 1) right
      mergeX kd e left (left + (right - left) / 2) right
    else pure ()
  | 0, _, _ => Cpp.ub .diverge

/-! ## heapsort -/

/-- `max_heapify_by`, sort.hpp 56-72, with at most `fuel` nested calls; choosing the child (sort.hpp 61-65) constructs no
elements -/
def heapifyX (k : Kind) (e : Client α) : (fuel n i : Nat) → Counted α Unit
  | fuel + 1, n, i => do
    let l1 ← pickLargerC e.comp n i (2 * i + 1)
    let largest ← pickLargerC e.comp n l1 (2 * i + 2)
    if largest ≠ i then do
      swapX k e i largest
      heapifyX k e fuel n largest
    else pure ()
  | 0, _, _ => Cpp.ub .diverge

/-- the loop of `heapsort_by` that builds the heap, sort.hpp 81-83 -/
def buildLoopX (k : Kind) (e : Client α) (n : Nat) : (c : Nat) → Counted α Unit
  | 0 => pure ()
  | i + 1 => do
    heapifyX k e (n + 1) n i
    buildLoopX k e n i

/-- the loop of `heapsort_by` that empties the heap, sort.hpp 87-90 -/
def extractLoopX (k : Kind) (e : Client α) : (c : Nat) → Counted α Unit
  | 0 => pure ()
  | 1 => pure ()
  | i + 2 => do
    swapX k e 0 (i + 1)
    heapifyX k e (i + 1 + 1) (i + 1) 0
    extractLoopX k e (i + 1)

/-- `heapsort_by`, sort.hpp 75-91 -/
def heapsortX (k : Kind) (e : Client α) : Counted α Unit := do
  let m ← lift Cpp.get
  if m.cells.length > 1 then buildLoopX k e m.cells.length (m.cells.length / 2) else pure ()
  extractLoopX k e m.cells.length

/-! ## insertion sort -/

/-- `arr[j] = efp::move(arr[j - 1])`, sort.hpp 100, on slots `i + 1` and `i` -/
def shiftUp (k : Kind) (i : Nat) : Cpp (Mem α) Unit := do
  let y ← Mem.moveOut k i
  Mem.assign k (i + 1) y

/-- the inner loop of `insertion_sort_by_`, sort.hpp 99-102 -/
def insLoopX (k : Kind) (e : Client α) (key : α) (left : Nat) : (j : Nat) → Counted α Nat
  | 0 => pure 0
  | j + 1 =>
    if j + 1 > left then do
      let x ← lift (Mem.read j)
      let b ← cmp e.comp key x
      if b then do
        call e (some j) (some (j + 1)) (shiftUp k j)
        insLoopX k e key left j
      else pure (j + 1)
    else pure (j + 1)

/-- body of the outer loop, sort.hpp 96-104 -/
def insOneX (k : Kind) (e : Client α) (left i : Nat) : Counted α Unit := do
  let key ← call e (some i) none (Mem.moveOut k i)
  let j ← insLoopX k e key left i
  call e none (some j) (Mem.assign k j key)

/-- `insertion_sort_by_`, sort.hpp 93-106 -/
def insertionRangeX (k : Kind) (e : Client α) (left right : Nat) : Counted α Unit :=
  forUp (insOneX k e left) (left + 1) (right - left)

/-- `insertion_sort_by`, sort.hpp 109-114 -/
def insertionSortX (k : Kind) (e : Client α) : Counted α Unit := do
  let m ← lift Cpp.get
  if m.cells.length ≠ 0 then insertionRangeX k e 0 (m.cells.length - 1) else pure ()

/-! ## quicksort -/

/-- loop of `partition_by`, sort.hpp 122-127 -/
def partLoopX (k : Kind) (e : Client α) (pivot : α) : (j n i : Nat) → Counted α Nat
  | _, 0, i => pure i
  | j, n + 1, i => do
    let x ← lift (Mem.read j)
    let b ← cmp e.comp x pivot
    if b then do
      swapX k e ((i + 1) % SZ) j
      partLoopX k e pivot (j + 1) n ((i + 1) % SZ)
    else partLoopX k e pivot (j + 1) n i

/-- `partition_by`, sort.hpp 118-130; the pivot is a copy -/
def partitionX (k : Kind) (e : Client α) (low high : Nat) : Counted α Nat := do
  let pivot ← call e none none (Mem.read high)
  let i ← partLoopX k e pivot low (high - low) ((low + SZ - 1) % SZ)
  swapX k e ((i + 1) % SZ) high
  pure ((i + 1) % SZ)

/-- `quicksort_by`, sort.hpp 134-141, with at most `fuel` nested calls -/
def quicksortFX (k : Kind) (e : Client α) : (fuel low high : Nat) → Counted α Unit
  | fuel + 1, low, high =>
    if low < high then do
      let pi ← partitionX k e low high
      if pi ≠ 0 then quicksortFX k e fuel low (pi - 1) else pure ()
      quicksortFX k e fuel (pi + 1) high
    else pure ()
  | 0, _, _ => Cpp.ub .diverge

/-- `quicksort` with a comparator, sort.hpp 215-219 -/
def quicksortX (k : Kind) (e : Client α) : Counted α Unit := do
  let m ← lift Cpp.get
  if m.cells.length ≠ 0 then quicksortFX k e (m.cells.length - 1 - 0 + 1) 0 (m.cells.length - 1) else pure ()

/-- `sort_unstable_by`, sort.hpp 146-151 and 249-252 -/
def sortUnstableX (k : Kind) (e : Client α) : Counted α Unit := do
  let m ← lift Cpp.get
  if m.cells.length ≤ 1 then pure ()
  else do
    quicksortFX k e (m.cells.length - 1 - 0 + 1) 0 (m.cells.length - 1)
    insertionSortX k e

/-! ## timsort -/

/-- `arr[index] = arr[index - 1]`, sort.hpp 173: a copy assignment -/
def shiftOneX (k : Kind) (e : Client α) (index : Nat) : Counted α Unit :=
  call e none (some index) (shiftOne k index)

/-- `A value = arr[start2]; ... arr[start] = value;`, sort.hpp 169-176 -/
def rotateX (k : Kind) (e : Client α) (start start2 : Nat) : Counted α Unit := do
  let value ← call e none none (Mem.read start2)
  forDown (shiftOneX k e) start2 (start2 - start)
  call e none (some start) (Mem.assign k start value)

/-- loop of `timsort_merge`, sort.hpp 163-183 -/
def timLoopX (k : Kind) (e : Client α) (end_ : Nat) : (fuel start mid start2 : Nat) → Counted α Unit
  | fuel + 1, start, mid, start2 =>
    if start ≤ mid ∧ start2 ≤ end_ then do
      let b ← lift (Mem.read start2)
      let a ← lift (Mem.read start)
      let r ← cmp e.comp b a
      if r = false then timLoopX k e end_ fuel (start + 1) mid start2
      else do
        rotateX k e start start2
        timLoopX k e end_ fuel (start + 1) (mid + 1) (start2 + 1)
    else pure ()
  | 0, _, _, _ => Cpp.ub .diverge

/-- `timsort_merge`, sort.hpp 154-184 -/
def timMergeX (k : Kind) (e : Client α) (start mid end_ : Nat) : Counted α Unit := do
  let a ← lift (Mem.read mid)
  let b ← lift (Mem.read (mid + 1))
  let r ← cmp e.comp a b
  if r = false then pure ()
  else timLoopX k e end_ (end_ - start + 2) start mid (mid + 1)

/-- the loop of `timsort_by` over the runs, sort.hpp 193-194 -/
def runsLoopX (k : Kind) (e : Client α) (n : Nat) : (fuel i : Nat) → Counted α Unit
  | fuel + 1, i =>
    if i < n then do
      insertionRangeX k e i (if i + 31 < n - 1 then i + 31 else n - 1)
      runsLoopX k e n fuel (i + 32)
    else pure ()
  | 0, _ => Cpp.ub .diverge

/-- the loop over one pass of merges, sort.hpp 200-210 -/
def mergePassX (k : Kind) (e : Client α) (n size : Nat) : (fuel left : Nat) → Counted α Unit
  | fuel + 1, left =>
    if left < n then do
      if left + size - 1 < (if left + 2 * size - 1 < n - 1 then left + 2 * size - 1 else n - 1) then
        timMergeX k e left (left + size - 1) (if left + 2 * size - 1 < n - 1 then left + 2 * size - 1 else n - 1)
      else pure ()
      mergePassX k e n size fuel (left + 2 * size)
    else pure ()
  | 0, _ => Cpp.ub .diverge

/-- the loop over the sizes, sort.hpp 197-211 -/
def sizeLoopX (k : Kind) (e : Client α) (n : Nat) : (fuel size : Nat) → Counted α Unit
  | fuel + 1, size =>
    if size < n then do
      mergePassX k e n size (n + 1) 0
      sizeLoopX k e n fuel (2 * size)
    else pure ()
  | 0, _ => Cpp.ub .diverge

/-- `sort_by`, sort.hpp 188-211 and 244-247 -/
def sortX (k : Kind) (e : Client α) : Counted α Unit := do
  let m ← lift Cpp.get
  runsLoopX k e m.cells.length (m.cells.length + 1) 0
  sizeLoopX k e m.cells.length (m.cells.length + 1) 32

end Sorting
end Efp
