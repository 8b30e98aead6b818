import Verif.MemLemmas

/-!
# Model of `sort.hpp`

The state is the storage of the vector's elements: `cells` are exactly the `size()` elements, so an access
at an index `>= size()` is `oob` although the C++ block may be larger.  `comp` is the comparison function
(a pure total function).  `k` is the element kind; moving out of a `managed` element leaves it `moved`, and
comparing a `moved` element is `movedRead`.

`size_t` arithmetic is modelled on `Nat`: indices stay below `size() <= PTRDIFF_MAX = 2^63 - 1`, so `2 * i + 2`,
`left + 2 * size - 1` and `i + 31` do not wrap (the last for `size() <= 2^64 - 32`).  The one place where the
code relies on wrap-around, `low - 1` in `partition_by`, is modelled modulo `2^64`.

Recursions and loops whose termination is not structural carry a fuel argument; running out of it is the
outcome `diverge`, and the theorems show it never happens.
-/

namespace Efp

/-- `SIZE_MAX + 1` -/
def SZ : Nat := 2 ^ 64

namespace Sorting

variable {α : Type}

/-- `efp::move(arr[i])` as the initialiser of a temporary that is not read but only moved on (swap): the
content of the slot, which may itself be moved-from -/
def take (k : Kind) (i : Nat) : Cpp (Mem α) (Cell α) := fun m =>
  match m.cells[i]? with
  | none => .ub .oob
  | some .raw => .ub .deadRead
  | some c =>
    match k with
    | .trivial => .ok c m
    | .managed => .ok c { m with cells := m.cells.set i .moved }

/-- `arr[i] = efp::move(temp)` -/
def put (k : Kind) (i : Nat) (c : Cell α) : Cpp (Mem α) Unit := fun m =>
  match m.cells[i]? with
  | none => .ub .oob
  | some d =>
    if k = .managed ∧ d.alive = false then .ub .deadAssign
    else .ok () { m with cells := m.cells.set i c }

/-- `swap(arr[i], arr[j])` (meta.hpp 752-757) -/
def swap (k : Kind) (i j : Nat) : Cpp (Mem α) Unit := do
  let temp ← take k i
  let b ← take k j
  put k i b
  put k j temp

/-! ## merge sort (sort.hpp 11-52) -/

/-- copying `arr[i], ..., arr[i+n-1]` to a fresh vector (sort.hpp 19-23; the temporary `Vector` is a list) -/
def readRange : (i n : Nat) → Cpp (Mem α) (List α)
  | _, 0 => pure []
  | i, n + 1 => do
    let a ← Mem.read i
    let l ← readRange (i + 1) n
    pure (a :: l)

/-- `while (i < n1) arr[k++] = lefts[i++];` (sort.hpp 35-39) with the remaining elements as a list -/
def writeAll (kd : Kind) : (k : Nat) → List α → Cpp (Mem α) Unit
  | _, [] => pure ()
  | k, a :: l => do
    Mem.assign kd k a
    writeAll kd (k + 1) l

/-- the merging loop and the two loops after it (sort.hpp 25-39); the list arguments are `lefts[i..]` and
`rights[j..]` -/
def mergeLoop (kd : Kind) (comp : α → α → Bool) :
    (fuel : Nat) → (lefts rights : List α) → (k : Nat) → Cpp (Mem α) Unit
  | fuel + 1, x :: xs, y :: ys, k =>
    if comp x y then do
      Mem.assign kd k x
      mergeLoop kd comp fuel xs (y :: ys) (k + 1)
    else do
      Mem.assign kd k y
      mergeLoop kd comp fuel (x :: xs) ys (k + 1)
  | 0, _ :: _, _ :: _, _ => Cpp.ub .diverge
  | _, xs, ys, k => do
    writeAll kd k xs
    writeAll kd (k + xs.length) ys

/-- `merge` (sort.hpp 11-40) -/
def merge (kd : Kind) (comp : α → α → Bool) (left middle right : Nat) : Cpp (Mem α) Unit := do
  let n1 := middle - left + 1
  let n2 := right - middle
  let lefts ← readRange left n1
  let rights ← readRange (middle + 1) n2
  mergeLoop kd comp (n1 + n2) lefts rights left

/-- `merge_sort_by` (sort.hpp 43-52), recursion depth bounded by `fuel` -/
def mergeSortF (kd : Kind) (comp : α → α → Bool) : (fuel : Nat) → (left right : Nat) → Cpp (Mem α) Unit
  | fuel + 1, left, right =>
    if left < right then do
      let middle := left + (right - left) / 2
      mergeSortF kd comp fuel left middle
      mergeSortF kd comp fuel (middle + 1) right
      merge kd comp left middle right
    else pure ()
  | 0, _, _ => Cpp.ub .diverge

/-- `merge_sort_by` (sort.hpp 43-52) -/
def mergeSortBy (kd : Kind) (comp : α → α → Bool) (left right : Nat) : Cpp (Mem α) Unit :=
  mergeSortF kd comp (right - left + 1) left right

/-! ## heapsort (sort.hpp 54-91) -/

/-- `if (c < n && comp(arr[largest], arr[c])) largest = c;` (sort.hpp 61-65) -/
def pickLarger (comp : α → α → Bool) (n largest c : Nat) : Cpp (Mem α) Nat :=
  if c < n then do
    let a ← Mem.read largest
    let b ← Mem.read c
    pure (if comp a b then c else largest)
  else pure largest

/-- `max_heapify_by` (sort.hpp 56-72), recursion depth bounded by `fuel` -/
def heapifyF (k : Kind) (comp : α → α → Bool) : (fuel n i : Nat) → Cpp (Mem α) Unit
  | fuel + 1, n, i => do
    let l1 ← pickLarger comp n i (2 * i + 1)
    let largest ← pickLarger comp n l1 (2 * i + 2)
    if largest ≠ i then do
      swap k i largest
      heapifyF k comp fuel n largest
    else pure ()
  | 0, _, _ => Cpp.ub .diverge

/-- `max_heapify_by` (sort.hpp 56-72) -/
def heapify (k : Kind) (comp : α → α → Bool) (n i : Nat) : Cpp (Mem α) Unit :=
  heapifyF k comp (n + 1) n i

/-- `for (size_t i = c; i-- > 0;) max_heapify_by(arr, n, i, comp);` (sort.hpp 81-83) -/
def buildLoop (k : Kind) (comp : α → α → Bool) (n : Nat) : (c : Nat) → Cpp (Mem α) Unit
  | 0 => pure ()
  | i + 1 => do
    heapify k comp n i
    buildLoop k comp n i

/-- `for (size_t i = c; i-- > 1;) { swap(arr[0], arr[i]); max_heapify_by(arr, i, 0, comp); }`
(sort.hpp 87-90) -/
def extractLoop (k : Kind) (comp : α → α → Bool) : (c : Nat) → Cpp (Mem α) Unit
  | 0 => pure ()
  | 1 => pure ()
  | i + 2 => do
    swap k 0 (i + 1)
    heapify k comp (i + 1) 0
    extractLoop k comp (i + 1)

/-- `heapsort_by` (sort.hpp 75-91) -/
def heapsortBy (k : Kind) (comp : α → α → Bool) : Cpp (Mem α) Unit := do
  let m ← Cpp.get
  let n := m.cells.length
  if n > 1 then buildLoop k comp n (n / 2) else pure ()
  extractLoop k comp n

/-! ## insertion sort (sort.hpp 93-114) -/

/-- `while (j > left && comp(key, arr[j - 1])) { arr[j] = move(arr[j - 1]); j--; }` (sort.hpp 99-102);
returns the final `j` -/
def insLoop (k : Kind) (comp : α → α → Bool) (key : α) (left : Nat) : (j : Nat) → Cpp (Mem α) Nat
  | 0 => pure 0
  | j + 1 =>
    if j + 1 > left then do
      let x ← Mem.read j
      if comp key x then do
        let y ← Mem.moveOut k j
        Mem.assign k (j + 1) y
        insLoop k comp key left j
      else pure (j + 1)
    else pure (j + 1)

/-- body of the outer loop (sort.hpp 96-104) -/
def insOne (k : Kind) (comp : α → α → Bool) (left i : Nat) : Cpp (Mem α) Unit := do
  let key ← Mem.moveOut k i
  let j ← insLoop k comp key left i
  Mem.assign k j key

/-- `insertion_sort_by_` (sort.hpp 93-106) -/
def insertionRange (k : Kind) (comp : α → α → Bool) (left right : Nat) : Cpp (Mem α) Unit :=
  forUp (insOne k comp left) (left + 1) (right - left)

/-- `insertion_sort_by` (sort.hpp 109-114) -/
def insertionSortBy (k : Kind) (comp : α → α → Bool) : Cpp (Mem α) Unit := do
  let m ← Cpp.get
  if m.cells.length ≠ 0 then insertionRange k comp 0 (m.cells.length - 1) else pure ()

/-! ## quicksort (sort.hpp 116-151) -/

/-- loop of `partition_by` (sort.hpp 122-127); `i` is a `size_t`, returns its final value.  `n` iterations
remain. -/
def partLoop (k : Kind) (comp : α → α → Bool) (pivot : α) : (j n i : Nat) → Cpp (Mem α) Nat
  | _, 0, i => pure i
  | j, n + 1, i => do
    let x ← Mem.read j
    if comp x pivot then do
      swap k ((i + 1) % SZ) j
      partLoop k comp pivot (j + 1) n ((i + 1) % SZ)
    else partLoop k comp pivot (j + 1) n i

/-- `partition_by` (sort.hpp 118-130); `low - 1` wraps around for `low = 0` -/
def partition (k : Kind) (comp : α → α → Bool) (low high : Nat) : Cpp (Mem α) Nat := do
  let pivot ← Mem.read high
  let i ← partLoop k comp pivot low (high - low) ((low + SZ - 1) % SZ)
  swap k ((i + 1) % SZ) high
  pure ((i + 1) % SZ)

/-- `quicksort_by` (sort.hpp 134-141), recursion depth bounded by `fuel` -/
def quicksortF (k : Kind) (comp : α → α → Bool) : (fuel low high : Nat) → Cpp (Mem α) Unit
  | fuel + 1, low, high =>
    if low < high then do
      let pi ← partition k comp low high
      if pi ≠ 0 then quicksortF k comp fuel low (pi - 1) else pure ()
      quicksortF k comp fuel (pi + 1) high
    else pure ()
  | 0, _, _ => Cpp.ub .diverge

/-- `quicksort_by` (sort.hpp 134-141) -/
def quicksortRange (k : Kind) (comp : α → α → Bool) (low high : Nat) : Cpp (Mem α) Unit :=
  quicksortF k comp (high - low + 1) low high

/-- `quicksort` with a comparator, i.e. on the whole vector (sort.hpp 215-219) -/
def quicksortBy (k : Kind) (comp : α → α → Bool) : Cpp (Mem α) Unit := do
  let m ← Cpp.get
  if m.cells.length ≠ 0 then quicksortRange k comp 0 (m.cells.length - 1) else pure ()

/-- `size_trosort_by` = `sort_unstable_by` (sort.hpp 146-151, 249-252) -/
def sortUnstableBy (k : Kind) (comp : α → α → Bool) : Cpp (Mem α) Unit := do
  let m ← Cpp.get
  if m.cells.length ≤ 1 then pure ()
  else do
    quicksortRange k comp 0 (m.cells.length - 1)
    insertionSortBy k comp

/-! ## timsort (sort.hpp 153-211) -/

/-- one step of the shift `while (index != start) { arr[index] = arr[index - 1]; index--; }`
(sort.hpp 172-175) -/
def shiftOne (k : Kind) (index : Nat) : Cpp (Mem α) Unit := do
  let x ← Mem.read (index - 1)
  Mem.assign k index x

/-- loop of `timsort_merge` (sort.hpp 163-183) -/
def timLoop (k : Kind) (comp : α → α → Bool) (end_ : Nat) : (fuel start mid start2 : Nat) → Cpp (Mem α) Unit
  | fuel + 1, start, mid, start2 =>
    if start ≤ mid ∧ start2 ≤ end_ then do
      let b ← Mem.read start2
      let a ← Mem.read start
      if comp b a = false then timLoop k comp end_ fuel (start + 1) mid start2
      else do
        let value ← Mem.read start2
        forDown (shiftOne k) start2 (start2 - start)
        Mem.assign k start value
        timLoop k comp end_ fuel (start + 1) (mid + 1) (start2 + 1)
    else pure ()
  | 0, _, _, _ => Cpp.ub .diverge

/-- `timsort_merge` (sort.hpp 154-184) -/
def timMerge (k : Kind) (comp : α → α → Bool) (start mid end_ : Nat) : Cpp (Mem α) Unit := do
  let start2 := mid + 1
  let a ← Mem.read mid
  let b ← Mem.read start2
  if comp a b = false then pure ()
  else timLoop k comp end_ (end_ - start + 2) start mid start2

/-- `for (i; i < n; i += RUN) insertion_sort_by_(arr, i, min(i + 31, n - 1), comp);` (sort.hpp 193-194) -/
def runsLoop (k : Kind) (comp : α → α → Bool) (n : Nat) : (fuel i : Nat) → Cpp (Mem α) Unit
  | fuel + 1, i =>
    if i < n then do
      insertionRange k comp i (if i + 31 < n - 1 then i + 31 else n - 1)
      runsLoop k comp n fuel (i + 32)
    else pure ()
  | 0, _ => Cpp.ub .diverge

/-- `for (left; left < n; left += 2 * size) ...` (sort.hpp 200-210) -/
def mergePass (k : Kind) (comp : α → α → Bool) (n size : Nat) : (fuel left : Nat) → Cpp (Mem α) Unit
  | fuel + 1, left =>
    if left < n then do
      let mid := left + size - 1
      let right := if left + 2 * size - 1 < n - 1 then left + 2 * size - 1 else n - 1
      if mid < right then timMerge k comp left mid right else pure ()
      mergePass k comp n size fuel (left + 2 * size)
    else pure ()
  | 0, _ => Cpp.ub .diverge

/-- `for (size; size < n; size = 2 * size) ...` (sort.hpp 197-211) -/
def sizeLoop (k : Kind) (comp : α → α → Bool) (n : Nat) : (fuel size : Nat) → Cpp (Mem α) Unit
  | fuel + 1, size =>
    if size < n then do
      mergePass k comp n size (n + 1) 0
      sizeLoop k comp n fuel (2 * size)
    else pure ()
  | 0, _ => Cpp.ub .diverge

/-- `timsort_by` = `sort_by` (sort.hpp 188-211, 244-247) -/
def sortBy (k : Kind) (comp : α → α → Bool) : Cpp (Mem α) Unit := do
  let m ← Cpp.get
  let n := m.cells.length
  runsLoop k comp n (n + 1) 0
  sizeLoop k comp n (n + 1) 32

end Sorting
end Efp
