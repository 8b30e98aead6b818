import Verif.Fmt.Format

/-!
# Model of the output buffers of the bundled formatting library (include/efp/fmt/core.h, format.h)

`buffer<char>` with its virtual `grow`, and the buffers derived from it: `basic_memory_buffer`, the buffers behind
`format_to`, `format_to_n` and `formatted_size`.  Sizes are numbers below 2^64 and sums wrap around.  A write outside
an array, through a pointer to freed or moved storage, or a read of freed storage is the outcome `ub`, and so is a loop
that makes no progress.  An allocation that fails throws; the state at that point is part of the outcome.
-/

namespace Efp
namespace Fmt

/-- a `size_t` value: 64 bits -/
@[irreducible] def wrap (n : Nat) : Nat := n % 2 ^ 64

/-- the difference of two `size_t` values -/
@[irreducible] def wrapSub (m n : Nat) : Nat := (m + 2 ^ 64 - n) % 2 ^ 64

/-- The outcome of running code on a state. -/
inductive Run (σ : Type)
  | ok (s : σ)
  | threw (s : σ)
  | ub

/-- running one piece of code after another -/
def Run.then {σ τ : Type} (r : Run σ) (keep : σ → τ) (f : σ → Run τ) : Run τ :=
  match r with
  | .ok s => f s
  | .threw s => .threw (keep s)
  | .ub => .ub

/-- sequencing on one state -/
def Run.andThen {σ : Type} (r : Run σ) (f : σ → Run σ) : Run σ := r.then id f

/-- `buffer<char>`, core.h 858-967: `size_`, `capacity_`; `rest` stands for `ptr_` and what derived classes add -/
structure Buf (κ : Type) where
  size : Nat
  capacity : Nat
  rest : κ

/-- A class derived from `buffer<char>`: its `grow`, core.h 884, and what `ptr_[i] = c` does. -/
structure Kind (κ : Type) where
  grow : Nat → Buf κ → Run (Buf κ)
  store : Nat → Char → κ → Run κ

namespace Buf

variable {κ : Type}

/-- `buffer::try_reserve`, core.h 944-947 -/
def tryReserve (K : Kind κ) (n : Nat) (b : Buf κ) : Run (Buf κ) :=
  if n > b.capacity then K.grow n b else .ok b

/-- `buffer::try_resize`, core.h 935-938 -/
def tryResize (K : Kind κ) (n : Nat) (b : Buf κ) : Run (Buf κ) :=
  (tryReserve K n b).andThen fun b => .ok { b with size := if n ≤ b.capacity then n else b.capacity }

/-- writing bytes one after the other from `ptr_ + i` -/
def storeAll (K : Kind κ) : (i : Nat) → (t : Str) → κ → Run κ
  | _, [], r => .ok r
  | i, c :: t, r => (K.store i c r).andThen (storeAll K (i + 1) t)

/-- `buffer::push_back`, core.h 949-952 -/
def pushBack (K : Kind κ) (c : Char) (b : Buf κ) : Run (Buf κ) :=
  (tryReserve K (wrap (b.size + 1)) b).andThen fun b =>
    (K.store b.size c b.rest).then (fun r => { b with rest := r })
      fun r => .ok { b with size := wrap (b.size + 1), rest := r }

/-- `buffer::append`, format.h 953-966; `fuel` bounds the number of turns -/
def appendLoop (K : Kind κ) : (fuel : Nat) → (t : Str) → Buf κ → Run (Buf κ)
  | _, [], b => .ok b
  | 0, _ :: _, _ => .ub
  | fuel + 1, c :: u, b =>
    (tryReserve K (wrap (b.size + (c :: u).length)) b).andThen fun b =>
      let free := wrapSub b.capacity b.size
      let count := if free < (c :: u).length then free else (c :: u).length
      (storeAll K b.size ((c :: u).take count) b.rest).then (fun r => { b with rest := r })
        fun r => appendLoop K fuel ((c :: u).drop count) { b with size := wrap (b.size + count), rest := r }

/-- `buffer::append`, format.h 953-966 -/
def append (K : Kind κ) (t : Str) (b : Buf κ) : Run (Buf κ) := appendLoop K t.length t b

end Buf

/-- What the writers do to the output buffer through an `appender`: -/
inductive Op
  /-- `*it++ = c` -/
  | push (c : Char)
  /-- `copy_str` to an appender, core.h 1725-1729 -/
  | append (t : Str)
  /-- `reserve`, format.h 638-643 -/
  | reserve (n : Nat)
  /-- `to_pointer`, format.h 658-666, with the text then written through the pointer; if there is no pointer, the first
  bytes are pushed, and then the rest appended -/
  | direct (pushed t : Str)

/-- a list of operations one after the other -/
def pushAll {κ : Type} (K : Kind κ) : Str → Buf κ → Run (Buf κ)
  | [], b => .ok b
  | c :: t, b => (b.pushBack K c).andThen (pushAll K t)

/-- `to_pointer`, format.h 658-666: whether there is a pointer -/
def hasPointer {κ : Type} (n : Nat) (b : Buf κ) : Bool := !(b.capacity < wrap (b.size + n))

/-- one operation -/
def Op.run {κ : Type} (K : Kind κ) (b : Buf κ) : Op → Run (Buf κ)
  | .push c => b.pushBack K c
  | .append t => b.append K t
  | .reserve n => b.tryReserve K (wrap (b.size + n))
  | .direct pushed t =>
    if hasPointer (pushed ++ t).length b then
      (b.tryResize K (wrap (b.size + (pushed ++ t).length))).andThen fun b1 =>
        (Buf.storeAll K b.size (pushed ++ t) b1.rest).then (fun r => { b1 with rest := r })
          fun r => .ok { b1 with rest := r }
    else (pushAll K pushed b).andThen (Buf.append K t)

/-- operations one after the other -/
def runOps {κ : Type} (K : Kind κ) : List Op → Buf κ → Run (Buf κ)
  | [], b => .ok b
  | o :: l, b => (o.run K b).andThen (runOps K l)

/-! ## The buffer that counts -/

/-- `counting_buffer`, core.h 1136-1158: `data_` and `count_` -/
structure Counting where
  data : List Char
  count : Nat

/-- `buffer_size`, core.h 1006, 1050 and 1139 -/
def bufferSize : Nat := 256

/-- writing to an array of characters -/
def storeList (i : Nat) (c : Char) (l : List Char) : Run (List Char) := if i < l.length then .ok (l.set i c) else .ub

/-- `counting_buffer::grow`, core.h 1145-1150 -/
def Counting.kind : Kind Counting where
  grow _ b :=
    if b.size ≠ bufferSize then .ok b
    else .ok ⟨0, b.capacity, { b.rest with count := wrap (b.rest.count + b.size) }⟩
  store i c r := (storeList i c r.data).then (fun d => { r with data := d }) fun d => .ok { r with data := d }

/-- `counting_buffer()`, core.h 1153, over uninitialized bytes -/
def Counting.start (junk : List Char) : Buf Counting := ⟨0, bufferSize, ⟨junk, 0⟩⟩

/-- `counting_buffer::count`, core.h 1155-1157 -/
def Counting.total (b : Buf Counting) : Nat := wrap (b.rest.count + b.size)

/-! ## Buffers in front of an output iterator -/

/-- `iterator_buffer` and `fixed_buffer_traits`, core.h 969-1041: the iterator with what it has been given, `data_`,
and `count_` and `limit_` (`buffer_traits` has no limit) -/
structure Flushing where
  out : Str
  data : List Char
  count : Nat
  limit : Option Nat

/-- `limit`, core.h 976-978 and 993-997: the bytes to pass on and the new count -/
def limitStep (limit : Option Nat) (count size : Nat) : Nat × Nat :=
  match limit with
  | none => (size, count)
  | some l =>
    let n := if l > count then l - count else 0
    (if size < n then size else n, wrap (count + size))

/-- `iterator_buffer::flush`, core.h 1016-1020 -/
def Flushing.flush (b : Buf Flushing) : Buf Flushing :=
  ⟨0, b.capacity, { b.rest with
    out := b.rest.out ++ b.rest.data.take (limitStep b.rest.limit b.rest.count b.size).1
    count := (limitStep b.rest.limit b.rest.count b.size).2 }⟩

/-- `iterator_buffer::grow`, core.h 1011-1014 -/
def Flushing.kind : Kind Flushing where
  grow _ b := .ok (if b.size = bufferSize then Flushing.flush b else b)
  store i c r := (storeList i c r.data).then (fun d => { r with data := d }) fun d => .ok { r with data := d }

/-- `iterator_buffer(out, n)`, core.h 1023-1024, for an iterator that has been given `out` -/
def Flushing.start (out : Str) (limit : Option Nat) (junk : List Char) : Buf Flushing :=
  ⟨0, bufferSize, ⟨out, junk, 0, limit⟩⟩

/-- `iterator_buffer<T*, T, fixed_buffer_traits>`, core.h 1043-1093: the caller's array, the offset of `out_` in it,
`data_`, whether `ptr_` is the initial `out_`, and the traits -/
structure Fixed where
  array : List Char
  out : Nat
  data : List Char
  atOut : Bool
  count : Nat
  limit : Nat

/-- `flush`, core.h 1060-1067.  `data() == out_` holds until `out_` moves or `ptr_` is set to `data_`; with no byte
passed on both stay equal, and then `set` follows. -/
def Fixed.flush (b : Buf Fixed) : Buf Fixed :=
  let n := (limitStep (some b.rest.limit) b.rest.count b.size).1
  let count := (limitStep (some b.rest.limit) b.rest.count b.size).2
  if b.rest.atOut then ⟨0, bufferSize, { b.rest with out := b.rest.out + n, atOut := false, count := count }⟩
  else ⟨0, b.capacity, { b.rest with count := count }⟩

/-- `grow`, core.h 1055-1058; a write goes to the caller's array from where `out_` was at first, or to `data_` -/
def Fixed.kind : Kind Fixed where
  grow _ b := .ok (if b.size = b.capacity then Fixed.flush b else b)
  store i c r :=
    if r.atOut then (storeList (r.out + i) c r.array).then (fun d => { r with array := d }) fun d => .ok { r with array := d }
    else (storeList i c r.data).then (fun d => { r with data := d }) fun d => .ok { r with data := d }

/-- `iterator_buffer(out, n)`, core.h 1070-1071, at offset `off` of the caller's array -/
def Fixed.start (array : List Char) (off n : Nat) (junk : List Char) : Buf Fixed :=
  ⟨0, n, ⟨array, off, junk, true, 0, n⟩⟩

/-- `iterator_buffer<T*, T>`, core.h 1095-1106: the caller's array and the offset of the pointer; no limit -/
structure Raw where
  array : List Char
  out : Nat

/-- `grow`, core.h 1098 -/
def Raw.kind : Kind Raw where
  grow _ b := .ok b
  store i c r := (storeList (r.out + i) c r.array).then (fun d => { r with array := d }) fun d => .ok { r with array := d }

/-- `iterator_buffer(out)`, core.h 1101 -/
def Raw.start (array : List Char) (off : Nat) : Buf Raw := ⟨0, 2 ^ 64 - 1, ⟨array, off⟩⟩

/-- A contiguous container such as `efp::String`, sequence.hpp 707-741: the bytes of its storage (bytes past the size
are of no meaning), its size, and how often the storage was replaced. -/
structure Container where
  storage : List Char
  size : Nat
  replaced : Nat

/-- `VectorBase::resize`, sequence.hpp 707-714, and `reserve`, sequence.hpp 716-741: the kept bytes move to new storage;
what other bytes the new storage holds is given by `junk` -/
def Container.resize (junk : Nat → Char) (n : Nat) (c : Container) : Container :=
  if n + 1 > c.storage.length then
    ⟨c.storage.take c.size ++ ((List.range (n + 1 - c.size)).map junk), n, c.replaced + 1⟩
  else { c with size := n }

/-- `iterator_buffer<std::back_insert_iterator<Container>>`, core.h 1108-1133: the container, and for which storage of
it `ptr_` was set (`none` before the first `grow`, when `ptr_` is not initialized) -/
structure Into where
  container : Container
  ptr : Option Nat

/-- `grow`, core.h 1118-1121 -/
def Into.kind (junk : Nat → Char) : Kind Into where
  grow n b := .ok ⟨b.size, n, ⟨b.rest.container.resize junk n, some (b.rest.container.resize junk n).replaced⟩⟩
  store i c r :=
    if r.ptr = some r.container.replaced ∧ i < r.container.storage.length then
      .ok { r with container := { r.container with storage := r.container.storage.set i c } }
    else .ub

/-- `iterator_buffer(Container&)`, core.h 1124-1125 with `buffer(size_t)`, core.h 869 -/
def Into.start (c : Container) : Buf Into := ⟨c.size, c.size, ⟨c, none⟩⟩

/-- the elements of the container -/
def Container.elems (c : Container) : List Char := c.storage.take c.size

/-! ## `basic_memory_buffer` -/

/-- bytes of storage; `none` is an indeterminate value -/
abbrev Cells := List (Option Char)

/-- storage from the allocator, by address -/
abbrev Heap := Nat → Option Cells

/-- the heap with the cells at an address replaced -/
def Heap.set (h : Heap) (p : Nat) (v : Option Cells) : Heap := fun q => if q = p then v else h q

/-- `basic_memory_buffer`, format.h 1002-1008: the heap with the next fresh address, `store_`, and `ptr_` (`none` is
`store_`) -/
structure Mem where
  heap : Heap
  next : Nat
  inline : Cells
  ptr : Option Nat

/-- `std::allocator_traits<Allocator>::max_size`, format.h 1020, for `std::allocator<char>` -/
def maxSize : Nat := 2 ^ 63 - 1

/-- the storage `ptr_` points to -/
def Mem.cells (m : Mem) (ptr : Option Nat) : Option Cells :=
  match ptr with
  | none => some m.inline
  | some p => m.heap p

/-- writing a cell of the storage `ptr_` points to -/
def Mem.store (i : Nat) (c : Option Char) (m : Mem) : Run Mem :=
  match m.ptr with
  | none => if i < m.inline.length then .ok { m with inline := m.inline.set i c } else .ub
  | some p =>
    match m.heap p with
    | none => .ub
    | some cells => if i < cells.length then .ok { m with heap := m.heap.set p (some (cells.set i c)) } else .ub

/-- `deallocate`, format.h 1011-1015 and 1037-1038: freeing storage that is not allocated, or with a wrong size, is
`ub` -/
def Mem.deallocate (ptr : Option Nat) (capacity : Nat) (m : Mem) : Run Mem :=
  match ptr with
  | none => .ok m
  | some p =>
    match m.heap p with
    | none => .ub
    | some cells => if cells.length = capacity then .ok { m with heap := m.heap.set p none } else .ub

/-- the new capacity, format.h 1021-1026 -/
def newCapacity (old size : Nat) : Nat :=
  let n := wrap (old + old / 2)
  if size > n then size
  else if n > maxSize then if size > maxSize then size else maxSize
  else n

/-- `basic_memory_buffer::grow`, format.h 1018-1039; `fails` says which allocations fail, by address and size, and
every allocation over `max_size` does -/
def Mem.kind (fails : Nat → Nat → Bool) : Kind Mem where
  grow size b :=
    let n := newCapacity b.capacity size
    if n > maxSize ∨ fails b.rest.next n = true then .threw b
    else
      match b.rest.cells b.rest.ptr with
      | none => .ub
      | some old =>
        if old.length < b.size ∨ n < b.size then .ub
        else
          let m := { b.rest with
            heap := b.rest.heap.set b.rest.next (some (old.take b.size ++ List.replicate (n - b.size) none))
            next := b.rest.next + 1
            ptr := some b.rest.next }
          (m.deallocate b.rest.ptr b.capacity).then (fun m => ⟨b.size, n, m⟩) fun m => .ok ⟨b.size, n, m⟩
  store i c m := m.store i (some c)

end Fmt
end Efp
