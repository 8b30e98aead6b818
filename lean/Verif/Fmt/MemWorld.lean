import Verif.Fmt.Buffer

/-!
# Model of programs over many `memory_buffer`s (include/efp/fmt/format.h)

`Mem.kind` in `Verif.Fmt.Buffer` models `grow` of one buffer.  Here many buffers share one heap: they are constructed,
written, moved and destroyed.
-/

namespace Efp
namespace Fmt

/-- `inline_buffer_size`, format.h 979 -/
def inlineSize : Nat := 500

/-- `basic_memory_buffer`, format.h 1002-1008, and its base, core.h 861-863; `ptr_` is `none` for `store_` -/
structure MB where
  size : Nat
  capacity : Nat
  inline : Cells
  ptr : Option Nat

/-- the buffers of a program by name, and the heap -/
structure MW where
  heap : Heap
  next : Nat
  bufs : Nat → Option MB

/-- before any buffer exists -/
def MW.empty : MW := ⟨fun _ => none, 0, fun _ => none⟩

/-- a map with one entry replaced -/
def update {α : Type} (f : Nat → Option α) (i : Nat) (v : Option α) : Nat → Option α := fun j => if j = i then v else f j

namespace MW

/-- one buffer with the heap -/
def view (w : MW) (b : MB) : Buf Mem := ⟨b.size, b.capacity, ⟨w.heap, w.next, b.inline, b.ptr⟩⟩

/-- the world after code has run on buffer `i` -/
def back (w : MW) (i : Nat) (v : Buf Mem) : MW :=
  ⟨v.rest.heap, v.rest.next, update w.bufs i (some ⟨v.size, v.capacity, v.rest.inline, v.rest.ptr⟩)⟩

/-- running code on buffer `i`; there must be such a buffer -/
def on (w : MW) (i : Nat) (f : Buf Mem → Run (Buf Mem)) : Run MW :=
  match w.bufs i with
  | none => .ub
  | some b => (f (w.view b)).then (w.back i) fun v => .ok (w.back i v)

/-- the elements of buffer `i`, as `operator[]`, core.h 958-961, shows them; `none` for an indeterminate value -/
def text (w : MW) (i : Nat) : Option Cells :=
  (w.bufs i).bind fun b => ((w.view b).rest.cells b.ptr).map fun c => c.take b.size

/-- the constructor, format.h 1045-1050 -/
def create (w : MW) (i : Nat) : Run MW :=
  match w.bufs i with
  | none => .ok { w with bufs := update w.bufs i (some ⟨0, inlineSize, List.replicate inlineSize none, none⟩) }
  | some _ => .ub

/-- the destructor, format.h 1052-1054 -/
def destroy (w : MW) (i : Nat) : Run MW :=
  match w.bufs i with
  | none => .ub
  | some b =>
    ((w.view b).rest.deallocate b.ptr b.capacity).then (fun _ => w)
      fun m => .ok ⟨m.heap, m.next, update w.bufs i none⟩

/-- `move`, format.h 1058-1073: from `other` to a buffer with the given `size_` and `store_`; the two buffers.  The
allocator has no state. -/
def move (fails : Nat → Nat → Bool) (w : MW) (size : Nat) (inline : Cells) (other : MB) : Run (Buf Mem × MB) :=
  match other.ptr with
  | none =>
    if other.size ≤ inline.length ∧ other.size ≤ other.inline.length then
      let v : Buf Mem := ⟨size, other.capacity, ⟨w.heap, w.next, other.inline.take other.size ++ inline.drop other.size, none⟩⟩
      (v.tryResize (Mem.kind fails) other.size).then (fun v => (v, other)) fun v => .ok (v, other)
    else .ub
  | some p =>
    let v : Buf Mem := ⟨size, other.capacity, ⟨w.heap, w.next, inline, some p⟩⟩
    (v.tryResize (Mem.kind fails) other.size).then (fun v => (v, other))
      fun v => .ok (v, ⟨0, 0, other.inline, none⟩)

/-- the move constructor, format.h 1082-1084; an exception would end the program -/
def moveCtor (fails : Nat → Nat → Bool) (w : MW) (i j : Nat) : Run MW :=
  match w.bufs i, w.bufs j with
  | none, some other =>
    match w.move fails 0 (List.replicate inlineSize none) other with
    | .ok (v, other') => .ok (({ w with bufs := update w.bufs j (some other') }).back i v)
    | _ => .ub
  | _, _ => .ub

/-- the move assignment, format.h 1091-1096; the assertion and an exception would end the program -/
def moveAssign (fails : Nat → Nat → Bool) (w : MW) (i j : Nat) : Run MW :=
  if i = j then .ub
  else
    match w.bufs i, w.bufs j with
    | some b, some other =>
      match (w.view b).rest.deallocate b.ptr b.capacity with
      | .ok m =>
        match ({ w with heap := m.heap, next := m.next } : MW).move fails b.size b.inline other with
        | .ok (v, other') => .ok (({ w with bufs := update w.bufs j (some other') }).back i v)
        | _ => .ub
      | _ => .ub
    | _, _ => .ub

/-- `operator[]`, core.h 958-961, with a value assigned; the caller's index is below the size -/
def setAt (k : Nat) (c : Char) (v : Buf Mem) : Run (Buf Mem) :=
  if k < v.size then (v.rest.store k (some c)).then (fun m => { v with rest := m }) fun m => .ok { v with rest := m }
  else .ub

end MW

/-- What a program does to buffers: -/
inductive Cmd
  | create (i : Nat)
  | destroy (i : Nat)
  | push (i : Nat) (c : Char)
  | append (i : Nat) (t : Str)
  | reserve (i n : Nat)
  | resize (i n : Nat)
  | clear (i : Nat)
  | set (i k : Nat) (c : Char)
  | format (i : Nat) (l : List Op)
  | moveCtor (i j : Nat)
  | moveAssign (i j : Nat)

/-- one command: `push_back`, core.h 949-952; `append`, format.h 953-966; `reserve` and `resize`, format.h 1107-1114;
`clear`, core.h 929-931; and formatting into the buffer -/
def Cmd.run (fails : Nat → Nat → Bool) (w : MW) : Cmd → Run MW
  | .create i => w.create i
  | .destroy i => w.destroy i
  | .push i c => w.on i (Buf.pushBack (Mem.kind fails) c)
  | .append i t => w.on i (Buf.append (Mem.kind fails) t)
  | .reserve i n => w.on i (Buf.tryReserve (Mem.kind fails) n)
  | .resize i n => w.on i (Buf.tryResize (Mem.kind fails) n)
  | .clear i => w.on i fun v => .ok { v with size := 0 }
  | .set i k c => w.on i (MW.setAt k c)
  | .format i l => w.on i (runOps (Mem.kind fails) l)
  | .moveCtor i j => w.moveCtor fails i j
  | .moveAssign i j => w.moveAssign fails i j

/-! ## Elements of the buffer as arguments -/

/-- copying cells from the storage at `src`, one by one, to the storage `ptr_` points to -/
def Mem.copyFrom (src : Option Nat) : (from_ to n : Nat) → Mem → Run Mem
  | _, _, 0, m => .ok m
  | from_, to, n + 1, m =>
    match m.cells src with
    | none => .ub
    | some cells =>
      match cells[from_]? with
      | none => .ub
      | some c => (m.store to c).andThen (copyFrom src (from_ + 1) (to + 1) n)

/-- `b.push_back(b[k])`, core.h 949-952: the argument is a reference, read after `try_reserve` -/
def MW.pushOwn (fails : Nat → Nat → Bool) (k : Nat) (v : Buf Mem) : Run (Buf Mem) :=
  (v.tryReserve (Mem.kind fails) (wrap (v.size + 1))).andThen fun b =>
    (b.rest.copyFrom v.rest.ptr k b.size 1).then (fun m => { b with rest := m })
      fun m => .ok { b with size := wrap (b.size + 1), rest := m }

/-- `b.append(b.data() + k, b.data() + k + n)`, format.h 953-966, for `n` above zero; the first turn has room for all -/
def MW.appendOwn (fails : Nat → Nat → Bool) (k n : Nat) (v : Buf Mem) : Run (Buf Mem) :=
  (v.tryReserve (Mem.kind fails) (wrap (v.size + n))).andThen fun b =>
    if wrapSub b.capacity b.size < n then .ub
    else
      (b.rest.copyFrom v.rest.ptr k b.size n).then (fun m => { b with rest := m })
        fun m => .ok { b with size := wrap (b.size + n), rest := m }

/-! ## `vformat` -/

/-- what `vformat` does -/
inductive Formatted
  | text (t : Cells)
  | error (m : String)
  | noMemory

/-- `vformat`, format-inl.h 1439-1445, and `to_string`, format.h 4710-4715, in a program with the given buffers: the
local buffer is destroyed in the end, also by an exception.  The operations before a format error are not run: what an
allocation that fails there does is not modelled. -/
def vformatBuffer (fails : Nat → Nat → Bool) (w : MW) (i : Nat) (ops : Res (List Op)) : Option (Formatted × MW) :=
  match ops with
  | .ub => none
  | .err m => some (.error m, w)
  | .ok ops =>
    match w.create i with
    | .ok w1 =>
      match Cmd.run fails w1 (.format i ops) with
      | .ok w2 =>
        match w2.text i, w2.destroy i with
        | some t, .ok w3 => some (.text t, w3)
        | _, _ => none
      | .threw w2 =>
        match w2.destroy i with
        | .ok w3 => some (.noMemory, w3)
        | _ => none
      | .ub => none
    | _ => none

end Fmt
end Efp
