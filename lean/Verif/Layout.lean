import Verif.Core

/-!
# Where the bytes of the elements lie (meta.hpp 861-895, enum.hpp 478-483, sequence.hpp 186, 476-477, cyclic.hpp 118-120,
344-348, meta.hpp 503-563, allocator.hpp 68-70)

The inline containers and the tagged unions keep raw bytes and look at them through `reinterpret_cast`.  Nothing in C++ checks
that the bytes are suitably aligned, that there are enough of them, or that two elements do not share them.  Here every object
has an address, a size and an alignment, and classes are laid out as the Itanium C++ ABI does: each member, in order of
declaration, at the next offset its alignment allows, and the size rounded up to the largest alignment.

Simplification: pointers and `size_t` take 8 bytes (a 64-bit platform).
-/

namespace Efp.Layout

/-- `sizeof` and `alignof` of a type, or of a member declared with `alignas`. -/
structure Ty where
  size : Nat
  align : Nat
deriving DecidableEq, Repr

/-- `size_t` and every object pointer (sequence.hpp 477, cyclic.hpp 120, 346-348) -/
def word : Ty := ⟨8, 8⟩

/-- The first multiple of `a` that is at least `x` (the ABI's rule for offsets and for sizes of classes). -/
def alignUp (x a : Nat) : Nat := (x + (a - 1)) / a * a

/-- `_maximum({...})` of `size_t`s, meta.hpp 798-802: folds `max` (285-289) from `NumericLimits<size_t>::min()`. -/
def maxOf (xs : List Nat) : Nat := xs.foldl (fun a b => if a > b then a else b) 0

/-- The offsets of the members of a class, from offset `o` on (the ABI; no lines in /repo). -/
def offsets : Nat → List Ty → List Nat
  | _, [] => []
  | o, m :: ms => alignUp o m.align :: offsets (alignUp o m.align + m.size) ms

/-- The offset behind the last member (the ABI; no lines in /repo). -/
def endOf : Nat → List Ty → Nat
  | o, [] => o
  | o, m :: ms => endOf (alignUp o m.align + m.size) ms

/-- `sizeof` and `alignof` of a class with these members (the ABI; no lines in /repo). -/
def classTy (ms : List Ty) : Ty :=
  ⟨alignUp (endOf 0 ms) (maxOf (ms.map Ty.align)), maxOf (ms.map Ty.align)⟩

/-- The offset of member number `i`. -/
def offset (ms : List Ty) (i : Nat) : Nat := (offsets 0 ms).getD i 0

/-- `RawStorage<A, n>`, meta.hpp 862-866: the member `alignas(alignof(A)) char _data[n * sizeof(A)]`. -/
def rawStorage (A : Ty) (n : Nat) : Ty := classTy [⟨n * A.size, A.align⟩]

/-- The types of objects.  `plain` is any type the library does not lay out itself: numbers, pointers, user classes, and
`Vector` and `String` objects (three words). -/
inductive Obj where
  | plain (T : Ty)
  /-- `Array<A, n>`, sequence.hpp 33-187 -/
  | array (n : Nat) (A : Obj)
  /-- `ArrVec<A, n>`, sequence.hpp 230-478 -/
  | arrVec (n : Nat) (A : Obj)
  /-- `Vcb<A, n>`, cyclic.hpp 9-121 -/
  | vcb (n : Nat) (A : Obj)
  /-- `Vcq<A, n>`, cyclic.hpp 164-349 -/
  | vcq (n : Nat) (A : Obj)
  /-- `Enum<As...>`, enum.hpp 235-492, and `Maybe<A>`, an `Enum<Nothing, A>` (maybe.hpp 16-29) -/
  | enum (As : List Obj)
  /-- `Tuple<As...>`, meta.hpp 503-597 -/
  | tuple (As : List Obj)

mutual
/-- `sizeof` and `alignof` of a type. -/
def Obj.ty : Obj → Ty
  | .plain T => T
  | .array n A => classTy [rawStorage A.ty n]                       -- sequence.hpp 186
  | .arrVec n A => classTy [rawStorage A.ty n, word]                -- sequence.hpp 476-477
  | .vcb n A => classTy [rawStorage A.ty (2 * n), word]             -- cyclic.hpp 118-120
  | .vcq n A => classTy [rawStorage A.ty (2 * n), word, word, word] -- cyclic.hpp 344-348
  | .enum As =>                                                      -- enum.hpp 479-482
    classTy [⟨maxOf ((tys As).map Ty.size), maxOf ((tys As).map Ty.align)⟩, ⟨1, 1⟩]
  | .tuple As => classTy (tys As)                                    -- meta.hpp 504-531, 554-563
/-- The types of the alternatives or of the parts. -/
def tys : List Obj → List Ty
  | [] => []
  | A :: As => A.ty :: tys As
end

/-- The members of a class of the library, in order of declaration; see `Obj.ty` for the lines. -/
def Obj.members : Obj → List Ty
  | .plain _ => []
  | .array n A => [rawStorage A.ty n]
  | .arrVec n A => [rawStorage A.ty n, word]
  | .vcb n A => [rawStorage A.ty (2 * n), word]
  | .vcq n A => [rawStorage A.ty (2 * n), word, word, word]
  | .enum As => [⟨maxOf ((tys As).map Ty.size), maxOf ((tys As).map Ty.align)⟩, ⟨1, 1⟩]
  | .tuple As => tys As

/-- `RawStorage::operator[]` and `_data + i`, meta.hpp 868-886: the address of element `i` of a storage at `p`. -/
def element (p : Nat) (A : Ty) (i : Nat) : Nat := p + i * A.size

/-- The objects directly inside an object at address `p`: the slots of a container (all of them, used or not), the parts of
a tuple, and every alternative an `Enum` may hold (enum.hpp 244, 291, 325: at the address of `_storage`). -/
def Obj.held (p : Nat) : Obj → List (Nat × Obj)
  | .plain _ => []
  | o@(.array n A) => (List.range n).map fun i => (element (p + offset o.members 0) A.ty i, A)
  | o@(.arrVec n A) => (List.range n).map fun i => (element (p + offset o.members 0) A.ty i, A)
  | o@(.vcb n A) => (List.range (2 * n)).map fun i => (element (p + offset o.members 0) A.ty i, A)
  | o@(.vcq n A) => (List.range (2 * n)).map fun i => (element (p + offset o.members 0) A.ty i, A)
  | o@(.enum As) => As.map fun A => (p + offset o.members 0, A)
  | .tuple As => List.zipWith (fun off A => (p + off, A)) (offsets 0 (tys As)) As

/-- The fields a container keeps beside its elements (address and size): sizes and pointers (sequence.hpp 477, cyclic.hpp 120,
346-348) and the number of the alternative (enum.hpp 482). -/
def Obj.fields (p : Nat) : Obj → List (Nat × Nat)
  | .plain _ => []
  | .array _ _ => []
  | o@(.arrVec _ _) => [(p + offset o.members 1, 8)]
  | o@(.vcb _ _) => [(p + offset o.members 1, 8)]
  | o@(.vcq _ _) => [(p + offset o.members 1, 8), (p + offset o.members 2, 8), (p + offset o.members 3, 8)]
  | o@(.enum _) => [(p + offset o.members 1, 1)]
  | .tuple _ => []

/-- The addresses `::operator new` may return: the multiples of the default alignment, 16 on 64-bit platforms. -/
def newMayReturn (p : Nat) : Prop := 16 ∣ p

/-- `Allocator::allocate(n)`, allocator.hpp 68-70, and `std::allocator<A>::allocate(n)` in C++11, the standard the project is
built with: the number of bytes asked for.  The block lies wherever `::operator new` puts it; `_data + i` is `element`. -/
def allocateBytes (A : Ty) (n : Nat) : Nat := n * A.size

end Efp.Layout
