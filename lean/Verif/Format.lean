import Verif.Vector
import Verif.ArrVec
import Verif.Array
import Verif.Cyclic

/-!
# Model of the sequence formatters of include/efp/format.hpp

Text is a list of character codes.  How one element is formatted (`value_formatter_.format`) is a parameter
`txt`.  The rest of the formatting library is modelled in `Verif/Fmt`; the format string of these formatters is the
constant `"[{}]"`.
-/

namespace Efp
namespace Format

variable {σ α : Type}

/-- the separator `", "` -/
def comma : List Nat := [44, 32]

/-- the loop of `formatter<join_view>::format`, fmt/format.h 4640-4645: `n` elements left, `get` reads the
element at an iterator position, `out` is the text so far -/
def joinLoop (txt : α → List Nat) (get : Nat → Cpp σ α) : (i n : Nat) → List Nat → Cpp σ (List Nat)
  | _, 0, out => pure out
  | i, n + 1, out => do
    let a ← get i
    joinLoop txt get (i + 1) n (out ++ comma ++ txt a)

/-- `formatter<join_view>::format`, fmt/format.h 4633-4648, for the range of `n` elements from position `i` -/
def join (txt : α → List Nat) (get : Nat → Cpp σ α) (i : Nat) : (n : Nat) → List Nat → Cpp σ (List Nat)
  | 0, out => pure out
  | n + 1, out => do
    let a ← get i
    joinLoop txt get (i + 1) n (out ++ txt a)

/-- `format_to(ctx.out(), "[{}]", join(begin, end, ", "))`, as in format.hpp 62 -/
def bracketed (txt : α → List Nat) (get : Nat → Cpp σ α) (i n : Nat) (out : List Nat) : Cpp σ (List Nat) := do
  let o ← join txt get i n (out ++ [91])
  pure (o ++ [93])

/-- `formatter<Array>::format`, format.hpp 61-63 -/
def ofArray (txt : α → List Nat) : Cpp (ArrS α) (List Nat) := fun s => bracketed txt ArrS.at_ 0 s.n [] s

/-- `formatter<ArrVec>::format`, format.hpp 75-82 -/
def ofArrVec (txt : α → List Nat) : Cpp (AvS α) (List Nat) := fun s => bracketed txt AvS.at_ 0 s.size [] s

/-- `formatter<Vector>::format`, format.hpp 94-97 -/
def ofVector (txt : α → List Nat) : Cpp (VecS α) (List Nat) := fun s => bracketed txt VecS.at_ 0 s.size [] s

/-- `formatter<Vcb>::format`, format.hpp 109-111; `begin()` and `end()` are cyclic.hpp 101-115 -/
def ofVcb (txt : α → List Nat) : Cpp (Cyclic.VcbS α) (List Nat) := fun s =>
  bracketed txt Cyclic.Vcb.at_ 0 (Cyclic.Vcb.size s) [] s

/-- `formatter<Vcq>::format`, format.hpp 123-125; positions are buffer slots, `begin()` and `end()` are cyclic.hpp
327-341 -/
def ofVcq (txt : α → List Nat) : Cpp (Cyclic.VcqS α) (List Nat) := fun s =>
  bracketed txt (fun p => Cyclic.Vcq.onMem (Mem.read p)) s.rd (Cyclic.Vcq.endOff s - s.rd) [] s

end Format
end Efp
