import Verif.CyclicLemmas
import Verif.Prelude

/-!
# Cyclic containers as arguments of the list functions, and views into them

The trait functions of cyclic.hpp (123-161, 351-389): a `Vcb<A, n>` is a sequence of static size `n`, a `Vcq<A, n>` one of static
capacity `n`.  A view (sequence.hpp 1012-1435) is a pointer and a size; here the pointer is a slot of the buffer, and reading
through it reads what the slot holds at that moment.
-/

namespace Efp
namespace Cyclic

variable {α : Type}

namespace Vcb

/-- `v` as the argument of a list function: `length(v)`, `nth(i, v)` and `data(v)` (cyclic.hpp 123-161) -/
def asArg : Cpp (VcbS α) (Prelude.Inp α) := fun s =>
  (do let vals ← window
      pure (⟨.array s.n, vals, 0, false⟩ : Prelude.Inp α)) s

/-- element `i` of a view whose pointer is the slot `p` (sequence.hpp 1029-1035, 1168-1174, 1307-1313): `data(v)` is the slot `off` (cyclic.hpp
89-95) -/
def peek (p i : Nat) : Cpp (VcbS α) α := onMem (Mem.read (p + i))

end Vcb

namespace Vcq

/-- `q` as the argument of a list function (cyclic.hpp 351-389) -/
def asArg : Cpp (VcqS α) (Prelude.Inp α) := fun s =>
  (do let vals ← contents
      pure (⟨.arrVec s.n, vals, 0, false⟩ : Prelude.Inp α)) s

/-- element `i` of a view whose pointer is the slot `p`; `data(q)` is the slot `rd` (cyclic.hpp 319-325) -/
def peek (p i : Nat) : Cpp (VcqS α) α := onMem (Mem.read (p + i))

end Vcq
end Cyclic
end Efp
