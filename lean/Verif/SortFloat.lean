import Verif.Sort
import Verif.Ieee

/-!
# Sorting floating-point numbers (sort.hpp 214-261)
-/

namespace Efp
namespace Sorting

open Ieee

/-- `op_lt<double>` (meta.hpp 215-219): the built-in `<` -/
def opLt (a b : Fp) : Bool := Ieee.lt a b

/-- `quicksort(Vector<double>&)` (sort.hpp 214-218) -/
def quicksortD : Cpp (Mem Fp) Unit := quicksortBy .trivial opLt

/-- `heapsort(Vector<double>&)` (sort.hpp 220-223) -/
def heapsortD : Cpp (Mem Fp) Unit := heapsortBy .trivial opLt

/-- `insertion_sort(Vector<double>&)` (sort.hpp 225-228) -/
def insertionSortD : Cpp (Mem Fp) Unit := insertionSortBy .trivial opLt

/-- `sort(Vector<double>&)`, `timsort(Vector<double>&)` (sort.hpp 235-238, 253-256) -/
def sortD : Cpp (Mem Fp) Unit := sortBy .trivial opLt

/-- `sort_unstable(Vector<double>&)`, `size_trosort(Vector<double>&)` (sort.hpp 230-233, 258-261) -/
def sortUnstableD : Cpp (Mem Fp) Unit := sortUnstableBy .trivial opLt

/-- `merge_sort_by(v, left, right, op_lt<double>)` (sort.hpp 43-52) -/
def mergeSortD (left right : Nat) : Cpp (Mem Fp) Unit := mergeSortBy .trivial opLt left right

end Sorting
end Efp
