{"id": "C01", "title": "Vector of trivial elements behaves like a list", "statement": "Starting from an empty Vector<A> of a trivially copyable A, after any sequence of push_back, emplace_back, pop_back, insert, erase, clear, reserve, shrink_to_fit and shrinking resize calls, size() and v[0..size) are exactly what the same operations give on a mathematical list; a call throws exactly when popping from empty, inserting past size or erasing at or past size; no call reads or writes outside the allocated block.", "quantifier": "every element type value, every finite history of operations, every argument", "why_tests_cant": "The set of histories is infinite; growth, shrink and shift boundaries interact, and tests only sample a few short histories.", "anchors": ["include/efp/sequence.hpp:VectorBase::push_back", "include/efp/sequence.hpp:VectorBase::emplace_back", "include/efp/sequence.hpp:VectorBase::pop_back", "include/efp/sequence.hpp:VectorBase::insert", "include/efp/sequence.hpp:VectorBase::erase", "include/efp/sequence.hpp:VectorBase::clear", "include/efp/sequence.hpp:VectorBase::reserve", "include/efp/sequence.hpp:VectorBase::shrink_to_fit", "include/efp/sequence.hpp:VectorBase::resize"]}
{"id": "C02", "title": "Vector always keeps one spare slot", "statement": "After any history of the C01 operations, capacity() is 0 only if nothing was ever allocated, and otherwise capacity() is at least size()+1, so the slot v.data()[size()] always lies inside the allocation.", "quantifier": "every history of operations", "why_tests_cant": "A capacity invariant over unbounded histories; a single off-by-one at one growth step breaks the NUL terminator contract used by String::c_str.", "anchors": ["include/efp/sequence.hpp:VectorBase::reserve", "include/efp/sequence.hpp:VectorBase::push_back", "include/efp/sequence.hpp:VectorBase::insert", "include/efp/sequence.hpp:VectorBase::resize", "include/efp/sequence.hpp:VectorBase::shrink_to_fit"]}
{"id": "C03", "title": "Vector of resource-owning elements: no leak, no double destruction (append/remove-at-end interface)", "statement": "For a Vector whose elements own resources, any history of push_back, emplace_back, pop_back, clear, reserve, shrink_to_fit, insert at the end, followed by destruction of the vector, destroys every element exactly once, never destroys or reads a non-existing object, never constructs over a living one and releases every allocated block once.", "quantifier": "every element value, every history", "why_tests_cant": "Leaks and double frees depend on the exact history of reallocations; a sanitizer sees only the executed ones.", "anchors": ["include/efp/sequence.hpp:VectorBase::reserve", "include/efp/sequence.hpp:VectorBase::shrink_to_fit", "include/efp/sequence.hpp:VectorBase::push_back", "include/efp/sequence.hpp:VectorBase::pop_back", "include/efp/sequence.hpp:VectorBase::clear", "include/efp/sequence.hpp:VectorBase::~VectorBase"]}
{"id": "C04", "title": "Vector insert and erase in the middle are safe for resource-owning elements", "statement": "For a Vector whose elements own resources, insert(i, x) with i < size() and erase(i) with i + 1 < size() move elements without touching a dead or never-constructed object and without losing an element that still has to be destroyed.", "quantifier": "every vector content and every index", "why_tests_cant": "The violation is silent for trivially copyable test elements; it needs all contents and positions with an object lifetime ledger.", "anchors": ["include/efp/sequence.hpp:VectorBase::insert", "include/efp/sequence.hpp:VectorBase::erase"]}
{"id": "C05", "title": "Vector copy assignment makes the target equal to the source", "statement": "After a = b for two Vectors, a == b holds, a.size() == b.size(), b is unchanged and no indeterminate or dead element is observable in a.", "quantifier": "every pair of vectors, of any sizes and capacities", "why_tests_cant": "Depends on the relation between target capacity and source size; a test with one pair of sizes says nothing about the others.", "anchors": ["include/efp/sequence.hpp:VectorBase::operator=(const VectorBase&)"]}
{"id": "C06", "title": "Vector copy construction yields an equal independent vector", "statement": "Vector b(a) gives b == a with its own block: later mutation of one does not show in the other, and destroying both is safe, for every vector a, including an empty default-constructed one.", "quantifier": "every vector a reachable by public operations", "why_tests_cant": "The empty case is a distinct path; independence quantifies over all later histories.", "anchors": ["include/efp/sequence.hpp:VectorBase::VectorBase(const VectorBase&)"]}
{"id": "C07", "title": "A throwing Vector or ArrVec call leaves the container unchanged", "statement": "If pop_back, insert, erase (Vector, ArrVec) or push_back, resize, reserve (ArrVec) throws, contents, size and capacity are those before the call.", "quantifier": "every container state and argument that makes the call throw", "why_tests_cant": "Strong exception guarantee over all states.", "anchors": ["include/efp/sequence.hpp:VectorBase::pop_back", "include/efp/sequence.hpp:VectorBase::insert", "include/efp/sequence.hpp:VectorBase::erase", "include/efp/sequence.hpp:ArrVec::push_back", "include/efp/sequence.hpp:ArrVec::insert", "include/efp/sequence.hpp:ArrVec::erase", "include/efp/sequence.hpp:ArrVec::resize"]}
{"id": "C08", "title": "push_back is amortised constant", "statement": "Building a Vector by n calls of push_back moves fewer than 2*n + c existing elements in total during reallocation, for every n, and the number of reallocations is logarithmic in n.", "quantifier": "every n", "why_tests_cant": "An asymptotic bound cannot be established by timing or counting finitely many n.", "anchors": ["include/efp/sequence.hpp:VectorBase::push_back", "include/efp/sequence.hpp:VectorBase::reserve"]}
{"id": "C09", "title": "Vector move construction and assignment transfer ownership", "statement": "After Vector b(move(a)) or b = move(a), b has exactly the contents a had, a is empty with capacity 0, a can be reused by every operation, and destroying both destroys each element exactly once; self move-assignment changes nothing.", "quantifier": "every pair of vectors and every later history", "why_tests_cant": "Ownership errors show as double frees only in particular histories.", "anchors": ["include/efp/sequence.hpp:VectorBase::VectorBase(VectorBase&&)", "include/efp/sequence.hpp:VectorBase::operator=(VectorBase&&)"]}
{"id": "C10", "title": "ArrVec behaves like a list of bounded length", "statement": "For every history of push_back, pop_back, insert, erase, clear on ArrVec<A, n>, size and contents are those of a list; a call throws exactly when the capacity n would be exceeded, the index is out of range or the vector is empty; size never exceeds n; nothing outside the n slots is accessed.", "quantifier": "every capacity n, element values, histories", "why_tests_cant": "Unbounded histories and all capacities.", "anchors": ["include/efp/sequence.hpp:ArrVec::push_back", "include/efp/sequence.hpp:ArrVec::insert", "include/efp/sequence.hpp:ArrVec::pop_back", "include/efp/sequence.hpp:ArrVec::erase", "include/efp/sequence.hpp:ArrVec::clear"]}
{"id": "C11", "title": "ArrVec of resource-owning elements: no leak, no double destruction", "statement": "For every history of push_back, pop_back, insert, erase, clear, copy construction, copy assignment on ArrVecs of resource-owning elements, each slot below size() holds exactly one living element, every slot above holds none, and no operation touches a dead object.", "quantifier": "every capacity, element values, histories", "why_tests_cant": "Lifetime ledger over unbounded histories.", "anchors": ["include/efp/sequence.hpp:ArrVec::insert", "include/efp/sequence.hpp:ArrVec::erase", "include/efp/sequence.hpp:ArrVec::operator=(const ArrVec&)", "include/efp/sequence.hpp:ArrVec::ArrVec(const ArrVec&)"]}
{"id": "C12", "title": "ArrVec move leaves no living element behind", "statement": "After ArrVec b(move(a)) or b = move(a), b has the contents a had, a is empty, and no element object of a remains alive without ever being destroyed.", "quantifier": "every content of a and b", "why_tests_cant": "A leaked moved-from shell is invisible to value-level tests.", "anchors": ["include/efp/sequence.hpp:ArrVec::ArrVec(ArrVec&&)", "include/efp/sequence.hpp:ArrVec::operator=(ArrVec&&)"]}
{"id": "C13", "title": "Widening ArrVec conversion copies exactly the source elements", "statement": "Constructing ArrVec<A, m> from ArrVec<A, k> (k <= m) yields a vector with the size and the contents of the source and reads only existing elements.", "quantifier": "every k <= m and every source content", "why_tests_cant": "Only sources filled to capacity behave in tests.", "anchors": ["include/efp/sequence.hpp:ArrVec::ArrVec(const ArrVec<Element, ct_size_>&)"]}
{"id": "C14", "title": "Array is a fixed-size value", "statement": "Array<A, n>: construction from a list throws exactly when its length is not n, otherwise element i is the i-th value; copy, move and assignment reproduce the source contents; resize throws exactly for lengths other than n; every slot always holds a living element; element writes change only that index.", "quantifier": "every n, contents and index", "why_tests_cant": "All sizes and contents; the lifetime half is invisible to value tests.", "anchors": ["include/efp/sequence.hpp:Array"]}
{"id": "C15", "title": "Container equality is extensional", "statement": "For two Arrays, ArrVecs or Vectors a and b (equal element types), a == b returns true exactly when the sizes agree and all elements compare equal; it is an equivalence relation when element equality is, independent of capacities.", "quantifier": "every pair of containers", "why_tests_cant": "Quantifies over all pairs.", "anchors": ["include/efp/sequence.hpp:Array::operator==", "include/efp/sequence.hpp:ArrVec::operator==", "include/efp/sequence.hpp:VectorBase::operator=="]}
{"id": "C16", "title": "View equality compares the viewed contents", "statement": "Two views (ArrayView, ArrVecView, VectorView, StringView) over sequences with equal contents compare equal, as README calls them immutable sequence views.", "quantifier": "every pair of views", "why_tests_cant": "Quantifies over all memory placements of equal contents; literals in tests are pooled to the same address.", "anchors": ["include/efp/sequence.hpp:ArrayView::operator==", "include/efp/sequence.hpp:ArrVecView::operator==", "include/efp/sequence.hpp:VectorViewBase::operator==", "include/efp/string.hpp:VectorView"]}
{"id": "C17", "title": "Pushing an own element is safe", "statement": "v.push_back(v[i]) for a valid index i appends a copy of that element, whatever the current capacity.", "quantifier": "every vector state and valid index", "why_tests_cant": "Fails only in states where the push reallocates.", "anchors": ["include/efp/sequence.hpp:VectorBase::push_back"]}
{"id": "C18", "title": "String editing operations are list editing operations", "statement": "append(cstr), append(n, c), assign, operator+= with another string, insert(pos, cstr), insert(pos, cstr, n), substr and copy produce exactly the string obtained by the corresponding list operation, throw exactly for pos > size(), clamp lengths as documented and never access memory outside the two strings.", "quantifier": "every string, position, count and argument string", "why_tests_cant": "Infinite input space with boundary positions.", "anchors": ["include/efp/string.hpp:Vector::append", "include/efp/string.hpp:Vector::assign", "include/efp/string.hpp:Vector::insert", "include/efp/string.hpp:Vector::substr", "include/efp/string.hpp:Vector::copy", "include/efp/string.hpp:Vector::operator+="]}
{"id": "C19", "title": "c_str returns the NUL-terminated contents", "statement": "For every String, whatever its history, c_str() is safe and yields size() characters equal to the contents followed by NUL.", "quantifier": "every string reachable by public constructors and operations", "why_tests_cant": "The terminator slot depends on the capacity left by the last operation in the history.", "anchors": ["include/efp/string.hpp:Vector::c_str", "include/efp/string.hpp:Vector::Vector(size_t, Char)", "include/efp/string.hpp:Vector::insert"]}
{"id": "C20", "title": "String compare orders strings lexicographically", "statement": "a.compare(b) is 0 exactly when a and b have the same characters, negative or positive according to lexicographic order otherwise, and reads only the characters of a and b.", "quantifier": "every pair of strings", "why_tests_cant": "Only equal-length strings are tested.", "anchors": ["include/efp/string.hpp:Vector::compare"]}
{"id": "C21", "title": "Appending a string to itself doubles it", "statement": "s += s terminates and leaves s with its former contents twice.", "quantifier": "every string s", "why_tests_cant": "Non-termination cannot be observed by a finite test.", "anchors": ["include/efp/string.hpp:Vector::operator+="]}
{"id": "C22", "title": "String comparison with a C string is exact", "statement": "s == cstr is true exactly when s and cstr hold the same characters; a null pointer equals only a string with no storage.", "quantifier": "every string and C string, including null", "why_tests_cant": "All pairs.", "anchors": ["include/efp/string.hpp:Vector::operator==(const Char*)"]}
{"id": "C23", "title": "Vcb is a sliding window over the last n pushes", "statement": "A Vcb<A, n> always shows, at indexes 0..n-1, oldest first, the last n values pushed (default values where fewer were pushed), and data()..data()+n is that same window stored contiguously, after any number of pushes.", "quantifier": "every n >= 1 and every push history", "why_tests_cant": "Wrap-around depends on the history length modulo n, unbounded.", "anchors": ["include/efp/cyclic.hpp:Vcb::push_back", "include/efp/cyclic.hpp:Vcb::operator[]", "include/efp/cyclic.hpp:Vcb::begin", "include/efp/cyclic.hpp:Vcb::end"]}
{"id": "C24", "title": "Writing through a Vcb element persists until evicted", "statement": "After vcb[i] = x the window shows x at the element's position and keeps showing it, moving one place down per push, until it leaves the window.", "quantifier": "every n, index, history before and after the write", "why_tests_cant": "The lost copy shows only after the window wraps past the written slot.", "anchors": ["include/efp/cyclic.hpp:Vcb::operator[]"]}
{"id": "C25", "title": "Vcq is a bounded FIFO queue that drops the oldest", "statement": "For every history of push_back and pop_front (pop only when non-empty) on Vcq<A, n>, size() and indexes 0..size()-1 are those of a FIFO list where a push onto n elements first drops the oldest; pop_front returns the oldest; data() exposes the queue contents contiguously.", "quantifier": "every n >= 1 and every history", "why_tests_cant": "Offsets wrap at n in unbounded histories.", "anchors": ["include/efp/cyclic.hpp:Vcq::push_back", "include/efp/cyclic.hpp:Vcq::pop_front", "include/efp/cyclic.hpp:Vcq::operator[]", "include/efp/cyclic.hpp:Vcq::size"]}
{"id": "C26", "title": "Copying or moving a Vcq preserves its contents", "statement": "A copy-constructed, copy-assigned, move-constructed or move-assigned Vcq shows the same queue as the source and keeps the double-mapped window consistent.", "quantifier": "every queue state, including rotated ones", "why_tests_cant": "Correct only for unrotated queues; tests copy fresh queues.", "anchors": ["include/efp/cyclic.hpp:Vcq::Vcq(const Vcq&)", "include/efp/cyclic.hpp:Vcq::operator=", "include/efp/cyclic.hpp:Vcq::Vcq(Vcq&&)"]}
{"id": "C27", "title": "Iterating a Vcq visits exactly its elements", "statement": "begin()..end() of a Vcq visits size() elements, oldest first, for every queue including the empty one.", "quantifier": "every queue state", "why_tests_cant": "Empty and wrapped states are distinct paths.", "anchors": ["include/efp/cyclic.hpp:Vcq::begin", "include/efp/cyclic.hpp:Vcq::end"]}
{"id": "C28", "title": "Vcq lifetimes of resource-owning elements", "statement": "Over any push_back/pop_front history and destruction, a Vcq of resource-owning elements destroys both mirror copies of every element exactly once and touches no dead object.", "quantifier": "every n >= 1 and history", "why_tests_cant": "Lifetime ledger across wrap-around.", "anchors": ["include/efp/cyclic.hpp:Vcq::push_back", "include/efp/cyclic.hpp:Vcq::pop_front", "include/efp/cyclic.hpp:Vcq::~Vcq"]}
{"id": "C29", "title": "Unbounded BlockingQ delivers every element once, in FIFO order", "statement": "For any number of producer and consumer threads and any interleaving (including spurious wake-ups), the elements dequeued so far followed by those still queued are exactly the elements enqueued so far, in order.", "quantifier": "every number of threads, program and schedule", "why_tests_cant": "All interleavings.", "anchors": ["include/efp/concurrency.hpp:BlockingQ<A, dyn>"]}
{"id": "C30", "title": "Bounded BlockingQ: what may be lost is exactly the overflow", "statement": "With capacity n the queue never holds more than n elements; under any schedule each dequeued element was enqueued, elements come out in enqueue order without duplicates, and an element is lost only if n later elements were enqueued while it waited.", "quantifier": "every capacity n >= 1, threads and schedules", "why_tests_cant": "All interleavings and histories.", "anchors": ["include/efp/concurrency.hpp:BlockingQ"]}
{"id": "C31", "title": "BlockingQ critical sections are mutually exclusive", "statement": "In every reachable state at most one thread is inside an enqueue, dequeue or emptiness critical section of one BlockingQ, so no two threads access the underlying queue at once, and dequeue never pops an empty queue.", "quantifier": "every number of threads and every schedule", "why_tests_cant": "All interleavings; also TOCTOU between wake-up and pop.", "anchors": ["include/efp/concurrency.hpp:BlockingQ::enqueue", "include/efp/concurrency.hpp:BlockingQ::dequeue"]}
{"id": "C32", "title": "BlockingQ has no lost wake-up", "statement": "No reachable state is stuck with a queued element and only sleeping consumers: whenever some consumer is asleep un-notified and nobody holds or is waiting for the lock, the queue is empty.", "quantifier": "every number of threads and every schedule", "why_tests_cant": "A lost wake-up needs a specific interleaving.", "anchors": ["include/efp/concurrency.hpp:BlockingQ::enqueue", "include/efp/concurrency.hpp:BlockingQ::dequeue"]}
{"id": "C33", "title": "NonBlockingQ dequeue returns the oldest element or nothing, never blocks", "statement": "Under any schedule NonBlockingQ::dequeue returns nothing exactly when the queue was empty at its critical section, else the oldest element; enqueue/dequeue keep the FIFO accounting of C29/C30.", "quantifier": "every number of threads and schedules", "why_tests_cant": "All interleavings.", "anchors": ["include/efp/concurrency.hpp:NonBlockingQ"]}
{"id": "C34", "title": "DoubleBuffer delivers elements in enqueue order", "statement": "With producers calling enqueue and one consumer calling swap_buffer and dequeue, elements come out in the order they were enqueued and none is lost while fewer than n are pending.", "quantifier": "every capacity, every schedule of enqueue, swap, dequeue", "why_tests_cant": "All interleavings and histories of swaps.", "anchors": ["include/efp/concurrency.hpp:DoubleBuffer"]}
{"id": "C35", "title": "Every sort permutes its input, whatever the comparator", "statement": "quicksort_by, heapsort_by, insertion_sort_by, merge_sort_by, size_trosort_by (sort_unstable_by) and timsort_by (sort_by) terminate, access only existing elements and leave a permutation of the input, for every comparison function, even an inconsistent one.", "quantifier": "every vector and every total comparator function", "why_tests_cant": "Adversarial comparators and all sizes.", "anchors": ["include/efp/sort.hpp:quicksort_by", "include/efp/sort.hpp:heapsort_by", "include/efp/sort.hpp:insertion_sort_by", "include/efp/sort.hpp:merge_sort_by", "include/efp/sort.hpp:timsort_by", "include/efp/sort.hpp:size_trosort_by"]}
{"id": "C36", "title": "quicksort sorts", "statement": "For every strict weak order the result of quicksort(_by) is sorted: no later element is less than an earlier one.", "quantifier": "every vector and strict weak order", "why_tests_cant": "All inputs and orders.", "anchors": ["include/efp/sort.hpp:partition_by", "include/efp/sort.hpp:quicksort_by"]}
{"id": "C37", "title": "heapsort sorts", "statement": "For every strict weak order the result of heapsort(_by) is sorted.", "quantifier": "every vector and strict weak order", "why_tests_cant": "All inputs and orders.", "anchors": ["include/efp/sort.hpp:max_heapify_by", "include/efp/sort.hpp:heapsort_by"]}
{"id": "C38", "title": "insertion_sort sorts and is stable", "statement": "For every strict weak order the result of insertion_sort(_by) is sorted and equivalent elements keep their input order.", "quantifier": "every vector and strict weak order", "why_tests_cant": "All inputs; stability needs distinguishable equal keys.", "anchors": ["include/efp/sort.hpp:insertion_sort_by_", "include/efp/sort.hpp:insertion_sort_by"]}
{"id": "C39", "title": "merge_sort_by sorts the given range and only it, stably", "statement": "merge_sort_by(v, l, r, comp) with valid l, r leaves v[l..r] sorted, is stable, and leaves the elements outside untouched.", "quantifier": "every vector, range and strict weak order", "why_tests_cant": "All inputs and ranges.", "anchors": ["include/efp/sort.hpp:merge", "include/efp/sort.hpp:merge_sort_by"]}
{"id": "C40", "title": "sort_unstable sorts", "statement": "For every strict weak order the result of sort_unstable(_by) is sorted.", "quantifier": "every vector and strict weak order", "why_tests_cant": "All inputs and orders.", "anchors": ["include/efp/sort.hpp:size_trosort_by", "include/efp/sort.hpp:sort_unstable_by"]}
{"id": "C41", "title": "sort sorts stably", "statement": "For every strict weak order the result of sort(_by) is sorted and equivalent elements keep their input order.", "quantifier": "every vector and strict weak order", "why_tests_cant": "Behaviour changes at multiples of the run length 32; tests use short vectors.", "anchors": ["include/efp/sort.hpp:timsort_merge", "include/efp/sort.hpp:timsort_by", "include/efp/sort.hpp:sort_by", "include/efp/sort.hpp:sort"]}
{"id": "C42", "title": "map applies the function pointwise up to the shortest argument", "statement": "map(f, as, bs...) has the length of the shortest argument and element i is f(as[i], bs[i]...); f is applied exactly once per index in increasing order; map obeys map id = id and map g . map f = map (g . f); map_with_index passes the index. This is for results of trivially copyable elements, and for results of any element type when the result is a statically sized Array; the remaining results are the subject of C55.", "quantifier": "every function and argument sequences", "why_tests_cant": "All functions and lengths.", "anchors": ["include/efp/prelude.hpp:map", "include/efp/prelude.hpp:map_with_index", "include/efp/prelude.hpp:_min_length"]}
{"id": "C43", "title": "filter keeps exactly the satisfying elements in order", "statement": "filter(p, as) consists of the elements satisfying p, in order and with multiplicity, and never overflows its result type.", "quantifier": "every predicate and sequence", "why_tests_cant": "All inputs.", "anchors": ["include/efp/prelude.hpp:filter"]}
{"id": "C44", "title": "folds follow the list definition", "statement": "foldl(f, z, as) = f(...f(f(z, as[0]), as[1])..., as[n-1]) and foldr(f, z, as) = f(as[0], f(as[1], ... f(as[n-1], z))), each calling f exactly once per element in that order.", "quantifier": "every function, seed and sequences", "why_tests_cant": "All inputs.", "anchors": ["include/efp/prelude.hpp:foldl", "include/efp/prelude.hpp:foldr"]}
{"id": "C45", "title": "append concatenates its arguments left to right", "statement": "append(as, bs, cs...) has the elements of as, then bs, then cs, on every conforming compiler. This is for results of trivially copyable elements, and for results of any element type when the result is a statically sized Array; the remaining results are the subject of C55.", "quantifier": "every argument list and every evaluation order the language permits", "why_tests_cant": "Unspecified evaluation order varies between compilers; tests use equal arguments.", "anchors": ["include/efp/prelude.hpp:append", "include/efp/prelude.hpp:execute_pack"]}
{"id": "C46", "title": "concat flattens and intercalate joins", "statement": "concat(xss) is the concatenation of the inner sequences; intercalate(d, xss) puts d between consecutive inner sequences and nowhere else; both are empty for an empty list. This is for results of trivially copyable elements, and for results of any element type when the result is a statically sized Array; the remaining results are the subject of C55.", "quantifier": "every nested sequence and delimiter", "why_tests_cant": "All inputs.", "anchors": ["include/efp/prelude.hpp:concat", "include/efp/prelude.hpp:intercalate"]}
{"id": "C47", "title": "from_function tabulates", "statement": "from_function(n, f) has length n and element i is f(i), f called once per index in increasing order. This is for results of trivially copyable elements, and for results of any element type when the result is a statically sized Array; the remaining results are the subject of C55.", "quantifier": "every n and f", "why_tests_cant": "All inputs.", "anchors": ["include/efp/prelude.hpp:from_function"]}
{"id": "C48", "title": "take and drop partition any sequence", "statement": "take(n, as) is the first min(n, length) elements, drop(n, as) the rest, and take followed by drop is as; no out-of-range access for any n. For n within the length the unchecked variants agree with them, and a view converted to a more general view class shows the same elements.", "quantifier": "every n and sequence", "why_tests_cant": "All n including beyond the length.", "anchors": ["include/efp/prelude.hpp:take", "include/efp/prelude.hpp:drop", "include/efp/prelude.hpp:take_unsafe", "include/efp/prelude.hpp:drop_unsafe", "include/efp/sequence.hpp:ArrVecView", "include/efp/sequence.hpp:VectorView"]}
{"id": "C49", "title": "slice(start, end, as) is the elements start..end-1 that exist", "statement": "slice clamps to the sequence as take and drop do and never accesses elements outside it.", "quantifier": "every start, end and sequence", "why_tests_cant": "All bounds including reversed and too large.", "anchors": ["include/efp/prelude.hpp:slice", "include/efp/prelude.hpp:slice_unsafe"]}
{"id": "C50", "title": "head, tail, init, last agree with the list", "statement": "For non-empty sequences head/last give the first/last element, tail/init all but the first/last; all four throw exactly on an empty sequence, which is what is_null tells.", "quantifier": "every sequence", "why_tests_cant": "All lengths including zero.", "anchors": ["include/efp/prelude.hpp:head", "include/efp/prelude.hpp:is_null", "include/efp/prelude.hpp:tail", "include/efp/prelude.hpp:init", "include/efp/prelude.hpp:last"]}
{"id": "C51", "title": "searches return the first match or nothing", "statement": "elem and find are true exactly when a match exists; elem_index and find_index return the first matching index, and nothing exactly when none matches; elem_indices, find_indices return all matching indices in increasing order.", "quantifier": "every predicate and sequence", "why_tests_cant": "All inputs.", "anchors": ["include/efp/prelude.hpp:elem", "include/efp/prelude.hpp:elem_index", "include/efp/prelude.hpp:elem_indices", "include/efp/prelude.hpp:find", "include/efp/prelude.hpp:find_index", "include/efp/prelude.hpp:find_indices"]}
{"id": "C52", "title": "cartesian functions enumerate the product in lexicographic order", "statement": "cartesian_for_each / cartesian_map / cartesian_for_index visit every combination exactly once, last argument fastest, and cartesian_map has the product length. This is for results of trivially copyable elements, and for results of any element type when the result is a statically sized Array; the remaining results are the subject of C55.", "quantifier": "every list of argument sequences", "why_tests_cant": "All arities and lengths.", "anchors": ["include/efp/prelude.hpp:cartesian_for_each", "include/efp/prelude.hpp:cartesian_map", "include/efp/prelude.hpp:cartesian_for_index"]}
{"id": "C53", "title": "iteration functions visit in order with the right index", "statement": "for_each, for_each_with_index, for_index call their function on indices 0..n-1 in order, n the shortest length; the _mut versions change exactly the visited elements.", "quantifier": "every function with state and sequences", "why_tests_cant": "All inputs and effects.", "anchors": ["include/efp/prelude.hpp:for_each", "include/efp/prelude.hpp:for_each_with_index", "include/efp/prelude.hpp:for_index"]}
{"id": "C54", "title": "sequence-returning functions never overflow their result type", "statement": "The static size/capacity chosen for the result of map, filter, append, concat, intercalate, cartesian_map, take, tail, init, from_function always suffices: no call throws a capacity error (intercalate: for a non-empty list; the empty one is in C46).", "quantifier": "every combination of static, bounded and dynamic argument types and run-time lengths", "why_tests_cant": "Infinite family of types.", "anchors": ["include/efp/prelude.hpp:MapReturn", "include/efp/prelude.hpp:AppendReturn", "include/efp/prelude.hpp:ConcatReturn", "include/efp/prelude.hpp:IntercalateReturn", "include/efp/prelude.hpp:FilterReturn"]}
{"id": "C55", "title": "map and friends construct resource-owning results properly", "statement": "map, map_with_index, from_function and cartesian_map producing resource-owning elements into any result container only assign to constructed objects.", "quantifier": "every function and sequence", "why_tests_cant": "UB hidden behind zeroed memory; needs a lifetime ledger.", "anchors": ["include/efp/prelude.hpp:map", "include/efp/prelude.hpp:from_function", "include/efp/prelude.hpp:cartesian_map", "include/efp/sequence.hpp:VectorBase::resize"]}
{"id": "C56", "title": "Enum match runs exactly the branch of the stored alternative", "statement": "For an Enum with any number of alternatives (up to the documented 256), match calls exactly one branch: the one selected for the stored alternative, with the stored value; the wildcard runs exactly for alternatives without their own branch.", "quantifier": "every alternative count, stored alternative, value and branch set", "why_tests_cant": "Each alternative count is a different instantiation of a nested switch.", "anchors": ["include/efp/enum.hpp:EnumSwitch", "include/efp/enum.hpp:EnumBase::match", "include/efp/enum.hpp:power_2_ceiling"]}
{"id": "C57", "title": "Enum get and move succeed exactly for the stored alternative", "statement": "get<i>(), get<T>(), move<T>() return the stored value when alternative i (the first alternative of type T) is stored and throw otherwise.", "quantifier": "every alternative list, stored alternative, index", "why_tests_cant": "All instantiations.", "anchors": ["include/efp/enum.hpp:EnumBase::get", "include/efp/enum.hpp:EnumBase::move"]}
{"id": "C58", "title": "Enum copies, moves and assignments keep exactly one living alternative", "statement": "Any history of construction, copy, move, assignment between Enum variables and destruction keeps exactly one living object per Enum, of the recorded alternative, and destroys each exactly once; assignment yields the source's alternative and value.", "quantifier": "every history over any set of Enum variables", "why_tests_cant": "Lifetime ledger over unbounded histories.", "anchors": ["include/efp/enum.hpp:EnumBase"]}
{"id": "C59", "title": "Enum assignment is safe when an element copy throws", "statement": "If copying the source alternative throws during assignment, the target Enum is still a valid object that can be destroyed or read.", "quantifier": "every pair of states and every throwing point", "why_tests_cant": "Crash point in the middle of assignment.", "anchors": ["include/efp/enum.hpp:EnumBase::operator="]}
{"id": "C60", "title": "Enum equality", "statement": "a == b exactly when both store the same alternative and the stored values are equal; != is its negation.", "quantifier": "every pair", "why_tests_cant": "All pairs.", "anchors": ["include/efp/enum.hpp:EnumBase::operator=="]}
{"id": "C61", "title": "Maybe is a lawful functor, applicative and monad", "statement": "fmap id = id, fmap composes, pure/bind satisfy left identity, right identity and associativity, nothing is absorbing, value()/move() return the value exactly when has_value().", "quantifier": "every value and function", "why_tests_cant": "Laws quantify over all functions.", "anchors": ["include/efp/maybe.hpp:Maybe::fmap", "include/efp/maybe.hpp:bind", "include/efp/maybe.hpp:pure", "include/efp/maybe.hpp:ap"]}
{"id": "C62", "title": "Tuple projections and equality", "statement": "get<i>(tuple(xs...)) is xs_i; two tuples are equal exactly when all components are; assignment through get changes only that component.", "quantifier": "every arity and component values", "why_tests_cant": "All arities.", "anchors": ["include/efp/meta.hpp:Tuple", "include/efp/meta.hpp:get", "include/efp/meta.hpp:operator=="]}
{"id": "C63", "title": "compile-time folds and type lookups", "statement": "all/any/maximum/minimum/sum/product over value packs equal the mathematical ones; Find returns the first index of the type; PackAt the n-th type; power_2_ceiling(n) is the least power of two not below n for every alternative count.", "quantifier": "every pack", "why_tests_cant": "All packs; recursion depth unbounded.", "anchors": ["include/efp/meta.hpp:_all", "include/efp/meta.hpp:_maximum", "include/efp/meta.hpp:_sum", "include/efp/meta.hpp:Find", "include/efp/meta.hpp:PackAt", "include/efp/enum.hpp:power_2_ceiling"]}
{"id": "C64", "title": "compose applies right to left and is associative", "statement": "compose(f, g, h...)(xs...) = f(g(h(xs...))); composition is associative.", "quantifier": "every chain of functions", "why_tests_cant": "All functions and chain lengths.", "anchors": ["include/efp/prelude.hpp:compose"]}
{"id": "C65", "title": "func_ptr gives each function object its own C function pointer", "statement": "The C function pointer obtained from func_ptr(f) always calls the f it was obtained from, whatever other registrations happen.", "quantifier": "every history of registrations and calls", "why_tests_cant": "Aliasing needs two objects of the same closure type.", "anchors": ["include/efp/c_utility.hpp:func_ptr"]}
{"id": "C66", "title": "Line reading splits a file at newlines without loss", "statement": "read_line returns the text up to and excluding the next newline or nothing at end of file; read_lines returns all lines; joining them with newlines reproduces the file contents.", "quantifier": "every file content, including long lines and missing final newline", "why_tests_cant": "Lines longer than the internal buffer and all contents.", "anchors": ["include/efp/io.hpp:File::read_line", "include/efp/io.hpp:File::read_lines"]}
{"id": "C67", "title": "File handles are released exactly once and keep their mode", "statement": "For every history of open, move, write, close and destruction each opened handle is closed exactly once, and write decides text or binary by the mode given to open.", "quantifier": "every history", "why_tests_cant": "Ownership over unbounded histories.", "anchors": ["include/efp/io.hpp:File"]}
{"id": "C68", "title": "max_elem, min_elem and max_min find the extrema", "statement": "For a non-empty sequence max_elem is an element not below any other, min_elem one not above any other, max_min is their difference.", "quantifier": "every sequence, for signed, unsigned and floating element types", "why_tests_cant": "Initial value matters only for all-negative inputs.", "anchors": ["include/efp/numeric.hpp:max_elem", "include/efp/numeric.hpp:min_elem", "include/efp/numeric.hpp:max_min"]}
{"id": "C69", "title": "mean, variance, covariance satisfy their algebra in exact arithmetic", "statement": "In exact arithmetic mean is the average, variance is the mean squared deviation and equals covariance of a sequence with itself and autocovariance at lag 0, shifting leaves it unchanged, scaling scales quadratically, remove_dc has mean zero.", "quantifier": "every sequence", "why_tests_cant": "All inputs.", "anchors": ["include/efp/scientific.hpp:mean", "include/efp/scientific.hpp:variance", "include/efp/scientific.hpp:covariance", "include/efp/scientific.hpp:autocovariance", "include/efp/scientific.hpp:remove_dc"]}
{"id": "C70", "title": "linear_regression is the least squares optimum", "statement": "In exact arithmetic the returned line minimises the sum of squared residuals among all lines, recovers exactly collinear data, linear_regression_with_index agrees with linear_regression on indices, and detrend removes any added linear trend.", "quantifier": "every data set with at least two distinct abscissae", "why_tests_cant": "All inputs and all competing lines.", "anchors": ["include/efp/scientific.hpp:linear_regression", "include/efp/scientific.hpp:linear_regression_with_index", "include/efp/scientific.hpp:detrend"]}
{"id": "C71", "title": "autocovariance is defined for every lag", "statement": "autocovariance(as, lag) accesses only elements of as for every lag value.", "quantifier": "every sequence and lag", "why_tests_cant": "All lags including beyond the length and negative.", "anchors": ["include/efp/scientific.hpp:autocovariance"]}
{"id": "C72", "title": "formatting a sequence lists its elements", "statement": "Formatting an Array, ArrVec, Vector, Vcb or Vcq gives \"[\", the element texts joined by \", \", \"]\", and the text determines the element texts when none contains the separator.", "quantifier": "every sequence", "why_tests_cant": "All lengths.", "anchors": ["include/efp/format.hpp:formatter"]}
{"id": "C73", "title": "Copying and moving a Vcb preserves the window and its lifetimes", "statement": "A copy-constructed, copy-assigned, move-constructed or move-assigned Vcb shows the window of its source and slides on like it; source, target and self-assignment leave every element object destroyed exactly once at the end.", "quantifier": "every n >= 1, push history and target history", "why_tests_cant": "All histories; self-assignment is a separate path.", "anchors": ["include/efp/cyclic.hpp:Vcb::Vcb(const Vcb&)", "include/efp/cyclic.hpp:Vcb::operator=", "include/efp/cyclic.hpp:Vcb::Vcb(Vcb&&)", "include/efp/cyclic.hpp:Vcb::~Vcb"]}
{"id": "C74", "title": "Writing through a Vcq element changes that element of the queue", "statement": "After q[i] = x the queue is the same with element i replaced: q[i] reads x, later pushes and pops see x, and pop_front eventually returns x.", "quantifier": "every n >= 1, history before and after, index", "why_tests_cant": "The two mirrors are written separately; only wrapped histories show it.", "anchors": ["include/efp/cyclic.hpp:Vcq::operator[]", "include/efp/cyclic.hpp:Vcq::pop_front"]}
{"id": "C75", "title": "A Vcq can push one of its own elements", "statement": "q.push_back(q[i]) pushes the value q[i] had before the call.", "quantifier": "every queue state and index", "why_tests_cant": "Aliasing with the element that a full queue drops.", "anchors": ["include/efp/cyclic.hpp:Vcq::push_back"]}
{"id": "C76", "title": "String at, front and back", "statement": "at(i) returns character i and throws exactly for i >= size(); front() and back() are the first and last character of a non-empty string.", "quantifier": "every string and index", "why_tests_cant": "All strings, indices.", "anchors": ["include/efp/string.hpp:Vector<Char>::at", "include/efp/string.hpp:Vector<Char>::front", "include/efp/string.hpp:Vector<Char>::back"]}
{"id": "C77", "title": "A StringView shows the characters it was made from", "statement": "A StringView made from a C string or String shows exactly those characters, equals a C string exactly when the characters are the same, and views of the same characters at the same address are equal.", "quantifier": "every C string and String", "why_tests_cant": "All strings; constructors initialise different members.", "anchors": ["include/efp/string.hpp:VectorView<const Char>::VectorView", "include/efp/string.hpp:VectorView<const Char>::operator=="]}
{"id": "C78", "title": "Every NonBlockingQ operation may run concurrently with every other", "statement": "No interleaving of enqueue, dequeue and is_empty calls from different threads lets two threads access the underlying queue at the same time with one of them modifying it.", "quantifier": "every number of threads and every schedule", "why_tests_cant": "A data race needs a specific interleaving and is silent.", "anchors": ["include/efp/concurrency.hpp:NonBlockingQ::is_empty", "include/efp/concurrency.hpp:NonBlockingQ::enqueue"]}
{"id": "C79", "title": "swap exchanges the two objects", "statement": "swap(a, b) exchanges the contents of a and b, whatever they are and whether or not moving leaves the source changed; swap(a, a) keeps a.", "quantifier": "every pair of objects of every movable type", "why_tests_cant": "Self-swap and moved-from intermediate states need a type that shows them.", "anchors": ["include/efp/meta.hpp:swap"]}
{"id": "C80", "title": "max, min and clamp", "statement": "For totally ordered values max and min return the greater and the lesser argument, and clamp(lower, upper, x) lies within the bounds, is x when x does and the nearer bound otherwise.", "quantifier": "all values with lower <= upper", "why_tests_cant": "All inputs.", "anchors": ["include/efp/meta.hpp:max", "include/efp/meta.hpp:min", "include/efp/meta.hpp:clamp"]}
{"id": "C81", "title": "A stored composition can be called later", "statement": "The result of compose(f, g, ...) can be stored and called after the statement that made it, whatever expressions the functions were given by.", "quantifier": "every chain, temporaries included", "why_tests_cant": "A dangling reference often still works.", "anchors": ["include/efp/prelude.hpp:compose", "include/efp/prelude.hpp:Composed"]}
{"id": "C82", "title": "sum and product of an integer sequence", "statement": "sum and product return the mathematical sum and product of the elements whenever that is representable in the element type.", "quantifier": "every integer element type and every sequence", "why_tests_cant": "Intermediate overflow depends on the order of the elements.", "anchors": ["include/efp/numeric.hpp:sum", "include/efp/numeric.hpp:product"]}
{"id": "C83", "title": "abs and square of an integer", "statement": "abs(x) is the absolute value of x, never negative; square(x) is x times x whenever that is representable.", "quantifier": "every integer type and value", "why_tests_cant": "The lowest value of a type is the only one that can differ.", "anchors": ["include/efp/numeric.hpp:abs", "include/efp/numeric.hpp:square"]}
{"id": "C84", "title": "is_approx compares two numbers up to epsilon", "statement": "is_approx(a, b) holds exactly when a and b differ by at most the epsilon of the type of higher precision; it is symmetric.", "quantifier": "every pair of arithmetic types and values", "why_tests_cant": "All pairs of values and of types.", "anchors": ["include/efp/numeric.hpp:is_approx"]}
{"id": "C85", "title": "mean of an integer sequence", "statement": "mean of a non-empty sequence of integers, with a floating-point result, is the average of the elements.", "quantifier": "every integer element type and sequence", "why_tests_cant": "The sum is formed in the element type; only long or large data show it.", "anchors": ["include/efp/scientific.hpp:mean", "include/efp/numeric.hpp:sum"]}
{"id": "C86", "title": "Correlations are between -1 and 1", "statement": "In exact arithmetic correlation of two non-constant sequences of one length is symmetric and in [-1, 1]; autocorrelation without adjustment is in [-1, 1] for every lag below the length and is 1 at lag 0.", "quantifier": "all non-constant sequences, lags, both corrections", "why_tests_cant": "An inequality (Cauchy-Schwarz) over all real sequences.", "anchors": ["include/efp/scientific.hpp:correlation", "include/efp/scientific.hpp:autocorrelation"]}
{"id": "C87", "title": "Error measures vanish exactly on agreement", "statement": "sse, mse and rmse are symmetric, non-negative, and sse and mse are zero exactly when the corresponding elements are equal; mse is sse divided by the common length. rms is never negative, zero exactly when all elements are, and its square is the squared mean plus the variance.", "quantifier": "all pairs of non-empty sequences", "why_tests_cant": "All real sequences.", "anchors": ["include/efp/scientific.hpp:sse", "include/efp/scientific.hpp:mse", "include/efp/scientific.hpp:rmse", "include/efp/scientific.hpp:rms"]}
{"id": "C88", "title": "Files without a handle are inert, and positions can be revisited", "statement": "After close or after being moved from, every operation of a File reports failure and touches no stream and no other File; on an open File, seek to a position reported by tell makes the following reads deliver the same bytes again.", "quantifier": "every history, file content and position", "why_tests_cant": "Unbounded histories and contents.", "anchors": ["include/efp/io.hpp:File::seek", "include/efp/io.hpp:File::tell", "include/efp/io.hpp:File::write", "include/efp/io.hpp:File::close"]}
{"id": "C89", "title": "Programs over many Vectors behave like programs over lists", "statement": "In every program over any number of Vectors - constructions, copies, moves, copy and move assignments (self-assignment included), swaps, member calls and destructions in any order - every Vector holds exactly the list the same program computes on plain lists, no Vector is affected by an operation on another one, every element constructed is destroyed exactly once and every block allocated is freed exactly once.", "quantifier": "all programs over any number of variables, all element values, trivial and resource-owning elements", "why_tests_cant": "Interleavings of operations on many objects cannot be enumerated, and ownership errors show only for particular interleavings.", "anchors": ["include/efp/sequence.hpp:VectorBase", "include/efp/meta.hpp:swap"]}
{"id": "C90", "title": "A Vector survives exceptions from allocation and from element copies", "statement": "If an allocation or the copy of an element throws during a call on a Vector, the call either has no effect a client can see or completes; a client that catches the exception can go on using the Vector, which holds exactly what the completed calls produce, and nothing is leaked when it is destroyed.", "quantifier": "all histories of calls, every crash point in every call, all element values", "why_tests_cant": "A test can make one particular allocation or copy fail; the claim covers every failure point of every call in every history.", "anchors": ["include/efp/sequence.hpp:VectorBase"]}
{"id": "C91", "title": "Fixed-capacity containers survive exceptions from element copies", "statement": "If copying an element throws during push_back, insert, copy construction or assignment of an ArrVec, or during push_back of a Vcb or Vcq, the container can still be used and destroyed, and every element constructed is destroyed exactly once.", "quantifier": "all reachable containers, every crash point, all element values", "why_tests_cant": "A test can make one particular copy fail in one particular state; the claim covers every state and every failure point.", "anchors": ["include/efp/sequence.hpp:ArrVec", "include/efp/cyclic.hpp:Vcb", "include/efp/cyclic.hpp:Vcq"]}
{"id": "C92", "title": "format strings have a grammar", "statement": "format returns a text exactly when the format string is put together from literal text, doubled braces and replacement fields with argument, fill, alignment, sign, #, 0, width, precision, L and type in that order and fitting the argument; the text is the concatenation of what the parts stand for. Every other format string is reported as an error and none is undefined behaviour. Any text with its braces doubled formats as itself.", "quantifier": "all format strings, all argument lists and values", "why_tests_cant": "Format strings are arbitrary byte strings; a parser that misreads or overruns on one malformed string passes any finite test.", "anchors": ["include/efp/format.hpp:format", "include/efp/fmt/core.h:parse_format_string", "include/efp/fmt/core.h:parse_format_specs", "include/efp/fmt/format.h:vformat_to"]}
{"id": "C93", "title": "Fields take the arguments they name", "statement": "Empty fields take the arguments in order; a numbered field takes that argument; a named field takes the first argument with that name; a field without its argument is an error; empty and numbered fields cannot be mixed in one format string.", "quantifier": "all argument lists, all numbers and names, all texts around the fields", "why_tests_cant": "All numbers of arguments (packed and unpacked storage) and all names.", "anchors": ["include/efp/fmt/core.h:parse_arg_id", "include/efp/fmt/core.h:basic_format_args", "include/efp/fmt/core.h:basic_format_parse_context"]}
{"id": "C94", "title": "Literal text is transparent", "statement": "Literal text before or after a format string appears before or after the result and changes nothing else, although format strings of 32 bytes and more are scanned by different code.", "quantifier": "all literal texts and format strings", "why_tests_cant": "The scanning code changes with the length of the format string.", "anchors": ["include/efp/fmt/core.h:parse_format_string", "include/efp/fmt/core.h:find"]}
{"id": "C95", "title": "Integer texts read back", "statement": "The text of an integer of any integer type up to 128 bits reads back as that integer, in base 10 for {} and {:d}, 16 for {:x} and {:X}, 8 for {:o}, 2 for {:b} and {:B}; the decimal text has no leading zeros; different integers have different texts.", "quantifier": "all values of all integer types", "why_tests_cant": "2^64 and 2^128 values.", "anchors": ["include/efp/fmt/format.h:format_decimal", "include/efp/fmt/format.h:count_digits", "include/efp/fmt/format.h:format_uint", "include/efp/fmt/format.h:write_int"]}
{"id": "C96", "title": "Padding fills exactly the missing columns", "statement": "A field of width w shows the whole value with as many fill characters as columns are missing, on the side the alignment names, centred with the odd one right; the zero flag puts zeros between sign and digits without changing the value.", "quantifier": "all strings and integers, all fill characters, alignments and widths", "why_tests_cant": "All widths, fills of one to four bytes and texts.", "anchors": ["include/efp/fmt/format.h:write_padded", "include/efp/fmt/format.h:compute_width", "include/efp/fmt/format.h:write_int_data"]}
{"id": "C97", "title": "Precision and width respect UTF-8", "statement": "A precision n cuts a UTF-8 string to its first n characters, never inside one; widths count the columns of the characters; on other bytes the cut is a prefix.", "quantifier": "all texts, all byte strings, all precisions", "why_tests_cant": "All code points and all malformed sequences.", "anchors": ["include/efp/fmt/format.h:utf8_decode", "include/efp/fmt/format.h:for_each_codepoint", "include/efp/fmt/format.h:compute_width", "include/efp/fmt/format.h:code_point_index"]}
{"id": "C98", "title": "Width and precision numbers are exact or rejected", "statement": "A width or precision, written in the format string or taken from an integer argument, is used with exactly its value if it is from 0 to INT_MAX, and reported as an error otherwise.", "quantifier": "all digit strings, all argument values of all integer types", "why_tests_cant": "All numbers, including those that wrap around.", "anchors": ["include/efp/fmt/core.h:parse_nonnegative_int", "include/efp/fmt/core.h:parse_dynamic_spec", "include/efp/fmt/format.h:get_dynamic_spec"]}
{"id": "C102", "title": "print is all or nothing on format errors", "statement": "print writes exactly the formatted text (println with one newline after it) after what is in the file; if the format string is in error it writes nothing.", "quantifier": "all format strings, arguments and files", "why_tests_cant": "All format strings in error.", "anchors": ["include/efp/format.hpp:print", "include/efp/format.hpp:println", "include/efp/fmt/format-inl.h:vprint"]}
{"id": "C99", "title": "Debug presentation can be read back", "statement": "Formatting a string or a character with {:?} encloses it in quotes, shows visible ASCII characters as they are and writes no control byte; different values have different debug texts.", "quantifier": "all strings and all characters", "why_tests_cant": "All pairs of strings, including those whose escape sequences could be confused.", "anchors": ["include/efp/fmt/format.h:write_escaped_string", "include/efp/fmt/format.h:write_escaped_char", "include/efp/fmt/format.h:write_escaped_cp", "include/efp/fmt/format-inl.h:is_printable"]}
{"id": "C103", "title": "format_to writes the text of format", "statement": "format_to a back inserter of a String adds exactly the text that format returns to its end and keeps what it had; format_to a pointer writes exactly these bytes and returns the place after them; format_to another output iterator gives it exactly these bytes. An error that format reports is reported.", "quantifier": "all format strings, arguments, containers with any spare storage, arrays, offsets and iterators", "why_tests_cant": "The text passes through buffers that grow, flush at 256 bytes or reserve space ahead; what goes wrong depends on the length of the text and of every part of it.", "anchors": ["include/efp/fmt/core.h:format_to", "include/efp/fmt/core.h:iterator_buffer", "include/efp/fmt/core.h:buffer"]}
{"id": "C104", "title": "format_to_n never writes beyond its limit", "statement": "format_to_n writes exactly the first n bytes of the text that format returns, or all of it if it is shorter, changes no byte beyond them, and returns the place after them and the length of the whole text.", "quantifier": "all format strings, arguments, limits, arrays and iterators", "why_tests_cant": "All pairs of limit and text length, with the switch from the array to the internal buffer anywhere inside a write.", "anchors": ["include/efp/fmt/core.h:format_to_n", "include/efp/fmt/core.h:fixed_buffer_traits", "include/efp/fmt/core.h:iterator_buffer"]}
{"id": "C105", "title": "formatted_size is the length of the text", "statement": "formatted_size is the length of the text that format returns; an array of that many bytes is large enough for format_to, which fills it to its end.", "quantifier": "all format strings and arguments", "why_tests_cant": "All lengths, the internal buffer of 256 bytes being counted and reused any number of times.", "anchors": ["include/efp/fmt/core.h:formatted_size", "include/efp/fmt/core.h:counting_buffer"]}
{"id": "C100", "title": "memory_buffer programs behave like programs over lists", "statement": "In every program over any number of memory_buffers - constructions, push_back, append, reserve, resize, clear, element writes, formatting into them, move construction, move assignment and destruction in any order, with allocations that may fail anywhere - every buffer holds the list the same program computes on lists, no buffer is affected by an operation on another one (a moved-from one is unchanged or empty and usable), a call that throws leaves the buffers as they were (formatting may have written a prefix), and every block is freed exactly once. Appending elements of the buffer to itself appends copies.", "quantifier": "all programs, element values, sizes and failure points of allocations", "why_tests_cant": "Interleavings over many objects, storage that changes from the object to the heap, and failure points cannot be enumerated.", "anchors": ["include/efp/fmt/format.h:basic_memory_buffer", "include/efp/fmt/core.h:buffer"]}
{"id": "C106", "title": "format survives its buffer", "statement": "format and vformat return exactly the text of the format string however often the buffer inside grows; if an allocation fails they throw; in both cases nothing is left allocated and no other buffer is changed.", "quantifier": "all format strings, arguments, texts of any length, failure points of allocations", "why_tests_cant": "Growth happens at lengths that depend on all parts of the text; every failure point of every call.", "anchors": ["include/efp/fmt/format-inl.h:vformat", "include/efp/fmt/format.h:basic_memory_buffer", "include/efp/fmt/format.h:to_string"]}
{"id": "C107", "title": "A float or double in {} reads back as itself, in the fewest digits", "statement": "Formatting a finite float or double with {} gives a sign and a decimal numeral. Reading the numeral with correct rounding gives the same number, bit for bit; no numeral with fewer significant digits does, and none with as many digits is closer. Different numbers, 0 and -0 among them, have different texts.", "quantifier": "all finite floats and doubles", "why_tests_cant": "There are 2^64 doubles; the digits come from 128-bit multiplications with a table of 617 powers of ten and are wrong only for rare numbers if at all.", "anchors": ["include/efp/fmt/format.h:to_decimal", "include/efp/fmt/format.h:do_write_float", "include/efp/fmt/format.h:write"]}
{"id": "C109", "title": "Layout of floating-point texts", "statement": "In {} a number between 0.0001 and below 10^16 is written in positional notation and other numbers in scientific notation with a sign and at least two digits in the exponent; zeros keep their sign; infinities are inf and NaNs of every payload nan, with their sign. In a field with options infinities and NaNs are padded like a text, never with zeros, and are written in capitals for a type in capitals.", "quantifier": "all floats and doubles, NaN payloads included", "why_tests_cant": "The branches depend on digit count and exponent of every number.", "anchors": ["include/efp/fmt/format.h:do_write_float", "include/efp/fmt/format.h:write_nonfinite", "include/efp/fmt/format.h:write_exponent"]}
{"id": "C108", "title": "Floats with a precision are rounded correctly", "statement": "With type f, e or g and a precision a float or double is written with that many digits after the point (f, e) or significant digits (g), as printf does: the value is rounded to the nearest such decimal, ties to the even digit, and differs from the number by at most half a unit of the last digit; 6 is the precision if none is given; # keeps the point and, for g, the trailing zeros; the sign, width, fill, alignment and zero flag apply to it; without type and precision the digits are the shortest ones that read back. No options lead to undefined behaviour.", "quantifier": "all finite floats and doubles, all precisions, all options, literal or taken from arguments", "why_tests_cant": "Rounding goes through 64-bit and arbitrary-precision paths that agree on most inputs; wrong ones are ties and carries at particular digits of particular numbers.", "anchors": ["include/efp/fmt/format.h:format_float", "include/efp/fmt/format.h:format_dragon", "include/efp/fmt/format.h:do_write_float", "include/efp/fmt/format.h:bigint", "include/efp/fmt/format.h:write_float"]}
{"id": "C110", "title": "Hexadecimal floats are exact", "statement": "Type a writes a float or double as a hexadecimal numeral with exactly its value; with a precision the value is rounded to the nearest one with that many hexadecimal digits, the greater of two, and the sign and field options apply.", "quantifier": "all finite floats and doubles, all precisions and options", "why_tests_cant": "All 2^64 values; rounding carries through the leading digit only for particular significands.", "anchors": ["include/efp/fmt/format.h:format_hexfloat"]}
{"id": "C111", "title": "BlockingQ survives exceptions from element copies", "statement": "If copying an element throws inside enqueue or dequeue of a BlockingQ, the queue stays usable: the lock is released, no element is lost or duplicated, two threads never access the queue at the same time, and a consumer never sleeps on while an element is queued.", "quantifier": "all schedules of all threads, every call in which a copy throws", "why_tests_cant": "Schedules combined with failure points cannot be enumerated.", "anchors": ["include/efp/concurrency.hpp:BlockingQ::enqueue", "include/efp/concurrency.hpp:BlockingQ::dequeue"]}
{"id": "C112", "title": "DoubleBuffer survives exceptions from element copies", "statement": "If copying an element throws inside enqueue of a DoubleBuffer, later enqueues, swaps and dequeues still work.", "quantifier": "all schedules, every call in which a copy throws", "why_tests_cant": "Schedules combined with failure points cannot be enumerated.", "anchors": ["include/efp/concurrency.hpp:DoubleBuffer::enqueue", "include/efp/concurrency.hpp:DoubleBuffer::swap_buffer"]}
{"id": "C113", "title": "The compile-time check of format strings is exact", "statement": "A format string checked at compile time (FormatString under C++20, EFP_FMT_STRING) is accepted exactly if it is well formed, refers to existing arguments, and its options fit their types. A rejected format string would be an error at run time for all values of the arguments, so that no working program is rejected; an accepted one is no error at run time as long as the values of widths and precisions taken from arguments are in range and no C string is null.", "quantifier": "all format strings, all lists of argument types, names and values", "why_tests_cant": "The check and the run-time parser are two programs over the same strings, with separate rules for widths taken from arguments and for names; they must agree on every string.", "anchors": ["include/efp/fmt/core.h:format_string_checker", "include/efp/fmt/core.h:compile_parse_context", "include/efp/fmt/core.h:basic_format_string", "include/efp/fmt/core.h:check_char_specs"]}
{"id": "C114", "title": "Containers and joined ranges in format strings", "statement": "In a format string an Array, ArrVec, Vector, Vcb or Vcq is written as [, the texts its elements have in a field of their own with \", \" between them, ], and takes no options; join(range, separator) writes the elements with the separator between them, each with the options of the field; an empty range writes nothing. If an element cannot be written the call throws, and no format string leads to undefined behaviour.", "quantifier": "all format strings, containers, ranges, separators, element types and values, options, further arguments", "why_tests_cant": "The parser of the field, of the nested call and the look-up of widths interact for every string and list of arguments.", "anchors": ["include/efp/format.hpp:formatter", "include/efp/fmt/format.h:join_view", "include/efp/fmt/format.h:join", "include/efp/fmt/core.h:formatter::parse"]}
{"id": "C115", "title": "group_digits separates thousands", "statement": "group_digits(v) writes the decimal digits of v with a comma before every third digit from the right and changes no digit; a field with a width is padded around that text.", "quantifier": "all integers, all options", "why_tests_cant": "Separator positions depend on the digit count, on a loop over group sizes and on a second count for the padding that must agree with the first.", "anchors": ["include/efp/fmt/format.h:group_digits", "include/efp/fmt/format.h:digit_grouping", "include/efp/fmt/format.h:write_int"]}
{"id": "C116", "title": "bytes are written as they are", "statement": "bytes(s) writes all bytes of s, valid text or not, and is padded to the width by its number of bytes.", "quantifier": "all byte strings, all options", "why_tests_cant": "All byte strings, all widths.", "anchors": ["include/efp/fmt/format.h:bytes", "include/efp/fmt/format.h:write_bytes"]}
{"id": "C117", "title": "The sorts make O(n log n) comparisons", "statement": "Sorting n elements calls the comparison function at most c n log2 n times, whatever the elements, their order and the comparison: heapsort 3 n log2 n, merge_sort n log2 n, sort 16 n + n (log2 n - 5), and likewise quicksort and sort_unstable; insertion_sort compares each pair at most once.", "quantifier": "every vector, element type and comparison function", "why_tests_cant": "The cost on the worst input of each length is a statement about all inputs; tests time a few.", "anchors": ["include/efp/sort.hpp:heapsort_by", "include/efp/sort.hpp:merge_sort_by", "include/efp/sort.hpp:timsort_by", "include/efp/sort.hpp:quicksort_by", "include/efp/sort.hpp:size_trosort_by", "include/efp/sort.hpp:insertion_sort_by"]}
{"id": "C118", "title": "The recursion of the sorts is logarithmic", "statement": "merge_sort_by, max_heapify_by and quicksort_by nest at most log2 n + 2 calls on n elements, so that sorting fits a small fixed stack.", "quantifier": "every vector and comparison function", "why_tests_cant": "The depth depends on the input; a test that does not overflow its stack says nothing about others.", "anchors": ["include/efp/sort.hpp:merge_sort_by", "include/efp/sort.hpp:max_heapify_by", "include/efp/sort.hpp:quicksort_by"]}
{"id": "C119", "title": "Sums of floating-point numbers are accurate", "statement": "sum of finite floats or doubles is finite and differs from the exact sum by at most ((1 + u)^(n-1) - 1) times the sum of the magnitudes, u the unit roundoff, if the magnitudes leave room below the greatest number; integers below the precision are summed exactly; a NaN makes the sum NaN, finite numbers never do.", "quantifier": "all sequences of floats or doubles of any length", "why_tests_cant": "Rounding errors add up in ways that depend on all elements and their order.", "anchors": ["include/efp/numeric.hpp:sum"]}
{"id": "C120", "title": "The mean of floating-point numbers lies between the extremes", "statement": "mean of finite floats or doubles lies between the least and the greatest element and is close to the exact average.", "quantifier": "all non-empty sequences of floats or doubles", "why_tests_cant": "Rounding and overflow depend on all elements; a test sees neither for typical data.", "anchors": ["include/efp/scientific.hpp:mean"]}
{"id": "C121", "title": "Variance and standard deviation of floating-point numbers are sound", "statement": "variance and standard_deviation of finite floats or doubles are never negative or NaN and vanish for constant sequences; the square root is the real one rounded to nearest.", "quantifier": "all sequences of floats or doubles with enough elements", "why_tests_cant": "A negative or NaN result would need a particular pattern of rounding errors.", "anchors": ["include/efp/scientific.hpp:variance", "include/efp/scientific.hpp:standard_deviation"]}
{"id": "C122", "title": "Covariance, correlation and error measures of floating-point numbers are sound", "statement": "covariance, correlation, sse and mse give the same result to the bit when their arguments are exchanged; covariance of a sequence with itself is its variance; correlation is between -1 and 1; sse is zero exactly for sequences that agree.", "quantifier": "all sequences of floats or doubles", "why_tests_cant": "Rounding, underflow and the order of operations depend on all elements.", "anchors": ["include/efp/scientific.hpp:covariance", "include/efp/scientific.hpp:correlation", "include/efp/scientific.hpp:sse", "include/efp/scientific.hpp:mse"]}
{"id": "C123", "title": "is_approx compares floating-point numbers up to epsilon", "statement": "is_approx(x, y) holds exactly if x and y differ by at most epsilon of the type; it is reflexive and symmetric, and never holds of NaN.", "quantifier": "all pairs of floats or doubles", "why_tests_cant": "The difference is rounded before it is compared; pairs at the margin are rare.", "anchors": ["include/efp/numeric.hpp:is_approx"]}
{"id": "C124", "title": "The queues are free of data races in the C++ memory model", "statement": "Whatever threads call enqueue, dequeue, swap and is_empty on BlockingQ, NonBlockingQ or DoubleBuffer, of any two accesses of the same memory, one of them a modification, one happens before the other; so what a thread did before an enqueue is visible to whoever dequeues.", "quantifier": "every client program, number of threads, schedule, element type and capacity", "why_tests_cant": "A data race is undefined behaviour that shows up on some hardware under some schedule; x86 hides missing acquire and release.", "anchors": ["include/efp/concurrency.hpp:BlockingQ", "include/efp/concurrency.hpp:NonBlockingQ", "include/efp/concurrency.hpp:DoubleBuffer", "include/efp/concurrency.hpp:Spinlock"]}
{"id": "C125", "title": "reserve(n) keeps references valid up to n elements", "statement": "After reserve(n) a Vector keeps its storage, and so every reference, pointer and iterator to its elements, as long as it holds at most n elements and is not asked to shrink; removing and overwriting elements never moves the others to another block.", "quantifier": "every vector, n, element type and history of calls", "why_tests_cant": "Whether a particular push_back reallocates depends on the whole history; a dangling reference often still reads the old value.", "anchors": ["include/efp/sequence.hpp:VectorBase::reserve", "include/efp/sequence.hpp:VectorBase::push_back", "include/efp/sequence.hpp:VectorBase::insert"]}
{"id": "C126", "title": "A sort loses no element when its comparator throws", "statement": "Every sort has defined behaviour with any comparator, also one that throws or answers differently from call to call; when it returns or the comparator throws, the vector holds the elements it held before, in some order.", "quantifier": "every vector, element type and comparator, including every point at which it throws", "why_tests_cant": "The point of the throw, the answers before it and the input together decide what is left behind.", "anchors": ["include/efp/sort.hpp:heapsort_by", "include/efp/sort.hpp:quicksort_by", "include/efp/sort.hpp:insertion_sort_by_", "include/efp/sort.hpp:merge", "include/efp/sort.hpp:timsort_by", "include/efp/sort.hpp:size_trosort_by"]}
{"id": "C127", "title": "A throwing function leaves nothing behind", "statement": "When the function given to map, map_with_index, from_function, cartesian_map, filter or find_indices throws, the exception reaches the caller, the partly built result is destroyed, every block it allocated is freed and every element it constructed is destroyed exactly once; when it does not throw, the same holds of the returned object once it is destroyed.", "quantifier": "every argument sequence, function and call at which it throws, every element type", "why_tests_cant": "The state of the half-built result depends on the call at which the function throws; leaks and double destruction stay silent.", "anchors": ["include/efp/prelude.hpp:map", "include/efp/prelude.hpp:map_with_index", "include/efp/prelude.hpp:from_function", "include/efp/prelude.hpp:cartesian_map", "include/efp/prelude.hpp:filter", "include/efp/prelude.hpp:find_indices"]}
{"id": "C128", "title": "UTF-8, UTF-16 and UTF-32 convert into each other", "statement": "A utf8_to_utf16 of a UTF-8 text shows its UTF-16 encoding; a to_utf8 of UTF-16 or UTF-32 units shows the UTF-8 encoding of the same text; the text survives the way there and back; input that encodes no text is refused with an exception, or with replacement characters if the caller asks for them; the result is followed by a zero unit.", "quantifier": "every text and every string of bytes or units", "why_tests_cant": "The interesting texts are sparse: a missed branch on surrogate pairs or truncated sequences shows only on characters that few tests contain.", "anchors": ["include/efp/fmt/format.h:to_utf8", "include/efp/fmt/format.h:utf8_to_utf16", "include/efp/fmt/format-inl.h:utf8_to_utf16"]}
{"id": "C129", "title": "format_int shows the integer", "statement": "A format_int of any int, long, long long or unsigned variant holds the text that the format string {} gives the integer, which reads back as it; size() is its length, str() is a copy of it and c_str() is followed by a zero byte; the fixed buffer is never overrun.", "quantifier": "every value of the six integer types", "why_tests_cant": "The lowest and the highest values fill the buffer nearly to the last byte; an off-by-one in its size shows on these alone.", "anchors": ["include/efp/fmt/format.h:format_int"]}
{"id": "C130", "title": "Reporting a system error needs no memory", "statement": "report_system_error never throws and never ends the program, whatever allocations fail; it writes one line to stderr, the text of the system error or else the message and the error code (the code alone if the line would exceed 500 bytes), and leaves nothing allocated. format_system_error does the same to a memory_buffer.", "quantifier": "every error code, message, system text, program state and pattern of failing allocations", "why_tests_cant": "The path is taken only when memory has run out, at any of many points; an exception there meets noexcept and kills the process.", "anchors": ["include/efp/fmt/format-inl.h:format_error_code", "include/efp/fmt/format-inl.h:report_error", "include/efp/fmt/format-inl.h:format_system_error", "include/efp/fmt/format-inl.h:report_system_error"]}
{"id": "C131", "title": "format prints the value that was passed", "statement": "An argument of any integer type (signed char to 128 bits), a bool, char, char*, string or pointer, or an object whose format_as returns an integer, prints the value the caller passed; integers read back as themselves; an argument passed with arg(name, value) prints in the field of that name.", "quantifier": "every list of arguments of these types and every value of the type", "why_tests_cant": "Every argument is converted to one of a few stored types; a conversion to a type too narrow or of the wrong sign shows only on values near the ends of the range.", "anchors": ["include/efp/fmt/core.h:arg_mapper", "include/efp/fmt/core.h:value", "include/efp/fmt/core.h:named_arg", "include/efp/fmt/core.h:arg"]}
{"id": "C132", "title": "string_view compares like a dictionary", "statement": "compare and the six comparison operators of string_view follow the lexicographic order of the bytes, a total order in which equal means equal text; starts_with holds exactly if the text begins with the argument; remove_prefix(n) of at most the size leaves the text behind the first n bytes. None reads outside the views.", "quantifier": "all pairs of texts", "why_tests_cant": "Prefixes, empty views and bytes above 127 are the cases that go wrong and that tests leave out.", "anchors": ["include/efp/fmt/core.h:basic_string_view"]}
{"id": "C133", "title": "A vector that cannot grow throws and keeps its elements", "statement": "Whatever sizes and indices a client passes and however little memory there is, a call on a Vector that needs more storage than the machine has throws and leaves the vector as it was; no size computation overflows, so no call is undefined and the capacity reported is backed by storage.", "quantifier": "every width of size_t, element size, history of calls with any size_t arguments and memory available at each call", "why_tests_cant": "Sizes near the end of size_t cannot be allocated in a test; whether an expression such as 2 * size + 1 or n * sizeof(T) can wrap is a matter of all values.", "anchors": ["include/efp/sequence.hpp:VectorBase::reserve", "include/efp/sequence.hpp:VectorBase::resize", "include/efp/sequence.hpp:VectorBase::push_back", "include/efp/sequence.hpp:VectorBase::insert", "include/efp/allocator.hpp:Allocator::allocate"]}
{"id": "C134", "title": "A string can be given a pointer into its own text", "statement": "append, assign and insert called with a pointer into the text of the very string they change (s.c_str() + off) have the effect they would have with a copy of that text made before the call.", "quantifier": "every string a history of calls produces, every offset, count, position and capacity", "why_tests_cant": "Whether the text is read before it is moved or its block freed depends on the capacity and on how the piece and the position overlap; a test sees one arrangement, and a stale read usually still finds the old characters.", "anchors": ["include/efp/string.hpp:Vector<char>::append", "include/efp/string.hpp:Vector<char>::assign", "include/efp/string.hpp:Vector<char>::insert", "include/efp/string.hpp:Vector<char>::c_str"]}
{"id": "C135", "title": "The bounded queues survive exceptions from element copies", "statement": "If copying an element throws inside enqueue of a bounded BlockingQ or NonBlockingQ, the call has no effect: the history is that of a FIFO queue of that capacity, the lock is released, consumers are still woken, and the queue can be used and destroyed.", "quantifier": "all schedules of all threads, every call and every copy that throws, every capacity", "why_tests_cant": "Schedules combined with failure points cannot be enumerated; the failure matters only for one of the copies and one filling level.", "anchors": ["include/efp/concurrency.hpp:BlockingQ::enqueue", "include/efp/concurrency.hpp:NonBlockingQ::enqueue", "include/efp/cyclic.hpp:Vcq::push_back"]}
{"id": "C136", "title": "A dequeue of NonBlockingQ that throws loses no element", "statement": "If an element copy throws inside dequeue of a NonBlockingQ, the element stays in the queue: every element that was enqueued is returned by a dequeue or still queued, in order.", "quantifier": "all schedules of all threads, every call and every copy that throws", "why_tests_cant": "Schedules combined with failure points cannot be enumerated.", "anchors": ["include/efp/concurrency.hpp:NonBlockingQ::dequeue", "include/efp/enum.hpp:Maybe"]}
{"id": "C137", "title": "A string edit that runs out of memory leaves the text as it was", "statement": "However little memory there is and whatever arguments a client passes, no constructor or edit of a String is undefined: each has its effect or throws, a constructor that throws leaves nothing allocated, an edit that throws leaves the text unchanged, and destroying the string releases every block.", "quantifier": "every width of size_t, character size, history of calls with any arguments and memory available at each allocation", "why_tests_cant": "Allocation failures cannot be provoked at every allocation of every edit, and a test of append sees one capacity and one failing turn.", "anchors": ["include/efp/string.hpp:Vector<char>::append", "include/efp/string.hpp:Vector<char>::assign", "include/efp/string.hpp:Vector<char>::insert", "include/efp/string.hpp:Vector<char>::operator+=", "include/efp/string.hpp:Vector<char>::substr", "include/efp/string.hpp:Vector<char>::Vector"]}
{"id": "C138", "title": "A sort survives elements that throw", "statement": "If the copy, move or assignment of an element throws during a sort, the sort has defined behaviour, every slot of the vector still holds a living object, and no element of the vector is lost.", "quantifier": "every vector, every comparator, every element type and every point at which one of its constructions or assignments throws, whatever it leaves behind", "why_tests_cant": "All failure points in all runs of six algorithms; tests use elements that do not throw.", "anchors": ["include/efp/sort.hpp:sort", "include/efp/sort.hpp:sort_unstable", "include/efp/sort.hpp:heapsort", "include/efp/sort.hpp:quicksort", "include/efp/sort.hpp:insertion_sort", "include/efp/sort.hpp:merge_sort_by", "include/efp/meta.hpp:swap"]}
{"id": "C139", "title": "Programs over many strings keep texts apart and release every block the way it was allocated", "statement": "In every program over any number of Strings - constructions, copies, substrings, moves, assignments, concatenations, edits and destructions in any order - every variable holds its own text, every live block belongs to a live string, and every block is released once, by the deallocation function that matches its allocation function.", "quantifier": "every program over any number of strings, calls that throw included", "why_tests_cant": "A program that hands a block from one allocation function to the other usually goes unnoticed; leaks and sharing depend on the whole history of moves and reallocations.", "anchors": ["include/efp/string.hpp:Vector<char>::Vector", "include/efp/string.hpp:Vector<char>::substr", "include/efp/string.hpp:Vector<char>::operator+=", "include/efp/sequence.hpp:VectorBase::operator=", "include/efp/allocator.hpp:Allocator::allocate", "include/efp/allocator.hpp:Allocator::deallocate"]}
{"id": "C140", "title": "max_elem and min_elem of floating-point numbers", "statement": "For every non-empty sequence of floats or doubles, max_elem returns an element that no element exceeds and min_elem one that exceeds no element; NaN is returned if an element is NaN; max_min is the rounded difference of the two.", "quantifier": "every floating-point format, every sequence, infinities, NaN and zeros of both signs included", "why_tests_cant": "The start value of the search is only wrong for sequences that lie wholly on one side of it, and NaN in one of many positions changes the result silently.", "anchors": ["include/efp/numeric.hpp:max_elem", "include/efp/numeric.hpp:min_elem", "include/efp/numeric.hpp:max_min", "include/efp/meta.hpp:NumericLimits"]}
{"id": "C141", "title": "product of floating-point numbers", "statement": "The product of finite numbers is never NaN, is zero if a factor is zero, is exact for integers that fit the significand, is within n roundings of the exact product, and is NaN if an element is NaN.", "quantifier": "every floating-point format and every sequence", "why_tests_cant": "Overflow and underflow of a partial product depend on all factors and on their order.", "anchors": ["include/efp/numeric.hpp:product"]}
{"id": "C142", "title": "autocovariance and autocorrelation of floating-point numbers at lag zero", "statement": "At lag zero, autocovariance returns the same bits as variance, adjusted or not, with or without the correction, and autocorrelation returns exactly 1.", "quantifier": "every floating-point format, every sequence shorter than 2^31", "why_tests_cant": "Two different loops have to round in the same way for every input.", "anchors": ["include/efp/scientific.hpp:autocovariance", "include/efp/scientific.hpp:autocorrelation", "include/efp/scientific.hpp:variance"]}
{"id": "C143", "title": "remove_dc of floating-point numbers", "statement": "remove_dc of finite numbers returns finite numbers, each the element less the exact average up to the rounding of the mean and one subtraction.", "quantifier": "every floating-point format and every sequence", "why_tests_cant": "An error bound for every length and all magnitudes cannot be sampled.", "anchors": ["include/efp/scientific.hpp:remove_dc", "include/efp/scientific.hpp:mean"]}
{"id": "C144", "title": "Every call on a BlockingQ returns", "statement": "If every thread gets processor time again and again, every enqueue on a BlockingQ returns, and every dequeue returns as long as elements keep being enqueued.", "quantifier": "all never-ending executions of any number of threads, all schedulers that are fair to threads", "why_tests_cant": "Whether a call is ever overtaken for ever is a property of infinite executions; a test ends.", "anchors": ["include/efp/concurrency.hpp:BlockingQ::enqueue", "include/efp/concurrency.hpp:BlockingQ::dequeue"]}
{"id": "C145", "title": "Every call on a NonBlockingQ returns", "statement": "If every thread gets processor time again and again, every enqueue, dequeue and is_empty on a NonBlockingQ returns, whatever the other threads do.", "quantifier": "all never-ending executions of any number of threads, all schedulers that are fair to threads", "why_tests_cant": "Whether a call is ever overtaken for ever is a property of infinite executions; a test ends.", "anchors": ["include/efp/concurrency.hpp:NonBlockingQ::enqueue", "include/efp/concurrency.hpp:NonBlockingQ::dequeue"]}
{"id": "C146", "title": "Every call on a DoubleBuffer returns", "statement": "If every thread gets processor time again and again, every enqueue, swap_buffer, dequeue and empty on a DoubleBuffer returns.", "quantifier": "all never-ending executions of any number of producers and one consumer, all schedulers that are fair to threads", "why_tests_cant": "Whether a spinlock is ever missed for ever is a property of infinite executions; a test ends.", "anchors": ["include/efp/concurrency.hpp:DoubleBuffer::enqueue", "include/efp/concurrency.hpp:DoubleBuffer::swap_buffer", "include/efp/concurrency.hpp:DoubleBuffer::dequeue"]}
{"id": "C147", "title": "Growing costs a constant per element added, removals mixed in", "statement": "Over any history of calls on a Vector that asks for no capacity, at most two elements are relocated per element added, plus one per element of the constructor, and the number of blocks allocated is logarithmic in the largest size; over any history of appends, removals and assignments on a String at most three characters are relocated per character added.", "quantifier": "every element type, constructor and history of calls", "why_tests_cant": "Amortised cost is a statement about all histories; a history that alternates additions and removals at a growth boundary is not in a test.", "anchors": ["include/efp/sequence.hpp:VectorBase::push_back", "include/efp/sequence.hpp:VectorBase::insert", "include/efp/sequence.hpp:VectorBase::reserve", "include/efp/string.hpp:Vector<char>::append", "include/efp/string.hpp:Vector<char>::assign"]}
{"id": "C148", "title": "Capacity stays within twice the largest size", "statement": "A Vector or String whose client never calls reserve has at no time room for more than twice the elements it ever held at once, and one.", "quantifier": "every element type, constructor and history of calls", "why_tests_cant": "A memory bound is a statement about all histories.", "anchors": ["include/efp/sequence.hpp:VectorBase::push_back", "include/efp/sequence.hpp:VectorBase::insert", "include/efp/sequence.hpp:VectorBase::shrink_to_fit", "include/efp/string.hpp:Vector<char>::append", "include/efp/string.hpp:Vector<char>::insert"]}
{"id": "C149", "title": "Inserting texts costs a constant per character added", "statement": "Over any history of insertions of texts into a String, the characters relocated into new blocks are at most a constant times the characters added.", "quantifier": "every history of calls", "why_tests_cant": "A test of insert sees the text, not how often it was copied; the cost only shows on long histories.", "anchors": ["include/efp/string.hpp:Vector<char>::insert"]}
{"id": "C150", "title": "Threads can share a const String", "statement": "Any number of threads that only call const members of one String never race, and each call returns what it returns without the other threads.", "quantifier": "every string a history of calls produces, any number of threads, every sequence of const calls, every schedule", "why_tests_cant": "Data races are undefined behaviour that a test usually does not show; schedules cannot be enumerated.", "anchors": ["include/efp/string.hpp:Vector<char>::c_str", "include/efp/string.hpp:Vector<char>::substr", "include/efp/string.hpp:Vector<char>::copy", "include/efp/string.hpp:Vector<char>::at", "include/efp/sequence.hpp:VectorBase::operator[]", "include/efp/sequence.hpp:VectorBase::size"]}
{"id": "C151", "title": "The concurrent queues give back what they hold", "statement": "Whatever threads did to a DoubleBuffer or a bounded BlockingQ or NonBlockingQ, its destructor destroys every element that is left exactly once and gives back every block; a constructor that throws leaves nothing allocated.", "quantifier": "every capacity, number of threads, client program and schedule, every allocation that fails", "why_tests_cant": "Which elements are left where at destruction depends on the schedule; leaks and double destruction are silent, and allocation failures are not provoked in tests.", "anchors": ["include/efp/concurrency.hpp:DoubleBuffer", "include/efp/concurrency.hpp:BlockingQ", "include/efp/concurrency.hpp:NonBlockingQ", "include/efp/cyclic.hpp:Vcq"]}
{"id": "C152", "title": "Nested list functions and named results behave like lists", "statement": "An expression built from map, filter, append, from_function, take, drop, tail and init computes the list it stands for, and a name defined by such an expression holds that list in all later statements.", "quantifier": "every expression, every sequence of definitions, all lengths and static types", "why_tests_cant": "The combinations of nested calls and result types are unbounded, and a view of a destroyed temporary often still shows the old elements when a test reads it.", "anchors": ["include/efp/prelude.hpp:map", "include/efp/prelude.hpp:append", "include/efp/prelude.hpp:take", "include/efp/prelude.hpp:drop", "include/efp/prelude.hpp:tail", "include/efp/prelude.hpp:init", "include/efp/sequence.hpp:VectorView"]}
{"id": "C153", "title": "A vector of vectors behaves like a list of lists", "statement": "Any program on a Vector of Vectors - pushing temporaries and copies, making elements in place, removing, clearing, moving elements from slot to slot, calling members of the inner vectors, growing and shrinking the outer block, copying the whole - has no undefined behaviour, shows the contents of a list of lists, throws where the list would, and releases every block and every element once.", "quantifier": "every program, all inner and outer lengths, trivial and resource-owning elements", "why_tests_cant": "The order of constructions, relocations and destructions depends on the whole history of both levels of blocks, and a doubly freed or forgotten inner block shows in no return value.", "anchors": ["include/efp/sequence.hpp:Vector", "include/efp/sequence.hpp:VectorBase"]}
{"id": "C154", "title": "Sorting floating-point numbers", "statement": "quicksort, heapsort, insertion_sort, sort, sort_unstable and merge_sort_by bring every vector of doubles into ascending order, with infinities at the ends and zeros of both signs equal; and for any element type the comparator has to be a strict weak order only among the elements present.", "quantifier": "every vector of doubles, every comparator that orders the elements present", "why_tests_cant": "The built-in < is not a strict weak order on doubles, and what a NaN does depends on where it stands and on which elements it meets.", "anchors": ["include/efp/sort.hpp:quicksort", "include/efp/sort.hpp:heapsort", "include/efp/sort.hpp:insertion_sort", "include/efp/sort.hpp:sort", "include/efp/sort.hpp:sort_unstable", "include/efp/sort.hpp:merge_sort_by"]}
{"id": "C155", "title": "Removing the trend in floating point", "statement": "In double arithmetic detrend of values on a straight line leaves zeros, and linear_regression and linear_regression_with_index of such values give back the slope and the value at index 0.", "quantifier": "every sequence of doubles whose values lie on a line, every length", "why_tests_cant": "A rounding error in one intermediate sum shows for some slopes, offsets and lengths only.", "anchors": ["include/efp/scientific.hpp:linear_regression_with_index", "include/efp/scientific.hpp:detrend", "include/efp/scientific.hpp:linear_regression"]}
{"id": "C156", "title": "Views of cyclic containers", "statement": "A view of a cyclic buffer or cyclic queue keeps showing the elements it was taken of while the container is pushed to and popped from.", "quantifier": "every capacity, element kind, history before the view is taken and history after it", "why_tests_cant": "Whether an element of a view is stale depends on how far the buffer has turned since, so on the whole history.", "anchors": ["include/efp/cyclic.hpp:Vcb::data", "include/efp/cyclic.hpp:Vcb::push_back", "include/efp/cyclic.hpp:Vcq::data", "include/efp/cyclic.hpp:Vcq::push_back", "include/efp/cyclic.hpp:Vcq::pop_front", "include/efp/sequence.hpp:ArrayView::operator[]", "include/efp/sequence.hpp:ArrVecView::operator[]"]}
{"id": "C157", "title": "List functions over cyclic containers", "statement": "Passed to a list function, a cyclic buffer is the sequence of its last n values in order and a cyclic queue the sequence of its elements from oldest to newest, whatever was pushed and popped before.", "quantifier": "every capacity below SIZE_MAX, element kind, history and function argument", "why_tests_cant": "The position of the first element in the buffer depends on the whole history; a moving sum that is right for the first n samples may be wrong after the buffer wraps.", "anchors": ["include/efp/cyclic.hpp:length", "include/efp/cyclic.hpp:nth", "include/efp/cyclic.hpp:data", "include/efp/prelude.hpp:foldl", "include/efp/prelude.hpp:map", "include/efp/prelude.hpp:filter"]}
{"id": "C158", "title": "Square roots of integers", "statement": "sqrt of an integer that is not negative is the integer part of its real square root.", "quantifier": "every integer type of at most 64 bits and every value of it", "why_tests_cant": "The root is computed in double; the first wrong result is at 2^52 + 2^27 and the wrong ones are rare.", "anchors": ["include/efp/numeric.hpp:sqrt"]}
{"id": "C159", "title": "Copying bytes", "statement": "_memcpy(dest, src, size) makes the size bytes at dest what the bytes at src were, leaves all other bytes alone and returns dest, the same in hosted and freestanding builds.", "quantifier": "every memory, destination, source and size within it", "why_tests_cant": "The result depends on how the two regions lie to each other; hosted and freestanding builds are never run side by side.", "anchors": ["include/efp/cpp_core.hpp:_memcpy"]}
{"id": "C160", "title": "Texts of errors", "statement": "what() of an error, and of every copy of it, is the text the error was made from, whatever happens later to the buffer it was made from.", "quantifier": "every history of making and copying errors, writing to buffers and ending them", "why_tests_cant": "An error outlives the function that made it; whether its text does depends on everything that happens in between.", "anchors": ["include/efp/cpp_core.hpp:LogicError", "include/efp/cpp_core.hpp:RuntimeError"]}
{"id": "C161", "title": "Formatters built on nested_formatter", "statement": "A formatter of a user-defined type that is built on nested_formatter pads the text of the whole object to the given width, with the given fill and alignment, and writes every member with the other options.", "quantifier": "every object (literal texts and members), every option list and every further argument", "why_tests_cant": "Which part of the options goes where depends on their order and on where the width comes from; tests use a fill, a width and a precision.", "anchors": ["include/efp/fmt/format.h:nested_formatter", "include/efp/fmt/format.h:write_padded", "include/efp/fmt/format.h:nested_view", "include/efp/fmt/core.h:parse_format_specs"]}
{"id": "C162", "title": "Standard containers as arguments", "statement": "A std::array, std::vector or std::basic_string passed to the list functions acts like an efp container with the same elements: every element is read as its value, the folds, filter and map give the results for its list of values, and assigning through nth changes that element only.", "quantifier": "every standard container and every argument of the list function", "why_tests_cant": "The trait functions are templates over every element type; tests use one or two, and std::vector<bool> is not among them.", "anchors": ["include/efp/sequence.hpp:length(const std::vector<A>&)", "include/efp/sequence.hpp:nth(size_t, const std::vector<A>&)", "include/efp/sequence.hpp:nth(size_t, const std::array<A, n>&)", "include/efp/sequence.hpp:nth(size_t, const std::basic_string<A>&)"]}
{"id": "C163", "title": "What match returns", "statement": "match gives its caller what the selected branch returns: the same value, or a reference to the same object.", "quantifier": "every Enum of up to 128 alternatives, every stored alternative and value, every list of branches and their return types", "why_tests_cant": "Tests use branches that all return the same type; the result type is taken from one branch for all.", "anchors": ["include/efp/enum.hpp:EnumBase::match", "include/efp/enum.hpp:EnumBase::Match::Case::call"]}
{"id": "C164", "title": "Forwarding keeps type and value category", "statement": "A function template with a parameter A&& that passes on forward<A>(a) passes on an expression of the type, constness and value category of its argument; move(e) is an rvalue of the type of e; CVRefRemoved removes reference and qualifiers and nothing else.", "quantifier": "every type and value category", "why_tests_cant": "Templates are instantiated with a few types by tests.", "anchors": ["include/efp/meta.hpp:forward", "include/efp/meta.hpp:move", "include/efp/meta.hpp:CVRefRemoved", "include/efp/meta.hpp:IsLvalueReference"]}
{"id": "C165", "title": "Questions about types are answered correctly", "statement": "HasCallOperator says whether a class has a call operator, Arguments gives the parameter types of whatever can be called in one way, IsDefaultConstructible says whether a type can be default constructed, IsCtConst whether it is a compile-time constant, FuncToFuncPtr turns functions into pointers and changes nothing else.", "quantifier": "every type built from scalars, classes with any call operators, functions, pointers, qualifiers and references", "why_tests_cant": "Tests ask about a handful of types.", "anchors": ["include/efp/meta.hpp:HasCallOperator", "include/efp/meta.hpp:Arguments", "include/efp/meta.hpp:IsDefaultConstructible", "include/efp/meta.hpp:IsCtConst", "include/efp/meta.hpp:FuncToFuncPtr", "include/efp/enum.hpp:IsWildCard"]}
{"id": "C166", "title": "Elements lie in bytes of their own at addresses their types allow", "statement": "Every element of a container, alternative of an Enum or Maybe and part of a tuple lies at an address its type allows, inside the bytes of its container or of the block allocated for it, and shares no byte with another element or with the sizes, pointers and tags kept beside it.", "quantifier": "every nesting of arrays, bounded vectors, cyclic buffers, queues, Enums, Maybes and tuples over element types of any size and alignment; every vector", "why_tests_cant": "The containers look at raw bytes through reinterpret_cast. A wrong address usually works on the machine of the test; sizes and alignments are those of the tested types.", "anchors": ["include/efp/meta.hpp:RawStorage", "include/efp/enum.hpp:EnumBase::_storage", "include/efp/meta.hpp:_maximum", "include/efp/sequence.hpp:Array", "include/efp/sequence.hpp:ArrVec", "include/efp/cyclic.hpp:Vcb", "include/efp/cyclic.hpp:Vcq", "include/efp/meta.hpp:TupleLeaf", "include/efp/allocator.hpp:Allocator::allocate"]}
{"id": "C167", "title": "No hidden copies", "statement": "A container copies an element only when the program asks for it: once for each element handed over by reference and accepted, and once each when the container is copied. Growing, shrinking, inserting, erasing, popping and handing over by move copy nothing.", "quantifier": "every program of operations on a vector or bounded vector of any size, hosted and freestanding; every program on a queue", "why_tests_cant": "Copies are invisible in results; how many are made depends on the whole history of sizes and capacities and on the build.", "anchors": ["include/efp/sequence.hpp:VectorBase", "include/efp/sequence.hpp:ArrVec", "include/efp/allocator.hpp:Allocator::construct", "include/efp/cyclic.hpp:Vcq::push_back", "include/efp/cyclic.hpp:Vcb::push_back"]}
{"id": "C168", "title": "Sines, cosines and tangents", "statement": "sin, cos and tan return the value of the function at the argument, as accurately as the functions of the platform.", "quantifier": "every argument of every number type, every accuracy of the platform functions", "why_tests_cant": "The templates accept every number type; tests call them with floating-point numbers.", "anchors": ["include/efp/numeric.hpp:sin", "include/efp/numeric.hpp:cos", "include/efp/numeric.hpp:tan"]}
{"id": "C169", "title": "To complex numbers and back", "statement": "complex_cast can be called with every number and in both directions without ambiguity; a real number survives the way to a complex number and back, a complex number the other way exactly if its imaginary part is zero.", "quantifier": "every real or complex number and both directions", "why_tests_cant": "Three overloads share the cases between them; a gap or an overlap shows only for the type that falls into it.", "anchors": ["include/efp/numeric.hpp:complex_cast", "include/efp/numeric.hpp:IsComplex"]}
{"id": "C170", "title": "Normalised errors do not depend on units", "statement": "nrmse_mean is the root mean square error divided by the mean of the second sequence and nrmse_max_min divided by the difference between its greatest and least element. Both are unchanged when all elements are multiplied with the same positive number, the latter also when the same number is added to all.", "quantifier": "all pairs of non-empty sequences, every positive factor and every offset", "why_tests_cant": "All real sequences; a wrong normaliser shows only when the data are shifted.", "anchors": ["include/efp/scientific.hpp:nrmse_mean", "include/efp/scientific.hpp:nrmse_max_min", "include/efp/numeric.hpp:max_min"]}
{"id": "C171", "title": "Assigning to a Vcb yields the Vcb", "statement": "The value of a move assignment to a Vcb is the object assigned to: what is done to it is done to that object.", "quantifier": "every n >= 1, history of both objects and element type", "why_tests_cant": "The result shows the same elements; that it is another object shows only when it is changed.", "anchors": ["include/efp/cyclic.hpp:Vcb::operator="]}
{"id": "C172", "title": "Elements pass through a chain of queues in order", "statement": "Unbounded BlockingQs in a row, with threads that dequeue from one and enqueue into the next: what is dequeued from the last queue was enqueued into the first one, in the same order, and no element is lost or duplicated on the way.", "quantifier": "any number of queues, producers, consumers and threads between two queues, every schedule", "why_tests_cant": "Overtaking needs an interleaving of several threads across several queues.", "anchors": ["include/efp/concurrency.hpp:BlockingQ::enqueue", "include/efp/concurrency.hpp:BlockingQ::dequeue"]}
{"id": "C173", "title": "Floating-point data compared with itself has no error", "statement": "sse, mse, rmse, nrmse_mean and nrmse_max_min of a sequence of finite floating-point numbers and itself are zero.", "quantifier": "every floating-point format, every sequence of finite numbers", "why_tests_cant": "NaN appears only for data with mean zero or for constant data; an exact zero for all other data rests on how differences are rounded.", "anchors": ["include/efp/scientific.hpp:sse", "include/efp/scientific.hpp:mse", "include/efp/scientific.hpp:rmse", "include/efp/scientific.hpp:nrmse_mean", "include/efp/scientific.hpp:nrmse_max_min"]}
{"id": "C174", "title": "Error measures of floating-point numbers are accurate", "statement": "As long as the squares of the differences are zero or normal numbers and their sum does not overflow, sse, mse, rmse and rms of n finite floating-point numbers differ from the exact result by a relative error of order n times the unit roundoff.", "quantifier": "every floating-point format, every pair of sequences of finite numbers in that range, every length n with (n + 5) unit roundoffs at most 1/2", "why_tests_cant": "Rounding errors add up along the sequence; a test sees the error of its own data only.", "anchors": ["include/efp/scientific.hpp:rms", "include/efp/scientific.hpp:sse", "include/efp/scientific.hpp:mse", "include/efp/scientific.hpp:rmse"]}
{"id": "C175", "title": "Variance of floating-point numbers is accurate up to the error of the mean", "statement": "As long as the squared deviations from the computed mean stay in the range of normal numbers, variance, with and without the Bessel correction, and the square of standard_deviation differ from the exact variance plus the squared error of the computed mean by a relative error of order n times the unit roundoff.", "quantifier": "every floating-point format, every sequence of finite numbers in that range, every length n with (n + 5) unit roundoffs at most 1/2", "why_tests_cant": "Errors add up along the sequence and depend on all elements; a one-pass formula would pass tests on small numbers and cancel on large ones.", "anchors": ["include/efp/scientific.hpp:variance", "include/efp/scientific.hpp:standard_deviation"]}
{"id": "C176", "title": "Covariance of floating-point numbers is accurate up to the errors of the means", "statement": "As long as nothing overflows, covariance of two sequences of n finite numbers, with and without the Bessel correction, differs from the exact covariance plus the product of the errors of the two computed means by at most 2(n+3) unit roundoffs of the average magnitude of the products of deviations, and a few times the least positive number.", "quantifier": "every floating-point format, all pairs of equally long sequences of finite numbers whose products of deviations do not overflow, every length n with (n + 3) unit roundoffs at most 1/2", "why_tests_cant": "Errors add up along the sequence and cancel in most data.", "anchors": ["include/efp/scientific.hpp:covariance"]}
{"id": "C177", "title": "Autocovariance of floating-point numbers is accurate at every lag", "statement": "As long as nothing overflows, autocovariance of n finite numbers at a lag below n is the exact sum of the products of deviations, lag apart, from the computed mean, divided by n, or by n - lag if adjusted, less one with the Bessel correction, up to 2(n - lag + 3) unit roundoffs of the same sum of magnitudes and a few times the least positive number.", "quantifier": "every floating-point format, every sequence of fewer than 2^31 finite numbers, every lag below its length, both corrections", "why_tests_cant": "Errors add up along the sequence; which products are added shows only in their sum.", "anchors": ["include/efp/scientific.hpp:autocovariance"]}
{"id": "C178", "title": "The slope of a regression line in double arithmetic is accurate", "statement": "As long as the squared deviations of the first sequence stay in the range of normal numbers and are not all zero, and nothing overflows, the first result of linear_regression differs from the exact quotient of the sum of products of deviations and the sum of squared deviations, from the computed means, by at most 8n + 21 unit roundoffs of the sum of the magnitudes of the products divided by the sum of squares, and a negligible absolute term; the second is the mean of the second sequence less the slope times the mean of the first, each rounded.", "quantifier": "all pairs of equally long sequences of fewer than 2^50 finite doubles in that range", "why_tests_cant": "Errors of three sums and a quotient combine; a test sees the error of its own data only.", "anchors": ["include/efp/scientific.hpp:linear_regression"]}
{"id": "C179", "title": "A correlation of doubles is accurate and exceeds one by rounding errors only", "statement": "As long as the squared deviations of both sequences stay in the range of normal numbers and are not all zero, and the sum of the magnitudes of their products does not overflow, correlation returns a finite number that differs from the exact correlation of the deviations from the computed means (the sum of products over the square root of the product of the sums of squares) by at most 7(n + 6) unit roundoffs, and whose magnitude is at most one plus 8(n + 6) unit roundoffs. (C122: it can exceed one.)", "quantifier": "all pairs of equally long sequences of finite doubles in that range, with at most 2^49 elements, with and without Bessel correction", "why_tests_cant": "Tests check the correlation of some data; that no data in range gives 1.1 or NaN takes an error analysis together with the Cauchy-Schwarz inequality.", "anchors": ["include/efp/scientific.hpp:correlation"]}
{"id": "C180", "title": "The autocorrelation of doubles is accurate and bounded", "statement": "As long as the squared deviations stay in the range of normal numbers and are not all zero, autocorrelation at any lag below the number n of elements is finite and differs from the exact quotient of the sum of products of deviations (from the computed mean) and the sum of their squares, each over its divisor, by at most 12n + 40 unit roundoffs of the same quotient of magnitudes, and eight unit roundoffs. Without the adjustment its magnitude is at most one up to that error; with it, at most the ratio of the two divisors.", "quantifier": "all sequences of fewer than 2^31 finite numbers in that range, all lags from 0 to n - 1, with and without Bessel correction and adjustment", "why_tests_cant": "Errors of two sums and two quotients combine over every sequence and lag; a test sees one.", "anchors": ["include/efp/scientific.hpp:autocorrelation"]}
{"id": "C181", "title": "The slope of linear_regression_with_index is accurate", "statement": "For 2 to 1290 finite doubles, as long as nothing overflows, the first result of linear_regression_with_index differs from the slope of the exact least-squares line of the data over their indices by at most 8n + 21 unit roundoffs of the sum of the magnitudes of the products of deviations divided by the sum of the squared deviations of the indices, and a negligible absolute term. The error of the computed mean of the data does not enter. The second result is the mean less the slope times the mean index, each rounded.", "quantifier": "all sequences of 2 to 1290 finite doubles whose deviations do not overflow (beyond 1290 the code overflows an int: C70)", "why_tests_cant": "A test compares one data set with a tolerance; which tolerance is right for every data set takes an error analysis.", "anchors": ["include/efp/scientific.hpp:linear_regression_with_index"]}
{"id": "C182", "title": "What detrend leaves of doubles is the residual of the least-squares line, up to rounding", "statement": "For 2 to 1290 finite doubles of magnitude at most M, M between 2^-954 and 2^974, every element of the result of detrend is finite and differs from the exact residual (the element less the exact least-squares line of the data at its index) by at most 50n + 210 unit roundoffs of M.", "quantifier": "all sequences of 2 to 1290 finite doubles in that range, all positions", "why_tests_cant": "C155 shows that the result is not exact; how far off it can be for any data takes an error analysis of the whole computation: mean, slope, intercept and subtraction.", "anchors": ["include/efp/scientific.hpp:detrend", "include/efp/scientific.hpp:linear_regression_with_index"]}
{"id": "C183", "title": "Mean, variance and covariance of bounded doubles are close to the exact ones", "statement": "For n < 2^38 finite doubles of magnitude at most M (and K for the second sequence), with M, K and M K between 2^-954 and 2^974, mean, variance and covariance return finite numbers. The mean differs from the exact average by at most 2n + 1 unit roundoffs of M, and the variance and covariance from the exact ones, about the exact averages, by at most 26n + 80 unit roundoffs of M^2 and of M K.", "quantifier": "all sequences of fewer than 2^38 finite doubles in that range, with and without Bessel correction", "why_tests_cant": "A user knows the range of the data, not the intermediate results; that nothing overflows and how far the result is off for any such data takes an error analysis.", "anchors": ["include/efp/scientific.hpp:mean", "include/efp/scientific.hpp:variance", "include/efp/scientific.hpp:covariance"]}
