{"id": "C01", "title": "No composed allocator ever corrupts memory", "statement": "For every allocator type that can be built from linear_allocator, stack_allocator, mallocator, null_allocator, freelist, fallback, segragator, cascading, overflow, threaded, shared and reference, a client that allocates non-empty blocks, writes only inside its live blocks and deallocates each live block once with its original size never drives the library into undefined behaviour (no access to memory that is not allocated, no invalid or double free).", "quantifier": "all allocator compositions, all histories of allocate/deallocate/write of any length, all behaviours of the system malloc", "why_tests_cant": "tests try a handful of compositions with a few dozen operations; the compositions and the histories are unbounded, and malloc may return any address or fail at any call", "anchors": ["include/ktl/allocators/linear_allocator.h: linear_allocator", "include/ktl/allocators/freelist.h: freelist", "include/ktl/allocators/fallback.h: fallback", "include/ktl/allocators/segragator.h: segragator", "include/ktl/allocators/cascading.h: cascading", "include/ktl/allocators/overflow.h: overflow", "include/ktl/allocators/mallocator.h: mallocator", "include/ktl/allocators/null_allocator.h: null_allocator"]}
{"id": "C02", "title": "Live blocks never overlap", "statement": "At every point of every contract-abiding history, the byte ranges [p, p+n) of the blocks a (composed) allocator has handed out and that have not been deallocated are pairwise disjoint.", "quantifier": "all allocator compositions, all histories, all malloc behaviours", "why_tests_cant": "an overlap needs a particular order of frees and reallocations; there are infinitely many orders", "anchors": ["include/ktl/allocators/linear_allocator.h: allocate, deallocate", "include/ktl/allocators/freelist.h: allocate, deallocate", "include/ktl/allocators/fallback.h", "include/ktl/allocators/segragator.h", "include/ktl/allocators/cascading.h"]}
{"id": "C03", "title": "Every returned block is non-null, maximally aligned and inside the address space", "statement": "Every non-null pointer returned by allocate(n) is a multiple of alignof(max_align_t) (16) and [p, p+n) does not wrap around the address space.", "quantifier": "all allocator compositions, all histories, all malloc behaviours", "why_tests_cant": "alignment of the k-th block depends on all earlier sizes; tests look at few sizes", "anchors": ["include/ktl/utility/alignment.h: align_to_architecture", "include/ktl/allocators/linear_allocator.h: allocate", "include/ktl/allocators/overflow.h: allocate", "README.md: Allocators always use an alignment equal to the std::max_align_t type"]}
{"id": "C04", "title": "The allocator never changes the contents of a live block", "statement": "Bytes a client stored in a live block keep their value until the client overwrites them or deallocates the block, whatever other allocations and deallocations happen in between.", "quantifier": "all allocator compositions, all histories interleaving writes with allocate/deallocate", "why_tests_cant": "the freelist writes links and the overflow allocator writes guard bytes into memory it manages; whether any of these writes can ever land in a live block is a statement about all histories", "anchors": ["include/ktl/allocators/freelist.h: deallocate", "include/ktl/allocators/overflow.h: allocate", "include/ktl/allocators/linear_allocator.h"]}
{"id": "C05", "title": "Destroying an allocator returns every byte it obtained", "statement": "If every block has been deallocated when a (composed) allocator is destroyed, then all memory it obtained from malloc has been freed exactly once and its own storage is intact: nothing leaks and nothing is freed twice.", "quantifier": "all allocator compositions, all histories that end with no live block", "why_tests_cant": "leak freedom is about the final state of every history, including memory parked in free lists and in cascaded nodes", "anchors": ["include/ktl/allocators/freelist.h: release, ~freelist", "include/ktl/allocators/cascading.h: release, ~cascading", "include/ktl/allocators/mallocator.h: deallocate"]}
{"id": "C06", "title": "owns() recognises exactly the allocator's own memory", "statement": "For allocators with owns: owns(x) is true for every address x inside a live block, and false for every address that belongs to anybody else (another allocator, a malloc block of the client). owns(nullptr) is false, except where a null_allocator answers: its owns(p) is p == nullptr.", "quantifier": "all owning compositions, all reachable states, all addresses", "why_tests_cant": "ranges over every 64-bit address and every reachable state", "anchors": ["include/ktl/allocators/linear_allocator.h: owns", "include/ktl/allocators/cascading.h: owns", "include/ktl/allocators/fallback.h: owns", "include/ktl/allocators/segragator.h: owns"]}
{"id": "C07", "title": "allocate(n) gives at least n bytes or nullptr, for every n", "statement": "linear_allocator/stack_allocator allocate(n) returns nullptr or a pointer to at least n usable bytes inside its buffer, for every size_t n.", "quantifier": "all buffer sizes, all reachable states, all 64-bit n", "why_tests_cant": "the interesting n are those near 2^64 where the size computation wraps; no test uses them", "anchors": ["include/ktl/allocators/linear_allocator.h: allocate", "include/ktl/allocators/stack_allocator.h: allocate", "include/ktl/utility/alignment.h: align_to_architecture"]}
{"id": "C08", "title": "Linear allocation succeeds exactly when it fits", "statement": "linear_allocator::allocate(n) succeeds if and only if n rounded up to a multiple of 16 fits in the bytes behind the current top; a failed allocation changes nothing.", "quantifier": "all sizes, all reachable states", "why_tests_cant": "the boundary depends on the history", "anchors": ["include/ktl/allocators/linear_allocator.h: allocate", "include/ktl/allocators/stack_allocator.h: allocate"]}
{"id": "C09", "title": "Linear allocator reclaims LIFO frees and resets when empty", "statement": "After any history, a continuation that frees in last-in first-out order everything it allocates restores the allocator's state exactly (all its bytes are available again, the next allocation of a size returns the same address), and after any order of frees that leaves no live block the whole buffer is available again.", "quantifier": "all histories of non-empty allocations and frees", "why_tests_cant": "orders of frees are factorially many", "anchors": ["include/ktl/allocators/linear_allocator.h: deallocate", "include/ktl/allocators/stack_allocator.h: deallocate"]}
{"id": "C10", "title": "Copies of a stack_allocator share one stack", "statement": "All copies of a stack_allocator operate on the same stack object: any history of operations issued through any mix of copies gives exactly the results of the same history issued through a single allocator, and agrees with linear_allocator of the same size at the same address.", "quantifier": "all histories, all assignments of operations to copies", "why_tests_cant": "unbounded histories and interleavings of handles", "anchors": ["include/ktl/allocators/stack_allocator.h: stack_allocator, stack"]}
{"id": "C11", "title": "freelist serves exactly sizes in (Min, Max] and always reserves Max", "statement": "freelist<Min,Max,A>::allocate(n) returns nullptr without touching anything when n <= Min or n > Max; otherwise it returns the most recently freed block if there is one, else a fresh underlying block of Max bytes; therefore any freed block can serve any later request in range.", "quantifier": "all Min, Max, n, all reachable states", "why_tests_cant": "depends on all histories of frees", "anchors": ["include/ktl/allocators/freelist.h: allocate, deallocate"]}
{"id": "C12", "title": "freelist reuses blocks last-in first-out and never returns them early", "statement": "Between construction and destruction a freelist never deallocates to its underlying allocator, and the number of blocks it has taken from it never exceeds the largest number of simultaneously live blocks.", "quantifier": "all histories", "why_tests_cant": "maximum over unbounded histories", "anchors": ["include/ktl/allocators/freelist.h: allocate, deallocate, release"]}
{"id": "C13", "title": "fallback tries the primary first and routes frees to the right owner", "statement": "fallback<P,F>::allocate(n) returns the primary's result whenever that is non-null and otherwise exactly the fallback's result; every later deallocate of a non-empty block reaches the allocator that produced it.", "quantifier": "all P, F with owns on P, all histories of non-empty blocks", "why_tests_cant": "routing depends on owns over all states", "anchors": ["include/ktl/allocators/fallback.h: allocate, deallocate"]}
{"id": "C14", "title": "segragator routes by size, consistently", "statement": "segragator<T,P,F> serves n <= T from P and n > T from F, on allocation and deallocation alike, so a block deallocated with its original size always goes back where it came from.", "quantifier": "all thresholds, sizes and histories", "why_tests_cant": "all sizes around all thresholds", "anchors": ["include/ktl/allocators/segragator.h: allocate, deallocate"]}
{"id": "C15", "title": "cascading finds the owner of every block", "statement": "Deallocating a live non-empty block from a cascading allocator reaches the instance it came from, decrements only that instance's allocation count, and deletes the instance exactly when it becomes empty and is not the front one.", "quantifier": "all histories, all numbers of instances", "why_tests_cant": "unbounded number of instances and orders", "anchors": ["include/ktl/allocators/cascading.h: allocate, deallocate"]}
{"id": "C16", "title": "cascading keeps at most one empty instance", "statement": "The number of allocator instances a cascading allocator keeps is at most the number of live blocks plus one, so memory use shrinks again after a burst of allocations.", "quantifier": "all histories, all underlying allocators", "why_tests_cant": "a bound over every history", "anchors": ["include/ktl/allocators/cascading.h: allocate, deallocate"]}
{"id": "C17", "title": "max_size() can be called on any cascading allocator", "statement": "max_size() of a cascading allocator (and of any allocator that forwards to one) is defined in every state reachable through the API, including right after construction.", "quantifier": "all reachable states", "why_tests_cant": "only an unusual call order exhibits the failure", "anchors": ["include/ktl/allocators/cascading.h: max_size, allocate"]}
{"id": "C18", "title": "max_size() is an upper bound", "statement": "If allocate(n) succeeds then n <= max_size(), for every allocator that defines max_size.", "quantifier": "all compositions with max_size, all states, all n", "why_tests_cant": "all sizes and states", "anchors": ["include/ktl/allocators/linear_allocator.h: max_size", "include/ktl/allocators/freelist.h: max_size", "include/ktl/allocators/fallback.h: max_size", "include/ktl/allocators/segragator.h: max_size", "include/ktl/allocators/overflow.h: max_size", "include/ktl/allocators/cascading.h: max_size"]}
{"id": "C19", "title": "A request within max_size() can be served by an empty allocator", "statement": "A freshly constructed linear_allocator can satisfy any single request with n <= max_size().", "quantifier": "all buffer sizes and n", "why_tests_cant": "fails only for buffer sizes that are not a multiple of 16", "anchors": ["include/ktl/allocators/linear_allocator.h: allocate, max_size"]}
{"id": "C20", "title": "overflow reports corruption if and only if a guard byte changed", "statement": "When a block is deallocated, the overflow allocator writes a corruption report iff at least one of the 64 guard bytes before or after the block differs from the pattern, and the reported Before/After numbers are the distances of the farthest modified guard bytes. From allocate to deallocate: a report is written iff some guard byte is not what it was when allocate returned.", "quantifier": "all block sizes, all contents of the guard zones and the block", "why_tests_cant": "2^1024 guard contents", "anchors": ["include/ktl/allocators/overflow.h: allocate, deallocate"]}
{"id": "C21", "title": "overflow never raises a false corruption alarm", "statement": "If the client only writes inside its live blocks, no corruption report is ever written, for any underlying allocator and any history.", "quantifier": "all histories, all quiet underlying allocators", "why_tests_cant": "depends on the allocator below never touching guard bytes of live blocks", "anchors": ["include/ktl/allocators/overflow.h: allocate, deallocate"]}
{"id": "C22", "title": "overflow leak accounting is exact", "statement": "When an overflow allocator is destroyed it reports a leak iff the total of allocated bytes differs from the total of deallocated bytes, with the exact difference; a program that frees everything it received gets no report.", "quantifier": "all histories, including failed allocations", "why_tests_cant": "needs failed allocations in between", "anchors": ["include/ktl/allocators/overflow.h: allocate, deallocate, ~overflow"]}
{"id": "C23", "title": "overflow construct/destroy accounting is exact", "statement": "When an overflow allocator is destroyed it reports the exact imbalance between construct and destroy calls, and nothing when they balance.", "quantifier": "all histories", "why_tests_cant": "all numbers and orders of calls", "anchors": ["include/ktl/allocators/overflow.h: construct, destroy, ~overflow"]}
{"id": "C24", "title": "Reference counting of shared allocators is exact", "statement": "For every history of copy construction, move construction, copy assignment, move assignment and destruction of shared<A> handles, the use count equals the number of handles referring to the block, the block is deleted exactly once, exactly when the last handle goes away, and never used afterwards.", "quantifier": "all histories over any number of handles and blocks", "why_tests_cant": "self-assignment and long alias chains are not tested", "anchors": ["include/ktl/allocators/shared.h: shared, increment, decrement"]}
{"id": "C25", "title": "Assigning a shared allocator to itself is harmless", "statement": "a = a leaves a shared<A> handle valid.", "quantifier": "all reachable handle configurations", "why_tests_cant": "an aliasing corner no unit test exercises", "anchors": ["include/ktl/allocators/shared.h: operator="]}
{"id": "C26", "title": "atomic_shared handles are safe across threads", "statement": "When handles to one atomic_shared block are copied and destroyed concurrently, in any interleaving of the atomic increments and decrements, the block is deleted exactly once, after every use.", "quantifier": "all schedules, any number of threads", "why_tests_cant": "schedules cannot be enumerated by tests", "anchors": ["include/ktl/allocators/shared.h: increment, decrement", "include/ktl/allocators/shared_fwd.h: atomic_shared"]}
{"id": "C27", "title": "threaded makes allocate and deallocate atomic", "statement": "For any number of threads and any schedule, the results and the final state of concurrent allocate/deallocate calls on a threaded<A> equal those of some sequential order of the same calls consistent with each thread's program order.", "quantifier": "all schedules, all thread programs, all underlying allocators", "why_tests_cant": "interleavings", "anchors": ["include/ktl/allocators/threaded.h: allocate, deallocate"]}
{"id": "C28", "title": "threaded also protects construct and destroy", "statement": "Concurrent construct/destroy calls through threaded<A> leave the underlying bookkeeping as some sequential execution would.", "quantifier": "all schedules", "why_tests_cant": "a lost update needs a particular schedule", "anchors": ["include/ktl/allocators/threaded.h: construct, destroy", "include/ktl/allocators/overflow.h: construct"]}
{"id": "C29", "title": "Equality of allocators is a consistent relation", "statement": "For every allocator, a != b is the negation of a == b.", "quantifier": "all states", "why_tests_cant": "tests rarely compare both ways", "anchors": ["include/ktl/allocators/global.h: operator==, operator!=", "include/ktl/allocators/linear_allocator.h", "include/ktl/allocators/freelist.h", "include/ktl/allocators/fallback.h", "include/ktl/allocators/segragator.h", "include/ktl/allocators/reference.h", "include/ktl/allocators/shared.h"]}
{"id": "C30", "title": "reference and global wrappers are transparent", "statement": "Operations through any copy of reference<A> (or any global<A> instance) act on the one underlying allocator: any history through any mix of handles equals the same history on the allocator itself.", "quantifier": "all histories and handle choices", "why_tests_cant": "unbounded histories", "anchors": ["include/ktl/allocators/reference.h", "include/ktl/allocators/global.h"]}
{"id": "C31", "title": "type_allocator scales by sizeof(T)", "statement": "type_allocator<T,A>::allocate(n) returns nullptr or memory for n objects of T and deallocate(p,n) hands back the size that was allocated, for every n.", "quantifier": "all n, all sizeof(T)", "why_tests_cant": "wrap-around of sizeof(T)*n", "anchors": ["include/ktl/allocators/type_allocator.h: allocate, deallocate, max_size"]}
{"id": "C32", "title": "align_to_architecture rounds up to the next multiple of 16", "statement": "n + align_to_architecture(n) is the least multiple of 16 that is >= n, for every n for which such a 64-bit number exists.", "quantifier": "all 64-bit n", "why_tests_cant": "2^64 inputs", "anchors": ["include/ktl/utility/alignment.h: align_to_architecture"]}
{"id": "C33", "title": "log2 is the floor of the binary logarithm", "statement": "detail::log2(n) is the position of the highest set bit for every non-zero 64-bit n.", "quantifier": "all 64-bit n", "why_tests_cant": "2^64 inputs", "anchors": ["include/ktl/utility/bits.h: log2"]}
{"id": "C34", "title": "pow2 is the least power of two not below N", "statement": "detail::pow2<N>::Result is the least power of two >= N for every 1 <= N <= 2^63.", "quantifier": "all N", "why_tests_cant": "2^63 inputs", "anchors": ["include/ktl/utility/builder.h: pow2"]}
{"id": "C35", "title": "packed_ptr returns what was stored", "statement": "For every power-of-two Alignment and Bits <= log2(Alignment): a packed_ptr built from an aligned pointer p and an integer v < 2^Bits returns p and v; any later sequence of set_ptr/set_int keeps the two fields independent (each getter returns the last value set).", "quantifier": "all alignments, bit counts, pointers, values and sequences of setters", "why_tests_cant": "2^64 pointers x values x histories", "anchors": ["include/ktl/containers/packed_ptr.h: packed_ptr, get_ptr, get_int, set_ptr, set_int"]}
{"id": "C36", "title": "packed_ptr truncates instead of corrupting", "statement": "Storing an integer that does not fit in Bits bits keeps only its low Bits bits and never changes the pointer; storing a misaligned pointer drops its low bits and never changes the integer; operator bool is false iff both fields are zero.", "quantifier": "all pointers and integers", "why_tests_cant": "2^128 inputs", "anchors": ["include/ktl/containers/packed_ptr.h: set_int, set_ptr, operator bool"]}
{"id": "C37", "title": "fallback_builder keeps the order of its allocators", "statement": "fallback_builder_min/max<A1,...,Ak> tries the allocators strictly in the listed order: the allocation is served by the first Ai that can serve it, whatever k and whichever leaning.", "quantifier": "all k >= 1, all lists, both leanings", "why_tests_cant": "the template recursion is only instantiated for a few k in tests", "anchors": ["include/ktl/allocators/fallback_fwd.h: fallback_builder", "include/ktl/utility/builder.h: size_invert, tuple_split_indices"]}
{"id": "C38", "title": "segragator_builder routes every size to the right bucket", "statement": "segragator_builder_min/max<A0,t1,A1,...,tk,Ak> with increasing thresholds serves size n with the first Ai such that n <= t(i+1) (Ak if none), whatever k and whichever leaning; the static_assert on odd counts never fires in the recursion.", "quantifier": "all k, all increasing thresholds, all n, both leanings", "why_tests_cant": "the template recursion is only instantiated for a few k", "anchors": ["include/ktl/allocators/segragator_fwd.h: segragator_builder"]}
{"id": "C39", "title": "Builders produce trees of logarithmic depth", "statement": "The tree produced by either builder for k allocators has depth at most ceil(log2 k), so routing costs O(log k).", "quantifier": "all k >= 1, both leanings", "why_tests_cant": "all k", "anchors": ["include/ktl/allocators/segragator_fwd.h", "include/ktl/allocators/fallback_fwd.h", "include/ktl/utility/builder.h"]}
{"id": "C40", "title": "The portable aligned_malloc is correct", "statement": "On platforms without an aligned malloc, aligned_malloc(size, 16) returns a 16-aligned block of size usable bytes whose hidden header lies inside the malloc block and before the user's bytes, and aligned_free gives malloc's original pointer back.", "quantifier": "all sizes that do not wrap, all addresses malloc may return", "why_tests_cant": "depends on the residue of malloc's address", "anchors": ["include/ktl/utility/aligned_malloc.h: aligned_malloc, aligned_free"]}
{"id": "C41", "title": "The posix_memalign branch allocates the requested size", "statement": "On platforms using posix_memalign, aligned_malloc(size, alignment) returns size bytes aligned to alignment.", "quantifier": "all sizes", "why_tests_cant": "the branch is not compiled on the CI platforms", "anchors": ["include/ktl/utility/aligned_malloc.h: aligned_malloc (KTL_HAS_POSIX_MEMALIGN)"]}
{"id": "C42", "title": "trivial_vector behaves like a sequence", "statement": "Any history of push_back (single and range), emplace_back, erase (single and range), resize to a smaller size, reserve, clear and element writes on a trivial_vector over any sound allocator has the same observable contents and size as the same history on a mathematical list.", "quantifier": "all histories, all element sizes, all allocator compositions, all malloc behaviours", "why_tests_cant": "unbounded histories with reallocation at arbitrary moments", "anchors": ["include/ktl/containers/trivial_vector.h: push_back, emplace_back, erase, resize, reserve, clear, expand, set_size"]}
{"id": "C43", "title": "trivial_vector never leaks or overruns its storage", "statement": "Across any such history the vector accesses only its own block, frees every block it replaces with the size it was allocated with, keeps size() <= capacity(), and its destructor returns all memory.", "quantifier": "all histories, all allocators", "why_tests_cant": "memory safety over unbounded histories", "anchors": ["include/ktl/containers/trivial_vector.h: set_size, ~trivial_vector"]}
{"id": "C44", "title": "trivial_vector growth is geometric", "statement": "A sequence of n push_backs from empty copies O(n) elements in total and capacity never shrinks; reserve(n) makes the next n - size() push_backs allocation free.", "quantifier": "all n", "why_tests_cant": "asymptotic statement", "anchors": ["include/ktl/containers/trivial_vector.h: expand, set_size, reserve"]}
{"id": "C45", "title": "push_back of an element of the vector itself works", "statement": "v.push_back(v[i]) appends a copy of element i for every i < size(), as std::vector guarantees.", "quantifier": "all vectors, all i, all capacities", "why_tests_cant": "fails only when the vector is exactly full", "anchors": ["include/ktl/containers/trivial_vector.h: push_back(const T&), expand"]}
{"id": "C46", "title": "Copy assignment to itself preserves a container", "statement": "x = x leaves a trivial_vector, trivial_array or binary_heap unchanged.", "quantifier": "all containers and contents", "why_tests_cant": "an aliasing corner", "anchors": ["include/ktl/containers/trivial_vector.h: operator=", "include/ktl/containers/trivial_array.h: operator=", "include/ktl/containers/binary_heap.h: operator="]}
{"id": "C47", "title": "Moving a container to a different allocator frees the old block correctly", "statement": "Container(Container&&, const Alloc&) deallocates the source's block with the size it was allocated with.", "quantifier": "all element sizes and lengths", "why_tests_cant": "only size-sensitive allocators (linear, freelist, segragator) notice", "anchors": ["include/ktl/containers/trivial_vector.h: trivial_vector(trivial_vector&&, const Alloc&)", "include/ktl/containers/trivial_array.h", "include/ktl/containers/binary_heap.h"]}
{"id": "C48", "title": "Copying and moving containers preserves contents", "statement": "Copy construction and copy assignment from another container give equal contents and leave the source unchanged; move construction and move assignment transfer the contents and leave the source empty; the target's old block is freed.", "quantifier": "all containers, contents and allocators", "why_tests_cant": "all contents", "anchors": ["include/ktl/containers/trivial_vector.h", "include/ktl/containers/trivial_array.h", "include/ktl/containers/binary_heap.h"]}
{"id": "C49", "title": "trivial_array behaves like a fixed-size array with resize", "statement": "resize(n) keeps the first min(size, n) elements and sets size() to n; assign replaces contents and size; the old block is freed with its size.", "quantifier": "all histories, element sizes and allocators", "why_tests_cant": "all sizes and histories", "anchors": ["include/ktl/containers/trivial_array.h: resize, assign"]}
{"id": "C50", "title": "trivial_buffer indexing rolls over", "statement": "b[i] and b[j] denote the same element iff i and j are congruent modulo size(); writing one element changes no other; copy/assign copy all elements.", "quantifier": "all sizes >= 1, all indices", "why_tests_cant": "all indices", "anchors": ["include/ktl/containers/trivial_buffer.h: operator[], at"]}
{"id": "C51", "title": "binary_heap: the root is extremal", "statement": "After any history of insert, pop, reserve, clear, copy and move, peek() is an element of the heap such that no element compares before it.", "quantifier": "all histories, all element types, all strict weak orders", "why_tests_cant": "all inputs and orders", "anchors": ["include/ktl/containers/binary_heap.h: insert, pop, peek, percolateUp, percolateDown"]}
{"id": "C52", "title": "binary_heap neither loses nor invents elements", "statement": "After any history the heap contains exactly the inserted elements minus the popped ones (as a multiset); size() counts them.", "quantifier": "all histories", "why_tests_cant": "all inputs", "anchors": ["include/ktl/containers/binary_heap.h: insert, pop, set_size"]}
{"id": "C53", "title": "Popping everything sorts", "statement": "Popping a heap until it is empty yields its elements in non-decreasing order of the comparator (a sorted permutation).", "quantifier": "all heaps, all strict weak orders", "why_tests_cant": "all inputs", "anchors": ["include/ktl/containers/binary_heap.h: pop"]}
{"id": "C54", "title": "insert returns an iterator to the inserted element", "statement": "The iterator returned by insert(v) points at an element equal to v inside the heap.", "quantifier": "all heaps and values", "why_tests_cant": "all inputs", "anchors": ["include/ktl/containers/binary_heap.h: insert"]}
{"id": "C55", "title": "find returns the first matching position or end()", "statement": "find(v) returns the first index holding a value equal to v, or end() iff there is none, and modifies nothing.", "quantifier": "all heaps and values", "why_tests_cant": "all inputs", "anchors": ["include/ktl/containers/binary_heap.h: find"]}
{"id": "C56", "title": "binary_heap respects object lifetimes", "statement": "No operation of binary_heap reads, moves from or assigns to an element that has been destroyed or never constructed, for any element type.", "quantifier": "all histories including popping the last element", "why_tests_cant": "sanitizers only see tested types and histories", "anchors": ["include/ktl/containers/binary_heap.h: pop, percolateDown, set_size, clear"]}
{"id": "C57", "title": "construct/destroy reach exactly one object", "statement": "construct(p, args...) through any composition constructs exactly one object at p, and destroy(p) destroys exactly one, through the sub-allocator owning p.", "quantifier": "all compositions with construct, all states", "why_tests_cant": "all compositions", "anchors": ["include/ktl/allocators/fallback.h: construct, destroy", "include/ktl/allocators/segragator.h: construct, destroy", "include/ktl/allocators/cascading.h: construct, destroy", "include/ktl/allocators/overflow.h: construct, destroy"]}
{"id": "C58", "title": "Zero-size blocks are safe in every composition", "statement": "allocate(0) followed by deallocate(p, 0) is harmless for every composed allocator in every state.", "quantifier": "all compositions and states", "why_tests_cant": "fails only when a linear buffer is exactly full", "anchors": ["include/ktl/allocators/fallback.h: deallocate", "include/ktl/allocators/linear_allocator.h: owns, allocate", "include/ktl/allocators/cascading.h: deallocate"]}
{"id": "C59", "title": "Nested cascading allocators work", "statement": "cascading<A> works for every default-constructible A with owns, in particular for A = cascading<B>.", "quantifier": "all compositions", "why_tests_cant": "never instantiated in tests", "anchors": ["include/ktl/allocators/cascading.h: allocate, max_size"]}
{"id": "C60", "title": "Moving an unused allocator gives an unused allocator", "statement": "Move construction and move assignment of linear_allocator, freelist and cascading leave both sides in a usable state, the target serving requests as a fresh allocator of its type would (linear) or continuing with the source's memory (freelist over shared memory, cascading), and nothing is freed twice.", "quantifier": "all states permitted by the documentation", "why_tests_cant": "depends on the history of the target", "anchors": ["include/ktl/allocators/linear_allocator.h: operator=(linear_allocator&&)", "include/ktl/allocators/freelist.h: operator=(freelist&&)", "include/ktl/allocators/cascading.h: operator=(cascading&&)"]}
{"id": "C61", "title": "binary_heap.insert accepts an element of the heap itself", "statement": "h.insert(h.begin()[k]) inserts a copy of element k, whatever the capacity of h.", "quantifier": "all heaps, all elements, all capacities", "why_tests_cant": "fails only when the insertion makes the heap grow", "anchors": ["include/ktl/containers/binary_heap.h: insert, expand, set_size"]}
{"id": "C62", "title": "binary_heap destroys every element exactly once", "statement": "Every element a binary_heap constructs is destroyed exactly once, before its storage is given back or reused; when all heaps have been destroyed no element is left.", "quantifier": "all histories, all element types, all allocators", "why_tests_cant": "a missing destructor call is invisible for the types used in tests", "anchors": ["include/ktl/containers/binary_heap.h: binary_heap(binary_heap&&, const Alloc&), ~binary_heap, set_size, clear, pop"]}
{"id": "C63", "title": "A request is refused only for want of memory", "statement": "allocate(n) never returns null while the composition can provide n bytes: whenever the requests it is routed to end in malloc (or in a cascading whose new instances can hold it), a request after any history yields a new block, unless malloc itself has failed. A freelist with an empty list passes the request on, an overflow refuses exactly what its allocator refuses for n + 128 bytes. An object whose blocks have all been given back serves exactly what a new one serves.", "quantifier": "all compositions, all histories, all n", "why_tests_cant": "an allocator that refuses needlessly is safe, and tests sample few states", "anchors": ["include/ktl/allocators/mallocator.h: allocate", "include/ktl/allocators/freelist.h: allocate", "include/ktl/allocators/fallback.h: allocate", "include/ktl/allocators/segragator.h: allocate", "include/ktl/allocators/cascading.h: allocate", "include/ktl/allocators/overflow.h: allocate"]}
{"id": "C64", "title": "Threads sharing a threaded allocator never get overlapping blocks", "statement": "Any number of threads allocate and deallocate through one threaded<A> object: in every interleaving all blocks held by all threads are non-null, aligned and pairwise disjoint, and the allocator does not run into undefined behaviour.", "quantifier": "all compositions A, all numbers of threads, all contract-abiding programs, all schedules", "why_tests_cant": "races show up in few schedules", "anchors": ["include/ktl/allocators/threaded.h: allocate, deallocate"]}
{"id": "C65", "title": "Copies of an allocator are interchangeable", "statement": "A block allocated through one copy of an allocator (any composition that can be copied) may be deallocated through any other copy: a program that uses any number of copies, created and destroyed at any time, observes the same blocks, contents and refusals as with a single object.", "quantifier": "all copyable compositions, all programs with copies", "why_tests_cant": "containers copy allocators all the time; wrong sharing shows up only for particular mixes of copies", "anchors": ["include/ktl/allocators/stack_allocator.h: copy constructor", "include/ktl/allocators/shared.h: shared(const shared&)", "include/ktl/allocators/reference.h: reference(const reference&)", "include/ktl/allocators/fallback.h: copy constructor", "include/ktl/allocators/segragator.h: copy constructor", "include/ktl/allocators/overflow.h: copy constructor"]}
{"id": "C66", "title": "The deletion of an atomic_shared block happens after every other access", "statement": "When the last handle to an atomic_shared block is given up, the destruction of the block happens after (in the sense of the C++ memory model) every other access to it by any thread: every counter operation and the start and end of every call of the wrapped allocator; its construction happens before all of them. So neither races with any access.", "quantifier": "all numbers of threads, all interleavings, all sequences of handle operations", "why_tests_cant": "a too weak memory order shows up on few machines, rarely, and not under a sequentially consistent interleaving", "anchors": ["include/ktl/allocators/shared.h: increment, decrement"]}
{"id": "C67", "title": "Giving back the null pointer has no effect", "statement": "deallocate(nullptr, n), as a program that does not look at the result of a refused request would call it, changes nothing: a program that makes such calls, at any time and with any sizes, has no undefined behaviour and observes the same blocks, contents, refusals, memory and reports as without them.", "quantifier": "all compositions, all histories, all places and sizes of the null pointers", "why_tests_cant": "the damage (a live block handed out a second time) depends on the sizes of the other live blocks at that moment", "anchors": ["include/ktl/allocators/freelist.h: deallocate", "include/ktl/allocators/overflow.h: deallocate", "include/ktl/allocators/linear_allocator.h: deallocate", "include/ktl/allocators/stack_allocator.h: deallocate", "include/ktl/allocators/cascading.h: deallocate"]}
{"id": "C68", "title": "binary_heap growth is geometric", "statement": "insert uses the allocator only when the capacity is exhausted; n insertions into an empty heap request O(n) elements in total and leave a capacity of at most 2n; after reserve(n) the heap can reach n elements without using the allocator; no operation on a heap shrinks its capacity.", "quantifier": "all sequences of insertions, all allocators, all element types, all comparators", "why_tests_cant": "an amortised bound is a statement about all lengths", "anchors": ["include/ktl/containers/binary_heap.h: insert, expand, reserve, set_size"]}
{"id": "C69", "title": "binary_heap insert and pop need logarithmically many comparisons", "statement": "On a heap of n elements the outcome of insert is determined by at most floor(log2(n+1)) comparisons and that of pop by at most 2*floor(log2(n-1)), whatever the comparator answers.", "quantifier": "all heap sizes, contents, comparators (also inconsistent ones), element types, allocators", "why_tests_cant": "complexity is a bound for all sizes and all contents", "anchors": ["include/ktl/containers/binary_heap.h: insert, pop, percolateUp, percolateDown"]}
{"id": "C70", "title": "Allocators that compare equal are interchangeable", "statement": "If two separately constructed allocators of the same type compare equal (operator==) at some moment, a block allocated from one may from then on be accounted to the other: deallocating it there, at any time later, even after the two have become unequal or the first one was destroyed, is safe; blocks stay disjoint, aligned and intact, and nothing is leaked or freed twice once all objects are destroyed. Copies of an allocator always compare equal.", "quantifier": "all compositions, any number of objects, all programs that hand blocks over between equal objects", "why_tests_cant": "containers rely on this when they are swapped or spliced; whether == is too coarse shows up only for particular compositions and states", "anchors": ["include/ktl/allocators/freelist.h: operator==", "include/ktl/allocators/fallback.h: operator==", "include/ktl/allocators/segragator.h: operator==", "include/ktl/allocators/cascading.h: operator==", "include/ktl/allocators/overflow.h: operator==", "include/ktl/allocators/threaded.h: operator==", "include/ktl/allocators/shared.h: operator==", "include/ktl/allocators/reference.h: operator==", "include/ktl/allocators/linear_allocator.h: operator==", "include/ktl/allocators/stack_allocator.h: operator==", "include/ktl/allocators/mallocator.h: operator=="]}
{"id": "C71", "title": "Vectors over reference counted allocators", "statement": "trivial_vectors whose allocators are shared<A> handles can be constructed, copied (also with another vector's allocator), moved, assigned across different allocators and destroyed in any order: contents are those of mathematical sequences, every block goes back to the allocator it came from, an allocator lives exactly as long as some vector holds a handle of it, and when the last vector is gone all memory has been given back.", "quantifier": "all compositions under shared, any number of allocators and vectors, all programs", "why_tests_cant": "the order of deallocation, handle release and allocation inside an assignment matters only when the handle released is the last one", "anchors": ["include/ktl/containers/trivial_vector.h: copy/move constructor and assignment, destructor", "include/ktl/allocators/type_allocator.h: copy/move constructor and assignment", "include/ktl/allocators/shared.h: increment, decrement"]}
{"id": "C72", "title": "A refused request leaves a container as it was", "statement": "If the allocator refuses the request of a container operation (returns nullptr), the operation has no undefined behaviour and afterwards the container is as it was before: size, capacity and elements. If no request is refused, the operation does what it does with unlimited memory.", "quantifier": "all allocators, all container states, all operations that allocate (constructors, resize, reserve, push_back, insert)", "why_tests_cant": "tests run with allocators that have enough memory; which of the requests is the first to be refused depends on the whole history", "anchors": ["include/ktl/containers/trivial_vector.h: constructors, set_size, push_back, reserve, resize", "include/ktl/containers/trivial_array.h: resize", "include/ktl/containers/binary_heap.h: set_size, insert"]}
{"id": "C73", "title": "owns of a threaded allocator may be called while other threads allocate", "statement": "owns(p) of a threaded allocator takes no lock. Threads that allocate and deallocate under the lock are not disturbed by threads that call owns at any time: blocks stay disjoint, aligned and accessible and nothing is undefined; and every owns(p) answers 1 if p lies in a block that some thread holds, held or will hold, and 0 if p is memory that existed before the allocator and is not part of it.", "quantifier": "all compositions with owns, any number of threads, all programs, all interleavings of the single accesses", "why_tests_cant": "the outcome depends on which accesses of which calls interleave; a test sees a few schedules", "anchors": ["include/ktl/allocators/threaded.h: allocate, deallocate, owns", "include/ktl/allocators/cascading.h: owns, deallocate", "include/ktl/allocators/linear_allocator.h: owns", "include/ktl/allocators/stack_allocator.h: owns"]}
{"id": "C74", "title": "Pointers into a vector stay valid while it has room", "statement": "A call on a trivial_vector that needs no more than capacity() (push_back of one element or a range, resize, reserve, erase, clear, access) does not use the allocator and cannot fail; data() and capacity() of every vector stay as they are, and no byte is written but those of the elements added, moved or assigned: pointers, references and iterators into all vectors stay valid. A call that needs more leaves exactly the capacity the growth rule gives: one half more than before, or what the call asks for (reserve: exactly what it asks for); all other vectors stay untouched.", "quantifier": "all allocator compositions, all histories, all calls", "why_tests_cant": "an invalidated pointer still reads the old bytes in most test runs; whether a call reallocates depends on the whole history of the vector", "anchors": ["include/ktl/containers/trivial_vector.h: push_back, resize, reserve, erase, clear, expand, set_size"]}
{"id": "C75", "title": "No assertion fails in a program that follows the rules", "statement": "With KTL_DEBUG_ASSERT, a program that gives back only blocks it got, with their sizes, and makes and destroys objects only inside its blocks never runs into an assertion of deallocate, construct or destroy; once everything has been given back, the destructor runs into none either. The program does the same as in a build without assertions.", "quantifier": "all compositions, all histories", "why_tests_cant": "whether the assertion in the destructor of cascading fails depends on the whole history of requests; the test suite is one set of histories", "anchors": ["include/ktl/allocators/cascading.h: deallocate, construct, destroy, release", "include/ktl/allocators/linear_allocator.h: deallocate", "include/ktl/allocators/null_allocator.h: deallocate", "include/ktl/allocators/freelist.h: deallocate", "include/ktl/allocators/overflow.h: deallocate", "include/ktl/utility/assert.h: KTL_ASSERT"]}
{"id": "C76", "title": "Elements of containers are aligned for their type", "statement": "Every element of a trivial_vector, trivial_array, trivial_buffer or binary_heap of T, and every place of spare capacity, is at a multiple of alignof(T).", "quantifier": "all types T, all compositions, all behaviours of malloc, all histories", "why_tests_cant": "x86 reads misaligned objects without complaint; where a block starts depends on the whole history of requests", "anchors": ["include/ktl/allocators/mallocator.h: allocate", "include/ktl/allocators/linear_allocator.h: allocate", "include/ktl/utility/alignment.h: ALIGNMENT", "include/ktl/containers/trivial_vector.h: m_Begin", "include/ktl/containers/trivial_array.h: m_Begin", "include/ktl/containers/binary_heap.h: m_Begin", "include/ktl/containers/trivial_buffer.h: m_Data"]}
{"id": "C77", "title": "A function declared noexcept lets no exception out", "statement": "No function of the library declared noexcept (outright, by a computed specification, or as a destructor) is left by an exception, so the library never calls std::terminate: exceptions of the program's own allocators, elements, comparators, streams and of locking a mutex reach the caller.", "quantifier": "all compositions with allocators of the program, all element types and comparators, all functions of allocators and containers", "why_tests_cant": "the exceptions come from rare failures (locking, streams, copies that run out of memory); the exception specifications differ for every instantiation and tests instantiate a few", "anchors": ["include/ktl/utility/meta.h: has_nothrow_*", "include/ktl/allocators/freelist.h: release, destructor, move assignment", "include/ktl/allocators/overflow.h: deallocate, construct, destructor", "include/ktl/allocators/fallback.h: deallocate, construct, destroy", "include/ktl/allocators/cascading.h: all noexcept specifications", "include/ktl/allocators/threaded.h: allocate, deallocate", "include/ktl/allocators/type_allocator.h: constructor", "include/ktl/allocators/global.h: set_allocator", "include/ktl/containers/trivial_vector.h: all noexcept functions", "include/ktl/containers/trivial_array.h: all noexcept functions", "include/ktl/containers/binary_heap.h: all noexcept functions"]}
{"id": "C78", "title": "Threads share an allocator through atomic_shared<threaded<Alloc>>", "statement": "Any number of threads that have handles of one atomic_shared<threaded<Alloc>> may copy, move, assign, destroy and hand them over, allocate through them, and give back blocks, also blocks another thread got, all at the same time. The block that holds the allocator, its mutex and the counter is never touched after its deletion, not even by a thread that waits for the mutex; the allocator is destroyed once, by whoever lets the last handle go, while nobody else is in it and the mutex is free; blocks never overlap; and when the last handle is gone and all blocks were given back, all memory is back.", "quantifier": "all compositions, all numbers of threads, all programs, all schedules, all ways to split the calls into memory accesses", "why_tests_cant": "the destruction races with the last calls only in rare schedules; a run of a multi-threaded test is one schedule", "anchors": ["include/ktl/allocators/shared.h: all functions", "include/ktl/allocators/threaded.h: allocate, deallocate", "README.md: atomic_shared<threaded<Allocator>>"]}
{"id": "C79", "title": "Typed allocators of several element types are one allocator", "statement": "Start with one type_allocator<T, Alloc> over an allocator that can be copied (for instance shared<...>), and make copies, moves and conversions to type_allocator<U, Alloc> of it, as the containers of the standard library do. Whichever of them allocates, and whichever other one of the same element type deallocates, blocks have room for the requested number of objects, are aligned, keep their contents and do not overlap, all of the typed allocators compare equal, and one that has been moved from can still be used.", "quantifier": "all copyable compositions; all programs with any number of typed allocators, element sizes, copies, moves, conversions, destructions, allocations, deallocations and writes; all contents of memory", "why_tests_cant": "A test uses a standard container that makes the conversions its implementation happens to make, with one or two element sizes.", "anchors": ["include/ktl/allocators/type_allocator.h:48-91", "include/ktl/allocators/type_allocator.h:98-113", "include/ktl/allocators/type_allocator.h:196-209", "README.md:70-80"]}
{"id": "C80", "title": "The overflow checker has nothing to say about vectors and arrays", "statement": "A program makes any number of trivial_vectors (or of trivial_arrays) over one overflow allocator, uses them in any way, and destroys them before the allocator. Then nothing at all is printed: no corruption, no leak, no too many frees, no logic error. If the allocator is destroyed first, exactly one report is printed, of a leak, and the number of bytes in it is the sum of the capacities of the vectors times sizeof(T).", "quantifier": "all compositions below overflow; all element sizes; all programs with any number of vectors or arrays; all behaviours of malloc", "why_tests_cant": "A test shows that one sequence of operations is not reported. A false alarm needs one operation that gives a block back with a size other than the one it was requested with, after a history that made the two differ.", "anchors": ["include/ktl/allocators/overflow.h:59-78", "include/ktl/allocators/overflow.h:104-167", "include/ktl/containers/trivial_vector.h: all functions", "include/ktl/containers/trivial_array.h: all functions"]}
{"id": "C81", "title": "Threads with their own containers do not disturb each other", "statement": "Any number of threads use one threaded allocator (or mallocator), each with its own trivial_vectors, trivial_arrays or binary_heaps, in any interleaving of their memory accesses and allocator calls. No two threads ever access the same byte at the same time, every thread reads exactly what it would read if it were alone, no thread can be blocked for ever by the others, and when all are finished every block was returned once with its size and all memory is back.", "quantifier": "all compositions inside threaded; all numbers of threads; all programs with vectors, arrays or heaps (of any element types) in each; all schedules of single memory accesses and calls; all behaviours of malloc", "why_tests_cant": "Interference needs a block that is handed to two threads, or an access after the block was given back, in a rare schedule; a run of a multi-threaded test is one schedule.", "anchors": ["include/ktl/allocators/threaded.h:61-73", "include/ktl/allocators/mallocator.h", "include/ktl/allocators/type_allocator.h:98-113", "include/ktl/containers/trivial_vector.h: all functions", "include/ktl/containers/trivial_array.h: all functions"]}
{"id": "C82", "title": "A loop over a container sees every element once, in order", "statement": "After any program, looping over a trivial_vector, a trivial_array or a trivial_buffer of bytes from begin() to end() sees exactly the elements of the sequence, in order, each once; from rbegin() to rend() in the reverse order; assigning to every element in a loop changes all of them and no other byte of memory; empty() tells whether there are any. Looping over a binary_heap sees exactly its elements, each once, the one peek() returns first. This holds for containers that are empty, were moved from or have spare capacity.", "quantifier": "all compositions; all element sizes; all programs with any number of containers; all contents of memory", "why_tests_cant": "A loop that does not meet its end needs a container whose fields were left inconsistent by a particular history (a move, a clear, a failed growth); tests loop over a few.", "anchors": ["include/ktl/containers/trivial_vector.h:224-238", "include/ktl/containers/trivial_vector.h:257", "include/ktl/containers/trivial_array.h:209-223", "include/ktl/containers/trivial_array.h:236", "include/ktl/containers/binary_heap.h:233-247", "include/ktl/containers/binary_heap.h:278"]}
{"id": "C83", "title": "The overflow checker has nothing to say about binary heaps", "statement": "A program with any number of binary_heaps over overflow<u> that destroys them before the allocator gets no report: no corruption, no leak and no logic error, because every call of construct is matched by exactly one call of destroy. If the allocator is destroyed first, it reports exactly the bytes of the capacities and the number of elements. Going through the allocator for construct and destroy changes nothing else about a program.", "quantifier": "all compositions u without another overflow inside; all element types; all comparators; all programs with any number of heaps; all behaviours of malloc", "why_tests_cant": "A false logic error needs one path on which an element is constructed and not destroyed, or the reverse: a growth, an assignment over a filled heap, a heap that was moved from. A test follows a few of the paths.", "anchors": ["include/ktl/allocators/overflow.h:59-78", "include/ktl/allocators/overflow.h:178-207", "include/ktl/allocators/type_allocator.h:124-143", "include/ktl/containers/binary_heap.h: all functions"]}
{"id": "C84", "title": "Threads do not disturb each other while one is inside a call of the allocator", "statement": "As C81, but a call of allocate or deallocate of the threaded allocator is not one step: between any two accesses to memory that a call makes (free lists, headers, guard bytes, malloc), the other threads go on working with their containers, and those that call the allocator wait for the mutex. Still no two threads ever access the same byte at the same time, so a call never looks into a block that a thread is using; every thread reads what it would read alone; no corruption is reported; nothing leaks; and there is no deadlock.", "quantifier": "all compositions inside threaded without a freelist below a cascading; all numbers of threads; all programs with vectors, arrays or heaps; all schedules of single memory accesses; all behaviours of malloc", "why_tests_cant": "A call that reads or writes one byte of a block that is in use by another thread, for instance a guard byte at the wrong place or a link in a block that is not free, goes wrong only in a schedule where the other thread moves at that moment.", "anchors": ["include/ktl/allocators/threaded.h:61-73", "include/ktl/allocators/overflow.h:104-167", "include/ktl/allocators/freelist.h:113-147", "include/ktl/allocators/cascading.h:93-166", "include/ktl/allocators/linear_allocator.h", "include/ktl/allocators/stack_allocator.h", "include/ktl/containers/trivial_vector.h: all functions", "include/ktl/containers/trivial_array.h: all functions"]}
{"id": "C85", "title": "Pointers are only moved inside the array they point into", "statement": "C++ leaves a program undefined if it computes a pointer outside the array it points into (one past the end is allowed), even if the pointer is never used. linear_allocator, stack_allocator and overflow never do this, for any history of requests that follows the rules: the top pointer and the pointers of the loops over the guard bytes stay inside the buffer or block.", "quantifier": "all compositions; all histories of requests and returns in any order; all request sizes; all buffer sizes; all behaviours of malloc", "why_tests_cant": "A pointer that is only computed leaves no trace in a run on usual hardware: a test passes and a compiler may still draw conclusions from the rule. Sanitizers see only the histories of the tests.", "anchors": ["include/ktl/allocators/linear_allocator.h:75-110", "include/ktl/allocators/stack_allocator.h:63-90", "include/ktl/allocators/overflow.h:104-167"]}
{"id": "C86", "title": "What an allocator does does not depend on the contents of memory", "statement": "Where blocks are placed, which requests are refused, what is taken from and given back to malloc, which objects are constructed and what is reported depends only on the sequence of requests and on the addresses malloc chooses. It does not depend on what the client stores in its blocks, nor on what memory contained before: no allocator uses memory that was not initialised, and data of the client never gets into the bookkeeping, although freed blocks carry the links of the free list and guards lie next to the data.", "quantifier": "all compositions; all pairs of runs of the same requests with different data, different contents of the storage and of new malloc blocks; all histories; all behaviours of malloc that choose addresses independently of the contents", "why_tests_cant": "A read of memory that was not initialised gives zeros in most test runs. A dependency on data shows only for the data that triggers it, for example a block that contains something that looks like a link.", "anchors": ["include/ktl/allocators/freelist.h:113-147", "include/ktl/allocators/freelist.h:228-238", "include/ktl/allocators/overflow.h:104-167", "include/ktl/allocators/linear_allocator.h", "include/ktl/allocators/stack_allocator.h", "include/ktl/allocators/fallback.h", "include/ktl/allocators/segragator.h", "include/ktl/allocators/cascading.h", "include/ktl/allocators/shared.h", "include/ktl/allocators/reference.h", "include/ktl/allocators/threaded.h", "include/ktl/allocators/mallocator.h"]}
{"id": "C87", "title": "Move assignment of an object to itself is harmless", "statement": "x = std::move(x), which happens when elements are shuffled or swapped through an alias, leaves x and everything obtained from it in order: an allocator keeps the blocks of its clients and can be used and destroyed as before; a reference counted handle still refers to its allocator; a container keeps its elements.", "quantifier": "all compositions with a move assignment; all histories before and after; shared handles; all three containers; all behaviours of malloc", "why_tests_cant": "The effect depends on the state of the object at that moment (free lists, nodes, blocks in use, number of handles). Blocks handed out twice or memory given back too early go unnoticed until the memory is used again.", "anchors": ["include/ktl/allocators/linear_allocator.h:49-57", "include/ktl/allocators/freelist.h:77-91", "include/ktl/allocators/fallback.h:85", "include/ktl/allocators/segragator.h:82", "include/ktl/allocators/cascading.h:64-74", "include/ktl/allocators/shared.h:107-117", "include/ktl/allocators/type_allocator.h:84-90", "include/ktl/containers/trivial_vector.h:191-205", "include/ktl/containers/trivial_array.h:178-190", "include/ktl/containers/binary_heap.h:208-230"]}
{"id": "C88", "title": "global.set_allocator installs a working allocator", "statement": "A program uses one global<A> through any number of instances, has allocator objects of its own, moves them into the global allocator with set_allocator and out of it through get_allocator. All blocks it holds, obtained before or after such a move and through whichever object, stay disjoint and intact; a block is returned through any instance once its allocator has become the global one; owns of the global allocator is true for exactly its blocks. At the end of the program the destruction of the static object gives everything back.", "quantifier": "all movable compositions, all programs, any number of instances and objects, all behaviours of malloc", "why_tests_cant": "The tests never call set_allocator; which blocks belong to which object depends on the whole history of moves.", "anchors": ["include/ktl/allocators/global.h", "include/ktl/allocators/linear_allocator.h", "include/ktl/allocators/cascading.h"]}
{"id": "C89", "title": "A binary_heap constructor that throws leaves no trace", "statement": "If copying an element throws while a binary_heap is constructed from a list or from another heap, or assigned, a program that catches the exception goes on with all its heaps in order: they hold the elements they held before, further operations see the same as if the interrupted one had not been called, and when everything is destroyed no element is alive and no memory is allocated.", "quantifier": "all programs with any number of interrupted operations, at any element; all element types, comparators, compositions, behaviours of malloc", "why_tests_cant": "An exception can come at any element of any copy; leaks and elements destroyed without being constructed are silent. The tests contain no throwing element type.", "anchors": ["include/ktl/containers/binary_heap.h:92-129", "include/ktl/containers/binary_heap.h:143-152", "include/ktl/containers/binary_heap.h:185-206"]}
{"id": "C90", "title": "Threads with allocators of their own over one shared allocator do not disturb each other", "statement": "Every thread has an allocator object of its own, such as a stack with a fallback or a free list, that gets its memory from one threaded allocator by reference. However the threads are interleaved, also inside their own allocators, each thread sees its vectors, arrays and heaps behave as if it were alone; no two threads access the same byte at the same time; when a thread has destroyed its allocator, everything it took is back in the shared allocator with the right sizes; and no thread has to wait for another.", "quantifier": "all compositions of the local allocators and of the shared one; all programs with containers; any number of threads; all interleavings of single accesses; all behaviours of malloc", "why_tests_cant": "The number of interleavings is astronomical, and a race inside a free list shows only if two threads meet on the same block within nanoseconds.", "anchors": ["include/ktl/allocators/threaded.h:61-73", "include/ktl/allocators/reference.h:61-73", "include/ktl/allocators/freelist.h:113-147", "include/ktl/allocators/freelist.h:228-238", "include/ktl/allocators/fallback.h:100-119", "include/ktl/allocators/segragator.h:97-113", "include/ktl/allocators/stack_allocator.h:63-90", "include/ktl/allocators/linear_allocator.h:75-110"]}
{"id": "C91", "title": "The containers keep to the rules of C++ for pointers", "statement": "Whatever a program does with trivial_vector, trivial_array and binary_heap, every pointer the library computes lies inside the array that allocate returned or one past its end, every element it uses lies inside that array, pointers are subtracted only within one array, and memcpy and memmove are never given a null pointer, not even with length 0.", "quantifier": "all programs with any number of containers, all element sizes, all compositions, all behaviours of malloc", "why_tests_cant": "A pointer out of range or a null pointer with length 0 does nothing visible on the tested compilers; optimisers may use the rule (gcc deduces from memcpy(p, q, n) that p and q are not null and removes later checks).", "anchors": ["include/ktl/containers/trivial_vector.h:116-215", "include/ktl/containers/trivial_vector.h:262-438", "include/ktl/containers/trivial_array.h:96-190", "include/ktl/containers/trivial_array.h:230-300", "include/ktl/containers/binary_heap.h:120-459"]}
{"id": "C92", "title": "Allocators with a size_type smaller than size_t work with the library", "statement": "The library takes its size_type from the allocator it is given (detail::get_size_type_t), so a user may supply an allocator whose size_type is, say, uint32_t. Compositions, vectors, arrays and heaps over such an allocator then keep the guarantees of C01-C06, C42, C43, C49, C52 and C56: every block returned is as long as requested, blocks are disjoint and aligned, owns is exact, destruction gives everything back; and a request that size_type cannot express is refused rather than served with less memory.", "quantifier": "all compositions over any number of user allocators that satisfy the contract for their own size_type, of any widths; all programs; all behaviours of malloc", "why_tests_cant": "All allocators of the tests use size_t. The conversions are silent; they show only for requests or numbers of blocks near the limit of size_type, in some of the templates (shared takes a size_t, freelist a size_type).", "anchors": ["include/ktl/utility/meta.h:17-31", "include/ktl/allocators/freelist.h:113-147", "include/ktl/allocators/overflow.h:104-177", "include/ktl/allocators/cascading.h:37-42", "include/ktl/allocators/cascading.h:93-163", "include/ktl/allocators/shared.h:132-142", "include/ktl/allocators/type_allocator.h:98-113"]}
{"id": "C93", "title": "Exceptions of users' allocators and of element constructors pass through the library's allocators without a trace", "statement": "If an allocator supplied by the user throws from allocate or from its constructor, or the constructor of an element throws inside construct, the exception reaches the caller and the composed allocator is as usable as before: blocks handed out earlier and later are disjoint, aligned and keep their contents, owns stays exact, destroying the allocator gives back all memory, a constructor that throws leaves nothing behind, and overflow reports neither leaks nor missing destructor calls to a program that frees what it received.", "quantifier": "all compositions over any number of user allocators that satisfy the contract and throw whenever they like; all programs that go on after exceptions; all behaviours of malloc", "why_tests_cant": "No allocator of the tests throws. What is left over after an exception depends on where in which layer it was thrown, and shows, if at all, only much later.", "anchors": ["include/ktl/allocators/fallback.h:100-107", "include/ktl/allocators/freelist.h:113-129", "include/ktl/allocators/cascading.h:93-125", "include/ktl/allocators/overflow.h:104-119", "include/ktl/allocators/overflow.h:178-189", "include/ktl/allocators/shared.h:63-66", "include/ktl/utility/aligned_malloc.h:88-95"]}
{"id": "C94", "title": "An allocator and the allocators inside it can be used side by side", "statement": "get_allocator() returns a reference to the allocator inside. A program may obtain blocks from the outer allocator and, through get_allocator() called any number of times, from those inside, in any order, as long as every block goes back to the allocator it came from (or to one that threaded, shared or reference merely pass calls on to or from). All blocks of all of them are then disjoint, aligned and keep their contents, no overflow reports damage, owns of each of them is true for all of them and false for memory of others, and when all are given back the destructor returns all memory.", "quantifier": "all compositions; all depths of get_allocator(); all programs of allocate, deallocate, writes, construct and destroy on any of the allocators; all behaviours of malloc", "why_tests_cant": "The tests never use an inner allocator while the outer one is in use. That the outer allocator keeps no assumption about how the inner one is used (the top of an arena, the list of a free list, counters) concerns all interleavings of calls at all depths.", "anchors": ["include/ktl/allocators/freelist.h:213-225", "include/ktl/allocators/overflow.h:243-255", "include/ktl/allocators/threaded.h:116-124", "include/ktl/allocators/shared.h:181-189", "include/ktl/allocators/reference.h:111-119"]}
{"id": "C95", "title": "Threads sharing a threaded allocator have no data race", "statement": "Any number of threads use containers of their own over one threaded allocator. In every execution, any two accesses to the same byte, be it an element of a container, a link or a guard byte kept by the allocator, or memory handed back to the platform, and any two accesses to the fields of the allocator object, are ordered by happens-before: by the order within a thread and by the mutex of threaded. So the program has no data race in the sense of C++, and memory that moves from one thread to another through the allocator needs no further synchronization.", "quantifier": "all threaded compositions without a freelist below a cascading; any number of threads with any programs on vectors, arrays and binary heaps; all schedules, with switches between any two accesses; all behaviours of malloc", "why_tests_cant": "A data race does not show on most machines and in most runs. A race detector sees the accesses of one execution; that reused memory is always handed over through the mutex concerns all of them.", "anchors": ["include/ktl/allocators/threaded.h:61-73", "include/ktl/allocators/threaded.h:140-143", "include/ktl/allocators/freelist.h:113-147", "include/ktl/allocators/overflow.h:104-160"]}
{"id": "C96", "title": "An allocator can be built around allocators already in use", "statement": "The constructors that take allocators as arguments move them into the new object. A program may have blocks of the arguments at that moment (as far as they can be moved with blocks at all). The new object is then usable like any other: the blocks obtained before belong to the allocators inside it and can be given back through get_allocator() (or directly, if they are in the parts of a fallback or segragator), new blocks are disjoint from them, contents stay, owns is true for old and new blocks, no overflow reports damage, an overflow around them reports at its end what was obtained from it itself and not given back (and what it refused), not the blocks from before, the objects that were moved from are usable as if new, and when everything has been given back the destructors of the new and the old objects return all memory.", "quantifier": "all compositions and all ways to pass arguments at any place of them; all programs on the arguments before and after, and on the new object and the allocators inside it; all behaviours of malloc", "why_tests_cant": "The tests construct with default-constructed or no arguments. Whether fields of the new layer (free list, counters, reference count) fit an inner allocator that already has blocks, and whether the moved-from object keeps something that the new one also has, concerns all prior and later uses.", "anchors": ["include/ktl/allocators/freelist.h:50-55", "include/ktl/allocators/overflow.h:46-53", "include/ktl/allocators/threaded.h:34-40", "include/ktl/allocators/shared.h:51-57", "include/ktl/allocators/shared.h:70-76", "include/ktl/allocators/fallback.h:38-77", "include/ktl/allocators/segragator.h:35-74"]}
{"id": "C97", "title": "std::swap exchanges containers and allocators", "statement": "std::swap(a, b), that is a move construction, two move assignments and the destruction of the temporary, exchanges two vectors, arrays or heaps over one allocator, or two vectors with reference counted handles of different allocators: no element is copied, memory and allocators are not touched, pointers to elements stay valid, counters are as before. Swapping an object with itself changes nothing (although a = std::move(a) loses the elements, C87). Two allocator objects whose blocks move along exchange the blocks they serve.", "quantifier": "all element sizes and types, all compositions, all reachable states, all pairs of objects including a = b", "why_tests_cant": "a test swaps a few containers; what is claimed is that no state makes one of the three moves touch memory or a counter for good", "anchors": ["include/ktl/containers/trivial_vector.h: trivial_vector(trivial_vector&&), operator=(trivial_vector&&)", "include/ktl/containers/trivial_array.h: moves", "include/ktl/containers/binary_heap.h: moves", "include/ktl/allocators/type_allocator.h: moves", "include/ktl/allocators/shared.h: operator=", "include/ktl/allocators/cascading.h: moves", "include/ktl/allocators/freelist.h: moves"]}
{"id": "C98", "title": "What a program with containers sees does not depend on the allocator", "statement": "Changing the allocator of containers, the addresses, the behaviour of malloc or what was in memory before does not change what a program observes: number and sizes of the containers, every value read, every value returned by pop/peek/find, and the contents at the end. Only elements made without a value (vector(n), array(n), a growing resize) are unknown until written, byte by byte, and copies of them are. Heaps have even the same iteration order over all allocators, also with equivalent elements and with comparisons that are no strict weak order.", "quantifier": "all programs with vectors, arrays, heaps and vectors with reference counted allocators; all pairs of compositions, platforms, addresses, initial memories", "why_tests_cant": "a test compares two allocators on one program; independence is a statement about pairs of arbitrary runs", "anchors": ["include/ktl/containers/trivial_vector.h", "include/ktl/containers/trivial_array.h", "include/ktl/containers/binary_heap.h: percolate_up, percolate_down, insert, pop"]}
{"id": "C99", "title": "Every heap goes by its own comparator", "statement": "binary_heaps may be given comparator objects with a state (a table, a flag, a std::function), each heap its own. pop and peek of a heap deliver an element that comes first according to the comparator of that heap: the one it was constructed with (Comp() if none), or has taken over from another heap by copy construction, move construction, copy assignment or move assignment, together with the elements. Comparators of other heaps never play a role. Popping repeatedly delivers in the order of that comparator. A heap that was moved from is empty; it still has its comparator if another heap was constructed from it, and what moving leaves of a comparator if it was assigned from. At the end nothing is leaked.", "quantifier": "all comparator classes and states, all element types (the last element of a heap of a non-trivial type is not popped, C56), all programs with any number of heaps, all compositions of allocators, all behaviours of malloc", "why_tests_cant": "The tests use std::less and std::greater, which have no state, so a heap that used a default-constructed, stale or foreign comparator after any of the copy and move functions would pass them.", "anchors": ["include/ktl/containers/binary_heap.h:43-118", "include/ktl/containers/binary_heap.h:120-141", "include/ktl/containers/binary_heap.h:185-230", "include/ktl/containers/binary_heap.h:414-459"]}
{"id": "C100", "title": "A program with containers stops only for want of memory", "statement": "The containers do not check what allocate returns, so a refused request ends a program. That happens only for want of memory. Over an allocator that refuses no size the program may request (because it ends in malloc, or in a cascading whose instances are large enough), a program with any number of containers runs to its end with the right result unless malloc itself fails; so do any number of threads with containers over one threaded allocator. Over a linear_allocator or stack_allocator of N bytes it stops only if its requests so far, rounded up to the alignment, add up to more than N; and there is a bound computed from the program before it runs (number of operations times the largest size) such that a buffer of that size is always enough, also for any number of threads over one threaded buffer, under every schedule. No program requests a size beyond that bound.", "quantifier": "all programs with vectors, arrays or heaps, all compositions, all schedules of any number of threads, all behaviours of malloc, all buffer sizes", "why_tests_cant": "A test runs one program with one allocator that happens to have room. That no program, whatever the fragmentation or the order of deallocations, is ever refused memory that is there, and that a size computed beforehand suffices, are statements about all programs and all histories.", "anchors": ["include/ktl/containers/trivial_vector.h:435-459", "include/ktl/containers/trivial_array.h:264-303", "include/ktl/containers/binary_heap.h:362-397", "include/ktl/allocators/linear_allocator.h:75-110", "include/ktl/allocators/stack_allocator.h:63-90", "include/ktl/allocators/fallback.h:100-107", "include/ktl/allocators/cascading.h:93-125"]}
{"id": "C101", "title": "While a binary_heap has room, its calls leave its block in place and move only the elements they have to", "statement": "After any history, a call on a binary_heap that needs no more than its capacity() (insert, pop, peek, find, reserve, clear) ends normally without using the allocator, leaves the block and the capacity of every heap and every other heap as they are, and touches no element but those it has to: insert touches only the places from the new last one up through its parents to the first, so that iterators and references to all others keep their meaning; peek, find and a reserve that fits touch none. When insert finds the heap full the capacity doubles (at least 1); reserve(n) beyond the capacity leaves exactly n.", "quantifier": "all histories of programs with heaps, all element types and comparators, all compositions of allocators, every following call", "why_tests_cant": "A test sees a few addresses after a few calls. That no call within the capacity ever reallocates or writes beyond its path is a statement about all heaps, all comparators and all bytes.", "anchors": ["include/ktl/containers/binary_heap.h:285-289", "include/ktl/containers/binary_heap.h:298-308", "include/ktl/containers/binary_heap.h:325-336", "include/ktl/containers/binary_heap.h:366-372", "include/ktl/containers/binary_heap.h:414-459"]}
{"id": "C102", "title": "Memory use is bounded by the peak of blocks in use, not by the running time", "statement": "However long a program runs: if at most p blocks of an allocator are in use at any one time, the allocator holds at most a fixed number of malloc blocks, a number that depends only on its type and on p, and none of them is larger than a size that depends only on its type and on the largest block in use. All other malloc blocks of the process were there before or belong to others. This holds for every composition, with freelists keeping blocks and cascades keeping instances inside each other, provided no request is hopeless for a cascading inside (one that max_size() does not exclude but that even a new instance refuses; such requests add an instance each time, C16). In particular a program that repeats the same work and gives back in each round what it got holds no more after any number of rounds than the work of one round allows. The same holds for programs with containers: if at most k vectors (arrays, binary heaps) exist at the same time, the bound is that for k + 1 blocks in use, one more than there are containers because a container that grows has two blocks for a moment. And for threads that share a threaded allocator: in every interleaving, at every moment, the bound is that for the sum of what the threads have at most by themselves, and threads that repeat their work any number of times leave no more behind than one round of each allows.", "quantifier": "all compositions, all histories of any length, any number of threads and all interleavings, all behaviours of malloc and of other parties", "why_tests_cant": "A leak of one node per thousand calls, or a freelist that under some order of calls asks for a new block although one is waiting, shows only in long runs with the right pattern; a bound for all lengths and all patterns cannot be tested.", "anchors": ["include/ktl/allocators/freelist.h:113-147", "include/ktl/allocators/cascading.h:93-163", "include/ktl/allocators/fallback.h:100-120", "include/ktl/allocators/segragator.h:97-113", "include/ktl/allocators/overflow.h:104-167", "include/ktl/allocators/shared.h", "include/ktl/allocators/threaded.h:61-73", "utility/aligned_malloc.h", "include/ktl/containers/trivial_vector.h", "include/ktl/containers/trivial_array.h", "include/ktl/containers/binary_heap.h"]}
{"id": "C103", "title": "Calls are short, the mutex is given back soon, and every thread finishes", "statement": "A call of allocate makes a number of memory accesses and of calls of malloc that is bounded by a number depending on the type of the allocator alone: not on how much is in use, nor on what was done before. The same holds for deallocate. Hence a thread that holds the mutex of a threaded allocator gives it back after a bounded number of its own steps, whatever the other threads do meanwhile; and if every thread gets a turn again and again, all threads finish their work, with the right results, and leave the mutex free. (Going along the list of the instances of a cascading does not count as an access here; their number is bounded by C16 and C102.)", "quantifier": "all compositions, states and arguments for allocate; for deallocate and the mutex all compositions in which no freelist and no other cascading lies below a cascading; for termination all compositions without a freelist below a cascading, any number of threads, all container programs, all fair schedules, all behaviours of malloc", "why_tests_cant": "That nobody waits for ever is a statement about infinite schedules; a test that hangs once in a million interleavings does not say why, and one that does not hang says nothing.", "anchors": ["include/ktl/allocators/threaded.h:61-73", "include/ktl/allocators/cascading.h:93-163", "include/ktl/allocators/freelist.h:113-147", "include/ktl/allocators/overflow.h:104-167", "utility/aligned_malloc.h"]}
{"id": "C104", "title": "Giving memory back needs no memory", "statement": "deallocate and the destructor of an allocator never call malloc and never stop for want of memory, in any state and for any arguments. For containers: after any program, calls that only remove or hand on (erase, clear, pop, move construction, move assignment, reading and writing elements, destruction), then the destruction of all containers and of the allocator, all succeed without one call of malloc. A program that has run out of memory can therefore always clean up. The same holds for threads that share a threaded allocator: once none of them is inside allocate or going to call it, they go on in any order and all finish, with the right results, without one call of malloc.", "quantifier": "all compositions (threads: all without a freelist below a cascading), all element sizes and types, all container programs, any number of threads, all schedules, all behaviours of malloc (also one that always fails from then on)", "why_tests_cant": "That a path never allocates is a statement about all states; the failing malloc would have to be injected at every point of every history.", "anchors": ["include/ktl/allocators/freelist.h:70-73", "include/ktl/allocators/freelist.h:137-147", "include/ktl/allocators/freelist.h:228-240", "include/ktl/allocators/cascading.h:57-60", "include/ktl/allocators/cascading.h:133-163", "include/ktl/allocators/overflow.h:104-167", "include/ktl/allocators/shared.h", "utility/aligned_malloc.h", "include/ktl/containers/trivial_vector.h", "include/ktl/containers/trivial_array.h", "include/ktl/containers/binary_heap.h"]}
{"id": "C105", "title": "An exception from the allocator leaves containers as they were or ends the program", "statement": "If the allocator of a trivial_array, or a user's allocator anywhere below it, throws from allocate, then a call of resize or assign that lets the exception out has changed no array: all sizes, addresses and elements are as before; and a constructor that throws leaves nothing behind. A program that catches the exception and goes on, any number of times, reads from then on exactly what the calls that returned say, as if the others had not been made; nothing is undefined, every block goes back once and with its size, and after the arrays and the allocator are destroyed no memory is lost. (The copy constructor and the copy assignment are noexcept: an exception ends the program there, C77. The functions of trivial_vector and binary_heap that grow are noexcept too: programs with these see, until an exception ends them, sequences and heaps as with any other allocator, and lose no memory if none does.)", "quantifier": "all element sizes, all compositions of the library's allocators with any users' allocators that throw from their constructor or from allocate (as in C93), all programs with any number of arrays on one allocator that ask for no empty array and make no copies, all points at which allocate may throw", "why_tests_cant": "An exception would have to be injected at every allocation of every program; which blocks are in whose hands at that moment is not visible from outside.", "anchors": ["include/ktl/containers/trivial_array.h:58-108", "include/ktl/containers/trivial_array.h:264-280", "include/ktl/containers/trivial_array.h:287-303", "include/ktl/containers/trivial_vector.h:285-459", "include/ktl/containers/binary_heap.h:285-301", "include/ktl/containers/binary_heap.h:366-397", "include/ktl/allocators/type_allocator.h:98-102"]}
{"id": "C106", "title": "How often malloc is called depends on the type of the allocator and the number of requests alone", "statement": "A call of allocate calls malloc at most a number of times that depends on the type of the allocator alone (once for a mallocator, the sum for fallback, the larger for segragator, for cascading twice what its instances take to be made and to allocate, unchanged by freelist, overflow, threaded, shared and reference); the constructor calls it once for each shared; deallocate, construct, destroy and the destructor never do. So a program, also one with any number of vectors, arrays or heaps, or with any number of threads on one allocator, calls malloc at most so often for each request, from the construction of the allocator to its destruction; a vector or array makes at most one request per operation. An allocator with no mallocator, cascading or shared in it, and a container over it, never calls malloc.", "quantifier": "all compositions, all states and arguments, all histories, all programs with containers, any number of threads, all schedules, all behaviours of malloc", "why_tests_cant": "A test can count the calls of malloc in a few runs. That a composition of buffers never reaches the heap, whatever happens to it, is a statement about all runs: it is why one uses such allocators where malloc is forbidden.", "anchors": ["include/ktl/allocators/mallocator.h:39-42", "include/ktl/allocators/cascading.h:93-125", "include/ktl/allocators/shared.h:64-76", "include/ktl/allocators/fallback.h:100-107", "include/ktl/allocators/segragator.h:97-103", "include/ktl/allocators/freelist.h:113-130", "include/ktl/allocators/overflow.h:104-130", "utility/aligned_malloc.h:48-100", "include/ktl/containers/trivial_vector.h", "include/ktl/containers/trivial_array.h", "include/ktl/containers/binary_heap.h"]}
