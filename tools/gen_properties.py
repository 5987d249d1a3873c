#!/usr/bin/env python3
"""Writes ../properties.jsonl.  Kept as a script so that long strings stay readable."""
import json, os
P = []
def p(title, statement, quantifier, why, anchors):
    P.append(dict(id="C%02d" % (len(P)+1), title=title, statement=statement,
                  quantifier=quantifier, why_tests_cant=why, anchors=anchors))
A = "include/ktl/allocators/"; K = "include/ktl/containers/"; U = "include/ktl/utility/"

p("No composed allocator ever corrupts memory",
  "For every allocator type that can be built from linear_allocator, stack_allocator, mallocator, null_allocator, freelist, fallback, segragator, cascading, overflow, threaded, shared and reference, a client that allocates non-empty blocks, writes only inside its live blocks and deallocates each live block once with its original size never drives the library into undefined behaviour (no access to memory that is not allocated, no invalid or double free).",
  "all allocator compositions, all histories of allocate/deallocate/write of any length, all behaviours of the system malloc",
  "tests try a handful of compositions with a few dozen operations; the compositions and the histories are unbounded, and malloc may return any address or fail at any call",
  [A+"linear_allocator.h: linear_allocator", A+"freelist.h: freelist", A+"fallback.h: fallback", A+"segragator.h: segragator", A+"cascading.h: cascading", A+"overflow.h: overflow", A+"mallocator.h: mallocator", A+"null_allocator.h: null_allocator"])
p("Live blocks never overlap",
  "At every point of every contract-abiding history, the byte ranges [p, p+n) of the blocks a (composed) allocator has handed out and that have not been deallocated are pairwise disjoint.",
  "all allocator compositions, all histories, all malloc behaviours",
  "an overlap needs a particular order of frees and reallocations; there are infinitely many orders",
  [A+"linear_allocator.h: allocate, deallocate", A+"freelist.h: allocate, deallocate", A+"fallback.h", A+"segragator.h", A+"cascading.h"])
p("Every returned block is non-null, maximally aligned and inside the address space",
  "Every non-null pointer returned by allocate(n) is a multiple of alignof(max_align_t) (16) and [p, p+n) does not wrap around the address space.",
  "all allocator compositions, all histories, all malloc behaviours",
  "alignment of the k-th block depends on all earlier sizes; tests look at few sizes",
  [U+"alignment.h: align_to_architecture", A+"linear_allocator.h: allocate", A+"overflow.h: allocate", "README.md: Allocators always use an alignment equal to the std::max_align_t type"])
p("The allocator never changes the contents of a live block",
  "Bytes a client stored in a live block keep their value until the client overwrites them or deallocates the block, whatever other allocations and deallocations happen in between.",
  "all allocator compositions, all histories interleaving writes with allocate/deallocate",
  "the freelist writes links and the overflow allocator writes guard bytes into memory it manages; whether any of these writes can ever land in a live block is a statement about all histories",
  [A+"freelist.h: deallocate", A+"overflow.h: allocate", A+"linear_allocator.h"])
p("Destroying an allocator returns every byte it obtained",
  "If every block has been deallocated when a (composed) allocator is destroyed, then all memory it obtained from malloc has been freed exactly once and its own storage is intact: nothing leaks and nothing is freed twice.",
  "all allocator compositions, all histories that end with no live block",
  "leak freedom is about the final state of every history, including memory parked in free lists and in cascaded nodes",
  [A+"freelist.h: release, ~freelist", A+"cascading.h: release, ~cascading", A+"mallocator.h: deallocate"])
p("owns() recognises exactly the allocator's own memory",
  "For allocators with owns: owns(x) is true for every address x inside a live block, and false for every address that belongs to anybody else (another allocator, a malloc block of the client). owns(nullptr) is false, except where a null_allocator answers: its owns(p) is p == nullptr.",
  "all owning compositions, all reachable states, all addresses",
  "ranges over every 64-bit address and every reachable state",
  [A+"linear_allocator.h: owns", A+"cascading.h: owns", A+"fallback.h: owns", A+"segragator.h: owns"])
p("allocate(n) gives at least n bytes or nullptr, for every n",
  "linear_allocator/stack_allocator allocate(n) returns nullptr or a pointer to at least n usable bytes inside its buffer, for every size_t n.",
  "all buffer sizes, all reachable states, all 64-bit n",
  "the interesting n are those near 2^64 where the size computation wraps; no test uses them",
  [A+"linear_allocator.h: allocate", A+"stack_allocator.h: allocate", U+"alignment.h: align_to_architecture"])
p("Linear allocation succeeds exactly when it fits",
  "linear_allocator::allocate(n) succeeds if and only if n rounded up to a multiple of 16 fits in the bytes behind the current top; a failed allocation changes nothing.",
  "all sizes, all reachable states",
  "the boundary depends on the history",
  [A+"linear_allocator.h: allocate", A+"stack_allocator.h: allocate"])
p("Linear allocator reclaims LIFO frees and resets when empty",
  "After any history, a continuation that frees in last-in first-out order everything it allocates restores the allocator's state exactly (all its bytes are available again, the next allocation of a size returns the same address), and after any order of frees that leaves no live block the whole buffer is available again.",
  "all histories of non-empty allocations and frees",
  "orders of frees are factorially many",
  [A+"linear_allocator.h: deallocate", A+"stack_allocator.h: deallocate"])
p("Copies of a stack_allocator share one stack",
  "All copies of a stack_allocator operate on the same stack object: any history of operations issued through any mix of copies gives exactly the results of the same history issued through a single allocator, and agrees with linear_allocator of the same size at the same address.",
  "all histories, all assignments of operations to copies",
  "unbounded histories and interleavings of handles",
  [A+"stack_allocator.h: stack_allocator, stack"])
p("freelist serves exactly sizes in (Min, Max] and always reserves Max",
  "freelist<Min,Max,A>::allocate(n) returns nullptr without touching anything when n <= Min or n > Max; otherwise it returns the most recently freed block if there is one, else a fresh underlying block of Max bytes; therefore any freed block can serve any later request in range.",
  "all Min, Max, n, all reachable states",
  "depends on all histories of frees",
  [A+"freelist.h: allocate, deallocate"])
p("freelist reuses blocks last-in first-out and never returns them early",
  "Between construction and destruction a freelist never deallocates to its underlying allocator, and the number of blocks it has taken from it never exceeds the largest number of simultaneously live blocks.",
  "all histories",
  "maximum over unbounded histories",
  [A+"freelist.h: allocate, deallocate, release"])
p("fallback tries the primary first and routes frees to the right owner",
  "fallback<P,F>::allocate(n) returns the primary's result whenever that is non-null and otherwise exactly the fallback's result; every later deallocate of a non-empty block reaches the allocator that produced it.",
  "all P, F with owns on P, all histories of non-empty blocks",
  "routing depends on owns over all states",
  [A+"fallback.h: allocate, deallocate"])
p("segragator routes by size, consistently",
  "segragator<T,P,F> serves n <= T from P and n > T from F, on allocation and deallocation alike, so a block deallocated with its original size always goes back where it came from.",
  "all thresholds, sizes and histories",
  "all sizes around all thresholds",
  [A+"segragator.h: allocate, deallocate"])
p("cascading finds the owner of every block",
  "Deallocating a live non-empty block from a cascading allocator reaches the instance it came from, decrements only that instance's allocation count, and deletes the instance exactly when it becomes empty and is not the front one.",
  "all histories, all numbers of instances",
  "unbounded number of instances and orders",
  [A+"cascading.h: allocate, deallocate"])
p("cascading keeps at most one empty instance",
  "The number of allocator instances a cascading allocator keeps is at most the number of live blocks plus one, so memory use shrinks again after a burst of allocations.",
  "all histories, all underlying allocators",
  "a bound over every history",
  [A+"cascading.h: allocate, deallocate"])
p("max_size() can be called on any cascading allocator",
  "max_size() of a cascading allocator (and of any allocator that forwards to one) is defined in every state reachable through the API, including right after construction.",
  "all reachable states",
  "only an unusual call order exhibits the failure",
  [A+"cascading.h: max_size, allocate"])
p("max_size() is an upper bound",
  "If allocate(n) succeeds then n <= max_size(), for every allocator that defines max_size.",
  "all compositions with max_size, all states, all n",
  "all sizes and states",
  [A+"linear_allocator.h: max_size", A+"freelist.h: max_size", A+"fallback.h: max_size", A+"segragator.h: max_size", A+"overflow.h: max_size", A+"cascading.h: max_size"])
p("A request within max_size() can be served by an empty allocator",
  "A freshly constructed linear_allocator can satisfy any single request with n <= max_size().",
  "all buffer sizes and n",
  "fails only for buffer sizes that are not a multiple of 16",
  [A+"linear_allocator.h: allocate, max_size"])
p("overflow reports corruption if and only if a guard byte changed",
  "When a block is deallocated, the overflow allocator writes a corruption report iff at least one of the 64 guard bytes before or after the block differs from the pattern, and the reported Before/After numbers are the distances of the farthest modified guard bytes. From allocate to deallocate: a report is written iff some guard byte is not what it was when allocate returned.",
  "all block sizes, all contents of the guard zones and the block",
  "2^1024 guard contents",
  [A+"overflow.h: allocate, deallocate"])
p("overflow never raises a false corruption alarm",
  "If the client only writes inside its live blocks, no corruption report is ever written, for any underlying allocator and any history.",
  "all histories, all quiet underlying allocators",
  "depends on the allocator below never touching guard bytes of live blocks",
  [A+"overflow.h: allocate, deallocate"])
p("overflow leak accounting is exact",
  "When an overflow allocator is destroyed it reports a leak iff the total of allocated bytes differs from the total of deallocated bytes, with the exact difference; a program that frees everything it received gets no report.",
  "all histories, including failed allocations",
  "needs failed allocations in between",
  [A+"overflow.h: allocate, deallocate, ~overflow"])
p("overflow construct/destroy accounting is exact",
  "When an overflow allocator is destroyed it reports the exact imbalance between construct and destroy calls, and nothing when they balance.",
  "all histories",
  "all numbers and orders of calls",
  [A+"overflow.h: construct, destroy, ~overflow"])
p("Reference counting of shared allocators is exact",
  "For every history of copy construction, move construction, copy assignment, move assignment and destruction of shared<A> handles, the use count equals the number of handles referring to the block, the block is deleted exactly once, exactly when the last handle goes away, and never used afterwards.",
  "all histories over any number of handles and blocks",
  "self-assignment and long alias chains are not tested",
  [A+"shared.h: shared, increment, decrement"])
p("Assigning a shared allocator to itself is harmless",
  "a = a leaves a shared<A> handle valid.",
  "all reachable handle configurations",
  "an aliasing corner no unit test exercises",
  [A+"shared.h: operator="])
p("atomic_shared handles are safe across threads",
  "When handles to one atomic_shared block are copied and destroyed concurrently, in any interleaving of the atomic increments and decrements, the block is deleted exactly once, after every use.",
  "all schedules, any number of threads",
  "schedules cannot be enumerated by tests",
  [A+"shared.h: increment, decrement", A+"shared_fwd.h: atomic_shared"])
p("threaded makes allocate and deallocate atomic",
  "For any number of threads and any schedule, the results and the final state of concurrent allocate/deallocate calls on a threaded<A> equal those of some sequential order of the same calls consistent with each thread's program order.",
  "all schedules, all thread programs, all underlying allocators",
  "interleavings",
  [A+"threaded.h: allocate, deallocate"])
p("threaded also protects construct and destroy",
  "Concurrent construct/destroy calls through threaded<A> leave the underlying bookkeeping as some sequential execution would.",
  "all schedules",
  "a lost update needs a particular schedule",
  [A+"threaded.h: construct, destroy", A+"overflow.h: construct"])
p("Equality of allocators is a consistent relation",
  "For every allocator, a != b is the negation of a == b.",
  "all states",
  "tests rarely compare both ways",
  [A+"global.h: operator==, operator!=", A+"linear_allocator.h", A+"freelist.h", A+"fallback.h", A+"segragator.h", A+"reference.h", A+"shared.h"])
p("reference and global wrappers are transparent",
  "Operations through any copy of reference<A> (or any global<A> instance) act on the one underlying allocator: any history through any mix of handles equals the same history on the allocator itself.",
  "all histories and handle choices",
  "unbounded histories",
  [A+"reference.h", A+"global.h"])
p("type_allocator scales by sizeof(T)",
  "type_allocator<T,A>::allocate(n) returns nullptr or memory for n objects of T and deallocate(p,n) hands back the size that was allocated, for every n.",
  "all n, all sizeof(T)",
  "wrap-around of sizeof(T)*n",
  [A+"type_allocator.h: allocate, deallocate, max_size"])
p("align_to_architecture rounds up to the next multiple of 16",
  "n + align_to_architecture(n) is the least multiple of 16 that is >= n, for every n for which such a 64-bit number exists.",
  "all 64-bit n",
  "2^64 inputs",
  [U+"alignment.h: align_to_architecture"])
p("log2 is the floor of the binary logarithm",
  "detail::log2(n) is the position of the highest set bit for every non-zero 64-bit n.",
  "all 64-bit n",
  "2^64 inputs",
  [U+"bits.h: log2"])
p("pow2 is the least power of two not below N",
  "detail::pow2<N>::Result is the least power of two >= N for every 1 <= N <= 2^63.",
  "all N",
  "2^63 inputs",
  [U+"builder.h: pow2"])
p("packed_ptr returns what was stored",
  "For every power-of-two Alignment and Bits <= log2(Alignment): a packed_ptr built from an aligned pointer p and an integer v < 2^Bits returns p and v; any later sequence of set_ptr/set_int keeps the two fields independent (each getter returns the last value set).",
  "all alignments, bit counts, pointers, values and sequences of setters",
  "2^64 pointers x values x histories",
  [K+"packed_ptr.h: packed_ptr, get_ptr, get_int, set_ptr, set_int"])
p("packed_ptr truncates instead of corrupting",
  "Storing an integer that does not fit in Bits bits keeps only its low Bits bits and never changes the pointer; storing a misaligned pointer drops its low bits and never changes the integer; operator bool is false iff both fields are zero.",
  "all pointers and integers",
  "2^128 inputs",
  [K+"packed_ptr.h: set_int, set_ptr, operator bool"])
p("fallback_builder keeps the order of its allocators",
  "fallback_builder_min/max<A1,...,Ak> tries the allocators strictly in the listed order: the allocation is served by the first Ai that can serve it, whatever k and whichever leaning.",
  "all k >= 1, all lists, both leanings",
  "the template recursion is only instantiated for a few k in tests",
  [A+"fallback_fwd.h: fallback_builder", U+"builder.h: size_invert, tuple_split_indices"])
p("segragator_builder routes every size to the right bucket",
  "segragator_builder_min/max<A0,t1,A1,...,tk,Ak> with increasing thresholds serves size n with the first Ai such that n <= t(i+1) (Ak if none), whatever k and whichever leaning; the static_assert on odd counts never fires in the recursion.",
  "all k, all increasing thresholds, all n, both leanings",
  "the template recursion is only instantiated for a few k",
  [A+"segragator_fwd.h: segragator_builder"])
p("Builders produce trees of logarithmic depth",
  "The tree produced by either builder for k allocators has depth at most ceil(log2 k), so routing costs O(log k).",
  "all k >= 1, both leanings",
  "all k",
  [A+"segragator_fwd.h", A+"fallback_fwd.h", U+"builder.h"])
p("The portable aligned_malloc is correct",
  "On platforms without an aligned malloc, aligned_malloc(size, 16) returns a 16-aligned block of size usable bytes whose hidden header lies inside the malloc block and before the user's bytes, and aligned_free gives malloc's original pointer back.",
  "all sizes that do not wrap, all addresses malloc may return",
  "depends on the residue of malloc's address",
  [U+"aligned_malloc.h: aligned_malloc, aligned_free"])
p("The posix_memalign branch allocates the requested size",
  "On platforms using posix_memalign, aligned_malloc(size, alignment) returns size bytes aligned to alignment.",
  "all sizes",
  "the branch is not compiled on the CI platforms",
  [U+"aligned_malloc.h: aligned_malloc (KTL_HAS_POSIX_MEMALIGN)"])
p("trivial_vector behaves like a sequence",
  "Any history of push_back (single and range), emplace_back, erase (single and range), resize to a smaller size, reserve, clear and element writes on a trivial_vector over any sound allocator has the same observable contents and size as the same history on a mathematical list.",
  "all histories, all element sizes, all allocator compositions, all malloc behaviours",
  "unbounded histories with reallocation at arbitrary moments",
  [K+"trivial_vector.h: push_back, emplace_back, erase, resize, reserve, clear, expand, set_size"])
p("trivial_vector never leaks or overruns its storage",
  "Across any such history the vector accesses only its own block, frees every block it replaces with the size it was allocated with, keeps size() <= capacity(), and its destructor returns all memory.",
  "all histories, all allocators",
  "memory safety over unbounded histories",
  [K+"trivial_vector.h: set_size, ~trivial_vector"])
p("trivial_vector growth is geometric",
  "A sequence of n push_backs from empty copies O(n) elements in total and capacity never shrinks; reserve(n) makes the next n - size() push_backs allocation free.",
  "all n",
  "asymptotic statement",
  [K+"trivial_vector.h: expand, set_size, reserve"])
p("push_back of an element of the vector itself works",
  "v.push_back(v[i]) appends a copy of element i for every i < size(), as std::vector guarantees.",
  "all vectors, all i, all capacities",
  "fails only when the vector is exactly full",
  [K+"trivial_vector.h: push_back(const T&), expand"])
p("Copy assignment to itself preserves a container",
  "x = x leaves a trivial_vector, trivial_array or binary_heap unchanged.",
  "all containers and contents",
  "an aliasing corner",
  [K+"trivial_vector.h: operator=", K+"trivial_array.h: operator=", K+"binary_heap.h: operator="])
p("Moving a container to a different allocator frees the old block correctly",
  "Container(Container&&, const Alloc&) deallocates the source's block with the size it was allocated with.",
  "all element sizes and lengths",
  "only size-sensitive allocators (linear, freelist, segragator) notice",
  [K+"trivial_vector.h: trivial_vector(trivial_vector&&, const Alloc&)", K+"trivial_array.h", K+"binary_heap.h"])
p("Copying and moving containers preserves contents",
  "Copy construction and copy assignment from another container give equal contents and leave the source unchanged; move construction and move assignment transfer the contents and leave the source empty; the target's old block is freed.",
  "all containers, contents and allocators",
  "all contents",
  [K+"trivial_vector.h", K+"trivial_array.h", K+"binary_heap.h"])
p("trivial_array behaves like a fixed-size array with resize",
  "resize(n) keeps the first min(size, n) elements and sets size() to n; assign replaces contents and size; the old block is freed with its size.",
  "all histories, element sizes and allocators",
  "all sizes and histories",
  [K+"trivial_array.h: resize, assign"])
p("trivial_buffer indexing rolls over",
  "b[i] and b[j] denote the same element iff i and j are congruent modulo size(); writing one element changes no other; copy/assign copy all elements.",
  "all sizes >= 1, all indices",
  "all indices",
  [K+"trivial_buffer.h: operator[], at"])
p("binary_heap: the root is extremal",
  "After any history of insert, pop, reserve, clear, copy and move, peek() is an element of the heap such that no element compares before it.",
  "all histories, all element types, all strict weak orders",
  "all inputs and orders",
  [K+"binary_heap.h: insert, pop, peek, percolateUp, percolateDown"])
p("binary_heap neither loses nor invents elements",
  "After any history the heap contains exactly the inserted elements minus the popped ones (as a multiset); size() counts them.",
  "all histories",
  "all inputs",
  [K+"binary_heap.h: insert, pop, set_size"])
p("Popping everything sorts",
  "Popping a heap until it is empty yields its elements in non-decreasing order of the comparator (a sorted permutation).",
  "all heaps, all strict weak orders",
  "all inputs",
  [K+"binary_heap.h: pop"])
p("insert returns an iterator to the inserted element",
  "The iterator returned by insert(v) points at an element equal to v inside the heap.",
  "all heaps and values",
  "all inputs",
  [K+"binary_heap.h: insert"])
p("find returns the first matching position or end()",
  "find(v) returns the first index holding a value equal to v, or end() iff there is none, and modifies nothing.",
  "all heaps and values",
  "all inputs",
  [K+"binary_heap.h: find"])
p("binary_heap respects object lifetimes",
  "No operation of binary_heap reads, moves from or assigns to an element that has been destroyed or never constructed, for any element type.",
  "all histories including popping the last element",
  "sanitizers only see tested types and histories",
  [K+"binary_heap.h: pop, percolateDown, set_size, clear"])
p("construct/destroy reach exactly one object",
  "construct(p, args...) through any composition constructs exactly one object at p, and destroy(p) destroys exactly one, through the sub-allocator owning p.",
  "all compositions with construct, all states",
  "all compositions",
  [A+"fallback.h: construct, destroy", A+"segragator.h: construct, destroy", A+"cascading.h: construct, destroy", A+"overflow.h: construct, destroy"])
p("Zero-size blocks are safe in every composition",
  "allocate(0) followed by deallocate(p, 0) is harmless for every composed allocator in every state.",
  "all compositions and states",
  "fails only when a linear buffer is exactly full",
  [A+"fallback.h: deallocate", A+"linear_allocator.h: owns, allocate", A+"cascading.h: deallocate"])
p("Nested cascading allocators work",
  "cascading<A> works for every default-constructible A with owns, in particular for A = cascading<B>.",
  "all compositions",
  "never instantiated in tests",
  [A+"cascading.h: allocate, max_size"])
p("Moving an unused allocator gives an unused allocator",
  "Move construction and move assignment of linear_allocator, freelist and cascading leave both sides in a usable state, the target serving requests as a fresh allocator of its type would (linear) or continuing with the source's memory (freelist over shared memory, cascading), and nothing is freed twice.",
  "all states permitted by the documentation",
  "depends on the history of the target",
  [A+"linear_allocator.h: operator=(linear_allocator&&)", A+"freelist.h: operator=(freelist&&)", A+"cascading.h: operator=(cascading&&)"])

p("binary_heap.insert accepts an element of the heap itself",
  "h.insert(h.begin()[k]) inserts a copy of element k, whatever the capacity of h.",
  "all heaps, all elements, all capacities",
  "fails only when the insertion makes the heap grow",
  [K+"binary_heap.h: insert, expand, set_size"])
p("binary_heap destroys every element exactly once",
  "Every element a binary_heap constructs is destroyed exactly once, before its storage is given back or reused; when all heaps have been destroyed no element is left.",
  "all histories, all element types, all allocators",
  "a missing destructor call is invisible for the types used in tests",
  [K+"binary_heap.h: binary_heap(binary_heap&&, const Alloc&), ~binary_heap, set_size, clear, pop"])

p("A request is refused only for want of memory",
  "allocate(n) never returns null while the composition can provide n bytes: whenever the requests it is routed to end in malloc (or in a cascading whose new instances can hold it), a request after any history yields a new block, unless malloc itself has failed. A freelist with an empty list passes the request on, an overflow refuses exactly what its allocator refuses for n + 128 bytes. An object whose blocks have all been given back serves exactly what a new one serves.",
  "all compositions, all histories, all n",
  "an allocator that refuses needlessly is safe, and tests sample few states",
  [A+"mallocator.h: allocate", A+"freelist.h: allocate", A+"fallback.h: allocate", A+"segragator.h: allocate", A+"cascading.h: allocate", A+"overflow.h: allocate"])

p("Threads sharing a threaded allocator never get overlapping blocks",
  "Any number of threads allocate and deallocate through one threaded<A> object: in every interleaving all blocks held by all threads are non-null, aligned and pairwise disjoint, and the allocator does not run into undefined behaviour.",
  "all compositions A, all numbers of threads, all contract-abiding programs, all schedules",
  "races show up in few schedules",
  [A+"threaded.h: allocate, deallocate"])

p("Copies of an allocator are interchangeable",
  "A block allocated through one copy of an allocator (any composition that can be copied) may be deallocated through any other copy: a program that uses any number of copies, created and destroyed at any time, observes the same blocks, contents and refusals as with a single object.",
  "all copyable compositions, all programs with copies",
  "containers copy allocators all the time; wrong sharing shows up only for particular mixes of copies",
  [A+"stack_allocator.h: copy constructor", A+"shared.h: shared(const shared&)", A+"reference.h: reference(const reference&)", A+"fallback.h: copy constructor", A+"segragator.h: copy constructor", A+"overflow.h: copy constructor"])

p("The deletion of an atomic_shared block happens after every other access",
  "When the last handle to an atomic_shared block is given up, the destruction of the block happens after (in the sense of the C++ memory model) every other access to it by any thread: every counter operation and the start and end of every call of the wrapped allocator; its construction happens before all of them. So neither races with any access.",
  "all numbers of threads, all interleavings, all sequences of handle operations",
  "a too weak memory order shows up on few machines, rarely, and not under a sequentially consistent interleaving",
  [A+"shared.h: increment, decrement"])

p("Giving back the null pointer has no effect",
  "deallocate(nullptr, n), as a program that does not look at the result of a refused request would call it, changes nothing: a program that makes such calls, at any time and with any sizes, has no undefined behaviour and observes the same blocks, contents, refusals, memory and reports as without them.",
  "all compositions, all histories, all places and sizes of the null pointers",
  "the damage (a live block handed out a second time) depends on the sizes of the other live blocks at that moment",
  [A+"freelist.h: deallocate", A+"overflow.h: deallocate", A+"linear_allocator.h: deallocate", A+"stack_allocator.h: deallocate", A+"cascading.h: deallocate"])

p("binary_heap growth is geometric",
  "insert uses the allocator only when the capacity is exhausted; n insertions into an empty heap request O(n) elements in total and leave a capacity of at most 2n; after reserve(n) the heap can reach n elements without using the allocator; no operation on a heap shrinks its capacity.",
  "all sequences of insertions, all allocators, all element types, all comparators",
  "an amortised bound is a statement about all lengths",
  [K+"binary_heap.h: insert, expand, reserve, set_size"])
p("binary_heap insert and pop need logarithmically many comparisons",
  "On a heap of n elements the outcome of insert is determined by at most floor(log2(n+1)) comparisons and that of pop by at most 2*floor(log2(n-1)), whatever the comparator answers.",
  "all heap sizes, contents, comparators (also inconsistent ones), element types, allocators",
  "complexity is a bound for all sizes and all contents",
  [K+"binary_heap.h: insert, pop, percolateUp, percolateDown"])

p("Allocators that compare equal are interchangeable",
  "If two separately constructed allocators of the same type compare equal (operator==) at some moment, a block allocated from one may from then on be accounted to the other: deallocating it there, at any time later, even after the two have become unequal or the first one was destroyed, is safe; blocks stay disjoint, aligned and intact, and nothing is leaked or freed twice once all objects are destroyed. Copies of an allocator always compare equal.",
  "all compositions, any number of objects, all programs that hand blocks over between equal objects",
  "containers rely on this when they are swapped or spliced; whether == is too coarse shows up only for particular compositions and states",
  [A+"freelist.h: operator==", A+"fallback.h: operator==", A+"segragator.h: operator==", A+"cascading.h: operator==", A+"overflow.h: operator==", A+"threaded.h: operator==", A+"shared.h: operator==", A+"reference.h: operator==", A+"linear_allocator.h: operator==", A+"stack_allocator.h: operator==", A+"mallocator.h: operator=="])

p("Vectors over reference counted allocators",
  "trivial_vectors whose allocators are shared<A> handles can be constructed, copied (also with another vector's allocator), moved, assigned across different allocators and destroyed in any order: contents are those of mathematical sequences, every block goes back to the allocator it came from, an allocator lives exactly as long as some vector holds a handle of it, and when the last vector is gone all memory has been given back.",
  "all compositions under shared, any number of allocators and vectors, all programs",
  "the order of deallocation, handle release and allocation inside an assignment matters only when the handle released is the last one",
  [K+"trivial_vector.h: copy/move constructor and assignment, destructor", A+"type_allocator.h: copy/move constructor and assignment", A+"shared.h: increment, decrement"])

p("A refused request leaves a container as it was",
  "If the allocator refuses the request of a container operation (returns nullptr), the operation has no undefined behaviour and afterwards the container is as it was before: size, capacity and elements. If no request is refused, the operation does what it does with unlimited memory.",
  "all allocators, all container states, all operations that allocate (constructors, resize, reserve, push_back, insert)",
  "tests run with allocators that have enough memory; which of the requests is the first to be refused depends on the whole history",
  [K+"trivial_vector.h: constructors, set_size, push_back, reserve, resize", K+"trivial_array.h: resize", K+"binary_heap.h: set_size, insert"])

p("owns of a threaded allocator may be called while other threads allocate",
  "owns(p) of a threaded allocator takes no lock. Threads that allocate and deallocate under the lock are not disturbed by threads that call owns at any time: blocks stay disjoint, aligned and accessible and nothing is undefined; and every owns(p) answers 1 if p lies in a block that some thread holds, held or will hold, and 0 if p is memory that existed before the allocator and is not part of it.",
  "all compositions with owns, any number of threads, all programs, all interleavings of the single accesses",
  "the outcome depends on which accesses of which calls interleave; a test sees a few schedules",
  [A+"threaded.h: allocate, deallocate, owns", A+"cascading.h: owns, deallocate", A+"linear_allocator.h: owns", A+"stack_allocator.h: owns"])

p("Pointers into a vector stay valid while it has room",
  "A call on a trivial_vector that needs no more than capacity() (push_back of one element or a range, resize, reserve, erase, clear, access) does not use the allocator and cannot fail; data() and capacity() of every vector stay as they are, and no byte is written but those of the elements added, moved or assigned: pointers, references and iterators into all vectors stay valid. A call that needs more leaves exactly the capacity the growth rule gives: one half more than before, or what the call asks for (reserve: exactly what it asks for); all other vectors stay untouched.",
  "all allocator compositions, all histories, all calls",
  "an invalidated pointer still reads the old bytes in most test runs; whether a call reallocates depends on the whole history of the vector",
  [K+"trivial_vector.h: push_back, resize, reserve, erase, clear, expand, set_size"])

p("No assertion fails in a program that follows the rules",
  "With KTL_DEBUG_ASSERT, a program that gives back only blocks it got, with their sizes, and makes and destroys objects only inside its blocks never runs into an assertion of deallocate, construct or destroy; once everything has been given back, the destructor runs into none either. The program does the same as in a build without assertions.",
  "all compositions, all histories",
  "whether the assertion in the destructor of cascading fails depends on the whole history of requests; the test suite is one set of histories",
  [A+"cascading.h: deallocate, construct, destroy, release", A+"linear_allocator.h: deallocate", A+"null_allocator.h: deallocate", A+"freelist.h: deallocate", A+"overflow.h: deallocate", "include/ktl/utility/assert.h: KTL_ASSERT"])

p("Elements of containers are aligned for their type",
  "Every element of a trivial_vector, trivial_array, trivial_buffer or binary_heap of T, and every place of spare capacity, is at a multiple of alignof(T).",
  "all types T, all compositions, all behaviours of malloc, all histories",
  "x86 reads misaligned objects without complaint; where a block starts depends on the whole history of requests",
  [A+"mallocator.h: allocate", A+"linear_allocator.h: allocate", "include/ktl/utility/alignment.h: ALIGNMENT", K+"trivial_vector.h: m_Begin", K+"trivial_array.h: m_Begin", K+"binary_heap.h: m_Begin", K+"trivial_buffer.h: m_Data"])

p("A function declared noexcept lets no exception out",
  "No function of the library declared noexcept (outright, by a computed specification, or as a destructor) is left by an exception, so the library never calls std::terminate: exceptions of the program's own allocators, elements, comparators, streams and of locking a mutex reach the caller.",
  "all compositions with allocators of the program, all element types and comparators, all functions of allocators and containers",
  "the exceptions come from rare failures (locking, streams, copies that run out of memory); the exception specifications differ for every instantiation and tests instantiate a few",
  ["include/ktl/utility/meta.h: has_nothrow_*", A+"freelist.h: release, destructor, move assignment", A+"overflow.h: deallocate, construct, destructor", A+"fallback.h: deallocate, construct, destroy", A+"cascading.h: all noexcept specifications", A+"threaded.h: allocate, deallocate", A+"type_allocator.h: constructor", A+"global.h: set_allocator", K+"trivial_vector.h: all noexcept functions", K+"trivial_array.h: all noexcept functions", K+"binary_heap.h: all noexcept functions"])

p("Threads share an allocator through atomic_shared<threaded<Alloc>>",
  "Any number of threads that have handles of one atomic_shared<threaded<Alloc>> may copy, move, assign, destroy and hand them over, allocate through them, and give back blocks, also blocks another thread got, all at the same time. The block that holds the allocator, its mutex and the counter is never touched after its deletion, not even by a thread that waits for the mutex; the allocator is destroyed once, by whoever lets the last handle go, while nobody else is in it and the mutex is free; blocks never overlap; and when the last handle is gone and all blocks were given back, all memory is back.",
  "all compositions, all numbers of threads, all programs, all schedules, all ways to split the calls into memory accesses",
  "the destruction races with the last calls only in rare schedules; a run of a multi-threaded test is one schedule",
  [A+"shared.h: all functions", A+"threaded.h: allocate, deallocate", "README.md: atomic_shared<threaded<Allocator>>"])
p("Typed allocators of several element types are one allocator",
  "Start with one type_allocator<T, Alloc> over an allocator that can be copied (for instance shared<...>), and make copies, moves and conversions to type_allocator<U, Alloc> of it, as the containers of the standard library do. Whichever of them allocates, and whichever other one of the same element type deallocates, blocks have room for the requested number of objects, are aligned, keep their contents and do not overlap, all of the typed allocators compare equal, and one that has been moved from can still be used.",
  "all copyable compositions; all programs with any number of typed allocators, element sizes, copies, moves, conversions, destructions, allocations, deallocations and writes; all contents of memory",
  "A test uses a standard container that makes the conversions its implementation happens to make, with one or two element sizes.",
  [A+"type_allocator.h:48-91", A+"type_allocator.h:98-113", A+"type_allocator.h:196-209", "README.md:70-80"])

p("The overflow checker has nothing to say about vectors and arrays",
  "A program makes any number of trivial_vectors (or of trivial_arrays) over one overflow allocator, uses them in any way, and destroys them before the allocator. Then nothing at all is printed: no corruption, no leak, no too many frees, no logic error. If the allocator is destroyed first, exactly one report is printed, of a leak, and the number of bytes in it is the sum of the capacities of the vectors times sizeof(T).",
  "all compositions below overflow; all element sizes; all programs with any number of vectors or arrays; all behaviours of malloc",
  "A test shows that one sequence of operations is not reported. A false alarm needs one operation that gives a block back with a size other than the one it was requested with, after a history that made the two differ.",
  [A+"overflow.h:59-78", A+"overflow.h:104-167", K+"trivial_vector.h: all functions", K+"trivial_array.h: all functions"])

p("Threads with their own containers do not disturb each other",
  "Any number of threads use one threaded allocator (or mallocator), each with its own trivial_vectors, trivial_arrays or binary_heaps, in any interleaving of their memory accesses and allocator calls. No two threads ever access the same byte at the same time, every thread reads exactly what it would read if it were alone, no thread can be blocked for ever by the others, and when all are finished every block was returned once with its size and all memory is back.",
  "all compositions inside threaded; all numbers of threads; all programs with vectors, arrays or heaps (of any element types) in each; all schedules of single memory accesses and calls; all behaviours of malloc",
  "Interference needs a block that is handed to two threads, or an access after the block was given back, in a rare schedule; a run of a multi-threaded test is one schedule.",
  [A+"threaded.h:61-73", A+"mallocator.h", A+"type_allocator.h:98-113", K+"trivial_vector.h: all functions", K+"trivial_array.h: all functions"])

p("A loop over a container sees every element once, in order",
  "After any program, looping over a trivial_vector, a trivial_array or a trivial_buffer of bytes from begin() to end() sees exactly the elements of the sequence, in order, each once; from rbegin() to rend() in the reverse order; assigning to every element in a loop changes all of them and no other byte of memory; empty() tells whether there are any. Looping over a binary_heap sees exactly its elements, each once, the one peek() returns first. This holds for containers that are empty, were moved from or have spare capacity.",
  "all compositions; all element sizes; all programs with any number of containers; all contents of memory",
  "A loop that does not meet its end needs a container whose fields were left inconsistent by a particular history (a move, a clear, a failed growth); tests loop over a few.",
  [K+"trivial_vector.h:224-238", K+"trivial_vector.h:257", K+"trivial_array.h:209-223", K+"trivial_array.h:236", K+"binary_heap.h:233-247", K+"binary_heap.h:278"])

p("The overflow checker has nothing to say about binary heaps",
  "A program with any number of binary_heaps over overflow<u> that destroys them before the allocator gets no report: no corruption, no leak and no logic error, because every call of construct is matched by exactly one call of destroy. If the allocator is destroyed first, it reports exactly the bytes of the capacities and the number of elements. Going through the allocator for construct and destroy changes nothing else about a program.",
  "all compositions u without another overflow inside; all element types; all comparators; all programs with any number of heaps; all behaviours of malloc",
  "A false logic error needs one path on which an element is constructed and not destroyed, or the reverse: a growth, an assignment over a filled heap, a heap that was moved from. A test follows a few of the paths.",
  [A+"overflow.h:59-78", A+"overflow.h:178-207", A+"type_allocator.h:124-143", K+"binary_heap.h: all functions"])

p("Threads do not disturb each other while one is inside a call of the allocator",
  "As C81, but a call of allocate or deallocate of the threaded allocator is not one step: between any two accesses to memory that a call makes (free lists, headers, guard bytes, malloc), the other threads go on working with their containers, and those that call the allocator wait for the mutex. Still no two threads ever access the same byte at the same time, so a call never looks into a block that a thread is using; every thread reads what it would read alone; no corruption is reported; nothing leaks; and there is no deadlock.",
  "all compositions inside threaded without a freelist below a cascading; all numbers of threads; all programs with vectors, arrays or heaps; all schedules of single memory accesses; all behaviours of malloc",
  "A call that reads or writes one byte of a block that is in use by another thread, for instance a guard byte at the wrong place or a link in a block that is not free, goes wrong only in a schedule where the other thread moves at that moment.",
  [A+"threaded.h:61-73", A+"overflow.h:104-167", A+"freelist.h:113-147", A+"cascading.h:93-166", A+"linear_allocator.h", A+"stack_allocator.h", K+"trivial_vector.h: all functions", K+"trivial_array.h: all functions"])

p("Pointers are only moved inside the array they point into",
  "C++ leaves a program undefined if it computes a pointer outside the array it points into (one past the end is allowed), even if the pointer is never used. linear_allocator, stack_allocator and overflow never do this, for any history of requests that follows the rules: the top pointer and the pointers of the loops over the guard bytes stay inside the buffer or block.",
  "all compositions; all histories of requests and returns in any order; all request sizes; all buffer sizes; all behaviours of malloc",
  "A pointer that is only computed leaves no trace in a run on usual hardware: a test passes and a compiler may still draw conclusions from the rule. Sanitizers see only the histories of the tests.",
  [A+"linear_allocator.h:75-110", A+"stack_allocator.h:63-90", A+"overflow.h:104-167"])

p("What an allocator does does not depend on the contents of memory",
  "Where blocks are placed, which requests are refused, what is taken from and given back to malloc, which objects are constructed and what is reported depends only on the sequence of requests and on the addresses malloc chooses. It does not depend on what the client stores in its blocks, nor on what memory contained before: no allocator uses memory that was not initialised, and data of the client never gets into the bookkeeping, although freed blocks carry the links of the free list and guards lie next to the data.",
  "all compositions; all pairs of runs of the same requests with different data, different contents of the storage and of new malloc blocks; all histories; all behaviours of malloc that choose addresses independently of the contents",
  "A read of memory that was not initialised gives zeros in most test runs. A dependency on data shows only for the data that triggers it, for example a block that contains something that looks like a link.",
  [A+"freelist.h:113-147", A+"freelist.h:228-238", A+"overflow.h:104-167", A+"linear_allocator.h", A+"stack_allocator.h", A+"fallback.h", A+"segragator.h", A+"cascading.h", A+"shared.h", A+"reference.h", A+"threaded.h", A+"mallocator.h"])

p("Move assignment of an object to itself is harmless",
  "x = std::move(x), which happens when elements are shuffled or swapped through an alias, leaves x and everything obtained from it in order: an allocator keeps the blocks of its clients and can be used and destroyed as before; a reference counted handle still refers to its allocator; a container keeps its elements.",
  "all compositions with a move assignment; all histories before and after; shared handles; all three containers; all behaviours of malloc",
  "The effect depends on the state of the object at that moment (free lists, nodes, blocks in use, number of handles). Blocks handed out twice or memory given back too early go unnoticed until the memory is used again.",
  [A+"linear_allocator.h:49-57", A+"freelist.h:77-91", A+"fallback.h:85", A+"segragator.h:82", A+"cascading.h:64-74", A+"shared.h:107-117", A+"type_allocator.h:84-90", K+"trivial_vector.h:191-205", K+"trivial_array.h:178-190", K+"binary_heap.h:208-230"])

p("global.set_allocator installs a working allocator",
  "A program uses one global<A> through any number of instances, has allocator objects of its own, moves them into the global allocator with set_allocator and out of it through get_allocator. All blocks it holds, obtained before or after such a move and through whichever object, stay disjoint and intact; a block is returned through any instance once its allocator has become the global one; owns of the global allocator is true for exactly its blocks. At the end of the program the destruction of the static object gives everything back.",
  "all movable compositions, all programs, any number of instances and objects, all behaviours of malloc",
  "The tests never call set_allocator; which blocks belong to which object depends on the whole history of moves.",
  [A+"global.h", A+"linear_allocator.h", A+"cascading.h"])

p("A binary_heap constructor that throws leaves no trace",
  "If copying an element throws while a binary_heap is constructed from a list or from another heap, or assigned, a program that catches the exception goes on with all its heaps in order: they hold the elements they held before, further operations see the same as if the interrupted one had not been called, and when everything is destroyed no element is alive and no memory is allocated.",
  "all programs with any number of interrupted operations, at any element; all element types, comparators, compositions, behaviours of malloc",
  "An exception can come at any element of any copy; leaks and elements destroyed without being constructed are silent. The tests contain no throwing element type.",
  [K+"binary_heap.h:92-129", K+"binary_heap.h:143-152", K+"binary_heap.h:185-206"])

p("Threads with allocators of their own over one shared allocator do not disturb each other",
  "Every thread has an allocator object of its own, such as a stack with a fallback or a free list, that gets its memory from one threaded allocator by reference. However the threads are interleaved, also inside their own allocators, each thread sees its vectors, arrays and heaps behave as if it were alone; no two threads access the same byte at the same time; when a thread has destroyed its allocator, everything it took is back in the shared allocator with the right sizes; and no thread has to wait for another.",
  "all compositions of the local allocators and of the shared one; all programs with containers; any number of threads; all interleavings of single accesses; all behaviours of malloc",
  "The number of interleavings is astronomical, and a race inside a free list shows only if two threads meet on the same block within nanoseconds.",
  [A+"threaded.h:61-73", A+"reference.h:61-73", A+"freelist.h:113-147", A+"freelist.h:228-238", A+"fallback.h:100-119", A+"segragator.h:97-113", A+"stack_allocator.h:63-90", A+"linear_allocator.h:75-110"])

p("The containers keep to the rules of C++ for pointers",
  "Whatever a program does with trivial_vector, trivial_array and binary_heap, every pointer the library computes lies inside the array that allocate returned or one past its end, every element it uses lies inside that array, pointers are subtracted only within one array, and memcpy and memmove are never given a null pointer, not even with length 0.",
  "all programs with any number of containers, all element sizes, all compositions, all behaviours of malloc",
  "A pointer out of range or a null pointer with length 0 does nothing visible on the tested compilers; optimisers may use the rule (gcc deduces from memcpy(p, q, n) that p and q are not null and removes later checks).",
  [K+"trivial_vector.h:116-215", K+"trivial_vector.h:262-438", K+"trivial_array.h:96-190", K+"trivial_array.h:230-300", K+"binary_heap.h:120-459"])

p("Allocators with a size_type smaller than size_t work with the library",
  "The library takes its size_type from the allocator it is given (detail::get_size_type_t), so a user may supply an allocator whose size_type is, say, uint32_t. Compositions, vectors, arrays and heaps over such an allocator then keep the guarantees of C01-C06, C42, C43, C49, C52 and C56: every block returned is as long as requested, blocks are disjoint and aligned, owns is exact, destruction gives everything back; and a request that size_type cannot express is refused rather than served with less memory.",
  "all compositions over any number of user allocators that satisfy the contract for their own size_type, of any widths; all programs; all behaviours of malloc",
  "All allocators of the tests use size_t. The conversions are silent; they show only for requests or numbers of blocks near the limit of size_type, in some of the templates (shared takes a size_t, freelist a size_type).",
  ["include/ktl/utility/meta.h:17-31", A+"freelist.h:113-147", A+"overflow.h:104-177", A+"cascading.h:37-42", A+"cascading.h:93-163", A+"shared.h:132-142", A+"type_allocator.h:98-113"])

p("Exceptions of users' allocators and of element constructors pass through the library's allocators without a trace",
  "If an allocator supplied by the user throws from allocate or from its constructor, or the constructor of an element throws inside construct, the exception reaches the caller and the composed allocator is as usable as before: blocks handed out earlier and later are disjoint, aligned and keep their contents, owns stays exact, destroying the allocator gives back all memory, a constructor that throws leaves nothing behind, and overflow reports neither leaks nor missing destructor calls to a program that frees what it received.",
  "all compositions over any number of user allocators that satisfy the contract and throw whenever they like; all programs that go on after exceptions; all behaviours of malloc",
  "No allocator of the tests throws. What is left over after an exception depends on where in which layer it was thrown, and shows, if at all, only much later.",
  [A+"fallback.h:100-107", A+"freelist.h:113-129", A+"cascading.h:93-125", A+"overflow.h:104-119", A+"overflow.h:178-189", A+"shared.h:63-66", "include/ktl/utility/aligned_malloc.h:88-95"])

p("An allocator and the allocators inside it can be used side by side",
  "get_allocator() returns a reference to the allocator inside. A program may obtain blocks from the outer allocator and, through get_allocator() called any number of times, from those inside, in any order, as long as every block goes back to the allocator it came from (or to one that threaded, shared or reference merely pass calls on to or from). All blocks of all of them are then disjoint, aligned and keep their contents, no overflow reports damage, owns of each of them is true for all of them and false for memory of others, and when all are given back the destructor returns all memory.",
  "all compositions; all depths of get_allocator(); all programs of allocate, deallocate, writes, construct and destroy on any of the allocators; all behaviours of malloc",
  "The tests never use an inner allocator while the outer one is in use. That the outer allocator keeps no assumption about how the inner one is used (the top of an arena, the list of a free list, counters) concerns all interleavings of calls at all depths.",
  [A+"freelist.h:213-225", A+"overflow.h:243-255", A+"threaded.h:116-124", A+"shared.h:181-189", A+"reference.h:111-119"])

p("Threads sharing a threaded allocator have no data race",
  "Any number of threads use containers of their own over one threaded allocator. In every execution, any two accesses to the same byte, be it an element of a container, a link or a guard byte kept by the allocator, or memory handed back to the platform, and any two accesses to the fields of the allocator object, are ordered by happens-before: by the order within a thread and by the mutex of threaded. So the program has no data race in the sense of C++, and memory that moves from one thread to another through the allocator needs no further synchronization.",
  "all threaded compositions without a freelist below a cascading; any number of threads with any programs on vectors, arrays and binary heaps; all schedules, with switches between any two accesses; all behaviours of malloc",
  "A data race does not show on most machines and in most runs. A race detector sees the accesses of one execution; that reused memory is always handed over through the mutex concerns all of them.",
  [A+"threaded.h:61-73", A+"threaded.h:140-143", A+"freelist.h:113-147", A+"overflow.h:104-160"])

p("An allocator can be built around allocators already in use",
  "The constructors that take allocators as arguments move them into the new object. A program may have blocks of the arguments at that moment (as far as they can be moved with blocks at all). The new object is then usable like any other: the blocks obtained before belong to the allocators inside it and can be given back through get_allocator() (or directly, if they are in the parts of a fallback or segragator), new blocks are disjoint from them, contents stay, owns is true for old and new blocks, no overflow reports damage, an overflow around them reports at its end what was obtained from it itself and not given back (and what it refused), not the blocks from before, the objects that were moved from are usable as if new, and when everything has been given back the destructors of the new and the old objects return all memory.",
  "all compositions and all ways to pass arguments at any place of them; all programs on the arguments before and after, and on the new object and the allocators inside it; all behaviours of malloc",
  "The tests construct with default-constructed or no arguments. Whether fields of the new layer (free list, counters, reference count) fit an inner allocator that already has blocks, and whether the moved-from object keeps something that the new one also has, concerns all prior and later uses.",
  [A+"freelist.h:50-55", A+"overflow.h:46-53", A+"threaded.h:34-40", A+"shared.h:51-57", A+"shared.h:70-76", A+"fallback.h:38-77", A+"segragator.h:35-74"])

p("std::swap exchanges containers and allocators",
  "std::swap(a, b), that is a move construction, two move assignments and the destruction of the temporary, exchanges two vectors, arrays or heaps over one allocator, or two vectors with reference counted handles of different allocators: no element is copied, memory and allocators are not touched, pointers to elements stay valid, counters are as before. Swapping an object with itself changes nothing (although a = std::move(a) loses the elements, C87). Two allocator objects whose blocks move along exchange the blocks they serve.",
  "all element sizes and types, all compositions, all reachable states, all pairs of objects including a = b",
  "a test swaps a few containers; what is claimed is that no state makes one of the three moves touch memory or a counter for good",
  [K+"trivial_vector.h: trivial_vector(trivial_vector&&), operator=(trivial_vector&&)", K+"trivial_array.h: moves", K+"binary_heap.h: moves", A+"type_allocator.h: moves", A+"shared.h: operator=", A+"cascading.h: moves", A+"freelist.h: moves"])

p("What a program with containers sees does not depend on the allocator",
  "Changing the allocator of containers, the addresses, the behaviour of malloc or what was in memory before does not change what a program observes: number and sizes of the containers, every value read, every value returned by pop/peek/find, and the contents at the end. Only elements made without a value (vector(n), array(n), a growing resize) are unknown until written, byte by byte, and copies of them are. Heaps have even the same iteration order over all allocators, also with equivalent elements and with comparisons that are no strict weak order.",
  "all programs with vectors, arrays, heaps and vectors with reference counted allocators; all pairs of compositions, platforms, addresses, initial memories",
  "a test compares two allocators on one program; independence is a statement about pairs of arbitrary runs",
  [K+"trivial_vector.h", K+"trivial_array.h", K+"binary_heap.h: percolate_up, percolate_down, insert, pop"])

p("Every heap goes by its own comparator",
  "binary_heaps may be given comparator objects with a state (a table, a flag, a std::function), each heap its own. pop and peek of a heap deliver an element that comes first according to the comparator of that heap: the one it was constructed with (Comp() if none), or has taken over from another heap by copy construction, move construction, copy assignment or move assignment, together with the elements. Comparators of other heaps never play a role. Popping repeatedly delivers in the order of that comparator. A heap that was moved from is empty; it still has its comparator if another heap was constructed from it, and what moving leaves of a comparator if it was assigned from. At the end nothing is leaked.",
  "all comparator classes and states, all element types (the last element of a heap of a non-trivial type is not popped, C56), all programs with any number of heaps, all compositions of allocators, all behaviours of malloc",
  "The tests use std::less and std::greater, which have no state, so a heap that used a default-constructed, stale or foreign comparator after any of the copy and move functions would pass them.",
  [K+"binary_heap.h:43-118", K+"binary_heap.h:120-141", K+"binary_heap.h:185-230", K+"binary_heap.h:414-459"])

p("A program with containers stops only for want of memory",
  "The containers do not check what allocate returns, so a refused request ends a program. That happens only for want of memory. Over an allocator that refuses no size the program may request (because it ends in malloc, or in a cascading whose instances are large enough), a program with any number of containers runs to its end with the right result unless malloc itself fails; so do any number of threads with containers over one threaded allocator. Over a linear_allocator or stack_allocator of N bytes it stops only if its requests so far, rounded up to the alignment, add up to more than N; and there is a bound computed from the program before it runs (number of operations times the largest size) such that a buffer of that size is always enough, also for any number of threads over one threaded buffer, under every schedule. No program requests a size beyond that bound.",
  "all programs with vectors, arrays or heaps, all compositions, all schedules of any number of threads, all behaviours of malloc, all buffer sizes",
  "A test runs one program with one allocator that happens to have room. That no program, whatever the fragmentation or the order of deallocations, is ever refused memory that is there, and that a size computed beforehand suffices, are statements about all programs and all histories.",
  [K+"trivial_vector.h:435-459", K+"trivial_array.h:264-303", K+"binary_heap.h:362-397", A+"linear_allocator.h:75-110", A+"stack_allocator.h:63-90", A+"fallback.h:100-107", A+"cascading.h:93-125"])

p("While a binary_heap has room, its calls leave its block in place and move only the elements they have to",
  "After any history, a call on a binary_heap that needs no more than its capacity() (insert, pop, peek, find, reserve, clear) ends normally without using the allocator, leaves the block and the capacity of every heap and every other heap as they are, and touches no element but those it has to: insert touches only the places from the new last one up through its parents to the first, so that iterators and references to all others keep their meaning; peek, find and a reserve that fits touch none. When insert finds the heap full the capacity doubles (at least 1); reserve(n) beyond the capacity leaves exactly n.",
  "all histories of programs with heaps, all element types and comparators, all compositions of allocators, every following call",
  "A test sees a few addresses after a few calls. That no call within the capacity ever reallocates or writes beyond its path is a statement about all heaps, all comparators and all bytes.",
  [K+"binary_heap.h:285-289", K+"binary_heap.h:298-308", K+"binary_heap.h:325-336", K+"binary_heap.h:366-372", K+"binary_heap.h:414-459"])

p("Memory use is bounded by the peak of blocks in use, not by the running time",
  "However long a program runs: if at most p blocks of an allocator are in use at any one time, the allocator holds at most a fixed number of malloc blocks, a number that depends only on its type and on p, and none of them is larger than a size that depends only on its type and on the largest block in use. All other malloc blocks of the process were there before or belong to others. This holds for every composition, with freelists keeping blocks and cascades keeping instances inside each other, provided no request is hopeless for a cascading inside (one that max_size() does not exclude but that even a new instance refuses; such requests add an instance each time, C16). In particular a program that repeats the same work and gives back in each round what it got holds no more after any number of rounds than the work of one round allows. The same holds for programs with containers: if at most k vectors (arrays, binary heaps) exist at the same time, the bound is that for k + 1 blocks in use, one more than there are containers because a container that grows has two blocks for a moment. And for threads that share a threaded allocator: in every interleaving, at every moment, the bound is that for the sum of what the threads have at most by themselves, and threads that repeat their work any number of times leave no more behind than one round of each allows.",
  "all compositions, all histories of any length, any number of threads and all interleavings, all behaviours of malloc and of other parties",
  "A leak of one node per thousand calls, or a freelist that under some order of calls asks for a new block although one is waiting, shows only in long runs with the right pattern; a bound for all lengths and all patterns cannot be tested.",
  [A+"freelist.h:113-147", A+"cascading.h:93-163", A+"fallback.h:100-120", A+"segragator.h:97-113", A+"overflow.h:104-167", A+"shared.h", A+"threaded.h:61-73", "utility/aligned_malloc.h", K+"trivial_vector.h", K+"trivial_array.h", K+"binary_heap.h"])

p("Calls are short, the mutex is given back soon, and every thread finishes",
  "A call of allocate makes a number of memory accesses and of calls of malloc that is bounded by a number depending on the type of the allocator alone: not on how much is in use, nor on what was done before. The same holds for deallocate. Hence a thread that holds the mutex of a threaded allocator gives it back after a bounded number of its own steps, whatever the other threads do meanwhile; and if every thread gets a turn again and again, all threads finish their work, with the right results, and leave the mutex free. (Going along the list of the instances of a cascading does not count as an access here; their number is bounded by C16 and C102.)",
  "all compositions, states and arguments for allocate; for deallocate and the mutex all compositions in which no freelist and no other cascading lies below a cascading; for termination all compositions without a freelist below a cascading, any number of threads, all container programs, all fair schedules, all behaviours of malloc",
  "That nobody waits for ever is a statement about infinite schedules; a test that hangs once in a million interleavings does not say why, and one that does not hang says nothing.",
  [A+"threaded.h:61-73", A+"cascading.h:93-163", A+"freelist.h:113-147", A+"overflow.h:104-167", "utility/aligned_malloc.h"])

p("Giving memory back needs no memory",
  "deallocate and the destructor of an allocator never call malloc and never stop for want of memory, in any state and for any arguments. For containers: after any program, calls that only remove or hand on (erase, clear, pop, move construction, move assignment, reading and writing elements, destruction), then the destruction of all containers and of the allocator, all succeed without one call of malloc. A program that has run out of memory can therefore always clean up. The same holds for threads that share a threaded allocator: once none of them is inside allocate or going to call it, they go on in any order and all finish, with the right results, without one call of malloc.",
  "all compositions (threads: all without a freelist below a cascading), all element sizes and types, all container programs, any number of threads, all schedules, all behaviours of malloc (also one that always fails from then on)",
  "That a path never allocates is a statement about all states; the failing malloc would have to be injected at every point of every history.",
  [A+"freelist.h:70-73", A+"freelist.h:137-147", A+"freelist.h:228-240", A+"cascading.h:57-60", A+"cascading.h:133-163", A+"overflow.h:104-167", A+"shared.h", "utility/aligned_malloc.h", K+"trivial_vector.h", K+"trivial_array.h", K+"binary_heap.h"])

p("An exception from the allocator leaves containers as they were or ends the program",
  "If the allocator of a trivial_array, or a user's allocator anywhere below it, throws from allocate, then a call of resize or assign that lets the exception out has changed no array: all sizes, addresses and elements are as before; and a constructor that throws leaves nothing behind. A program that catches the exception and goes on, any number of times, reads from then on exactly what the calls that returned say, as if the others had not been made; nothing is undefined, every block goes back once and with its size, and after the arrays and the allocator are destroyed no memory is lost. (The copy constructor and the copy assignment are noexcept: an exception ends the program there, C77. The functions of trivial_vector and binary_heap that grow are noexcept too: programs with these see, until an exception ends them, sequences and heaps as with any other allocator, and lose no memory if none does.)",
  "all element sizes, all compositions of the library's allocators with any users' allocators that throw from their constructor or from allocate (as in C93), all programs with any number of arrays on one allocator that ask for no empty array and make no copies, all points at which allocate may throw",
  "An exception would have to be injected at every allocation of every program; which blocks are in whose hands at that moment is not visible from outside.",
  [K+"trivial_array.h:58-108", K+"trivial_array.h:264-280", K+"trivial_array.h:287-303", K+"trivial_vector.h:285-459", K+"binary_heap.h:285-301", K+"binary_heap.h:366-397", A+"type_allocator.h:98-102"])

p("How often malloc is called depends on the type of the allocator and the number of requests alone",
  "A call of allocate calls malloc at most a number of times that depends on the type of the allocator alone (once for a mallocator, the sum for fallback, the larger for segragator, for cascading twice what its instances take to be made and to allocate, unchanged by freelist, overflow, threaded, shared and reference); the constructor calls it once for each shared; deallocate, construct, destroy and the destructor never do. So a program, also one with any number of vectors, arrays or heaps, or with any number of threads on one allocator, calls malloc at most so often for each request, from the construction of the allocator to its destruction; a vector or array makes at most one request per operation. An allocator with no mallocator, cascading or shared in it, and a container over it, never calls malloc.",
  "all compositions, all states and arguments, all histories, all programs with containers, any number of threads, all schedules, all behaviours of malloc",
  "A test can count the calls of malloc in a few runs. That a composition of buffers never reaches the heap, whatever happens to it, is a statement about all runs: it is why one uses such allocators where malloc is forbidden.",
  [A+"mallocator.h:39-42", A+"cascading.h:93-125", A+"shared.h:64-76", A+"fallback.h:100-107", A+"segragator.h:97-103", A+"freelist.h:113-130", A+"overflow.h:104-130", "utility/aligned_malloc.h:48-100", K+"trivial_vector.h", K+"trivial_array.h", K+"binary_heap.h"])

out = os.path.join(os.path.dirname(os.path.abspath(__file__)), "..", "properties.jsonl")
with open(out, "w") as f:
    for q in P: f.write(json.dumps(q) + "\n")
print(len(P))
