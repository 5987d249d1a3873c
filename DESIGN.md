# Formal model of KredeGC/KTL in Lean 4 — design

## 1. Trusted base

* Lean 4.33.0's kernel.  Every theorem listed in `MANIFEST.json` depends on at most
  `propext`, `Classical.choice`, `Quot.sound`.  `lean/Verif/Audit.lean` checks this while it is built (the
  build fails otherwise); the axioms of every single theorem are listed in `AXIOMS.txt`.
* No axioms of our own, no `sorry`, no `native_decide`, no `bv_decide`.
* The reading of the C++ sources: the model was written by hand from `/repo/include/ktl`; each
  definition cites file and lines.  Nothing in `/repo` was executed.
* Platform: LP64 (`size_t` = 64 bit, wrap-around arithmetic modelled explicitly),
  `alignof(std::max_align_t) = 16`, release build (`KTL_ASSERT` expands to nothing; only C75 looks at the build with assertions).

## 2. The machine model (`Verif/Base`)

* **Memory** is byte addressed: `Heap = { bytes : Addr → Option UInt8, toks : Addr → Option Nat }`.
  A byte that is `none` is not allocated: reading or writing it is UB.  `toks a = some n` says
  "`a` is the start of a live malloc block of n bytes".
* **malloc** is an arbitrary oracle `Sys.malloc : tick → Heap → size → Option (Addr × contents)`,
  constrained only by: non-null, aligned, inside the address space, fresh.  It may fail at any call
  and may choose any address, so theorems hold for all malloc behaviours.  `free` of anything but the
  start of a live malloc block is UB.
* **Programs** live in the monad `M α = World → Res α` with three outcomes: `ok a w`, `ub` (undefined
  behaviour or divergence) and `oom w` (the code dereferenced the null result of a failed allocation
  without checking it: `aligned_new`, containers).  `oom` is undefined behaviour in the real code; it
  is separated so that "safe unless malloc fails" can be stated without assuming that malloc never
  fails (which would be unsatisfiable).  Every `oom` leaves `World.failed = true`, which only a failed
  allocation sets: `M.nullDeref` is `oom` if some `malloc` has failed before and plain `ub` otherwise.
* **Separation logic**: assertions over `Heap`, `∗`, Hoare triples with the frame property built in.
  This is proof machinery only: the property theorems are stated over operational runs.
* Buffers of new `linear_allocator` and `stack` objects have arbitrary contents here; the code fills some of them with zeros
  (`m_Data{}`).  Nothing relies on it, and theorems hold for all contents.
* Addresses are numbers; moving a pointer out of its array is not an error by itself, except in C85 and C91.
* Private fields of allocator objects (top pointer, counters, node lists) are Lean record fields;
  storage of the objects is still accounted for byte by byte (`objSize`), so that a `linear_allocator`
  inside a cascaded node really hands out bytes of the malloc'ed node.  Free-list links and overflow
  guards are stored in the byte memory, because that memory is shared with the client.

## 3. Allocators

`structure Allocator` = the C++ "concept": state, constructor at an address, `allocate`,
`deallocate`, optional `owns`, optional `max_size`, optional `construct`/`destroy`, destructor.
Each C++ class template is one Lean function from allocators to allocators
(`freelist min max A`, `fallback P F`, …).  `structure Sound A` is the contract (in separation logic);
each class gets a proof `Sound A → Sound (wrapper A)`.  `inductive AllocTy` is the syntax of all type
expressions, `denote : AllocTy → Allocator`, `WF` collects the `static_assert`s and the preconditions
found to be necessary (see section 6), and `∀ t, WF t → Sound (denote t)` is proved by induction.
The user-level theorems (C01–C06) are then statements about `runHistory` of arbitrary operation lists.

Some allocators exist only as devices for stating properties and model no code: `strict` (`Spec/Strict.lean`: a
ledger of the blocks handed out; `deallocate` of a pair (pointer, size) not in it is undefined),
`lifoFreelist` (`Spec/Lifo.lean`), `metered` and `untouchable` (`Props/VectorOps.lean`); `slack` of C85.

### Handles, copies, moves
* `reference`, `stack_allocator`, `global`: machine of handles over objects identified by address
  (`Alloc/Handles.lean`).
* `shared` (`Conc/Shared.lean`): blocks have identities that are never reused; a forwarded call is an event.
  `AllocTy` also contains `shared` with a single handle, with its block in the byte memory.
* Moves (`Alloc/Move.lean`): move constructor and move assignment of null, mallocator, linear, freelist, fallback,
  segragator, cascading (and the constructor of overflow) on the fields of the two objects; the assertions of
  freelist are the precondition `ready`.  `reference`, `stack_allocator` and `shared` are handles (above).
* Copies (`Alloc/Copy.lean`): which compositions can be copied, and which fields copies share.
* Comparison of objects of a composition (`Alloc/Equal.lean`): what `operator==` sees of an object at an address (`Val.eq` is the operator).
* `global` (`Alloc/Handles.lean`, `Spec/Global.lean`): the static object exists from the start and is destroyed at the end, after everything
  else; `set_allocator` is the move assignment of the class, `get_allocator` is also used to move the allocator out again (C88).

### Threads
* `atomic_shared` (`Conc/Atomic.lean`): interleaving of atomic steps.  `Conc/Order.lean` adds the C++
  happens-before relation (program order, release/acquire on the counters, handing over handles), so that the
  memory order named in the code matters.  Read-modify-write operations on one counter are totally ordered.
* `threaded` (`Conc/Threaded.lean`): calls are sequences of accesses to the state (`Act`); any accesses of any
  threads interleave; `m_Lock` is a mutex without spurious behaviour.  For C64 the body of a call is any
  sequence of accesses that amounts to the call of the underlying allocator when it runs alone; the threads'
  accesses to the memory of their own blocks are not part of the machine.
* Threads with containers (`Conc/Prog.lean`, C81): the accesses of the threads to their blocks, byte by byte, interleave with each other and with
  the calls of the allocator; here a call is one step (C27).  In C84 (`Conc/Gang.lean`) a call is a sequence of accesses too, under the mutex.  The fields of
  the allocator objects are read at its beginning and written at its end; `malloc`, `free` and printing are single steps; no `freelist` below a `cascading`.  In C90 (`Conc/Local.lean`) every thread has an allocator of its own over the
  shared one; the fields of that allocator are private to the thread, its accesses to blocks interleave.
* `free` of a block of which a byte is missing is UB (`cFree`), which makes a `free` an access to all bytes of the block.

### Containers
* Byte level, over an arbitrary allocator that satisfies the contract.  All containers of a program share one
  allocator object (as with `shared`, `reference`, `mallocator` or a copyable composition, see C65), except in
  C47, C48, C62 (two objects) and C71 (any number, with handles).  `type_allocator` moves by copying, so containers over
  an allocator that cannot be copied can be neither copied nor moved (they do not compile).
* `memcpy` of overlapping ranges is UB; a null pointer with size 0 is accepted, except in C91.  A null result of the allocator
  is an immediate `oom`, since every container uses it without a check.
* Calls that violate a documented precondition (index out of range, …) are skipped by the program machines.
* `trivial_vector::resize` to a larger size: the new elements have the indeterminate values of the storage.
* `binary_heap` (`Containers/Objects.lean`): objects have lifetimes (constructed, destroyed), the
  representation of an object is a function of its value, a moved-from object keeps existing with an
  unspecified value; for trivial types, lifetimes are not observed. `Traits::construct`/`destroy` are
  modelled as construction and destruction in place; `Containers/BinaryHeapCalls.lean` also makes the calls to the
  allocator, and C83_calls_change_nothing shows that programs are the same (unless an `overflow` lies below a `cascading`).
* Operations that may request zero bytes (`BOp.mayBeEmpty` and its likes) are only allowed over compositions
  without routing (`AllocTy.noRouting`), because of C58's false case.

## 4. Properties: what is modelled and how it is proved

| id | model | proof |
|----|-------|-------|
| C01–C06 | `AllocTy`, `denote`, client histories | contract `Sound` by induction on the type expression; histories by induction on the operation list |
| C07, C08, C09 | `Linear` with 64-bit wrapping arithmetic | case analysis + `omega`; negation with a witness for the wrapping sizes |
| C10 | `StackAllocator` handles over one `stack` | simulation with `Linear` |
| C11, C12 | `freelist`, links in memory | chain invariant; counting invariant over histories |
| C13–C15 | `fallback`, `segragator`, `cascading` | operational equations + `Sound` |
| C16 | `cascading` | invariant "at most as many idle non-front nodes as there were hopeless requests", by induction over all compositions; what hopeless requests do is proved too; negation witness |
| C17, C59 | `cascading.max_size` (null dereference modelled as UB) | negation witness + positive theorem after the first allocation |
| C18, C19 | `max_size` | invariant; negation witness for C19 |
| C20–C23 | `overflow`, guard bytes in memory, stream as message log | list reasoning on guard zones; accounting invariant over histories; negation witness for C22 |
| C24, C25 | handle machine for `shared` | invariant count = number of handles; witness for self assignment |
| C26 | small-step interleaving of atomic increments/decrements | inductive invariant over all schedules |
| C27, C28 | small-step interleaving with a mutex | linearisation by induction over the schedule; race witness for C28 |
| C29, C30 | equality operators, handle machines | direct; negation for `global` |
| C31 | `type_allocator` | direct; negation for wrapping products |
| C32–C34 | `BitVec 64` functions | arithmetic proofs |
| C35, C36 | `packed_ptr` over `BitVec 64` | bitwise extensionality; histories by induction |
| C37–C39 | builders as recursive functions on lists producing trees | strong induction on the length |
| C40, C41 | `aligned_malloc` branches | the contract of `mallocator` is proved for both branches; negation for posix_memalign |
| C42–C48 | `trivial_vector` over an arbitrary sound allocator, byte level | refinement to lists; negation witnesses for C45–C47 |
| C49 | `trivial_array` likewise | refinement |
| C50 | `trivial_buffer` | modular arithmetic |
| C51–C56 | `binary_heap` over slots with lifetimes | heap-order invariant, permutation, strong induction; negation witness for C56 |
| C57 | construct/destroy forwarding | structural induction |
| C58 | zero-size blocks | positive for the leaf allocators, negation witness for `fallback` |
| C60 | move operations of all classes, programs with any number of objects | invariant "every object is a proper allocator with its blocks"; negation witnesses |
| C61, C62 | `binary_heap::insert` of an own element, lifetimes | refinement; negation witnesses |
| C63 | which requests a composition serves, as a recursive specification | refusals imply `World.failed` or exceed the specified capacity |
| C64 | `threaded` machine with the calls of any composition | linearisation (C27) + contract |
| C65 | copies share what pointers share | simulation of a program with copies by the program with one object |
| C66 | happens-before over the interleavings of C26 | invariant: every access is known to a holder of the block or published in its counter |
| C67 | `deallocate(nullptr, n)` at any point of a history | simulation (as C65) of the history without these calls; negation witnesses |
| C68 | growth of `binary_heap` | as C44: metered and forbidden allocators; potential argument |
| C69 | comparisons of `binary_heap` | query complexity (`Asks`), induction over the levels |
| C70 | equal allocators are interchangeable | programs over several objects that hand blocks over (`Spec/Handing.lean`); a block moves between two invariants with equal views, by induction on the composition |
| C71 | vectors over reference counted allocators | any number of `shared` blocks and vectors with handles (`Containers/SharedVector.lean`); invariant: per block, the counter is the number of vectors with a handle and the pool is what these vectors own |
| C72 | refused requests of containers | false; the allocating functions exactly as they are, without the check that the other models have (`Containers/Unchecked.lean`); they agree with these models until a request is refused, and every refused request of the named operations leads to a write through null or a container without memory, for every allocator |
| C73 | `owns` of `threaded` without the lock, one access at a time (`Conc/Threaded.lean`, `Conc/CascadingOwns.lean`) | calls that do not take the lock, only read, and read fields nobody writes: an invariant of the machine that linearises the locked calls alone (`Props/QuietCalls.lean`), then the argument of C64; what is owned never changes unless there is a `cascading` (induction over the composition); with `cascading`: negation, a schedule in which `owns` reads a deleted node |
| C74 | `trivial_vector` programs (C42) | a small logic of calls confined to a range of bytes (`Confined`), applied to each call in place; the shape of the fields after any history from the invariant of C42; growth by cases |
| C75 | `Alloc/Debug.lean`: `deallocate`, destructors, `construct`, `destroy` of all classes with their assertions; a failing assertion is the outcome `ub` | the class with the assertions of `deallocate` and the destructor satisfies the contract `Sound` for requests that are not hopeless (no unused instance behind the first node); `construct`/`destroy` agree with the release build for locations in client blocks; both builds are related by `Refines`. False for hopeless requests. The assertions of the move operations (`linear_allocator.h:39,54`, `freelist.h:65,86`) and of the containers are preconditions, not covered |
| C76 | containers as in C43, C49, C50, C52; `Buf.alignof` (alignment of the class `trivial_buffer`) | the storage of a container is a live block of the allocator, and live blocks are aligned to 16 (invariant of C03); hence all places, for `alignof(T)` dividing 16 and `sizeof(T)`. Witness for a 32-aligned type; for `trivial_buffer` the negation holds whenever it is the member after a `char` |
| C77 | `Exc/Model.lean`, `Exc/Containers.lean`: for every function of the allocators, `type_allocator`'s constructor and the containers, its exception specification and the calls it makes; a call ends in one of `returns`, `throws`, `terminates`; run-time branches are left open | induction over the composition of an invariant on the functions of a class (`Exc/Inv.lean`); containers by evaluating their bodies. False in many instances, each a theorem |
| C78 | `Conc/AtomicThreaded.lean`: the handles of C26 and the calls of C64 in one machine; the deletion of the block runs the destructor of the allocator, step by step; blocks of memory are in one pool, any thread may give back any block | the invariants of C26 and C27 together with: a thread in a call has a handle, so nobody deletes the block meanwhile; hence calls and destructor exclude each other, executions are sequential, and C02–C05 apply |
| C79 | copies, moves and conversions of `type_allocator` | simulation of every step by a step of a client of one untyped allocator |
| C80 | programs of vectors or arrays over `overflow<u>` and their reports | `overflow` with the stop on a refused request moved inside (`firm`) has an invariant that ties the counter to the live blocks; what is printed is followed by `Says` |
| C81 | `Conc/Prog.lean`: a thread is a tree of single-byte accesses and allocator calls; `Conc/ProgVector.lean`, `Conc/ProgArray.lean`, `Conc/ProgHeap.lean`: the containers access by access; `Crew`: any threads, any schedule | alone, a thread is the sequential program of C42/C49/C52, so it is correct over every sound allocator, in particular over one whose answers are scripted (`Spec/Oracle.lean`); hence, access by access, it keeps to the blocks it was given (`Safe`), whatever blocks those are; `Safe` threads with disjoint blocks stay safe under every step of any of them (`Spec/Crew.lean`) |
| C82 | loops with the iterators over vectors, arrays, heaps (`Containers/Iterate.lean`): pointers compared with the end, one element at a time | from C42, C49, C52 and `end() = begin() + size()`; induction over the elements |
| C83 | `Containers/BinaryHeapCalls.lean`: `binary_heap` with `construct`/`destroy` through the allocator, which counts them | the two models of `binary_heap` run in step (`InStep`, `Counts`: same worlds, related states; the counter is the number of elements), then the machinery of C80; that the calls do not matter otherwise by induction over the composition (`Deaf`) |
| C84 | `Conc/Body.lean`: every call of every allocator as a tree of accesses, equal to the call of the model when run alone (`denoteB_toA`); `Conc/Gang.lean`: threads, mutex, the call under way | the contract of an allocator gives, for every behaviour of `malloc`, that each access of a call falls into memory of the allocator or of the block given back (`Body.Safely`, from `dealloc_local` with the blocks of the others set apart); invariant `GInv` by induction over the schedule; calls are finite trees, so the mutex is released |
| C85 | `Alloc/Pointers.lean`: `linear_allocator`, `stack_allocator`, `overflow` with a check before every step that computes a pointer, and all compositions of them (`AllocTy.checked`) | the checks hold under the invariants of C01 (`Linear.Ok`), so the contract holds with the checks (`csound`); the class with checks refines the one without (`checked_refines`).  **partial**: `overflow` breaks the rule in every `deallocate` |
| C86 | nothing new; specification `Heap.Alike`, `World.Alike`, `Sys.Alike` (`Spec/Twin.lean`) and `Op.shape` (`Props/Contents.lean`) | two runs side by side (`Twins`, `Twin`), tolerant of undefined behaviour in either; the classes that look at contents, `freelist`, `overflow` and those that call `aligned_free`, get checks that they read what they must (`Spec/Ghost.lean`, `Spec/Header.lean`); the contract holds with the checks, and with the checks the runs agree. On the portable platform `malloc` blocks have to be disjoint (`Heap.Tidy`), which is an invariant |
| C87 | `Moves.self` (move assignment with the object itself as source) of all classes; the programs of C60 contain it; handles and containers as in C24, C42, C49, C56, C71 | contract of `self` by induction over the type, with the memory of the client's blocks because `freelist` gives its chain back; negation witnesses, most of them for every state |
| C88 | `Spec/Global.lean`: `set_allocator`, moving out of `get_allocator()`, programs with instances of `global` and allocator objects of their own | simulation by the programs of C60 with one more object; negation witnesses |
| C89 | `Containers/BinaryHeapThrows.lean`: the copy constructors, the constructors from a list and the copy assignment of `binary_heap` up to the point where copying an element (or `allocate`) throws; programs that catch the exception and go on | the remains of an interrupted constructor are a heap the program does not know: the invariant of C52 with these in front of the list, shifting the indices of the operations; negation witnesses for the leak and for the copy assignment |
| C90 | `Conc/Local.lean`: allocators of one thread over a shared one, access by access, with construction and destruction (`lthread`) | run over an allocator without fields that keeps its books in the tokens of the machine (`depot`) each local allocator satisfies the contract of C01–C20 by the same theorems; what holds for every script of the depot holds in a thread (`depot_oracle`, `safe_of_depot`); the rest is C81 |
| C91 | `Containers/Pointers.lean`: the functions of `trivial_vector` and `trivial_array` with the end of the allocated array as a ghost field and a check before every step that moves or subtracts pointers; `memcpy`/`memmove` that reject null (`lax = false`).  `Containers/HeapPointers.lean`: the functions of `binary_heap`, with checks also that an element that is used lies in the array | the functions without checks agree with those with checks while `m_Begin`, `m_End`, `m_EndMax` are where they should be (`AgreeOn`, `pvrun`, `parun`; for heaps `Alike`, `phrun`), and C42/C49/C52 say that they have no undefined behaviour.  **partial**: null pointers are passed by the listed calls; negations proved |
| C92 | `Alloc/Narrow.lean`: `NTy` adds allocators of the user (`User`: any class with the contract `Sound` for its own `size_type`) to the type expressions; `narrow W` converts the sizes where the code has a `size_type` parameter; `cascadingW` has a counter of `W` values | `narrow_sound`, `cascadingW_sound` (the narrow counter is the wide one modulo `W`, and the number of blocks is below `W`), then the generic form of C01–C06, C42, C43 (`Spec/Any.lean`), C49, C52, C56 (`Props/NarrowContainers.lean`).  **partial**: larger requests are truncated; negations proved |
| C93 | `Alloc/Thrown.lean`: `XAlloc`, classes whose constructor, `allocate` and `construct` may end with an exception, with the fields as they are when it leaves; every wrapper once more over such a class; `XTy` adds users' allocators (`XUser`: any class with the contract `XSound`) | `XSound` for every wrapper, by induction over the type; the generic form of C01–C06 (`Spec/Any.lean`) for histories that go on after exceptions; exact law for the reports of `overflow`.  **partial**: constructors below `cascading`/`shared` must not throw; negations proved |
| C94 | `Alloc/Doors.lean`: `get_allocator()` of freelist, overflow, threaded, shared and reference, any number of calls in a row (`door`, `through`, `ask`); programs that call any of the allocators so reached; one thread (`threaded` hands out its allocator without locking) | the contract of each allocator with blocks held by two clients, the allocator around it and the program (`whole`), by induction over the type; simulation for blocks that go back through a class that passes calls on; the rule on where blocks go back is shown to be needed |
| C95 | `Conc/GangOrder.lean`: the steps of the machine of C84 recorded with the bytes they access and what they do to the mutex; happens-before as in C++ (order within a thread, `unlock` before later `lock`s) | the invariant of C84 with the distribution of blocks made explicit (`GInvR`, `Gang.Moves`: a thread gains or loses bytes only when it gives back or takes the mutex); who may access a byte knows all earlier accesses to it (`Informed`), by induction over the schedule |
| C96 | `Alloc/Around.lean`: constructors with allocators as arguments, at any place of a composition (`Make`): the argument objects with their own history, the fields of the new object, the argument objects afterwards | `build_spec` by induction over the way the object is made: the invariant of C94 (blocks held at all depths of `get_allocator()`) holds of the new object with the blocks of the arguments; move constructors by C60; then `DoorClient.step_spec` for the new object and `run_spec` for the old ones |
| C97 | the programs of C42, C49, C52, C71 and C60 with the three moves of `std::swap` | containers: exact equation, for all states; allocators: C60's invariant and the bookkeeping of the four steps; negation for `linear_allocator` with blocks in use |
| C98 | specification `vknown`, `aknown` (`Props/Same.lean`): sequences of bytes that are known or not; for heaps `upList`, `downList`: the percolations on lists | the relations of C42, C49, C71 refine the functions, byte by byte, and are functions for programs that give every element a value; for heaps the proof of C52 is strengthened to the exact order of the elements, which is a function of the program |
| C99 | `Containers/Comparators.lean`: heaps with comparator objects of their own; the functions of the heap called with its `m_Comp`, and what constructors and assignments do with it | invariant: each heap is in the order of its own comparator; the proof of C52 with the order of the other heaps left out |
| C100 | nothing new: the programs of `Conc/Prog*.lean` run with a log of their requests (`Props/Enough.lean`); `Spec/Steady.lean`, `Spec/Asks.lean` go through every container function | every container function stops only after a null answer and makes a bounded number of requests (induction over the programs); with C63 for the compositions and a meter (requests so far bound `m_Free - m_Data`) for the fixed buffers, shared by threads too: each has a number of requests left, and what is used plus what is left fits, `Props/EnoughThreads.lean`; the failure flag is never reset by any member of any allocator |
| C101 | `binary_heap` programs (C52) | as C74, with a set of addresses in place of a range (`Within`), and the record of objects; the loops of `percolateUp` and `percolateDown` by induction; growth by cases |
| C102 | every `AllocTy`, histories of C01 | the composition with a ledger in every `freelist` (`AllocTy.book`, refines `denote`) satisfies the same contract; state predicate `Tight` (ledgers at most `p`, no idle instance behind the first) preserved by every call; `malloc` blocks counted in the invariant of the contract; loops by a count on the operations. Containers: the container programs of C42, C49, C52 run over that composition with a limit of `k + 1` blocks in use (`ration`), which satisfies the contract; each operation asks at most once more than it holds (`Prog.Asks`; a heap from a list by C68), so the limit is never noticed. Threads: each thread's program with a count of its blocks, where exceeding its share is undefined behaviour (`Prog.tally`), is safe by itself (C81's oracle), so in every interleaving the blocks in use are at most the sum of the shares |
| C103 | the machine of C84 (calls access by access) | `Body.Short k`: no way through a call has more than `k` accesses, by recursion over the composition; costs `allocCost`, `freeCost` computed from the type; the holder's call gets shorter at each of its turns; termination under fair schedules by a well-founded order on what every thread has left (`Left`, a finite product). Nothing is assumed about who gets the mutex next |
| C104 | every `AllocTy`, programs of C42, C49, C52 | `Frugal`: `tick` (the count of calls of `malloc`) unchanged and never `oom`, by recursion over the composition, the loop of `freelist` by fixpoint induction; that nothing is undefined comes from C43, C49, C56. Threads (`Props/GiveBackThreads.lean`): the calls that give back are trees of accesses without `malloc` (`Body true`), so an invariant on what is left of the programs (`Gang.Gives`) is enough; that they finish comes from C103 |
| C105 | `Containers/ArrayThrown.lean`: the allocating functions of `trivial_array` once more over `XAlloc` (C93), with the exception as an outcome; programs that catch and go on | every call either does what it does over an allocator that returns null (`XFollows`), to which C49's step applies, or throws right after `allocate`, before any change; invariant of C49 by induction over the program; `xstrict`: ledger over a class that throws.  Vectors and heaps (`Props/Uncaught.lean`): `XAlloc.ending`, in which an exception ends the program, satisfies the contract of C01–C06, so the generic forms of C42, C43, C52, C56 apply |
| C106 | every `AllocTy`, histories of C01, programs of C42, C49, C52 | `Mallocs k`: `tick` grows by at most `k`, by recursion over the composition; containers through their request count (`Prog.Asks`, C100) and the equality of their programs with trees of accesses (`seq_vthread` …). Threads: `Body.MCalls` counts along every way through a call; each thread has an allowance, which its calls of `malloc` use up (`Gang.May`) |

## 5. Not modelled

Template metaprogramming traits other than presence/absence of members, the state of objects after an exception (C77 only
models whether exceptions get out) except for `binary_heap` (C89), the allocators (C93), `trivial_array` and, up to the end of the program, `trivial_vector` (C105),
iterator classes (plain pointers), the profiler, the tests, weak memory effects other than the ordering of
C66 (all other interleavings are sequentially consistent; C95 shows for the threads of C84 that there is no data race, so
that C++ guarantees sequential consistency for them), strict aliasing and pointer provenance,
performance except where counted (C12, C16, C39, C44, C68, C69).
`trivial_vector::pop_back` (`m_Begin[--m_End]`, pointer used as an index) and
`trivial_vector::emplace` (`*iter = …` through a `const_iterator`) do not compile when instantiated;
`trivial_buffer::begin/end/data` compile for bytes only (modelled in C82), `at` and `operator[] const` not at all;
there is no behaviour to model.  `segragator::construct`/`destroy` do not compile unless the primary has `owns`.

## 6. Findings: where the code disagrees with a property

A name in brackets is a theorem that proves the negation on a concrete input or for a whole class of inputs; the
`_partial` theorems of the same property say what does hold.  Findings without a name were only read off the
sources.

* `linear_allocator`/`stack_allocator::allocate(n)` with `n` near 2^64: `n + align` wraps to a small number and
  the request "succeeds" [C07_huge_request_succeeds].  `type_allocator` multiplies without a check: a huge count
  of objects gets a small block [C31_wraps].
* `linear_allocator<Size>::max_size` cannot be served if `Size` is not a multiple of 16 [C19_max_size_refused];
  `cascading` over it adds a node for every refused request, without bound [C16_false].  The same happens over
  every allocator that refuses, even when new, a request within its `max_size` [C16_hopeless_adds], for example
  `overflow` over an arena.
* `linear_allocator` move assignment does not reset `m_ObjectCount`: memory is never reclaimed afterwards
  [C60_linear_false].  A `freelist` over memory inside the object cannot be moved once it has been used
  [C60_freelist_false].
* `x = std::move(x)`: `linear_allocator` hands out its memory a second time, `cascading` frees the nodes under blocks in use,
  a `shared` handle becomes null, containers lose their elements [C87_linear_false, C87_cascading_false, C87_shared_false,
  C87_vector_false, C87_array_false, C87_heap_false].  `std::swap` of `linear_allocator`s with blocks in use [C97_linear_false].  A vector over the only handle of a `shared` allocator runs into C25
  [C87_shared_vector_false].
* `overflow`: refused requests are counted as leaked [C22_false_leak_report]; the counters are copied by the
  implicit move and copy constructors, so moved-from objects and copies report leaks that do not exist
  [C60_overflow_false_report, C65_overflow_reports]; they do not follow a block handed to an equal object
  [C70_overflow_false_report].
* `cascading::max_size` dereferences null on a new or moved-from object [C17_false]; therefore
  `cascading<cascading<A>>` crashes on its first `allocate` if `A` has `max_size` [C59_false, C59_crashes].
* Empty requests: `fallback<linear, mallocator>` and `cascading<linear>` with an exactly full `linear_allocator`
  return its one-past-the-end pointer for `allocate(0)` and later pass it to the wrong allocator
  [C58_false_fallback, C58_false_cascading].
* `shared`: self copy assignment of the only handle uses the deleted block [C25_false]; `==` on moved-from handles
  dereferences null [C29_shared_null_undefined].  `global`: `a == b` and `a != b` are both true
  [C29_global_inconsistent].
* `threaded`: `construct`, `destroy`, `owns` and `max_size` do not take the lock [C28_false].
* `aligned_malloc` calls `posix_memalign` with size and alignment exchanged [C41_false, C41_overrun].
* `trivial_vector`, `trivial_array`, `binary_heap`: self copy assignment loses the contents or is undefined
  [C46_false…]; the move constructor with an allocator deallocates with a size multiplied by `sizeof(T)` twice
  [C47_false…]; `push_back(v[0])` and `heap.insert(heap element)` use freed memory when full [C45_false, C61_false];
  `array.assign` from its own elements likewise [C49_assign_from_itself_false].
* `binary_heap::pop` on one element of a non-trivial type destroys the element, then reads and assigns it
  [C56_false]; the move constructor with an allocator copies the elements and never destroys those of the source
  [C62_false].
* `global::set_allocator` replaces the allocator whatever is still in use: with `linear_allocator` live memory is handed out again, with `cascading`
  it is freed [C88_linear_false, C88_cascading_false].
* `trivial_buffer`: self assignment is `memcpy` onto itself; an initializer list that is too long writes outside
  (only an assertion) [C50_self_assignment_false, C50_overlong_list_false]; the storage is an unaligned
  `uint8_t` array [C76_buffer_false].
* `deallocate(nullptr, n)`: `linear_allocator` (assertion only) and `stack_allocator` (no check at all) subtract from
  their counters, so a live block can be handed out a second time [C67_linear_false, C67_stack_false]; `overflow`
  counts it in its leak report [C67_overflow_false_report].
* No container looks at the result of its allocator.  A refused request makes `push_back`, `insert`, `resize` and
  `reserve` on a container with elements write through the null pointer; on a new one `reserve(n)` and
  `trivial_vector(n)` leave a container that claims `n` elements of memory it does not have [C72_push_false,
  C72_reserve_false, C72_resize_false, C72_construct_false, C72_array_resize_false, C72_heap_insert_false].
* `overflow::max_size` is not reduced by the 128 guard bytes [C19_overflow_refused].
* `threaded::owns` takes no lock.  Over `cascading` it walks the node list while another thread may delete a node, and reads
  freed memory [C73_cascading_false].  Without `cascading` this is harmless [C73_owns_while_others_allocate_partial].
* `cascading::release` asserts that only the first node is left.  A refused request that leaves an unused node behind makes
  this assertion fail although nothing has leaked [C75_false, C75_hopeless_stops]; a block leaked in the first node goes
  unnoticed (an `example` in `Props/Asserts.lean`).
* Types with an alignment above 16 are accepted, but their elements are only aligned to 16 [C76_overaligned_false].
  `trivial_buffer` keeps its elements in an array of bytes, so it may be placed anywhere [C76_buffer_false].
* `noexcept` promises that are not kept; an exception then ends the program [all C77].  `freelist` over an allocator that may throw in
  `deallocate`, such as `threaded`: destructor and move assignment [C77_freelist_false, C77_freelist_any_false].  `overflow` with a
  stream that throws [C77_overflow_false].  `fallback::deallocate`, and `construct`/`destroy` of `fallback` and `segragator`, leave
  `owns` out of their specification [C77_owns_false].  `has_nothrow_not_equal_v` looks at `==` [C77_not_equal_false];
  `overflow::construct` has an "or" in place of a choice [C77_overflow_construct_false]; the constructor of `type_allocator` asks whether
  `T`, not the allocator, can be constructed without exceptions [C77_type_allocator_false]; `global::set_allocator`
  [C77_global_set_false].  The containers are `noexcept` whatever the allocator does, so a vector over `threaded` or `std::allocator` ends
  the program where it should throw [C77_containers_allocate_false, C77_containers_deallocate_false]; `binary_heap` copies elements in
  `insert`, `pop` and its move constructor with an allocator [C77_heap_copies_false, C77_heap_assign_false, C77_heap_compare_false].
* `binary_heap`: an element whose copy throws in a constructor leaves the array and the elements copied so far behind, nobody frees them
  [C89_copy_false, C89_list_false].  In the copy assignment the size is set first: the destructor later destroys elements that were never
  constructed [C89_assign_false]; if `allocate` throws the heap keeps a pointer to freed storage [C89_assign_alloc_false].
* `binary_heap`: move construction copies the comparator, move assignment moves it.  A heap that was assigned from and is then used again has
  a moved-from comparator: another order, or (an empty `std::function`) none [C99_moved_from_false].
* The first loop of `overflow::deallocate` (`i >= ptr - OVERFLOW_SIZE; i--`) ends with a pointer one byte in front of the block, which is
  undefined in C++ even though nothing is read there [C85_overflow_out_of_range].
* `trivial_vector` and `trivial_array`: copy assignment from a container that has never held anything calls `memcpy` with a null pointer
  (undefined even for 0 bytes; the copy constructor has the check) [C91_copy_assign_false, C91_array_copy_assign_false]; so do `erase` and
  `push_back` with an empty range on such a vector [C91_erase_false, C91_push_false].
* Over an allocator whose `size_type` is smaller than `size_t` larger requests are truncated, not refused [C92_truncates,
  C92_truncated_false, C92_vector_false]; `overflow` adds its guards in that type and wraps [C92_overflow_wraps_false]; the counter of
  `cascading` wraps and a node is deleted with blocks in use [C92_counter_false].
* Exceptions [all C93]: if the constructor of an allocator below `cascading` or `shared` throws, the memory of the node is lost
  [C93_cascading_constructor_false, C93_shared_constructor_false]; `fallback` does not fall back and `cascading` does not grow if an
  allocator reports failure with an exception [C93_fallback_false, C93_cascading_full_false]; `overflow` counts requests and constructor
  calls that throw [C93_overflow_report_false].

All of this is about the model and the text of the sources; no code of `/repo` was executed.

## 7. Wrong programs

`seeded/LOG.jsonl` records the edits of the model ("realistic bugs") that the theorems were tested against, the
theorems that failed for each, and the theorems that were added or tightened because an edit survived.
"Failed" means that the proof, or a lemma it depends on, no longer checks.  That shows that the theorem depends on
the edited behaviour; it is not by itself a refutation of the edited program.
