import Verif.Containers.Objects

/- `containers/binary_heap.h`, function by function, for an arbitrary element type (`Elt`, see `Containers/Objects.lean`).
`comp` is the comparator object `m_Comp`, a function (comparators with state: `Containers/Comparators.lean`). Conventions for the allocator as in `Containers/Vector.lean`: the heaps of a
program hold handles of one allocator object with fields `s`; the objects `o` are passed along in the same way.

`Traits::construct`/`destroy` are construction and destruction in place (C57). Sizes and indices are natural numbers: they
cannot wrap because a heap has less than `2^63` elements.

Not modelled: reverse iterators, `KTL_ASSERT` (off by default), insertion
of a value of another type than `T`, insertion by moving out of an element of a heap. -/
namespace KTL

/-- The fields `m_Size`, `m_Capacity`, `m_Begin` (`containers/binary_heap.h:465-467`). -/
structure BHeap where
  size : Nat
  cap : Nat
  beg : Nat
  deriving DecidableEq, Repr

/-- The argument of `insert`: an object outside the heap, or an element of a heap (by address).
Specification, not code. -/
inductive HArg (α : Type) where
  | val (v : α)
  | ref (p : Nat)

variable {α : Type}

/-- read the argument. Specification, not code. -/
def HArg.fetch (E : Elt α) (o : Objs α) : HArg α → M α
  | .val v => pure v
  | .ref p => E.read o p

namespace BHeap

/-- constructors without capacity `binary_heap.h:43-60` -/
def null : BHeap := ⟨0, 0, 0⟩

/-- constructors with a capacity `binary_heap.h:67-85` -/
def ofCap (E : Elt α) (A : Allocator) (s : A.St) (n : Nat) : M (A.St × BHeap) := do
  let r ← grab E.size A s n
  pure (r.2, ⟨0, n, r.1⟩)

/-- the loop `for (i...) Traits::destroy(m_Alloc, m_Begin + i)` of `binary_heap.h:178-179`, `binary_heap.h:189-190`, `binary_heap.h:213-214`, `binary_heap.h:359-360`, `binary_heap.h:387-388`,
here from `i` on, `n` times -/
def destroyAll (E : Elt α) (beg i : Nat) : Nat → Objs α → M (Objs α)
  | 0, o => pure o
  | n + 1, o => do
    let o' ← E.destroy o (beg + i * E.size)
    destroyAll E beg (i + 1) n o'

/-- the loop `for (i...) Traits::construct(m_Alloc, m_Begin + i, other.m_Begin[i])` of `binary_heap.h:127-128`, `binary_heap.h:150-151`, `binary_heap.h:162-163`, `binary_heap.h:202-203` -/
def copyAll (E : Elt α) (dst src i : Nat) : Nat → Objs α → M (Objs α)
  | 0, o => pure o
  | n + 1, o => do
    let v ← E.read o (src + i * E.size)
    let o' ← E.construct o (dst + i * E.size) v
    copyAll E dst src (i + 1) n o'

/-- the loop `for (i...) Traits::construct(m_Alloc, newData + i, std::move(m_Begin[i]))` of `binary_heap.h:383-384` -/
def moveAll (E : Elt α) (dst src i : Nat) : Nat → Objs α → M (Objs α)
  | 0, o => pure o
  | n + 1, o => do
    let r ← E.moveOut o (src + i * E.size)
    let o' ← E.construct r.2 (dst + i * E.size) r.1
    moveAll E dst src (i + 1) n o'

/-- destructor `binary_heap.h:173-183`; the assignments `binary_heap.h:185-194`, `binary_heap.h:208-218` begin with the same statements -/
def destroy (E : Elt α) (A : Allocator) (s : A.St) (o : Objs α) (h : BHeap) : M (A.St × Objs α) :=
  if h.beg ≠ 0 then do
    let o' ← destroyAll E h.beg 0 h.size o
    E.dealloc A s o' h.beg h.cap
  else pure (s, o)

/-- copy constructor `binary_heap.h:120-129`; also with an allocator of its own `binary_heap.h:143-152` -/
def copy (E : Elt α) (A : Allocator) (s : A.St) (o : Objs α) (h : BHeap) : M (A.St × Objs α × BHeap) := do
  let r ← grab E.size A s h.size
  let o' ← copyAll E r.1 h.beg 0 h.size o
  pure (r.2, o', ⟨h.size, h.size, r.1⟩)

/-- move constructor with an allocator of its own `binary_heap.h:154-171`. The elements are copied and not destroyed; the size given to
`deallocate` counts bytes, not elements. -/
def moveWith (E : Elt α) (A : Allocator) (s : A.St) (B : Allocator) (t : B.St) (o : Objs α) (h : BHeap) : M (A.St × B.St × Objs α × BHeap) := do
  let r ← grab E.size B t h.size
  let o' ← copyAll E r.1 h.beg 0 h.size o
  let x ← if h.beg ≠ 0 then E.dealloc A s o' h.beg (mulW h.cap E.size) else pure (s, o')
  pure (x.1, r.2, x.2, ⟨h.size, h.size, r.1⟩)

/-- `set_size` `binary_heap.h:374-397` -/
def setSize (E : Elt α) (A : Allocator) (s : A.St) (o : Objs α) (h : BHeap) (n : Nat) : M (A.St × Objs α × BHeap) := do
  let r ← grab E.size A s n
  let x ← if h.beg ≠ 0 then do
      let o1 ← moveAll E r.1 h.beg 0 (Min.min h.size n) o
      let o2 ← destroyAll E h.beg 0 h.size o1
      E.dealloc A r.2 o2 h.beg h.cap
    else pure (r.2, o)
  pure (x.1, x.2, ⟨Min.min h.size n, n, r.1⟩)

/-- `expand` `binary_heap.h:366-372` -/
def expand (E : Elt α) (A : Allocator) (s : A.St) (o : Objs α) (h : BHeap) (n : Nat) : M (A.St × Objs α × BHeap) :=
  setSize E A s o h (h.cap + Max.max h.cap n)

/-- `reserve` `binary_heap.h:285-289` -/
def reserve (E : Elt α) (A : Allocator) (s : A.St) (o : Objs α) (h : BHeap) (n : Nat) : M (A.St × Objs α × BHeap) :=
  if h.cap < n then setSize E A s o h n else pure (s, o, h)

/-- the loop of `percolateUp` `binary_heap.h:418-422`: the result is the final `index` -/
def upLoop (E : Elt α) (comp : α → α → Bool) (beg : Nat) (value : α) (index : Nat) (o : Objs α) : M (Nat × Objs α) :=
  if h : index ≠ 0 then do
    let pv ← E.read o (beg + (index - 1) / 2 * E.size)
    if comp value pv then do
      let r ← E.moveOut o (beg + (index - 1) / 2 * E.size)
      let o' ← E.assign r.2 (beg + index * E.size) r.1
      upLoop E comp beg value ((index - 1) / 2) o'
    else pure (index, o)
  else pure (index, o)
termination_by index
decreasing_by omega

/-- `percolateUp` `binary_heap.h:414-427` (`value` is const: the last assignment copies it) -/
def percolateUp (E : Elt α) (comp : α → α → Bool) (beg index : Nat) (o : Objs α) : M (Nat × Objs α) := do
  let value ← E.read o (beg + index * E.size)
  let r ← upLoop E comp beg value index o
  let o' ← E.assign r.2 (beg + r.1 * E.size) value
  pure (r.1, o')

/-- one test `if (c < m_Size && m_Comp(m_Begin[c], m_Begin[child])) child = c` of `binary_heap.h:442-446` -/
def better (E : Elt α) (comp : α → α → Bool) (beg size : Nat) (o : Objs α) (c child : Nat) : M Nat :=
  if c < size then do
    let x ← E.read o (beg + c * E.size)
    let y ← E.read o (beg + child * E.size)
    pure (if comp x y then c else child)
  else pure child

/-- the loop of `percolateDown` `binary_heap.h:435-456`: the result is the final `parent`. The first argument bounds the number of rounds
(`parent` grows, so there are at most `m_Size`); running out of it would be undefined behaviour. -/
def downLoop (E : Elt α) (comp : α → α → Bool) (beg size : Nat) : Nat → Nat → Objs α → M (Nat × Objs α)
  | 0, _, _ => M.ub
  | fuel + 1, parent, o =>
    if parent < size then do
      let c ← better E comp beg size o (parent * 2 + 1) parent
      let child ← better E comp beg size o (parent * 2 + 2) c
      if child = parent then pure (parent, o) else do
        let t ← E.moveOut o (beg + child * E.size)
        let p ← E.moveOut t.2 (beg + parent * E.size)
        let o1 ← E.assign p.2 (beg + child * E.size) p.1
        let o2 ← E.assign o1 (beg + parent * E.size) t.1
        downLoop E comp beg size fuel child o2
    else pure (parent, o)

/-- `percolateDown` `binary_heap.h:429-459` -/
def percolateDown (E : Elt α) (comp : α → α → Bool) (beg size index : Nat) (o : Objs α) : M (Objs α) := do
  let value ← E.read o (beg + index * E.size)
  let r ← downLoop E comp beg size (size + 1) index o
  E.assign r.2 (beg + r.1 * E.size) value

/-- `insert` `binary_heap.h:298-308`: the result is the iterator; the argument is read after the heap has grown -/
def insert (E : Elt α) (comp : α → α → Bool) (A : Allocator) (s : A.St) (o : Objs α) (h : BHeap) (x : HArg α) : M (Nat × A.St × Objs α × BHeap) := do
  let r ← if h.size = h.cap then expand E A s o h 1 else pure (s, o, h)
  let v ← x.fetch E r.2.1
  let o1 ← E.construct r.2.1 (r.2.2.beg + r.2.2.size * E.size) v
  let u ← percolateUp E comp r.2.2.beg r.2.2.size o1
  pure (r.2.2.beg + u.1 * E.size, r.1, u.2, { r.2.2 with size := r.2.2.size + 1 })

/-- the loop `for (auto value : initializer) insert(value)` of `binary_heap.h:99-100`, `binary_heap.h:116-117` -/
def insertAll (E : Elt α) (comp : α → α → Bool) (A : Allocator) (s : A.St) (o : Objs α) (h : BHeap) : List α → M (A.St × Objs α × BHeap)
  | [] => pure (s, o, h)
  | v :: vs => do
    let r ← insert E comp A s o h (.val v)
    insertAll E comp A r.2.1 r.2.2.1 r.2.2.2 vs

/-- constructors from an initializer list `binary_heap.h:92-118` -/
def ofList (E : Elt α) (comp : α → α → Bool) (A : Allocator) (s : A.St) (o : Objs α) (vs : List α) : M (A.St × Objs α × BHeap) := do
  let r ← ofCap E A s vs.length
  insertAll E comp A r.1 o r.2 vs

/-- `peek` `binary_heap.h:314-319`, used as a value -/
def peek (E : Elt α) (o : Objs α) (h : BHeap) : M α := E.read o h.beg

/-- move assignment between two elements; of an element to itself if they are the same (`binary_heap.h:331` with one element) -/
def moveElem (E : Elt α) (o : Objs α) (dst src : Nat) : M (Objs α) :=
  if dst = src then do
    let v ← E.read o src
    E.assign o dst (E.selfMoved v)
  else do
    let r ← E.moveOut o src
    E.assign r.2 dst r.1

/-- `pop` `binary_heap.h:325-336` -/
def pop (E : Elt α) (comp : α → α → Bool) (o : Objs α) (h : BHeap) : M (α × Objs α × BHeap) := do
  let root ← E.read o h.beg
  let o1 ← moveElem E o h.beg (h.beg + (h.size - 1) * E.size)
  let o2 ← E.destroy o1 (h.beg + (h.size - 1) * E.size)
  let o3 ← percolateDown E comp h.beg (h.size - 1) 0 o2
  pure (root, o3, { h with size := h.size - 1 })

/-- `find` `binary_heap.h:343-352` from index `i` on, `n` elements left: the result is the index of the iterator. `eq x` is `x == value`. -/
def find (E : Elt α) (eq : α → Bool) (o : Objs α) (beg i : Nat) : Nat → M Nat
  | 0 => pure i
  | n + 1 => do
    let x ← E.read o (beg + i * E.size)
    if eq x then pure i else find E eq o beg (i + 1) n

/-- `clear` `binary_heap.h:357-363` -/
def clear (E : Elt α) (o : Objs α) (h : BHeap) : M (Objs α × BHeap) := do
  let o' ← destroyAll E h.beg 0 h.size o
  pure (o', { h with size := 0 })

end BHeap

/-! ### Programs with any number of heaps -/

/-- What a program sees: the value of a popped or peeked element or of the element the iterator returned by `insert` refers to,
or whether `find` has found something. Specification, not code. -/
inductive HObs (α : Type) where
  | elem (v : α)
  | found (b : Bool)
  deriving DecidableEq, Repr

/-- The heaps of a program, the fields of the allocator they share, the objects, and what the program has seen.
Specification, not code. -/
structure BHeaps (A : Allocator) (α : Type) where
  st : A.St
  objs : Objs α
  hs : List BHeap
  seen : List (HObs α) := []

/-- Copy assignment `hs[i] = hs[j]` `binary_heap.h:185-206`. The fields of `other` are read when the code reads them, so that `i = j` is
meaningful. -/
def BHeaps.copyAssign (E : Elt α) {A : Allocator} (c : BHeaps A α) (i j : Nat) : M (BHeaps A α) :=
  match c.hs[i]?, c.hs[j]? with
  | some h, some g => do
    let x ← h.destroy E A c.st c.objs
    let r ← grab E.size A x.1 g.size
    let hs := c.hs.set i ⟨g.size, g.size, r.1⟩
    let src := match hs[j]? with
      | some g' => g'.beg
      | none => 0
    let o ← BHeap.copyAll E r.1 src 0 g.size x.2
    pure { c with st := r.2, objs := o, hs := hs }
  | _, _ => pure c

/-- Move assignment `hs[i] = std::move(hs[j])` `binary_heap.h:208-230`. -/
def BHeaps.moveAssign (E : Elt α) {A : Allocator} (c : BHeaps A α) (i j : Nat) : M (BHeaps A α) :=
  match c.hs[i]?, c.hs[j]? with
  | some h, some g => do
    let x ← h.destroy E A c.st c.objs
    pure { c with st := x.1, objs := x.2, hs := (c.hs.set i g).set j BHeap.null }
  | _, _ => pure c

/-- What a program can do. Specification, not code. -/
inductive BOp (α : Type) where
  | new
  | newCap (n : Nat)
  | newList (vs : List α)
  | copy (j : Nat)
  | move (j : Nat)
  | copyAssign (i j : Nat)
  | moveAssign (i j : Nat)
  /-- the heap is destroyed; later heaps move one position down -/
  | destroy (i : Nat)
  | reserve (i n : Nat)
  | insert (i : Nat) (v : α)
  /-- `hs[i].insert(hs[j].begin()[k])` -/
  | insertFrom (i j k : Nat)
  | pop (i : Nat)
  | peek (i : Nat)
  | find (i : Nat) (v : α)
  | clear (i : Nat)

/-- One operation. Calls that violate a documented precondition (no such heap; `pop` or `peek` on an empty heap; no such
element) and copy assignment to itself and insertion of an element into its own heap are skipped. After `insert` the program reads
through the returned iterator. `eq` is the `==` of the element type. Specification, not code. -/
def BHeaps.step (E : Elt α) (comp eq : α → α → Bool) {A : Allocator} (c : BHeaps A α) : BOp α → M (BHeaps A α)
  | .new => pure { c with hs := c.hs ++ [BHeap.null] }
  | .newCap n => do
    let r ← BHeap.ofCap E A c.st n
    pure { c with st := r.1, hs := c.hs ++ [r.2] }
  | .newList vs => do
    let r ← BHeap.ofList E comp A c.st c.objs vs
    pure { c with st := r.1, objs := r.2.1, hs := c.hs ++ [r.2.2] }
  | .copy j =>
    match c.hs[j]? with
    | some h => do
      let r ← h.copy E A c.st c.objs
      pure { c with st := r.1, objs := r.2.1, hs := c.hs ++ [r.2.2] }
    | none => pure c
  | .move j =>
    match c.hs[j]? with
    | some h => pure { c with hs := c.hs.set j BHeap.null ++ [h] }
    | none => pure c
  | .copyAssign i j => if i = j then pure c else c.copyAssign E i j
  | .moveAssign i j => c.moveAssign E i j
  | .destroy i =>
    match c.hs[i]? with
    | some h => do
      let x ← h.destroy E A c.st c.objs
      pure { c with st := x.1, objs := x.2, hs := c.hs.eraseIdx i }
    | none => pure c
  | .reserve i n =>
    match c.hs[i]? with
    | some h => do
      let r ← h.reserve E A c.st c.objs n
      pure { c with st := r.1, objs := r.2.1, hs := c.hs.set i r.2.2 }
    | none => pure c
  | .insert i v =>
    match c.hs[i]? with
    | some h => do
      let r ← h.insert E comp A c.st c.objs (.val v)
      let x ← E.read r.2.2.1 r.1
      pure { st := r.2.1, objs := r.2.2.1, hs := c.hs.set i r.2.2.2, seen := c.seen ++ [.elem x] }
    | none => pure c
  | .insertFrom i j k =>
    match c.hs[i]?, c.hs[j]? with
    | some h, some g =>
      if i ≠ j ∧ k < g.size then do
        let r ← h.insert E comp A c.st c.objs (.ref (g.beg + k * E.size))
        pure { c with st := r.2.1, objs := r.2.2.1, hs := c.hs.set i r.2.2.2 }
      else pure c
    | _, _ => pure c
  | .pop i =>
    match c.hs[i]? with
    | some h =>
      if 0 < h.size then do
        let r ← h.pop E comp c.objs
        pure { c with objs := r.2.1, hs := c.hs.set i r.2.2, seen := c.seen ++ [.elem r.1] }
      else pure c
    | none => pure c
  | .peek i =>
    match c.hs[i]? with
    | some h =>
      if 0 < h.size then do
        let x ← h.peek E c.objs
        pure { c with seen := c.seen ++ [.elem x] }
      else pure c
    | none => pure c
  | .find i v =>
    match c.hs[i]? with
    | some h => do
      let k ← BHeap.find E (fun x => eq x v) c.objs h.beg 0 h.size
      pure { c with seen := c.seen ++ [.found (decide (k ≠ h.size))] }
    | none => pure c
  | .clear i =>
    match c.hs[i]? with
    | some h => do
      let r ← h.clear E c.objs
      pure { c with objs := r.1, hs := c.hs.set i r.2 }
    | none => pure c

/-- A program: one operation after the other. Specification, not code. -/
def BHeaps.run (E : Elt α) (comp eq : α → α → Bool) {A : Allocator} (c : BHeaps A α) : List (BOp α) → M (BHeaps A α)
  | [] => pure c
  | o :: os => do
    let c' ← c.step E comp eq o
    c'.run E comp eq os

/-- Construct the allocator object at `b`, then run the program. Specification, not code. -/
def hplay (E : Elt α) (comp eq : α → α → Bool) (A : Allocator) (b : Nat) (ops : List (BOp α)) : M (BHeaps A α) := do
  let s ← A.init b
  BHeaps.run E comp eq { st := s, objs := fun _ => none, hs := [] } ops

/-- Destroy all heaps, from the first to the last. Specification, not code. -/
def BHeaps.destroyAll (E : Elt α) {A : Allocator} (s : A.St) (o : Objs α) : List BHeap → M (A.St × Objs α)
  | [] => pure (s, o)
  | h :: hs => do
    let x ← h.destroy E A s o
    destroyAll E x.1 x.2 hs

/-- The whole life of an allocator object used by heaps; the result are the objects left. Specification, not code. -/
def hlife (E : Elt α) (comp eq : α → α → Bool) (A : Allocator) (b : Nat) (ops : List (BOp α)) : M (Objs α) := do
  let c ← hplay E comp eq A b ops
  let x ← BHeaps.destroyAll E c.st c.objs c.hs
  A.fini x.1
  pure x.2

end KTL
