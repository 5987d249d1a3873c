import Verif.Containers.BinaryHeap

/- `containers/binary_heap.h` once more, now with the calls of `construct` and `destroy` going through the allocator
(`Traits::construct(m_Alloc, ...)`), which may count them. The functions are those of `Containers/BinaryHeap.lean`; only those that construct
or destroy elements differ. -/
namespace KTL

/-- The allocator's part of a member call that makes or destroys an object. The event it records stands for the placement new or the destructor
call itself, which `Elt.construct`, `Elt.destroy` model in full; so the record is dropped here. Specification, not code. -/
def unlogged {β : Type} (m : M β) : M β := fun w =>
  match m w with
  | .ok a w' => .ok a { w' with log := w.log }
  | .oom w' => .oom w'
  | .ub => .ub

/-- `Traits::construct` without the construction itself: `allocators/type_allocator.h:124-130` if the allocator has the member, else nothing -/
def Allocator.ctor (A : Allocator) (s : A.St) (p : Nat) : M A.St :=
  match A.construct with
  | some c => unlogged (c s p)
  | none => pure s

/-- `Traits::destroy` without the destructor call itself: `allocators/type_allocator.h:137-143` if the allocator has the member, else nothing -/
def Allocator.dtor (A : Allocator) (s : A.St) (p : Nat) : M A.St :=
  match A.destroy with
  | some c => unlogged (c s p)
  | none => pure s

variable {α : Type}

namespace BHeap

/-- as `BHeap.destroyAll`, `binary_heap.h:178-179`, `binary_heap.h:189-190`, `binary_heap.h:213-214`, `binary_heap.h:359-360`, `binary_heap.h:387-388` -/
def destroyAllC (E : Elt α) (A : Allocator) (beg i : Nat) : Nat → A.St → Objs α → M (A.St × Objs α)
  | 0, s, o => pure (s, o)
  | n + 1, s, o => do
    let s' ← A.dtor s (beg + i * E.size)
    let o' ← E.destroy o (beg + i * E.size)
    destroyAllC E A beg (i + 1) n s' o'

/-- as `BHeap.copyAll`, `binary_heap.h:127-128`, `binary_heap.h:150-151`, `binary_heap.h:162-163`, `binary_heap.h:202-203` -/
def copyAllC (E : Elt α) (A : Allocator) (dst src i : Nat) : Nat → A.St → Objs α → M (A.St × Objs α)
  | 0, s, o => pure (s, o)
  | n + 1, s, o => do
    let v ← E.read o (src + i * E.size)
    let s' ← A.ctor s (dst + i * E.size)
    let o' ← E.construct o (dst + i * E.size) v
    copyAllC E A dst src (i + 1) n s' o'

/-- as `BHeap.moveAll`, `binary_heap.h:383-384` -/
def moveAllC (E : Elt α) (A : Allocator) (dst src i : Nat) : Nat → A.St → Objs α → M (A.St × Objs α)
  | 0, s, o => pure (s, o)
  | n + 1, s, o => do
    let r ← E.moveOut o (src + i * E.size)
    let s' ← A.ctor s (dst + i * E.size)
    let o' ← E.construct r.2 (dst + i * E.size) r.1
    moveAllC E A dst src (i + 1) n s' o'

/-- as `BHeap.destroy`, `binary_heap.h:173-183` -/
def destroyC (E : Elt α) (A : Allocator) (s : A.St) (o : Objs α) (h : BHeap) : M (A.St × Objs α) :=
  if h.beg ≠ 0 then do
    let x ← destroyAllC E A h.beg 0 h.size s o
    E.dealloc A x.1 x.2 h.beg h.cap
  else pure (s, o)

/-- as `BHeap.copy`, `binary_heap.h:120-129` -/
def copyC (E : Elt α) (A : Allocator) (s : A.St) (o : Objs α) (h : BHeap) : M (A.St × Objs α × BHeap) := do
  let r ← grab E.size A s h.size
  let x ← copyAllC E A r.1 h.beg 0 h.size r.2 o
  pure (x.1, x.2, ⟨h.size, h.size, r.1⟩)

/-- as `BHeap.moveWith`, `binary_heap.h:154-171`: the constructions go through the new allocator -/
def moveWithC (E : Elt α) (A : Allocator) (s : A.St) (B : Allocator) (t : B.St) (o : Objs α) (h : BHeap) : M (A.St × B.St × Objs α × BHeap) := do
  let r ← grab E.size B t h.size
  let y ← copyAllC E B r.1 h.beg 0 h.size r.2 o
  let x ← if h.beg ≠ 0 then E.dealloc A s y.2 h.beg (mulW h.cap E.size) else pure (s, y.2)
  pure (x.1, y.1, x.2, ⟨h.size, h.size, r.1⟩)

/-- as `BHeap.setSize`, `binary_heap.h:374-397` -/
def setSizeC (E : Elt α) (A : Allocator) (s : A.St) (o : Objs α) (h : BHeap) (n : Nat) : M (A.St × Objs α × BHeap) := do
  let r ← grab E.size A s n
  let x ← if h.beg ≠ 0 then do
      let y ← moveAllC E A r.1 h.beg 0 (Min.min h.size n) r.2 o
      let z ← destroyAllC E A h.beg 0 h.size y.1 y.2
      E.dealloc A z.1 z.2 h.beg h.cap
    else pure (r.2, o)
  pure (x.1, x.2, ⟨Min.min h.size n, n, r.1⟩)

/-- as `BHeap.expand`, `binary_heap.h:366-372` -/
def expandC (E : Elt α) (A : Allocator) (s : A.St) (o : Objs α) (h : BHeap) (n : Nat) : M (A.St × Objs α × BHeap) :=
  setSizeC E A s o h (h.cap + Max.max h.cap n)

/-- as `BHeap.reserve`, `binary_heap.h:285-289` -/
def reserveC (E : Elt α) (A : Allocator) (s : A.St) (o : Objs α) (h : BHeap) (n : Nat) : M (A.St × Objs α × BHeap) :=
  if h.cap < n then setSizeC E A s o h n else pure (s, o, h)

/-- as `BHeap.insert`, `binary_heap.h:298-308` -/
def insertC (E : Elt α) (comp : α → α → Bool) (A : Allocator) (s : A.St) (o : Objs α) (h : BHeap) (x : HArg α) : M (Nat × A.St × Objs α × BHeap) := do
  let r ← if h.size = h.cap then expandC E A s o h 1 else pure (s, o, h)
  let v ← x.fetch E r.2.1
  let s' ← A.ctor r.1 (r.2.2.beg + r.2.2.size * E.size)
  let o1 ← E.construct r.2.1 (r.2.2.beg + r.2.2.size * E.size) v
  let u ← percolateUp E comp r.2.2.beg r.2.2.size o1
  pure (r.2.2.beg + u.1 * E.size, s', u.2, { r.2.2 with size := r.2.2.size + 1 })

/-- as `BHeap.insertAll`, `binary_heap.h:99-100`, `binary_heap.h:116-117` -/
def insertAllC (E : Elt α) (comp : α → α → Bool) (A : Allocator) (s : A.St) (o : Objs α) (h : BHeap) : List α → M (A.St × Objs α × BHeap)
  | [] => pure (s, o, h)
  | v :: vs => do
    let r ← insertC E comp A s o h (.val v)
    insertAllC E comp A r.2.1 r.2.2.1 r.2.2.2 vs

/-- as `BHeap.ofList`, `binary_heap.h:92-118` -/
def ofListC (E : Elt α) (comp : α → α → Bool) (A : Allocator) (s : A.St) (o : Objs α) (vs : List α) : M (A.St × Objs α × BHeap) := do
  let r ← ofCap E A s vs.length
  insertAllC E comp A r.1 o r.2 vs

/-- as `BHeap.pop`, `binary_heap.h:325-336` -/
def popC (E : Elt α) (comp : α → α → Bool) (A : Allocator) (s : A.St) (o : Objs α) (h : BHeap) : M (α × A.St × Objs α × BHeap) := do
  let root ← E.read o h.beg
  let o1 ← moveElem E o h.beg (h.beg + (h.size - 1) * E.size)
  let s' ← A.dtor s (h.beg + (h.size - 1) * E.size)
  let o2 ← E.destroy o1 (h.beg + (h.size - 1) * E.size)
  let o3 ← percolateDown E comp h.beg (h.size - 1) 0 o2
  pure (root, s', o3, { h with size := h.size - 1 })

/-- as `BHeap.clear`, `binary_heap.h:357-363` -/
def clearC (E : Elt α) (A : Allocator) (s : A.St) (o : Objs α) (h : BHeap) : M (A.St × Objs α × BHeap) := do
  let x ← destroyAllC E A h.beg 0 h.size s o
  pure (x.1, x.2, { h with size := 0 })

end BHeap

/-- as `BHeaps.copyAssign`, `binary_heap.h:185-206` -/
def BHeaps.copyAssignC (E : Elt α) {A : Allocator} (c : BHeaps A α) (i j : Nat) : M (BHeaps A α) :=
  match c.hs[i]?, c.hs[j]? with
  | some h, some g => do
    let x ← h.destroyC E A c.st c.objs
    let r ← grab E.size A x.1 g.size
    let hs := c.hs.set i ⟨g.size, g.size, r.1⟩
    let src := match hs[j]? with
      | some g' => g'.beg
      | none => 0
    let o ← BHeap.copyAllC E A r.1 src 0 g.size r.2 x.2
    pure { c with st := o.1, objs := o.2, hs := hs }
  | _, _ => pure c

/-- as `BHeaps.moveAssign`, `binary_heap.h:208-230` -/
def BHeaps.moveAssignC (E : Elt α) {A : Allocator} (c : BHeaps A α) (i j : Nat) : M (BHeaps A α) :=
  match c.hs[i]?, c.hs[j]? with
  | some h, some g => do
    let x ← h.destroyC E A c.st c.objs
    pure { c with st := x.1, objs := x.2, hs := (c.hs.set i g).set j BHeap.null }
  | _, _ => pure c

/-- as `BHeaps.step`. Specification, not code. -/
def BHeaps.stepC (E : Elt α) (comp eq : α → α → Bool) {A : Allocator} (c : BHeaps A α) : BOp α → M (BHeaps A α)
  | .new => pure { c with hs := c.hs ++ [BHeap.null] }
  | .newCap n => do
    let r ← BHeap.ofCap E A c.st n
    pure { c with st := r.1, hs := c.hs ++ [r.2] }
  | .newList vs => do
    let r ← BHeap.ofListC E comp A c.st c.objs vs
    pure { c with st := r.1, objs := r.2.1, hs := c.hs ++ [r.2.2] }
  | .copy j =>
    match c.hs[j]? with
    | some h => do
      let r ← h.copyC E A c.st c.objs
      pure { c with st := r.1, objs := r.2.1, hs := c.hs ++ [r.2.2] }
    | none => pure c
  | .move j =>
    match c.hs[j]? with
    | some h => pure { c with hs := c.hs.set j BHeap.null ++ [h] }
    | none => pure c
  | .copyAssign i j => if i = j then pure c else c.copyAssignC E i j
  | .moveAssign i j => c.moveAssignC E i j
  | .destroy i =>
    match c.hs[i]? with
    | some h => do
      let x ← h.destroyC E A c.st c.objs
      pure { c with st := x.1, objs := x.2, hs := c.hs.eraseIdx i }
    | none => pure c
  | .reserve i n =>
    match c.hs[i]? with
    | some h => do
      let r ← h.reserveC E A c.st c.objs n
      pure { c with st := r.1, objs := r.2.1, hs := c.hs.set i r.2.2 }
    | none => pure c
  | .insert i v =>
    match c.hs[i]? with
    | some h => do
      let r ← h.insertC E comp A c.st c.objs (.val v)
      let x ← E.read r.2.2.1 r.1
      pure { st := r.2.1, objs := r.2.2.1, hs := c.hs.set i r.2.2.2, seen := c.seen ++ [.elem x] }
    | none => pure c
  | .insertFrom i j k =>
    match c.hs[i]?, c.hs[j]? with
    | some h, some g =>
      if i ≠ j ∧ k < g.size then do
        let r ← h.insertC E comp A c.st c.objs (.ref (g.beg + k * E.size))
        pure { c with st := r.2.1, objs := r.2.2.1, hs := c.hs.set i r.2.2.2 }
      else pure c
    | _, _ => pure c
  | .pop i =>
    match c.hs[i]? with
    | some h =>
      if 0 < h.size then do
        let r ← h.popC E comp A c.st c.objs
        pure { st := r.2.1, objs := r.2.2.1, hs := c.hs.set i r.2.2.2, seen := c.seen ++ [.elem r.1] }
      else pure c
    | none => pure c
  | .peek i =>
    match c.hs[i]? with
    | some h =>
      if 0 < h.size then do
        let x ← h.peek E c.objs
        pure { c with seen := c.seen ++ [.elem x] }
      else pure c
    | none => pure c
  | .find i v =>
    match c.hs[i]? with
    | some h => do
      let k ← BHeap.find E (fun x => eq x v) c.objs h.beg 0 h.size
      pure { c with seen := c.seen ++ [.found (decide (k ≠ h.size))] }
    | none => pure c
  | .clear i =>
    match c.hs[i]? with
    | some h => do
      let r ← h.clearC E A c.st c.objs
      pure { c with st := r.1, objs := r.2.1, hs := c.hs.set i r.2.2 }
    | none => pure c

/-- as `BHeaps.run`. Specification, not code. -/
def BHeaps.runC (E : Elt α) (comp eq : α → α → Bool) {A : Allocator} (c : BHeaps A α) : List (BOp α) → M (BHeaps A α)
  | [] => pure c
  | o :: os => do
    let c' ← c.stepC E comp eq o
    c'.runC E comp eq os

/-- as `hplay`. Specification, not code. -/
def hplayC (E : Elt α) (comp eq : α → α → Bool) (A : Allocator) (b : Nat) (ops : List (BOp α)) : M (BHeaps A α) := do
  let s ← A.init b
  BHeaps.runC E comp eq { st := s, objs := fun _ => none, hs := [] } ops

/-- as `BHeaps.destroyAll`. Specification, not code. -/
def BHeaps.destroyAllC (E : Elt α) {A : Allocator} (s : A.St) (o : Objs α) : List BHeap → M (A.St × Objs α)
  | [] => pure (s, o)
  | h :: hs => do
    let x ← h.destroyC E A s o
    destroyAllC E x.1 x.2 hs

/-- as `hlife`. Specification, not code. -/
def hlifeC (E : Elt α) (comp eq : α → α → Bool) (A : Allocator) (b : Nat) (ops : List (BOp α)) : M (Objs α) := do
  let c ← hplayC E comp eq A b ops
  let x ← BHeaps.destroyAllC E c.st c.objs c.hs
  A.fini x.1
  pure x.2

end KTL
