import Verif.Containers.Pointers
import Verif.Containers.BinaryHeap

/- `binary_heap` once more, with the rules of C++ for pointers (see `Containers/Pointers.lean`). The functions are those of
`Containers/BinaryHeap.lean`; wherever the code computes a pointer or uses an element there is a check. -/
namespace KTL

variable {α : Type}

/-- `lo + i` for the array `[lo, hi)` of elements of `sz` bytes: the pointer, which may be the end. C++ machine, not library code. -/
def M.ptrAt (lo hi sz i : Nat) : M Nat := do
  M.elem lo hi sz (lo + i * sz)
  pure (lo + i * sz)

/-- `lo[i]`: as `lo + i`, but the array must exist and the element must lie in it as a whole. C++ machine, not library code. -/
def M.itemAt (lo hi sz i : Nat) : M Nat := do
  M.elem lo hi sz (lo + i * sz)
  if lo ≠ 0 ∧ lo + i * sz + sz ≤ hi then pure (lo + i * sz) else M.ub

/-- The fields (`containers/binary_heap.h:465-467`), and the end of the array that `allocate` has returned. `m_Begin` always points to its
beginning. `top` is not in the code. -/
structure PHeap where
  h : BHeap
  top : Nat
  deriving DecidableEq, Repr

namespace PHeap

/-- see `BHeap.null` `binary_heap.h:43-60` -/
def null : PHeap := ⟨.null, 0⟩

/-- `binary_heap.h:67-85`; the array has the size that reaches `allocate` (`allocators/type_allocator.h:98-102`) -/
def ofCap (E : Elt α) (A : Allocator) (s : A.St) (n : Nat) : M (A.St × PHeap) := do
  let r ← grab E.size A s n
  pure (r.2, ⟨⟨0, n, r.1⟩, r.1 + mulW E.size n⟩)

/-- see `BHeap.destroyAll` `binary_heap.h:178-179`, `binary_heap.h:387-388` -/
def destroyAll (E : Elt α) (beg top i : Nat) : Nat → Objs α → M (Objs α)
  | 0, o => pure o
  | n + 1, o => do
    let p ← M.itemAt beg top E.size i
    let o' ← E.destroy o p
    destroyAll E beg top (i + 1) n o'

/-- see `BHeap.copyAll` `binary_heap.h:127-128`, `binary_heap.h:202-203` -/
def copyAll (E : Elt α) (dst dtop src stop i : Nat) : Nat → Objs α → M (Objs α)
  | 0, o => pure o
  | n + 1, o => do
    let p ← M.itemAt src stop E.size i
    let v ← E.read o p
    let q ← M.itemAt dst dtop E.size i
    let o' ← E.construct o q v
    copyAll E dst dtop src stop (i + 1) n o'

/-- see `BHeap.moveAll` `binary_heap.h:383-384` -/
def moveAll (E : Elt α) (dst dtop src stop i : Nat) : Nat → Objs α → M (Objs α)
  | 0, o => pure o
  | n + 1, o => do
    let p ← M.itemAt src stop E.size i
    let r ← E.moveOut o p
    let q ← M.itemAt dst dtop E.size i
    let o' ← E.construct r.2 q r.1
    moveAll E dst dtop src stop (i + 1) n o'

/-- `binary_heap.h:173-183`; also the beginning of the assignments `binary_heap.h:185-194`, `binary_heap.h:208-218` -/
def destroy (E : Elt α) (A : Allocator) (s : A.St) (o : Objs α) (p : PHeap) : M (A.St × Objs α) :=
  if p.h.beg ≠ 0 then do
    let o' ← destroyAll E p.h.beg p.top 0 p.h.size o
    E.dealloc A s o' p.h.beg p.h.cap
  else pure (s, o)

/-- copy constructor `binary_heap.h:120-129` -/
def copy (E : Elt α) (A : Allocator) (s : A.St) (o : Objs α) (p : PHeap) : M (A.St × Objs α × PHeap) := do
  let r ← grab E.size A s p.h.size
  let o' ← copyAll E r.1 (r.1 + mulW E.size p.h.size) p.h.beg p.top 0 p.h.size o
  pure (r.2, o', ⟨⟨p.h.size, p.h.size, r.1⟩, r.1 + mulW E.size p.h.size⟩)

/-- `set_size` `binary_heap.h:374-397` -/
def setSize (E : Elt α) (A : Allocator) (s : A.St) (o : Objs α) (p : PHeap) (n : Nat) : M (A.St × Objs α × PHeap) := do
  let r ← grab E.size A s n
  let x ← if p.h.beg ≠ 0 then do
      let o1 ← moveAll E r.1 (r.1 + mulW E.size n) p.h.beg p.top 0 (Min.min p.h.size n) o
      let o2 ← destroyAll E p.h.beg p.top 0 p.h.size o1
      E.dealloc A r.2 o2 p.h.beg p.h.cap
    else pure (r.2, o)
  pure (x.1, x.2, ⟨⟨Min.min p.h.size n, n, r.1⟩, r.1 + mulW E.size n⟩)

/-- `expand` `binary_heap.h:366-372` -/
def expand (E : Elt α) (A : Allocator) (s : A.St) (o : Objs α) (p : PHeap) (n : Nat) : M (A.St × Objs α × PHeap) :=
  setSize E A s o p (p.h.cap + Max.max p.h.cap n)

/-- `reserve` `binary_heap.h:285-289` -/
def reserve (E : Elt α) (A : Allocator) (s : A.St) (o : Objs α) (p : PHeap) (n : Nat) : M (A.St × Objs α × PHeap) :=
  if p.h.cap < n then setSize E A s o p n else pure (s, o, p)

/-- the loop of `percolateUp` `binary_heap.h:418-422` -/
def upLoop (E : Elt α) (comp : α → α → Bool) (beg top : Nat) (value : α) (index : Nat) (o : Objs α) : M (Nat × Objs α) :=
  if h : index ≠ 0 then do
    let p ← M.itemAt beg top E.size ((index - 1) / 2)
    let pv ← E.read o p
    if comp value pv then do
      let p ← M.itemAt beg top E.size ((index - 1) / 2)
      let r ← E.moveOut o p
      let q ← M.itemAt beg top E.size index
      let o' ← E.assign r.2 q r.1
      upLoop E comp beg top value ((index - 1) / 2) o'
    else pure (index, o)
  else pure (index, o)
termination_by index
decreasing_by omega

/-- `percolateUp` `binary_heap.h:414-427` -/
def percolateUp (E : Elt α) (comp : α → α → Bool) (beg top index : Nat) (o : Objs α) : M (Nat × Objs α) := do
  let p ← M.itemAt beg top E.size index
  let value ← E.read o p
  let r ← upLoop E comp beg top value index o
  let q ← M.itemAt beg top E.size r.1
  let o' ← E.assign r.2 q value
  pure (r.1, o')

/-- one test of `binary_heap.h:442-446`, see `BHeap.better` -/
def better (E : Elt α) (comp : α → α → Bool) (beg top size : Nat) (o : Objs α) (c child : Nat) : M Nat :=
  if c < size then do
    let p ← M.itemAt beg top E.size c
    let x ← E.read o p
    let q ← M.itemAt beg top E.size child
    let y ← E.read o q
    pure (if comp x y then c else child)
  else pure child

/-- the loop of `percolateDown` `binary_heap.h:435-456`, see `BHeap.downLoop` -/
def downLoop (E : Elt α) (comp : α → α → Bool) (beg top size : Nat) : Nat → Nat → Objs α → M (Nat × Objs α)
  | 0, _, _ => M.ub
  | fuel + 1, parent, o =>
    if parent < size then do
      let c ← better E comp beg top size o (parent * 2 + 1) parent
      let child ← better E comp beg top size o (parent * 2 + 2) c
      if child = parent then pure (parent, o) else do
        let a ← M.itemAt beg top E.size child
        let t ← E.moveOut o a
        let b ← M.itemAt beg top E.size parent
        let p ← E.moveOut t.2 b
        let a ← M.itemAt beg top E.size child
        let o1 ← E.assign p.2 a p.1
        let b ← M.itemAt beg top E.size parent
        let o2 ← E.assign o1 b t.1
        downLoop E comp beg top size fuel child o2
    else pure (parent, o)

/-- `percolateDown` `binary_heap.h:429-459` -/
def percolateDown (E : Elt α) (comp : α → α → Bool) (beg top size index : Nat) (o : Objs α) : M (Objs α) := do
  let p ← M.itemAt beg top E.size index
  let value ← E.read o p
  let r ← downLoop E comp beg top size (size + 1) index o
  let q ← M.itemAt beg top E.size r.1
  E.assign r.2 q value

/-- `insert` `binary_heap.h:298-308`, with `m_Begin + index` -/
def insert (E : Elt α) (comp : α → α → Bool) (A : Allocator) (s : A.St) (o : Objs α) (p : PHeap) (x : HArg α) : M (Nat × A.St × Objs α × PHeap) := do
  let r ← if p.h.size = p.h.cap then expand E A s o p 1 else pure (s, o, p)
  let q ← M.itemAt r.2.2.h.beg r.2.2.top E.size r.2.2.h.size
  let v ← x.fetch E r.2.1
  let o1 ← E.construct r.2.1 q v
  let u ← percolateUp E comp r.2.2.h.beg r.2.2.top r.2.2.h.size o1
  let it ← M.ptrAt r.2.2.h.beg r.2.2.top E.size u.1
  pure (it, r.1, u.2, { r.2.2 with h := { r.2.2.h with size := r.2.2.h.size + 1 } })

/-- `binary_heap.h:99-100`, `binary_heap.h:116-117` -/
def insertAll (E : Elt α) (comp : α → α → Bool) (A : Allocator) (s : A.St) (o : Objs α) (p : PHeap) : List α → M (A.St × Objs α × PHeap)
  | [] => pure (s, o, p)
  | v :: vs => do
    let r ← insert E comp A s o p (.val v)
    insertAll E comp A r.2.1 r.2.2.1 r.2.2.2 vs

/-- `binary_heap.h:92-118` -/
def ofList (E : Elt α) (comp : α → α → Bool) (A : Allocator) (s : A.St) (o : Objs α) (vs : List α) : M (A.St × Objs α × PHeap) := do
  let r ← ofCap E A s vs.length
  insertAll E comp A r.1 o r.2 vs

/-- `peek` `binary_heap.h:314-319` -/
def peek (E : Elt α) (o : Objs α) (p : PHeap) : M α := do
  let a ← M.itemAt p.h.beg p.top E.size 0
  E.read o a

/-- `pop` `binary_heap.h:325-336` -/
def pop (E : Elt α) (comp : α → α → Bool) (o : Objs α) (p : PHeap) : M (α × Objs α × PHeap) := do
  let a ← M.itemAt p.h.beg p.top E.size 0
  let root ← E.read o a
  let l ← M.itemAt p.h.beg p.top E.size (p.h.size - 1)
  let o1 ← BHeap.moveElem E o a l
  let o2 ← E.destroy o1 l
  let o3 ← percolateDown E comp p.h.beg p.top (p.h.size - 1) 0 o2
  pure (root, o3, { p with h := { p.h with size := p.h.size - 1 } })

/-- `find` `binary_heap.h:343-352`, see `BHeap.find`, with `m_Begin + i` and `m_Begin + m_Size` -/
def find (E : Elt α) (eq : α → Bool) (o : Objs α) (beg top i : Nat) : Nat → M Nat
  | 0 => do
    let _ ← M.ptrAt beg top E.size i
    pure i
  | n + 1 => do
    let p ← M.itemAt beg top E.size i
    let x ← E.read o p
    if eq x then do
      let _ ← M.ptrAt beg top E.size i
      pure i
    else find E eq o beg top (i + 1) n

/-- `clear` `binary_heap.h:357-363` -/
def clear (E : Elt α) (o : Objs α) (p : PHeap) : M (Objs α × PHeap) := do
  let o' ← destroyAll E p.h.beg p.top 0 p.h.size o
  pure (o', { p with h := { p.h with size := 0 } })

end PHeap

/-- as `BHeaps`. Specification, not code. -/
structure PHeaps (A : Allocator) (α : Type) where
  st : A.St
  objs : Objs α
  hs : List PHeap
  seen : List (HObs α) := []

/-- the state without the ends of the arrays. Specification, not code. -/
def PHeaps.base {A : Allocator} (c : PHeaps A α) : BHeaps A α := ⟨c.st, c.objs, c.hs.map PHeap.h, c.seen⟩

/-- `binary_heap.h:185-206`, see `BHeaps.copyAssign` -/
def PHeaps.copyAssign (E : Elt α) {A : Allocator} (c : PHeaps A α) (i j : Nat) : M (PHeaps A α) :=
  match c.hs[i]?, c.hs[j]? with
  | some p, some g => do
    let x ← p.destroy E A c.st c.objs
    let r ← grab E.size A x.1 g.h.size
    let hs := c.hs.set i ⟨⟨g.h.size, g.h.size, r.1⟩, r.1 + mulW E.size g.h.size⟩
    let src := match hs[j]? with
      | some g' => g'
      | none => PHeap.null
    let o ← PHeap.copyAll E r.1 (r.1 + mulW E.size g.h.size) src.h.beg src.top 0 g.h.size x.2
    pure { c with st := r.2, objs := o, hs := hs }
  | _, _ => pure c

/-- `binary_heap.h:208-230`, see `BHeaps.moveAssign` -/
def PHeaps.moveAssign (E : Elt α) {A : Allocator} (c : PHeaps A α) (i j : Nat) : M (PHeaps A α) :=
  match c.hs[i]?, c.hs[j]? with
  | some p, some g => do
    let x ← p.destroy E A c.st c.objs
    pure { c with st := x.1, objs := x.2, hs := (c.hs.set i g).set j PHeap.null }
  | _, _ => pure c

/-- as `BHeaps.step`. Specification, not code. -/
def PHeaps.step (E : Elt α) (comp eq : α → α → Bool) {A : Allocator} (c : PHeaps A α) : BOp α → M (PHeaps A α)
  | .new => pure { c with hs := c.hs ++ [PHeap.null] }
  | .newCap n => do
    let r ← PHeap.ofCap E A c.st n
    pure { c with st := r.1, hs := c.hs ++ [r.2] }
  | .newList vs => do
    let r ← PHeap.ofList E comp A c.st c.objs vs
    pure { c with st := r.1, objs := r.2.1, hs := c.hs ++ [r.2.2] }
  | .copy j =>
    match c.hs[j]? with
    | some p => do
      let r ← p.copy E A c.st c.objs
      pure { c with st := r.1, objs := r.2.1, hs := c.hs ++ [r.2.2] }
    | none => pure c
  | .move j =>
    match c.hs[j]? with
    | some p => pure { c with hs := c.hs.set j PHeap.null ++ [p] }
    | none => pure c
  | .copyAssign i j => if i = j then pure c else c.copyAssign E i j
  | .moveAssign i j => c.moveAssign E i j
  | .destroy i =>
    match c.hs[i]? with
    | some p => do
      let x ← p.destroy E A c.st c.objs
      pure { c with st := x.1, objs := x.2, hs := c.hs.eraseIdx i }
    | none => pure c
  | .reserve i n =>
    match c.hs[i]? with
    | some p => do
      let r ← p.reserve E A c.st c.objs n
      pure { c with st := r.1, objs := r.2.1, hs := c.hs.set i r.2.2 }
    | none => pure c
  | .insert i v =>
    match c.hs[i]? with
    | some p => do
      let r ← p.insert E comp A c.st c.objs (.val v)
      let x ← E.read r.2.2.1 r.1
      pure { st := r.2.1, objs := r.2.2.1, hs := c.hs.set i r.2.2.2, seen := c.seen ++ [.elem x] }
    | none => pure c
  | .insertFrom i j k =>
    match c.hs[i]?, c.hs[j]? with
    | some p, some g =>
      if i ≠ j ∧ k < g.h.size then do
        let a ← M.itemAt g.h.beg g.top E.size k
        let r ← p.insert E comp A c.st c.objs (.ref a)
        pure { c with st := r.2.1, objs := r.2.2.1, hs := c.hs.set i r.2.2.2 }
      else pure c
    | _, _ => pure c
  | .pop i =>
    match c.hs[i]? with
    | some p =>
      if 0 < p.h.size then do
        let r ← p.pop E comp c.objs
        pure { c with objs := r.2.1, hs := c.hs.set i r.2.2, seen := c.seen ++ [.elem r.1] }
      else pure c
    | none => pure c
  | .peek i =>
    match c.hs[i]? with
    | some p =>
      if 0 < p.h.size then do
        let x ← p.peek E c.objs
        pure { c with seen := c.seen ++ [.elem x] }
      else pure c
    | none => pure c
  | .find i v =>
    match c.hs[i]? with
    | some p => do
      let k ← PHeap.find E (fun x => eq x v) c.objs p.h.beg p.top 0 p.h.size
      let _ ← M.ptrAt p.h.beg p.top E.size p.h.size
      pure { c with seen := c.seen ++ [.found (decide (k ≠ p.h.size))] }
    | none => pure c
  | .clear i =>
    match c.hs[i]? with
    | some p => do
      let r ← p.clear E c.objs
      pure { c with objs := r.1, hs := c.hs.set i r.2 }
    | none => pure c

/-- as `BHeaps.run`. Specification, not code. -/
def PHeaps.run (E : Elt α) (comp eq : α → α → Bool) {A : Allocator} (c : PHeaps A α) : List (BOp α) → M (PHeaps A α)
  | [] => pure c
  | o :: os => do
    let c' ← c.step E comp eq o
    c'.run E comp eq os

/-- as `hplay`. Specification, not code. -/
def phplay (E : Elt α) (comp eq : α → α → Bool) (A : Allocator) (b : Nat) (ops : List (BOp α)) : M (PHeaps A α) := do
  let s ← A.init b
  PHeaps.run E comp eq { st := s, objs := fun _ => none, hs := [] } ops

end KTL
