import Verif.Containers.BinaryHeap

/- `containers/binary_heap.h` when copying an element throws. An exception gets out of the copy constructors, the constructors from a list and
the copy assignment; everywhere else it ends the program (C77). -/
namespace KTL
variable {α : Type}

/-- The copy constructor (`binary_heap.h:120-129`, `binary_heap.h:143-152`) when copying element `k` throws: the storage has been allocated
and `k` elements have been constructed. There is no heap, so its destructor does not run; `m_Begin` is a plain pointer. -/
def BHeap.copyThrows (E : Elt α) (A : Allocator) (s : A.St) (o : Objs α) (h : BHeap) (k : Nat) : M (A.St × Objs α) := do
  let r ← grab E.size A s h.size
  let o' ← BHeap.copyAll E r.1 h.beg 0 k o
  let _ ← E.read o' (h.beg + k * E.size)
  pure (r.2, o')

/-- The constructors from an initializer list (`binary_heap.h:92-118`) when copying element `k` into the loop variable `value` throws. -/
def BHeap.ofListThrows (E : Elt α) (comp : α → α → Bool) (A : Allocator) (s : A.St) (o : Objs α) (vs : List α) (k : Nat) : M (A.St × Objs α) := do
  let r ← BHeap.ofCap E A s vs.length
  let x ← BHeap.insertAll E comp A r.1 o r.2 (vs.take k)
  pure (x.1, x.2.1)

/-- Copy assignment `hs[i] = hs[j]` (`binary_heap.h:185-206`) when copying element `k` throws: the fields have been set before. -/
def BHeaps.copyAssignThrows (E : Elt α) {A : Allocator} (c : BHeaps A α) (i j k : Nat) : M (BHeaps A α) :=
  match c.hs[i]?, c.hs[j]? with
  | some h, some g => do
    let x ← h.destroy E A c.st c.objs
    let r ← grab E.size A x.1 g.size
    let hs := c.hs.set i ⟨g.size, g.size, r.1⟩
    let src := match hs[j]? with
      | some g' => g'.beg
      | none => 0
    let o ← BHeap.copyAll E r.1 src 0 k x.2
    let _ ← E.read o (src + k * E.size)
    pure { c with st := r.2, objs := o, hs := hs }
  | _, _ => pure c

/-- Copy assignment `hs[i] = hs[j]` (`binary_heap.h:185-206`) when `allocate` throws (with an allocator that throws, such as
`std::allocator`): the size and the capacity have been set (`binary_heap.h:197-198`), the pointer has not. -/
def BHeaps.copyAssignRefused (E : Elt α) {A : Allocator} (c : BHeaps A α) (i j : Nat) : M (BHeaps A α) :=
  match c.hs[i]?, c.hs[j]? with
  | some h, some g => do
    let x ← h.destroy E A c.st c.objs
    pure { c with st := x.1, objs := x.2, hs := c.hs.set i ⟨g.size, g.size, h.beg⟩ }
  | _, _ => pure c

/-- What a program can do that catches exceptions. Specification, not code. -/
inductive XOp (α : Type) where
  | plain (op : BOp α)
  /-- `binary_heap(hs[j])`, where the copy of element `k` throws -/
  | copyThrows (j k : Nat)
  /-- `binary_heap(vs)`, where the copy of element `k` throws -/
  | newListThrows (vs : List α) (k : Nat)

/-- One operation. An exception when there is no such heap or no such element does not happen. Specification, not code. -/
def BHeaps.xstep (E : Elt α) (comp eq : α → α → Bool) {A : Allocator} (c : BHeaps A α) : XOp α → M (BHeaps A α)
  | .plain op => c.step E comp eq op
  | .copyThrows j k =>
    match c.hs[j]? with
    | some h =>
      if k < h.size then do
        let r ← h.copyThrows E A c.st c.objs k
        pure { c with st := r.1, objs := r.2 }
      else pure c
    | none => pure c
  | .newListThrows vs k =>
    if k < vs.length then do
      let r ← BHeap.ofListThrows E comp A c.st c.objs vs k
      pure { c with st := r.1, objs := r.2 }
    else pure c

/-- A program. Specification, not code. -/
def BHeaps.xrun (E : Elt α) (comp eq : α → α → Bool) {A : Allocator} (c : BHeaps A α) : List (XOp α) → M (BHeaps A α)
  | [] => pure c
  | o :: os => do
    let c' ← c.xstep E comp eq o
    c'.xrun E comp eq os

/-- Construct the allocator object at `b`, then run the program. Specification, not code. -/
def xplay (E : Elt α) (comp eq : α → α → Bool) (A : Allocator) (b : Nat) (ops : List (XOp α)) : M (BHeaps A α) := do
  let s ← A.init b
  BHeaps.xrun E comp eq { st := s, objs := fun _ => none, hs := [] } ops

/-- The same, and then all heaps are destroyed. The result are the fields of the allocator and the objects that are left. Specification, not code. -/
def xclose (E : Elt α) (comp eq : α → α → Bool) (A : Allocator) (b : Nat) (ops : List (XOp α)) : M (A.St × Objs α) := do
  let c ← xplay E comp eq A b ops
  BHeaps.destroyAll E c.st c.objs c.hs

end KTL
