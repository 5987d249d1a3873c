import Verif.Containers.BinaryHeap

/- `binary_heap`s with comparators that have a state (`std::function`, a struct with a table, a pointer to a rank): every heap holds
its own comparator object `m_Comp` (`containers/binary_heap.h:463`), given to it by a constructor or taken over from another heap. All functions of a heap
compare with its own `m_Comp` (`binary_heap.h:418, 442, 445`); so they are those of `Containers/BinaryHeap.lean`, called with that.

Simplification: a comparator does not throw and does not change when it is called. -/
namespace KTL
variable {α κ : Type}

/-- A comparator class: the state `κ` of the objects, `operator()`, what is left in an object that was moved from, what is left in an object that was
moved to itself, and the default constructor. -/
structure Cmp (κ α : Type) where
  less : κ → α → α → Bool
  moved : κ → κ
  selfMoved : κ → κ
  default : κ

/-- The heaps of a program, and the comparators in them: `cs[i]` is `m_Comp` of `base.hs[i]` (`binary_heap.h:463`). -/
structure KHeaps (A : Allocator) (α κ : Type) where
  base : BHeaps A α
  cs : List κ

/-- What a program can do: what it can do with heaps without state in the comparator, and construct heaps with a comparator object
(`binary_heap.h:43, 55, 67, 81, 92, 109`). In the constructors of `BOp` the comparator is the default argument `Comp()`. Specification, not code. -/
inductive KOp (α κ : Type) where
  | new (k : κ)
  | newCap (n : Nat) (k : κ)
  | newList (vs : List α) (k : κ)
  | plain (o : BOp α)

/-- The operation without the comparator. Specification, not code. -/
def KOp.base : KOp α κ → BOp α
  | .new _ => .new
  | .newCap n _ => .newCap n
  | .newList vs _ => .newList vs
  | .plain o => o

/-- `m_Comp` of the heap the operation is called on; the constructors initialise it before they insert (`binary_heap.h:93-100`, `binary_heap.h:110-117`). Operations that do not
compare, or on heaps that do not exist: any. -/
def KOp.comp (K : Cmp κ α) (cs : List κ) : KOp α κ → κ
  | .new k | .newCap _ k | .newList _ k => k
  | .plain (.insert i _) | .plain (.insertFrom i _ _) | .plain (.pop i) => cs.getD i K.default
  | .plain _ => K.default

/-- The comparators after the operation: constructors `binary_heap.h:45, 57, 69, 82, 94, 111`; copy constructor `binary_heap.h:122`; move constructor
`binary_heap.h:133` (which copies); copy assignment `binary_heap.h:196`; move assignment `binary_heap.h:220` (which moves). -/
def KOp.comps (K : Cmp κ α) (cs : List κ) : KOp α κ → List κ
  | .new k | .newCap _ k | .newList _ k => cs ++ [k]
  | .plain .new | .plain (.newCap _) | .plain (.newList _) => cs ++ [K.default]
  | .plain (.copy j) | .plain (.move j) =>
    match cs[j]? with
    | some k => cs ++ [k]
    | none => cs
  | .plain (.copyAssign i j) =>
    match cs[i]?, cs[j]? with
    | some _, some k => cs.set i k
    | _, _ => cs
  | .plain (.moveAssign i j) =>
    match cs[i]?, cs[j]? with
    | some _, some k => if i = j then cs.set i (K.selfMoved k) else (cs.set i k).set j (K.moved k)
    | _, _ => cs
  | .plain (.destroy i) => cs.eraseIdx i
  | .plain _ => cs

/-- One operation. Specification, not code (the code is `BHeaps.step`, with the comparator of the heap, and `KOp.comps`). -/
def KHeaps.step (E : Elt α) (K : Cmp κ α) (eq : α → α → Bool) {A : Allocator} (c : KHeaps A α κ) (o : KOp α κ) : M (KHeaps A α κ) := do
  let b ← c.base.step E (K.less (o.comp K c.cs)) eq o.base
  pure ⟨b, o.comps K c.cs⟩

/-- A program. Specification, not code. -/
def KHeaps.run (E : Elt α) (K : Cmp κ α) (eq : α → α → Bool) {A : Allocator} (c : KHeaps A α κ) : List (KOp α κ) → M (KHeaps A α κ)
  | [] => pure c
  | o :: os => do
    let c' ← c.step E K eq o
    c'.run E K eq os

/-- Construct the allocator object at `b`, then run the program. Specification, not code. -/
def kplay (E : Elt α) (K : Cmp κ α) (eq : α → α → Bool) (A : Allocator) (b : Nat) (ops : List (KOp α κ)) : M (KHeaps A α κ) := do
  let s ← A.init b
  KHeaps.run E K eq ⟨{ st := s, objs := fun _ => none, hs := [] }, []⟩ ops

/-- The whole life of an allocator object used by heaps; the result are the objects left. Specification, not code. -/
def klife (E : Elt α) (K : Cmp κ α) (eq : α → α → Bool) (A : Allocator) (b : Nat) (ops : List (KOp α κ)) : M (Objs α) := do
  let c ← kplay E K eq A b ops
  let x ← BHeaps.destroyAll E c.base.st c.base.objs c.base.hs
  A.fini x.1
  pure x.2

end KTL
