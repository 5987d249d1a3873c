import Verif.Containers.Vector
import Verif.Alloc.Cascading

/- `trivial_vector`s over `type_allocator<T, shared<Alloc>>`: every vector holds a reference counted handle of the allocator it uses, and a
program may have any number of such allocators. `type_allocator` moves by copying (`allocators/type_allocator.h:64-66, 84-90`), so a vector
that has been moved from keeps its handle, and no handle is ever null. -/
namespace KTL

/-- The block that `m_Block` points to: its address, the fields of the allocator in it and `UseCount` (`allocators/shared.h:46-58`). -/
structure ShBlock (A : Allocator) where
  addr : Nat
  st : A.St
  count : Nat

/-- The blocks of a program in the order of their creation; `none`: deleted. Specification, not code. -/
abbrev ShBlocks (A : Allocator) := List (Option (ShBlock A))

/-- `shared()` `allocators/shared.h:63-66`, `aligned_new<block>`; the new block is the last. -/
def ShBlocks.create (sys : Sys) {A : Allocator} (bl : ShBlocks A) : M (ShBlocks A) := do
  let r ← alignedNew sys (Cascading.nodeSize A) A.init
  pure (bl ++ [some ⟨r.1, r.2, 1⟩])

/-- `increment` `allocators/shared.h:192-197`, in the copy constructor `:78-82` and copy assignment `:95-105`. Using a deleted block is
undefined. -/
def ShBlocks.increment {A : Allocator} (bl : ShBlocks A) (k : Nat) : M (ShBlocks A) :=
  match bl[k]? with
  | some (some B) => pure (bl.set k (some { B with count := B.count + 1 }))
  | _ => M.ub

/-- `decrement` `allocators/shared.h:199-206`, in the destructor `:90-93` and copy assignment `:95-105` -/
def ShBlocks.decrement (sys : Sys) {A : Allocator} (bl : ShBlocks A) (k : Nat) : M (ShBlocks A) :=
  match bl[k]? with
  | some (some B) =>
    if B.count = 1 then do
      alignedDelete sys B.addr (A.fini B.st)
      pure (bl.set k none)
    else pure (bl.set k (some { B with count := B.count - 1 }))
  | _ => M.ub

/-- Calls through a handle: `m_Block->Allocator.allocate(n)` and so on, `allocators/shared.h:131-143`. -/
def ShBlocks.use {A : Allocator} {α} (bl : ShBlocks A) (k : Nat) (f : A.St → M (A.St × α)) : M (ShBlocks A × α) :=
  match bl[k]? with
  | some (some B) => do
    let r ← f B.st
    pure (bl.set k (some { B with st := r.1 }), r.2)
  | _ => M.ub

/-- A program: the blocks, the vectors (which block `m_Alloc` refers to, and the pointers, `containers/trivial_vector.h:462-465`), and what
the program has seen. Specification, not code. -/
structure ShVecs (A : Allocator) where
  bl : ShBlocks A
  vs : List (Nat × Vec)
  seen : List (List UInt8) := []

/-- The operation concerns vector 0 only, which exists before and after. Specification, not code. -/
def VOp.single : VOp → Bool
  | .push 0 _ | .pushRange 0 _ | .erase 0 _ | .eraseRange 0 _ _ | .resize 0 _ | .reserve 0 _ | .clear 0 | .write 0 _ _ | .read 0 _ => true
  | _ => false

/-- What a program can do. Specification, not code. -/
inductive ShOp where
  /-- `trivial_vector()`: with an allocator of its own -/
  | fresh
  /-- `trivial_vector(allocator)` with the allocator of vector `j` -/
  | like (j : Nat)
  /-- an operation on vector `i`, which is number 0 in `o` -/
  | use (i : Nat) (o : VOp)
  /-- `trivial_vector(vs[j])` -/
  | copy (j : Nat)
  /-- `trivial_vector(vs[j], allocator)` with the allocator of vector `k` -/
  | copyWith (j k : Nat)
  /-- `trivial_vector(std::move(vs[j]))` -/
  | move (j : Nat)
  | copyAssign (i j : Nat)
  | moveAssign (i j : Nat)
  /-- the vector is destroyed; later vectors move one position down -/
  | destroy (i : Nat)
  deriving DecidableEq, Repr

/-- Copy constructor `containers/trivial_vector.h:116-124` (`l` = `k`), and with an allocator `:137-145`: the new vector gets a copy of the
handle of block `l`. The temporary handles that `select_on_container_copy_construction` makes and destroys are left out. -/
def ShVecs.copyFrom (sz : Nat) {A : Allocator} (c : ShVecs A) (o : Vec) (l : Nat) : M (ShVecs A) := do
  let b1 ← c.bl.increment l
  let r ← b1.use l fun s => Vec.copy sz A s o
  pure { c with bl := r.1, vs := c.vs ++ [(l, r.2)] }

/-- The beginning of both assignments and the destructor of a vector: `Traits::deallocate(m_Alloc, m_Begin, capacity())` unless null,
`containers/trivial_vector.h:168-169, 174-175, 193-194`. -/
def ShVecs.free (sz : Nat) {A : Allocator} (c : ShVecs A) (k : Nat) (v : Vec) : M (ShBlocks A) := do
  let r ← c.bl.use k fun s => do
    let s' ← v.destroy sz A s
    pure (s', ())
  pure r.1

/-- `m_Alloc = other.m_Alloc`, and `m_Alloc = std::move(other.m_Alloc)`, which is the same (`allocators/type_allocator.h:80, 84-90`,
`allocators/shared.h:95-105`): from block `k` to block `l`. -/
def ShBlocks.assign (sys : Sys) {A : Allocator} (bl : ShBlocks A) (k l : Nat) : M (ShBlocks A) := do
  let b1 ← bl.decrement sys k
  b1.increment l

/-- Copy assignment `containers/trivial_vector.h:172-189`, two different vectors: from `(k, v)` to a copy of `(l, o)`. -/
def ShVecs.copyAssign (sys : Sys) (sz : Nat) {A : Allocator} (c : ShVecs A) (i k : Nat) (v : Vec) (l : Nat) (o : Vec) : M (ShVecs A) := do
  let b1 ← c.free sz k v
  let b2 ← b1.assign sys k l
  let r ← b2.use l fun s => Vec.ofRange sz A s (o.size sz) (.ref o.beg)
  pure { c with bl := r.1, vs := c.vs.set i (l, r.2) }

/-- Move assignment `containers/trivial_vector.h:191-205`, two different vectors. -/
def ShVecs.moveAssign (sys : Sys) (sz : Nat) {A : Allocator} (c : ShVecs A) (i k : Nat) (v : Vec) (j l : Nat) (o : Vec) : M (ShVecs A) := do
  let b1 ← c.free sz k v
  let b2 ← b1.assign sys k l
  pure { c with bl := b2, vs := (c.vs.set i (l, o)).set j (l, Vec.null) }

/-- One operation. Steps that make no sense (no such vector) and assignments of a vector to itself (see C25, C46) do nothing.
Specification, not code. -/
def ShVecs.step (sys : Sys) (sz : Nat) {A : Allocator} (c : ShVecs A) : ShOp → M (ShVecs A)
  | .fresh => do
    let b1 ← c.bl.create sys
    pure { c with bl := b1, vs := c.vs ++ [(c.bl.length, Vec.null)] }
  | .like j =>
    match c.vs[j]? with
    | some (k, _) => do
      let b1 ← c.bl.increment k
      pure { c with bl := b1, vs := c.vs ++ [(k, Vec.null)] }
    | none => pure c
  | .use i o =>
    match c.vs[i]? with
    | some (k, v) =>
      if o.single then do
        let r ← c.bl.use k fun s => do
          let r ← Vecs.step sz (A := A) { st := s, vs := [v] } o
          pure (r.st, (r.vs, r.seen))
        pure { bl := r.1, vs := c.vs.set i (k, r.2.1.headD Vec.null), seen := c.seen ++ r.2.2 }
      else pure c
    | none => pure c
  | .copy j =>
    match c.vs[j]? with
    | some (k, o) => c.copyFrom sz o k
    | none => pure c
  | .copyWith j k =>
    match c.vs[j]?, c.vs[k]? with
    | some (_, o), some (l, _) => c.copyFrom sz o l
    | _, _ => pure c
  | .move j =>
    match c.vs[j]? with
    | some (k, o) => do
      let b1 ← c.bl.increment k
      pure { c with bl := b1, vs := c.vs.set j (k, Vec.null) ++ [(k, o)] }
    | none => pure c
  | .copyAssign i j =>
    match c.vs[i]?, c.vs[j]? with
    | some (k, v), some (l, o) => if i = j then pure c else c.copyAssign sys sz i k v l o
    | _, _ => pure c
  | .moveAssign i j =>
    match c.vs[i]?, c.vs[j]? with
    | some (k, v), some (l, o) => if i = j then pure c else c.moveAssign sys sz i k v j l o
    | _, _ => pure c
  | .destroy i =>
    match c.vs[i]? with
    | some (k, v) => do
      let b1 ← c.free sz k v
      let b2 ← b1.decrement sys k
      pure { c with bl := b2, vs := c.vs.eraseIdx i }
    | none => pure c

/-- A program: one operation after the other. Specification, not code. -/
def ShVecs.run (sys : Sys) (sz : Nat) {A : Allocator} (c : ShVecs A) : List ShOp → M (ShVecs A)
  | [] => pure c
  | o :: os => do
    let c' ← c.step sys sz o
    c'.run sys sz os

end KTL
