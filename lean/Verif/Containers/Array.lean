import Verif.Containers.Vector

/- `containers/trivial_array.h`, function by function; conventions as in `Containers/Vector.lean`. -/
namespace KTL

/-- The fields `m_Begin`, `m_End` (`containers/trivial_array.h:307-308`). -/
structure Arr where
  beg : Nat
  fin : Nat
  deriving DecidableEq, Repr

namespace Arr

/-- default constructor `trivial_array.h:39-42` and constructor from an allocator `trivial_array.h:48-51` -/
def null : Arr := ⟨0, 0⟩

/-- `size` `trivial_array.h:230` -/
def size (sz : Nat) (a : Arr) : Nat := (a.fin - a.beg) / sz

/-- `trivial_array(size_t n)` `trivial_array.h:58-61`: the elements are not initialised -/
def ofSize (sz : Nat) (A : Allocator) (s : A.St) (n : Nat) : M (A.St × Arr) := do
  let r ← grab sz A s n
  pure (r.2, ⟨r.1, r.1 + n * sz⟩)

/-- `trivial_array(size_t n, const T& value)` `trivial_array.h:69-75` -/
def ofFill (sz : Nat) (A : Allocator) (s : A.St) (n : Nat) (x : Arg) : M (A.St × Arr) := do
  let r ← ofSize sz A s n
  let bs ← if n = 0 then pure [] else x.fetch sz
  M.writeBytes r.2.beg (List.replicate n bs).flatten
  pure r

/-- `trivial_array(initializer_list)` `trivial_array.h:82-93` and `trivial_array(first, last)` `trivial_array.h:101-108` -/
def ofRange (sz : Nat) (A : Allocator) (s : A.St) (n : Nat) (src : Arg) : M (A.St × Arr) := do
  let r ← ofSize sz A s n
  src.copy r.2.beg (n * sz)
  pure r

/-- copy constructor `trivial_array.h:110-117`; also with an allocator of its own `trivial_array.h:128-135` -/
def copy (sz : Nat) (A : Allocator) (s : A.St) (o : Arr) : M (A.St × Arr) := do
  let r ← ofSize sz A s (o.size sz)
  if o.beg ≠ 0 then M.memcpy r.2.beg o.beg (o.size sz * sz)
  pure r

/-- move constructor with an allocator of its own `trivial_array.h:137-152`, see `Vec.moveWith` -/
def moveWith (sz : Nat) (A : Allocator) (s : A.St) (B : Allocator) (t : B.St) (o : Arr) : M (A.St × B.St × Arr) := do
  let r ← ofSize sz B t (o.size sz)
  let s' ← if o.beg ≠ 0 then do
      M.memcpy r.2.beg o.beg (o.size sz * sz)
      typedDealloc sz A s o.beg (mulW (o.size sz) sz)
    else pure s
  pure (s', r.1, r.2)

/-- destructor `trivial_array.h:154-158` -/
def destroy (sz : Nat) (A : Allocator) (s : A.St) (a : Arr) : M A.St :=
  if a.beg ≠ 0 then typedDealloc sz A s a.beg (a.size sz) else pure s

/-- `resize` `trivial_array.h:264-280` -/
def resize (sz : Nat) (A : Allocator) (s : A.St) (a : Arr) (n : Nat) : M (A.St × Arr) :=
  if a.size sz ≠ n then do
    let r ← grab sz A s n
    let s' ← if a.beg ≠ 0 then do
        M.memcpy r.1 a.beg (Min.min (a.size sz) n * sz)
        typedDealloc sz A r.2 a.beg (a.size sz)
      else pure r.2
    pure (s', ⟨r.1, r.1 + n * sz⟩)
  else pure (s, a)

/-- the first part of `assign` `trivial_array.h:289-300`: a block of the right size -/
def assignRoom (sz : Nat) (A : Allocator) (s : A.St) (a : Arr) (n : Nat) : M (A.St × Arr) :=
  if n ≠ a.size sz then do
    let r ← grab sz A s n
    let s' ← a.destroy sz A r.2
    pure (s', ⟨r.1, r.1 + n * sz⟩)
  else pure (s, a)

/-- `assign(first, last)` `trivial_array.h:287-303`; the freeing statement `trivial_array.h:295-296` is that of the destructor -/
def assign (sz : Nat) (A : Allocator) (s : A.St) (a : Arr) (n : Nat) (src : Arg) : M (A.St × Arr) := do
  let r ← assignRoom sz A s a n
  src.copy r.2.beg (n * sz)
  pure r

/-- assignment through `operator[]`/`at`/an iterator `trivial_array.h:198` -/
def write (sz : Nat) (a : Arr) (k : Nat) (x : List UInt8) : M Unit := M.writeBytes (a.beg + k * sz) x

/-- reading through `operator[]`/`at`/an iterator `trivial_array.h:206` -/
def read (sz : Nat) (a : Arr) (k : Nat) : M (List UInt8) := M.readBytes (a.beg + k * sz) sz

end Arr

/-! ### Programs with any number of arrays -/

/-- The arrays of a program, the fields of the allocator they share, and what the program has read.
Specification, not code. -/
structure Arrs (A : Allocator) where
  st : A.St
  vs : List Arr
  seen : List (List UInt8) := []

/-- Copy assignment `vs[i] = vs[j]` `trivial_array.h:160-176`. -/
def Arrs.copyAssign (sz : Nat) {A : Allocator} (c : Arrs A) (i j : Nat) : M (Arrs A) :=
  match c.vs[i]?, c.vs[j]? with
  | some v, some o => do
    let s ← v.destroy sz A c.st
    let r ← Arr.ofSize sz A s (o.size sz)
    let vs := c.vs.set i r.2
    let src := match vs[j]? with
      | some o' => o'.beg
      | none => 0
    M.memcpy r.2.beg src (o.size sz * sz)
    pure { c with st := r.1, vs := vs }
  | _, _ => pure c

/-- Move assignment `vs[i] = std::move(vs[j])` `trivial_array.h:178-190`. -/
def Arrs.moveAssign (sz : Nat) {A : Allocator} (c : Arrs A) (i j : Nat) : M (Arrs A) :=
  match c.vs[i]?, c.vs[j]? with
  | some v, some o => do
    let s ← v.destroy sz A c.st
    pure { c with st := s, vs := (c.vs.set i o).set j Arr.null }
  | _, _ => pure c

/-- What a program can do. Specification, not code. -/
inductive ArrOp where
  | new
  | newSize (n : Nat)
  | newFill (n : Nat) (x : List UInt8)
  | newRange (xs : List (List UInt8))
  | copy (j : Nat)
  | move (j : Nat)
  | copyAssign (i j : Nat)
  | moveAssign (i j : Nat)
  | destroy (i : Nat)
  | resize (i n : Nat)
  | assign (i : Nat) (xs : List (List UInt8))
  /-- `vs[i].assign(&vs[j][a], &vs[j][a] + n)` -/
  | assignFrom (i j a n : Nat)
  | write (i k : Nat) (x : List UInt8)
  | read (i k : Nat)
  deriving DecidableEq, Repr

/-- One operation; calls that violate a precondition are skipped as for vectors. Specification, not code. -/
def Arrs.step (sz : Nat) {A : Allocator} (c : Arrs A) : ArrOp → M (Arrs A)
  | .new => pure { c with vs := c.vs ++ [Arr.null] }
  | .newSize n => do
    let r ← Arr.ofSize sz A c.st n
    pure { c with st := r.1, vs := c.vs ++ [r.2] }
  | .newFill n x =>
    if x.length = sz then do
      let r ← Arr.ofFill sz A c.st n (.val x)
      pure { c with st := r.1, vs := c.vs ++ [r.2] }
    else pure c
  | .newRange xs =>
    if ∀ x ∈ xs, x.length = sz then do
      let r ← Arr.ofRange sz A c.st xs.length (.val xs.flatten)
      pure { c with st := r.1, vs := c.vs ++ [r.2] }
    else pure c
  | .copy j =>
    match c.vs[j]? with
    | some o => do
      let r ← Arr.copy sz A c.st o
      pure { c with st := r.1, vs := c.vs ++ [r.2] }
    | none => pure c
  | .move j =>
    match c.vs[j]? with
    | some o => pure { c with vs := c.vs.set j Arr.null ++ [o] }
    | none => pure c
  | .copyAssign i j => if i = j then pure c else c.copyAssign sz i j
  | .moveAssign i j => c.moveAssign sz i j
  | .destroy i =>
    match c.vs[i]? with
    | some v => do
      let s ← v.destroy sz A c.st
      pure { c with st := s, vs := c.vs.eraseIdx i }
    | none => pure c
  | .resize i n =>
    match c.vs[i]? with
    | some v => do
      let r ← v.resize sz A c.st n
      pure { c with st := r.1, vs := c.vs.set i r.2 }
    | none => pure c
  | .assign i xs =>
    match c.vs[i]? with
    | some v =>
      if ∀ x ∈ xs, x.length = sz then do
        let r ← v.assign sz A c.st xs.length (.val xs.flatten)
        pure { c with st := r.1, vs := c.vs.set i r.2 }
      else pure c
    | none => pure c
  | .assignFrom i j a n =>
    match c.vs[i]?, c.vs[j]? with
    | some v, some o =>
      if i ≠ j ∧ a + n ≤ o.size sz then do
        let r ← v.assign sz A c.st n (.ref (o.beg + a * sz))
        pure { c with st := r.1, vs := c.vs.set i r.2 }
      else pure c
    | _, _ => pure c
  | .write i k x =>
    match c.vs[i]? with
    | some v =>
      if k < v.size sz ∧ x.length = sz then do
        v.write sz k x
        pure c
      else pure c
    | none => pure c
  | .read i k =>
    match c.vs[i]? with
    | some v =>
      if k < v.size sz then do
        let y ← v.read sz k
        pure { c with seen := c.seen ++ [y] }
      else pure c
    | none => pure c

/-- A program: one operation after the other. Specification, not code. -/
def Arrs.run (sz : Nat) {A : Allocator} (c : Arrs A) : List ArrOp → M (Arrs A)
  | [] => pure c
  | o :: os => do
    let c' ← c.step sz o
    c'.run sz os

/-- Construct the allocator object at `b`, then run the program. Specification, not code. -/
def aplay (sz : Nat) (A : Allocator) (b : Nat) (ops : List ArrOp) : M (Arrs A) := do
  let s ← A.init b
  Arrs.run sz { st := s, vs := [] } ops

/-- Destroy all arrays. Specification, not code. -/
def Arrs.destroyAll (sz : Nat) {A : Allocator} (s : A.St) : List Arr → M A.St
  | [] => pure s
  | v :: vs => do
    let s' ← v.destroy sz A s
    destroyAll sz s' vs

/-- The whole life of an allocator object used by arrays. Specification, not code. -/
def alife (sz : Nat) (A : Allocator) (b : Nat) (ops : List ArrOp) : M Unit := do
  let c ← aplay sz A b ops
  let s ← Arrs.destroyAll sz c.st c.vs
  A.fini s

end KTL
