import Verif.Containers.Pool

/- `containers/trivial_vector.h`, function by function. `sz` is `sizeof(T)`; an object of the trivial type `T`
is its `sz` bytes. The vectors of a program hold handles (`type_allocator` over a `reference`, `shared`,
`global` or stateless class) of one allocator object, whose fields `s` are passed along; copying the member
`m_Alloc` copies the handle (C10, C24, C30). Pointers are byte addresses.

Not modelled: `emplace` and `pop_back` (they do not compile when used: assignment through a `const_iterator`,
`m_Begin[--m_End]`), reverse iterators, `KTL_ASSERT` (off by default). -/
namespace KTL

/-- An element argument `const T& element` or source range `const T* first`: an object of the caller outside
the heap, or a place in the heap. Specification, not code. -/
inductive Arg where
  | val (bs : List UInt8)
  | ref (a : Nat)
  deriving DecidableEq, Repr

/-- read the argument (`n` bytes). Specification, not code. -/
def Arg.fetch (n : Nat) : Arg → M (List UInt8)
  | .val bs => pure bs
  | .ref a => M.readBytes a n

/-- `memcpy(dst, first, n)`. Specification, not code. -/
def Arg.copy (dst n : Nat) : Arg → M Unit
  | .val bs => M.writeBytes dst bs
  | .ref a => M.memcpy dst a n

/-- The fields `m_Begin`, `m_End`, `m_EndMax` (`containers/trivial_vector.h:463-465`). -/
structure Vec where
  beg : Nat
  fin : Nat
  max : Nat
  deriving DecidableEq, Repr

namespace Vec

/-- default constructor `trivial_vector.h:39-43` and constructor from an allocator `trivial_vector.h:49-53` -/
def null : Vec := ⟨0, 0, 0⟩

/-- `size` `trivial_vector.h:245` -/
def size (sz : Nat) (v : Vec) : Nat := (v.fin - v.beg) / sz

/-- `capacity` `trivial_vector.h:251` -/
def capacity (sz : Nat) (v : Vec) : Nat := (v.max - v.beg) / sz

/-- `trivial_vector(size_t n)` `trivial_vector.h:60-64`: the elements are not initialised -/
def ofSize (sz : Nat) (A : Allocator) (s : A.St) (n : Nat) : M (A.St × Vec) := do
  let r ← grab sz A s n
  pure (r.2, ⟨r.1, r.1 + n * sz, r.1 + n * sz⟩)

/-- `trivial_vector(size_t n, const T& value)` `trivial_vector.h:72-79` -/
def ofFill (sz : Nat) (A : Allocator) (s : A.St) (n : Nat) (x : Arg) : M (A.St × Vec) := do
  let r ← ofSize sz A s n
  let bs ← if n = 0 then pure [] else x.fetch sz
  M.writeBytes r.2.beg (List.replicate n bs).flatten
  pure r

/-- `trivial_vector(initializer_list)` `trivial_vector.h:86-98` and `trivial_vector(first, last)` `trivial_vector.h:106-114` -/
def ofRange (sz : Nat) (A : Allocator) (s : A.St) (n : Nat) (src : Arg) : M (A.St × Vec) := do
  let r ← ofSize sz A s n
  src.copy r.2.beg (n * sz)
  pure r

/-- copy constructor `trivial_vector.h:116-124`; also with an allocator of its own `trivial_vector.h:137-145` -/
def copy (sz : Nat) (A : Allocator) (s : A.St) (o : Vec) : M (A.St × Vec) := do
  let r ← ofSize sz A s (o.size sz)
  if o.beg ≠ 0 then M.memcpy r.2.beg o.beg (o.size sz * sz)
  pure r

/-- move constructor with an allocator of its own `trivial_vector.h:147-164`: `o` uses the allocator `A` (fields `s`), the new vector
uses `B` (fields `t`); `o` becomes `null`. Note the size passed to `deallocate`, which counts elements. -/
def moveWith (sz : Nat) (A : Allocator) (s : A.St) (B : Allocator) (t : B.St) (o : Vec) : M (A.St × B.St × Vec) := do
  let r ← ofSize sz B t (o.size sz)
  let s' ← if o.beg ≠ 0 then do
      M.memcpy r.2.beg o.beg (o.size sz * sz)
      typedDealloc sz A s o.beg (mulW (o.capacity sz) sz)
    else pure s
  pure (s', r.1, r.2)

/-- destructor `trivial_vector.h:166-170` -/
def destroy (sz : Nat) (A : Allocator) (s : A.St) (v : Vec) : M A.St :=
  if v.beg ≠ 0 then typedDealloc sz A s v.beg (v.capacity sz) else pure s

/-- `set_size` `trivial_vector.h:443-459` -/
def setSize (sz : Nat) (A : Allocator) (s : A.St) (v : Vec) (n : Nat) : M (A.St × Vec) := do
  let cur := Min.min (v.size sz) n
  let r ← grab sz A s n
  let s' ← if v.beg ≠ 0 then do
      M.memcpy r.1 v.beg (cur * sz)
      typedDealloc sz A r.2 v.beg (v.capacity sz)
    else pure r.2
  pure (s', ⟨r.1, r.1 + cur * sz, r.1 + n * sz⟩)

/-- `expand` `trivial_vector.h:435-441` -/
def expand (sz : Nat) (A : Allocator) (s : A.St) (v : Vec) (n : Nat) : M (A.St × Vec) :=
  setSize sz A s v (v.capacity sz + Max.max (v.capacity sz / 2) n)

/-- `resize` `trivial_vector.h:285-291` -/
def resize (sz : Nat) (A : Allocator) (s : A.St) (v : Vec) (n : Nat) : M (A.St × Vec) := do
  let r ← if v.capacity sz < n then expand sz A s v (n - v.capacity sz) else pure (s, v)
  pure (r.1, { r.2 with fin := r.2.beg + n * sz })

/-- `reserve` `trivial_vector.h:297-301` -/
def reserve (sz : Nat) (A : Allocator) (s : A.St) (v : Vec) (n : Nat) : M (A.St × Vec) :=
  if v.capacity sz < n then setSize sz A s v n else pure (s, v)

/-- `push_back` `trivial_vector.h:308-315`, `trivial_vector.h:322-329` and `emplace_back` `trivial_vector.h:358-366`: the argument is read after the vector has
grown; the result is the address of the new element -/
def pushBack (sz : Nat) (A : Allocator) (s : A.St) (v : Vec) (x : Arg) : M (Nat × A.St × Vec) := do
  let r ← if v.fin = v.max then expand sz A s v 1 else pure (s, v)
  let bs ← x.fetch sz
  M.writeBytes r.2.fin bs
  pure (r.2.fin, r.1, { r.2 with fin := r.2.fin + sz })

/-- `push_back(first, last)` `trivial_vector.h:337-350` -/
def pushRange (sz : Nat) (A : Allocator) (s : A.St) (v : Vec) (n : Nat) (src : Arg) : M (Nat × A.St × Vec) := do
  let r ← if (v.max - v.fin) / sz < n then expand sz A s v n else pure (s, v)
  src.copy r.2.fin (n * sz)
  pure (r.2.fin, r.1, { r.2 with fin := r.2.fin + n * sz })

/-- `erase(iter)` `trivial_vector.h:394-403`; the result is the iterator -/
def erase (sz : Nat) (v : Vec) (it : Nat) : M (Nat × Vec) := do
  M.memmove it (it + sz) (((v.fin - it) / sz - 1) * sz)
  pure (it, { v with fin := v.fin - sz })

/-- `erase(first, last)` `trivial_vector.h:411-421` -/
def eraseRange (sz : Nat) (v : Vec) (first last : Nat) : M (Nat × Vec) := do
  M.memmove first last ((v.fin - last) / sz * sz)
  pure (first, { v with fin := v.fin - (last - first) })

/-- `clear` `trivial_vector.h:432` -/
def clear (v : Vec) : Vec := { v with fin := v.beg }

/-- assignment through `operator[]`/`at`/an iterator `trivial_vector.h:213` -/
def write (sz : Nat) (v : Vec) (k : Nat) (x : List UInt8) : M Unit := M.writeBytes (v.beg + k * sz) x

/-- reading through `operator[]`/`at`/an iterator `trivial_vector.h:221` -/
def read (sz : Nat) (v : Vec) (k : Nat) : M (List UInt8) := M.readBytes (v.beg + k * sz) sz

end Vec

/-! ### Programs with any number of vectors -/

/-- The vectors of a program (by position), the fields of the allocator they share, and everything the program
has seen by calling members and reading through iterators. Specification, not code. -/
structure Vecs (A : Allocator) where
  st : A.St
  vs : List Vec
  seen : List (List UInt8) := []

/-- Copy assignment `vs[i] = vs[j]` `trivial_vector.h:172-189`. The fields of `other` are read when the code reads them, so
that `i = j` is meaningful. Its first statement frees the block as the destructor does. -/
def Vecs.copyAssign (sz : Nat) {A : Allocator} (c : Vecs A) (i j : Nat) : M (Vecs A) :=
  match c.vs[i]?, c.vs[j]? with
  | some v, some o => do
    let s ← v.destroy sz A c.st
    let r ← Vec.ofSize sz A s (o.size sz)
    let vs := c.vs.set i r.2
    let src := match vs[j]? with
      | some o' => o'.beg
      | none => 0
    M.memcpy r.2.beg src (o.size sz * sz)
    pure { c with st := r.1, vs := vs }
  | _, _ => pure c

/-- Move assignment `vs[i] = std::move(vs[j])` `trivial_vector.h:191-205`. -/
def Vecs.moveAssign (sz : Nat) {A : Allocator} (c : Vecs A) (i j : Nat) : M (Vecs A) :=
  match c.vs[i]?, c.vs[j]? with
  | some v, some o => do
    let s ← v.destroy sz A c.st
    pure { c with st := s, vs := (c.vs.set i o).set j Vec.null }
  | _, _ => pure c

/-- What a program can do. Specification, not code. -/
inductive VOp where
  | new
  | newSize (n : Nat)
  | newFill (n : Nat) (x : List UInt8)
  | newRange (xs : List (List UInt8))
  | copy (j : Nat)
  | move (j : Nat)
  | copyAssign (i j : Nat)
  | moveAssign (i j : Nat)
  /-- the vector is destroyed; later vectors move one position down -/
  | destroy (i : Nat)
  | push (i : Nat) (x : List UInt8)
  | pushRange (i : Nat) (xs : List (List UInt8))
  /-- `vs[i].push_back(&vs[j][a], &vs[j][a] + n)` -/
  | pushFrom (i j a n : Nat)
  | erase (i k : Nat)
  | eraseRange (i a n : Nat)
  | resize (i n : Nat)
  | reserve (i n : Nat)
  | clear (i : Nat)
  | write (i k : Nat) (x : List UInt8)
  | read (i k : Nat)
  deriving DecidableEq, Repr

/-- One operation. Calls that violate a documented precondition (index or range outside the vector, wrong
element size, copy assignment to itself, a range of the vector itself as source) are skipped. After
`push_back` and `erase` the program reads through the returned iterator. Specification, not code. -/
def Vecs.step (sz : Nat) {A : Allocator} (c : Vecs A) : VOp → M (Vecs A)
  | .new => pure { c with vs := c.vs ++ [Vec.null] }
  | .newSize n => do
    let r ← Vec.ofSize sz A c.st n
    pure { c with st := r.1, vs := c.vs ++ [r.2] }
  | .newFill n x =>
    if x.length = sz then do
      let r ← Vec.ofFill sz A c.st n (.val x)
      pure { c with st := r.1, vs := c.vs ++ [r.2] }
    else pure c
  | .newRange xs =>
    if ∀ x ∈ xs, x.length = sz then do
      let r ← Vec.ofRange sz A c.st xs.length (.val xs.flatten)
      pure { c with st := r.1, vs := c.vs ++ [r.2] }
    else pure c
  | .copy j =>
    match c.vs[j]? with
    | some o => do
      let r ← Vec.copy sz A c.st o
      pure { c with st := r.1, vs := c.vs ++ [r.2] }
    | none => pure c
  | .move j =>
    match c.vs[j]? with
    | some o => pure { c with vs := c.vs.set j Vec.null ++ [o] }
    | none => pure c
  | .copyAssign i j => if i = j then pure c else c.copyAssign sz i j
  | .moveAssign i j => c.moveAssign sz i j
  | .destroy i =>
    match c.vs[i]? with
    | some v => do
      let s ← v.destroy sz A c.st
      pure { c with st := s, vs := c.vs.eraseIdx i }
    | none => pure c
  | .push i x =>
    match c.vs[i]? with
    | some v =>
      if x.length = sz then do
        let r ← v.pushBack sz A c.st (.val x)
        let y ← M.readBytes r.1 sz
        pure { c with st := r.2.1, vs := c.vs.set i r.2.2, seen := c.seen ++ [y] }
      else pure c
    | none => pure c
  | .pushRange i xs =>
    match c.vs[i]? with
    | some v =>
      if ∀ x ∈ xs, x.length = sz then do
        let r ← v.pushRange sz A c.st xs.length (.val xs.flatten)
        let y ← M.readBytes r.1 (xs.length * sz)
        pure { c with st := r.2.1, vs := c.vs.set i r.2.2, seen := c.seen ++ [y] }
      else pure c
    | none => pure c
  | .pushFrom i j a n =>
    match c.vs[i]?, c.vs[j]? with
    | some v, some o =>
      if i ≠ j ∧ a + n ≤ o.size sz then do
        let r ← v.pushRange sz A c.st n (.ref (o.beg + a * sz))
        let y ← M.readBytes r.1 (n * sz)
        pure { c with st := r.2.1, vs := c.vs.set i r.2.2, seen := c.seen ++ [y] }
      else pure c
    | _, _ => pure c
  | .erase i k =>
    match c.vs[i]? with
    | some v =>
      if k < v.size sz then do
        let r ← v.erase sz (v.beg + k * sz)
        let y ← M.readBytes r.1 (r.2.fin - r.1)
        pure { c with vs := c.vs.set i r.2, seen := c.seen ++ [y] }
      else pure c
    | none => pure c
  | .eraseRange i a n =>
    match c.vs[i]? with
    | some v =>
      if a + n ≤ v.size sz then do
        let r ← v.eraseRange sz (v.beg + a * sz) (v.beg + (a + n) * sz)
        let y ← M.readBytes r.1 (r.2.fin - r.1)
        pure { c with vs := c.vs.set i r.2, seen := c.seen ++ [y] }
      else pure c
    | none => pure c
  | .resize i n =>
    match c.vs[i]? with
    | some v => do
      let r ← v.resize sz A c.st n
      pure { c with st := r.1, vs := c.vs.set i r.2 }
    | none => pure c
  | .reserve i n =>
    match c.vs[i]? with
    | some v => do
      let r ← v.reserve sz A c.st n
      pure { c with st := r.1, vs := c.vs.set i r.2 }
    | none => pure c
  | .clear i =>
    match c.vs[i]? with
    | some v => pure { c with vs := c.vs.set i v.clear }
    | none => pure c
  | .write i k x =>
    match c.vs[i]? with
    | some v =>
      if k < v.size sz ∧ x.length = sz then do
        v.write sz k x
        pure c
      else pure c
    | none => pure c
  | .read i k =>
    match c.vs[i]? with
    | some v =>
      if k < v.size sz then do
        let y ← v.read sz k
        pure { c with seen := c.seen ++ [y] }
      else pure c
    | none => pure c

/-- A program: one operation after the other. Specification, not code. -/
def Vecs.run (sz : Nat) {A : Allocator} (c : Vecs A) : List VOp → M (Vecs A)
  | [] => pure c
  | o :: os => do
    let c' ← c.step sz o
    c'.run sz os

/-- Construct the allocator object at `b`, then run the program. Specification, not code. -/
def vplay (sz : Nat) (A : Allocator) (b : Nat) (ops : List VOp) : M (Vecs A) := do
  let s ← A.init b
  Vecs.run sz { st := s, vs := [] } ops

/-- Destroy all vectors (in any order the program likes: here from the first to the last). Specification, not code. -/
def Vecs.destroyAll (sz : Nat) {A : Allocator} (s : A.St) : List Vec → M A.St
  | [] => pure s
  | v :: vs => do
    let s' ← v.destroy sz A s
    destroyAll sz s' vs

/-- The whole life of an allocator object used by vectors: construct, run, destroy the vectors, destroy.
Specification, not code. -/
def vlife (sz : Nat) (A : Allocator) (b : Nat) (ops : List VOp) : M Unit := do
  let c ← vplay sz A b ops
  let s ← Vecs.destroyAll sz c.st c.vs
  A.fini s

end KTL
