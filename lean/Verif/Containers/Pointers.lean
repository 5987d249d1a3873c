import Verif.Alloc.Pointers
import Verif.Containers.Array

/- `trivial_vector` and `trivial_array` once more, with the rules of C++ for pointers: a pointer may only be moved inside the array it
points into or to its end, pointers may only be subtracted inside one array, and `memcpy` and `memmove` do not take the null pointer,
not even for 0 bytes. The functions are those of `Containers/Vector.lean` and `Containers/Array.lean`; before each step that computes a
pointer there is a check. -/
namespace KTL

/-- Computing a pointer `p` into the array `[lo, hi)` of elements of `sz` bytes: undefined behaviour unless it points to an element or to
the end. Also for the operands of a subtraction. C++ machine, not library code. -/
def M.elem (lo hi sz p : Nat) : M Unit := if lo ≤ p ∧ p ≤ hi ∧ sz ∣ p - lo then pure () else M.ub

/-- `p++` in a loop over `n` elements from `p` on. C++ machine, not library code. -/
def M.elems (lo hi sz p : Nat) : Nat → M Unit
  | 0 => pure ()
  | n + 1 => do
    M.elem lo hi sz (p + sz)
    M.elems lo hi sz (p + sz) n

/-- `memcpy`; with `lax` the null pointer is accepted (for 0 bytes). The rule of C++ is `lax = false`. C++ machine, not library code. -/
def M.memcpyP (lax : Bool) (dst src n : Nat) : M Unit :=
  if lax = false ∧ (dst = 0 ∨ src = 0) then M.ub else M.memcpy dst src n

/-- `memmove`, likewise. C++ machine, not library code. -/
def M.memmoveP (lax : Bool) (dst src n : Nat) : M Unit :=
  if lax = false ∧ (dst = 0 ∨ src = 0) then M.ub else M.memmove dst src n

/-- `memcpy(dst, first, n)` from an argument, see `Arg.copy`; an object of the caller is not null. Specification, not code. -/
def Arg.copyPtr (lax : Bool) (dst n : Nat) : Arg → M Unit
  | .val bs => if lax = false ∧ dst = 0 then M.ub else M.writeBytes dst bs
  | .ref a => M.memcpyP lax dst a n

/-! ### `trivial_vector` -/

/-- The fields (`containers/trivial_vector.h:463-465`), and the end of the array that `allocate` has returned. `m_Begin` always points to
its beginning. `top` is not in the code. -/
structure PVec where
  v : Vec
  top : Nat
  deriving DecidableEq, Repr

namespace PVec

/-- see `Vec.null` `trivial_vector.h:39-43`, `trivial_vector.h:49-53` -/
def null : PVec := ⟨.null, 0⟩

/-- a pointer into the array of the vector. C++ machine, not library code. -/
def elem (sz : Nat) (p : PVec) (a : Nat) : M Unit := M.elem p.v.beg p.top sz a

/-- `m_End - m_Begin` `trivial_vector.h:245` -/
def size (sz : Nat) (p : PVec) : M Nat := do
  p.elem sz p.v.fin
  pure (p.v.size sz)

/-- `m_EndMax - m_Begin` `trivial_vector.h:251` -/
def capacity (sz : Nat) (p : PVec) : M Nat := do
  p.elem sz p.v.max
  pure (p.v.capacity sz)

/-- `m_Begin + n` `trivial_vector.h:60-64`; the array has the size that reaches `allocate` (`allocators/type_allocator.h:98-102`) -/
def ofSize (sz : Nat) (A : Allocator) (s : A.St) (n : Nat) : M (A.St × PVec) := do
  let r ← grab sz A s n
  M.elem r.1 (r.1 + mulW sz n) sz (r.1 + n * sz)
  pure (r.2, ⟨⟨r.1, r.1 + n * sz, r.1 + n * sz⟩, r.1 + mulW sz n⟩)

/-- `trivial_vector.h:72-79` -/
def ofFill (sz : Nat) (A : Allocator) (s : A.St) (n : Nat) (x : Arg) : M (A.St × PVec) := do
  let r ← ofSize sz A s n
  let bs ← if n = 0 then pure [] else x.fetch sz
  M.elems r.2.v.beg r.2.top sz r.2.v.beg n
  M.writeBytes r.2.v.beg (List.replicate n bs).flatten
  pure r

/-- the constructor from two pointers `trivial_vector.h:106-114` -/
def ofRange (lax : Bool) (sz : Nat) (A : Allocator) (s : A.St) (n : Nat) (src : Arg) : M (A.St × PVec) := do
  let r ← ofSize sz A s n
  src.copyPtr lax r.2.v.beg (n * sz)
  pure r

/-- `trivial_vector.h:116-124`, `trivial_vector.h:137-145` -/
def copy (lax : Bool) (sz : Nat) (A : Allocator) (s : A.St) (o : PVec) : M (A.St × PVec) := do
  let n ← o.size sz
  let r ← ofSize sz A s n
  if o.v.beg ≠ 0 then M.memcpyP lax r.2.v.beg o.v.beg (n * sz)
  pure r

/-- `trivial_vector.h:166-170` -/
def destroy (sz : Nat) (A : Allocator) (s : A.St) (p : PVec) : M A.St :=
  if p.v.beg ≠ 0 then do
    let cap ← p.capacity sz
    typedDealloc sz A s p.v.beg cap
  else pure s

/-- `set_size` `trivial_vector.h:443-459` -/
def setSize (lax : Bool) (sz : Nat) (A : Allocator) (s : A.St) (p : PVec) (n : Nat) : M (A.St × PVec) := do
  let k ← p.size sz
  let cur := Min.min k n
  let r ← grab sz A s n
  let s' ← if p.v.beg ≠ 0 then do
      M.memcpyP lax r.1 p.v.beg (cur * sz)
      let cap ← p.capacity sz
      typedDealloc sz A r.2 p.v.beg cap
    else pure r.2
  M.elem r.1 (r.1 + mulW sz n) sz (r.1 + cur * sz)
  M.elem r.1 (r.1 + mulW sz n) sz (r.1 + n * sz)
  pure (s', ⟨⟨r.1, r.1 + cur * sz, r.1 + n * sz⟩, r.1 + mulW sz n⟩)

/-- `expand` `trivial_vector.h:435-441` -/
def expand (lax : Bool) (sz : Nat) (A : Allocator) (s : A.St) (p : PVec) (n : Nat) : M (A.St × PVec) := do
  let cap ← p.capacity sz
  setSize lax sz A s p (cap + Max.max (cap / 2) n)

/-- `resize` `trivial_vector.h:285-291` -/
def resize (lax : Bool) (sz : Nat) (A : Allocator) (s : A.St) (p : PVec) (n : Nat) : M (A.St × PVec) := do
  let cap ← p.capacity sz
  let r ← if cap < n then expand lax sz A s p (n - cap) else pure (s, p)
  r.2.elem sz (r.2.v.beg + n * sz)
  pure (r.1, { r.2 with v := { r.2.v with fin := r.2.v.beg + n * sz } })

/-- `reserve` `trivial_vector.h:297-301` -/
def reserve (lax : Bool) (sz : Nat) (A : Allocator) (s : A.St) (p : PVec) (n : Nat) : M (A.St × PVec) := do
  let cap ← p.capacity sz
  if cap < n then setSize lax sz A s p n else pure (s, p)

/-- `push_back` `trivial_vector.h:308-315`, `trivial_vector.h:322-329`, `emplace_back` `trivial_vector.h:358-366`, with `m_End++` -/
def pushBack (lax : Bool) (sz : Nat) (A : Allocator) (s : A.St) (p : PVec) (x : Arg) : M (Nat × A.St × PVec) := do
  let r ← if p.v.fin = p.v.max then expand lax sz A s p 1 else pure (s, p)
  let bs ← x.fetch sz
  M.writeBytes r.2.v.fin bs
  r.2.elem sz (r.2.v.fin + sz)
  pure (r.2.v.fin, r.1, { r.2 with v := { r.2.v with fin := r.2.v.fin + sz } })

/-- `push_back(first, last)` `trivial_vector.h:337-350`, with `m_EndMax - m_End` and `m_End += n` -/
def pushRange (lax : Bool) (sz : Nat) (A : Allocator) (s : A.St) (p : PVec) (n : Nat) (src : Arg) : M (Nat × A.St × PVec) := do
  p.elem sz p.v.max
  p.elem sz p.v.fin
  let r ← if (p.v.max - p.v.fin) / sz < n then expand lax sz A s p n else pure (s, p)
  r.2.elem sz (r.2.v.fin + n * sz)
  src.copyPtr lax r.2.v.fin (n * sz)
  pure (r.2.v.fin, r.1, { r.2 with v := { r.2.v with fin := r.2.v.fin + n * sz } })

/-- `erase(iter)` `trivial_vector.h:394-403`, with `iter + 1`, `m_End - iter` and `m_End--` -/
def erase (lax : Bool) (sz : Nat) (p : PVec) (it : Nat) : M (Nat × PVec) := do
  p.elem sz (it + sz)
  p.elem sz p.v.fin
  p.elem sz it
  M.memmoveP lax it (it + sz) (((p.v.fin - it) / sz - 1) * sz)
  if p.v.beg + sz ≤ p.v.fin then p.elem sz (p.v.fin - sz) else M.ub
  pure (it, { p with v := { p.v with fin := p.v.fin - sz } })

/-- `erase(first, last)` `trivial_vector.h:411-421`, with `m_End - last`, `last - first` and `m_End -= …` -/
def eraseRange (lax : Bool) (sz : Nat) (p : PVec) (first last : Nat) : M (Nat × PVec) := do
  p.elem sz p.v.fin
  p.elem sz last
  M.memmoveP lax first last ((p.v.fin - last) / sz * sz)
  p.elem sz first
  if p.v.beg + (last - first) ≤ p.v.fin then p.elem sz (p.v.fin - (last - first)) else M.ub
  pure (first, { p with v := { p.v with fin := p.v.fin - (last - first) } })

/-- `clear` `trivial_vector.h:432` computes nothing -/
def clear (p : PVec) : PVec := { p with v := p.v.clear }

/-- `m_Begin[index]` `trivial_vector.h:213` -/
def write (sz : Nat) (p : PVec) (k : Nat) (x : List UInt8) : M Unit := do
  p.elem sz (p.v.beg + k * sz)
  p.v.write sz k x

/-- `m_Begin[index]` `trivial_vector.h:221` -/
def read (sz : Nat) (p : PVec) (k : Nat) : M (List UInt8) := do
  p.elem sz (p.v.beg + k * sz)
  p.v.read sz k

end PVec

/-- see `Vecs`. Specification, not code. -/
structure PVecs (A : Allocator) where
  st : A.St
  vs : List PVec
  seen : List (List UInt8) := []

/-- The vectors without the ends of their arrays. Specification, not code. -/
def PVecs.base {A : Allocator} (c : PVecs A) : Vecs A := ⟨c.st, c.vs.map PVec.v, c.seen⟩

/-- Copy assignment `trivial_vector.h:172-189`. -/
def PVecs.copyAssign (lax : Bool) (sz : Nat) {A : Allocator} (c : PVecs A) (i j : Nat) : M (PVecs A) :=
  match c.vs[i]?, c.vs[j]? with
  | some v, some o => do
    let s ← v.destroy sz A c.st
    let n ← o.size sz
    let r ← PVec.ofSize sz A s n
    let vs := c.vs.set i r.2
    let src := match vs[j]? with
      | some o' => o'.v.beg
      | none => 0
    M.memcpyP lax r.2.v.beg src (n * sz)
    pure { c with st := r.1, vs := vs }
  | _, _ => pure c

/-- Move assignment `trivial_vector.h:191-205`. -/
def PVecs.moveAssign (sz : Nat) {A : Allocator} (c : PVecs A) (i j : Nat) : M (PVecs A) :=
  match c.vs[i]?, c.vs[j]? with
  | some v, some o => do
    let s ← v.destroy sz A c.st
    pure { c with st := s, vs := (c.vs.set i o).set j PVec.null }
  | _, _ => pure c

/-- One operation, see `Vecs.step`; the iterators the program passes are computed by `begin() + k`. `newRange` is the constructor from two
pointers. Specification, not code. -/
def PVecs.step (lax : Bool) (sz : Nat) {A : Allocator} (c : PVecs A) : VOp → M (PVecs A)
  | .new => pure { c with vs := c.vs ++ [PVec.null] }
  | .newSize n => do
    let r ← PVec.ofSize sz A c.st n
    pure { c with st := r.1, vs := c.vs ++ [r.2] }
  | .newFill n x =>
    if x.length = sz then do
      let r ← PVec.ofFill sz A c.st n (.val x)
      pure { c with st := r.1, vs := c.vs ++ [r.2] }
    else pure c
  | .newRange xs =>
    if ∀ x ∈ xs, x.length = sz then do
      let r ← PVec.ofRange lax sz A c.st xs.length (.val xs.flatten)
      pure { c with st := r.1, vs := c.vs ++ [r.2] }
    else pure c
  | .copy j =>
    match c.vs[j]? with
    | some o => do
      let r ← PVec.copy lax sz A c.st o
      pure { c with st := r.1, vs := c.vs ++ [r.2] }
    | none => pure c
  | .move j =>
    match c.vs[j]? with
    | some o => pure { c with vs := c.vs.set j PVec.null ++ [o] }
    | none => pure c
  | .copyAssign i j => if i = j then pure c else c.copyAssign lax sz i j
  | .moveAssign i j => c.moveAssign sz i j
  | .destroy i =>
    match c.vs[i]? with
    | some v => do
      let s ← v.destroy sz A c.st
      pure { c with st := s, vs := c.vs.eraseIdx i }
    | none => pure c
  | .push i x =>
    match c.vs[i]? with
    | some v =>
      if x.length = sz then do
        let r ← v.pushBack lax sz A c.st (.val x)
        let y ← M.readBytes r.1 sz
        pure { c with st := r.2.1, vs := c.vs.set i r.2.2, seen := c.seen ++ [y] }
      else pure c
    | none => pure c
  | .pushRange i xs =>
    match c.vs[i]? with
    | some v =>
      if ∀ x ∈ xs, x.length = sz then do
        let r ← v.pushRange lax sz A c.st xs.length (.val xs.flatten)
        let y ← M.readBytes r.1 (xs.length * sz)
        pure { c with st := r.2.1, vs := c.vs.set i r.2.2, seen := c.seen ++ [y] }
      else pure c
    | none => pure c
  | .pushFrom i j a n =>
    match c.vs[i]?, c.vs[j]? with
    | some v, some o =>
      if i ≠ j ∧ a + n ≤ o.v.size sz then do
        o.elem sz (o.v.beg + a * sz)
        o.elem sz (o.v.beg + (a + n) * sz)
        let r ← v.pushRange lax sz A c.st n (.ref (o.v.beg + a * sz))
        let y ← M.readBytes r.1 (n * sz)
        pure { c with st := r.2.1, vs := c.vs.set i r.2.2, seen := c.seen ++ [y] }
      else pure c
    | _, _ => pure c
  | .erase i k =>
    match c.vs[i]? with
    | some v =>
      if k < v.v.size sz then do
        v.elem sz (v.v.beg + k * sz)
        let r ← v.erase lax sz (v.v.beg + k * sz)
        let y ← M.readBytes r.1 (r.2.v.fin - r.1)
        pure { c with vs := c.vs.set i r.2, seen := c.seen ++ [y] }
      else pure c
    | none => pure c
  | .eraseRange i a n =>
    match c.vs[i]? with
    | some v =>
      if a + n ≤ v.v.size sz then do
        v.elem sz (v.v.beg + a * sz)
        v.elem sz (v.v.beg + (a + n) * sz)
        let r ← v.eraseRange lax sz (v.v.beg + a * sz) (v.v.beg + (a + n) * sz)
        let y ← M.readBytes r.1 (r.2.v.fin - r.1)
        pure { c with vs := c.vs.set i r.2, seen := c.seen ++ [y] }
      else pure c
    | none => pure c
  | .resize i n =>
    match c.vs[i]? with
    | some v => do
      let r ← v.resize lax sz A c.st n
      pure { c with st := r.1, vs := c.vs.set i r.2 }
    | none => pure c
  | .reserve i n =>
    match c.vs[i]? with
    | some v => do
      let r ← v.reserve lax sz A c.st n
      pure { c with st := r.1, vs := c.vs.set i r.2 }
    | none => pure c
  | .clear i =>
    match c.vs[i]? with
    | some v => pure { c with vs := c.vs.set i v.clear }
    | none => pure c
  | .write i k x =>
    match c.vs[i]? with
    | some v =>
      if k < v.v.size sz ∧ x.length = sz then do
        v.write sz k x
        pure c
      else pure c
    | none => pure c
  | .read i k =>
    match c.vs[i]? with
    | some v =>
      if k < v.v.size sz then do
        let y ← v.read sz k
        pure { c with seen := c.seen ++ [y] }
      else pure c
    | none => pure c

/-- A program. Specification, not code. -/
def PVecs.run (lax : Bool) (sz : Nat) {A : Allocator} (c : PVecs A) : List VOp → M (PVecs A)
  | [] => pure c
  | o :: os => do
    let c' ← c.step lax sz o
    c'.run lax sz os

/-- Construct the allocator object at `b`, then run the program. Specification, not code. -/
def pvplay (lax : Bool) (sz : Nat) (A : Allocator) (b : Nat) (ops : List VOp) : M (PVecs A) := do
  let s ← A.init b
  PVecs.run lax sz { st := s, vs := [] } ops
/-! ### `trivial_array` -/

/-- The fields (`containers/trivial_array.h:307-308`), and the end of the array that `allocate` has returned. `top` is not in the code. -/
structure PArr where
  v : Arr
  top : Nat
  deriving DecidableEq, Repr

namespace PArr

/-- see `Arr.null` `trivial_array.h:39-42`, `trivial_array.h:48-51` -/
def null : PArr := ⟨.null, 0⟩

/-- a pointer into the array. C++ machine, not library code. -/
def elem (sz : Nat) (p : PArr) (a : Nat) : M Unit := M.elem p.v.beg p.top sz a

/-- `m_End - m_Begin` `trivial_array.h:230` -/
def size (sz : Nat) (p : PArr) : M Nat := do
  p.elem sz p.v.fin
  pure (p.v.size sz)

/-- `m_Begin + n` `trivial_array.h:58-61` -/
def ofSize (sz : Nat) (A : Allocator) (s : A.St) (n : Nat) : M (A.St × PArr) := do
  let r ← grab sz A s n
  M.elem r.1 (r.1 + mulW sz n) sz (r.1 + n * sz)
  pure (r.2, ⟨⟨r.1, r.1 + n * sz⟩, r.1 + mulW sz n⟩)

/-- `trivial_array.h:69-75` -/
def ofFill (sz : Nat) (A : Allocator) (s : A.St) (n : Nat) (x : Arg) : M (A.St × PArr) := do
  let r ← ofSize sz A s n
  let bs ← if n = 0 then pure [] else x.fetch sz
  M.elems r.2.v.beg r.2.top sz r.2.v.beg n
  M.writeBytes r.2.v.beg (List.replicate n bs).flatten
  pure r

/-- the constructor from two pointers `trivial_array.h:101-108` -/
def ofRange (lax : Bool) (sz : Nat) (A : Allocator) (s : A.St) (n : Nat) (src : Arg) : M (A.St × PArr) := do
  let r ← ofSize sz A s n
  src.copyPtr lax r.2.v.beg (n * sz)
  pure r

/-- `trivial_array.h:110-117`, `trivial_array.h:128-135` -/
def copy (lax : Bool) (sz : Nat) (A : Allocator) (s : A.St) (o : PArr) : M (A.St × PArr) := do
  let n ← o.size sz
  let r ← ofSize sz A s n
  if o.v.beg ≠ 0 then M.memcpyP lax r.2.v.beg o.v.beg (n * sz)
  pure r

/-- `trivial_array.h:154-158` -/
def destroy (sz : Nat) (A : Allocator) (s : A.St) (p : PArr) : M A.St :=
  if p.v.beg ≠ 0 then do
    let n ← p.size sz
    typedDealloc sz A s p.v.beg n
  else pure s

/-- `resize` `trivial_array.h:264-280` -/
def resize (lax : Bool) (sz : Nat) (A : Allocator) (s : A.St) (p : PArr) (n : Nat) : M (A.St × PArr) := do
  let k ← p.size sz
  if k ≠ n then do
    let r ← grab sz A s n
    let s' ← if p.v.beg ≠ 0 then do
        M.memcpyP lax r.1 p.v.beg (Min.min k n * sz)
        typedDealloc sz A r.2 p.v.beg k
      else pure r.2
    M.elem r.1 (r.1 + mulW sz n) sz (r.1 + n * sz)
    pure (s', ⟨⟨r.1, r.1 + n * sz⟩, r.1 + mulW sz n⟩)
  else pure (s, p)

/-- the first part of `assign` `trivial_array.h:289-300` -/
def assignRoom (sz : Nat) (A : Allocator) (s : A.St) (p : PArr) (n : Nat) : M (A.St × PArr) := do
  let k ← p.size sz
  if n ≠ k then do
    let r ← grab sz A s n
    let s' ← p.destroy sz A r.2
    M.elem r.1 (r.1 + mulW sz n) sz (r.1 + n * sz)
    pure (s', ⟨⟨r.1, r.1 + n * sz⟩, r.1 + mulW sz n⟩)
  else pure (s, p)

/-- `assign(first, last)` `trivial_array.h:287-303` -/
def assign (lax : Bool) (sz : Nat) (A : Allocator) (s : A.St) (p : PArr) (n : Nat) (src : Arg) : M (A.St × PArr) := do
  let r ← assignRoom sz A s p n
  src.copyPtr lax r.2.v.beg (n * sz)
  pure r

/-- `m_Begin[index]` `trivial_array.h:198` -/
def write (sz : Nat) (p : PArr) (k : Nat) (x : List UInt8) : M Unit := do
  p.elem sz (p.v.beg + k * sz)
  p.v.write sz k x

/-- `m_Begin[index]` `trivial_array.h:206` -/
def read (sz : Nat) (p : PArr) (k : Nat) : M (List UInt8) := do
  p.elem sz (p.v.beg + k * sz)
  p.v.read sz k

end PArr

/-- see `Arrs`. Specification, not code. -/
structure PArrs (A : Allocator) where
  st : A.St
  vs : List PArr
  seen : List (List UInt8) := []

/-- The arrays without the ends of what was allocated. Specification, not code. -/
def PArrs.base {A : Allocator} (c : PArrs A) : Arrs A := ⟨c.st, c.vs.map PArr.v, c.seen⟩

/-- Copy assignment `trivial_array.h:160-176`. -/
def PArrs.copyAssign (lax : Bool) (sz : Nat) {A : Allocator} (c : PArrs A) (i j : Nat) : M (PArrs A) :=
  match c.vs[i]?, c.vs[j]? with
  | some v, some o => do
    let s ← v.destroy sz A c.st
    let n ← o.size sz
    let r ← PArr.ofSize sz A s n
    let vs := c.vs.set i r.2
    let src := match vs[j]? with
      | some o' => o'.v.beg
      | none => 0
    M.memcpyP lax r.2.v.beg src (n * sz)
    pure { c with st := r.1, vs := vs }
  | _, _ => pure c

/-- Move assignment `trivial_array.h:178-190`. -/
def PArrs.moveAssign (sz : Nat) {A : Allocator} (c : PArrs A) (i j : Nat) : M (PArrs A) :=
  match c.vs[i]?, c.vs[j]? with
  | some v, some o => do
    let s ← v.destroy sz A c.st
    pure { c with st := s, vs := (c.vs.set i o).set j PArr.null }
  | _, _ => pure c

/-- One operation, see `Arrs.step`. Specification, not code. -/
def PArrs.step (lax : Bool) (sz : Nat) {A : Allocator} (c : PArrs A) : ArrOp → M (PArrs A)
  | .new => pure { c with vs := c.vs ++ [PArr.null] }
  | .newSize n => do
    let r ← PArr.ofSize sz A c.st n
    pure { c with st := r.1, vs := c.vs ++ [r.2] }
  | .newFill n x =>
    if x.length = sz then do
      let r ← PArr.ofFill sz A c.st n (.val x)
      pure { c with st := r.1, vs := c.vs ++ [r.2] }
    else pure c
  | .newRange xs =>
    if ∀ x ∈ xs, x.length = sz then do
      let r ← PArr.ofRange lax sz A c.st xs.length (.val xs.flatten)
      pure { c with st := r.1, vs := c.vs ++ [r.2] }
    else pure c
  | .copy j =>
    match c.vs[j]? with
    | some o => do
      let r ← PArr.copy lax sz A c.st o
      pure { c with st := r.1, vs := c.vs ++ [r.2] }
    | none => pure c
  | .move j =>
    match c.vs[j]? with
    | some o => pure { c with vs := c.vs.set j PArr.null ++ [o] }
    | none => pure c
  | .copyAssign i j => if i = j then pure c else c.copyAssign lax sz i j
  | .moveAssign i j => c.moveAssign sz i j
  | .destroy i =>
    match c.vs[i]? with
    | some v => do
      let s ← v.destroy sz A c.st
      pure { c with st := s, vs := c.vs.eraseIdx i }
    | none => pure c
  | .resize i n =>
    match c.vs[i]? with
    | some v => do
      let r ← v.resize lax sz A c.st n
      pure { c with st := r.1, vs := c.vs.set i r.2 }
    | none => pure c
  | .assign i xs =>
    match c.vs[i]? with
    | some v =>
      if ∀ x ∈ xs, x.length = sz then do
        let r ← v.assign lax sz A c.st xs.length (.val xs.flatten)
        pure { c with st := r.1, vs := c.vs.set i r.2 }
      else pure c
    | none => pure c
  | .assignFrom i j a n =>
    match c.vs[i]?, c.vs[j]? with
    | some v, some o =>
      if i ≠ j ∧ a + n ≤ o.v.size sz then do
        o.elem sz (o.v.beg + a * sz)
        o.elem sz (o.v.beg + (a + n) * sz)
        let r ← v.assign lax sz A c.st n (.ref (o.v.beg + a * sz))
        pure { c with st := r.1, vs := c.vs.set i r.2 }
      else pure c
    | _, _ => pure c
  | .write i k x =>
    match c.vs[i]? with
    | some v =>
      if k < v.v.size sz ∧ x.length = sz then do
        v.write sz k x
        pure c
      else pure c
    | none => pure c
  | .read i k =>
    match c.vs[i]? with
    | some v =>
      if k < v.v.size sz then do
        let y ← v.read sz k
        pure { c with seen := c.seen ++ [y] }
      else pure c
    | none => pure c

/-- A program. Specification, not code. -/
def PArrs.run (lax : Bool) (sz : Nat) {A : Allocator} (c : PArrs A) : List ArrOp → M (PArrs A)
  | [] => pure c
  | o :: os => do
    let c' ← c.step lax sz o
    c'.run lax sz os

/-- Construct the allocator object at `b`, then run the program. Specification, not code. -/
def paplay (lax : Bool) (sz : Nat) (A : Allocator) (b : Nat) (ops : List ArrOp) : M (PArrs A) := do
  let s ← A.init b
  PArrs.run lax sz { st := s, vs := [] } ops

end KTL
