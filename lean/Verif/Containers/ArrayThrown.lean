import Verif.Alloc.Thrown
import Verif.Containers.Array

/- `trivial_array` over allocators whose `allocate` may throw (see `Alloc/Thrown.lean`). The functions are those of `Containers/Array.lean`.
The constructors with a size or with values, `resize` and `assign` let an exception out; the copy constructor and the copy assignment are
`noexcept`, so an exception ends the program there (C77). -/
namespace KTL

/-- `Traits::allocate(m_Alloc, n)` (`allocators/type_allocator.h:98-102`): `none` if it throws. As `grab` otherwise, with the same
simplification. -/
def xgrab (sz : Nat) (X : XAlloc) (s : X.St) (n : Nat) : M (Option Nat × X.St) := do
  let r ← X.alloc s (mulW sz n)
  if r.1 = some 0 ∧ n ≠ 0 then M.oom else pure r

namespace Arr

/-- `trivial_array(size_t n)` `trivial_array.h:58-61`; `none`: the constructor throws, there is no array -/
def ofSizeX (sz : Nat) (X : XAlloc) (s : X.St) (n : Nat) : M (Option Arr × X.St) := do
  let r ← xgrab sz X s n
  match r.1 with
  | none => pure (none, r.2)
  | some p => pure (some ⟨p, p + n * sz⟩, r.2)

/-- `trivial_array(size_t n, const T& value)` `trivial_array.h:69-75` -/
def ofFillX (sz : Nat) (X : XAlloc) (s : X.St) (n : Nat) (x : Arg) : M (Option Arr × X.St) := do
  let r ← xgrab sz X s n
  match r.1 with
  | none => pure (none, r.2)
  | some p => do
    let bs ← if n = 0 then pure [] else x.fetch sz
    M.writeBytes p (List.replicate n bs).flatten
    pure (some ⟨p, p + n * sz⟩, r.2)

/-- `trivial_array(initializer_list)` `trivial_array.h:82-93` and `trivial_array(first, last)` `trivial_array.h:101-108` -/
def ofRangeX (sz : Nat) (X : XAlloc) (s : X.St) (n : Nat) (src : Arg) : M (Option Arr × X.St) := do
  let r ← xgrab sz X s n
  match r.1 with
  | none => pure (none, r.2)
  | some p => do
    src.copy p (n * sz)
    pure (some ⟨p, p + n * sz⟩, r.2)

/-- copy constructor `trivial_array.h:110-117`; `none`: the program ends -/
def copyX (sz : Nat) (X : XAlloc) (s : X.St) (o : Arr) : M (Option Arr × X.St) := do
  let r ← xgrab sz X s (o.size sz)
  match r.1 with
  | none => pure (none, r.2)
  | some p => do
    if o.beg ≠ 0 then M.memcpy p o.beg (o.size sz * sz)
    pure (some ⟨p, p + o.size sz * sz⟩, r.2)

/-- `resize` `trivial_array.h:264-280`; `none`: an exception from `trivial_array.h:269`, before anything else is done -/
def resizeX (sz : Nat) (X : XAlloc) (s : X.St) (a : Arr) (n : Nat) : M (Option Arr × X.St) :=
  if a.size sz ≠ n then do
    let r ← xgrab sz X s n
    match r.1 with
    | none => pure (none, r.2)
    | some p => do
      let s' ← if a.beg ≠ 0 then do
          M.memcpy p a.beg (Min.min (a.size sz) n * sz)
          typedDealloc sz X.toA r.2 a.beg (a.size sz)
        else pure r.2
      pure (some ⟨p, p + n * sz⟩, s')
  else pure (some a, s)

/-- `assign(first, last)` `trivial_array.h:287-303`; `none`: an exception from `trivial_array.h:293`, before anything else is done -/
def assignX (sz : Nat) (X : XAlloc) (s : X.St) (a : Arr) (n : Nat) (src : Arg) : M (Option Arr × X.St) :=
  if n ≠ a.size sz then do
    let r ← xgrab sz X s n
    match r.1 with
    | none => pure (none, r.2)
    | some p => do
      let s' ← a.destroy sz X.toA r.2
      src.copy p (n * sz)
      pure (some ⟨p, p + n * sz⟩, s')
  else do
    src.copy a.beg (n * sz)
    pure (some a, s)

end Arr

/-- How a call ends: it returns, it throws, or the program is over (`std::terminate`). Specification, not code. -/
inductive XEnd (X : XAlloc) where
  | returned (c : Arrs X.toA)
  | threw (c : Arrs X.toA)
  | ended

/-- Copy assignment `vs[i] = vs[j]` `trivial_array.h:160-176`, `noexcept` -/
def Arrs.copyAssignX (sz : Nat) {X : XAlloc} (c : Arrs X.toA) (i j : Nat) : M (XEnd X) :=
  match c.vs[i]?, c.vs[j]? with
  | some v, some o => do
    let s ← v.destroy sz X.toA c.st
    let r ← xgrab sz X s (o.size sz)
    match r.1 with
    | none => pure .ended
    | some p => do
      let vs := c.vs.set i ⟨p, p + o.size sz * sz⟩
      let src := match vs[j]? with
        | some o' => o'.beg
        | none => 0
      M.memcpy p src (o.size sz * sz)
      pure (.returned { c with st := r.2, vs := vs })
  | _, _ => pure (.returned c)

/-- the end of a constructor: an array more, or none. Specification, not code. -/
def Arrs.made {X : XAlloc} (c : Arrs X.toA) (r : Option Arr × X.St) : XEnd X :=
  match r.1 with
  | some a => .returned { c with st := r.2, vs := c.vs ++ [a] }
  | none => .threw { c with st := r.2 }

/-- the end of a call on array `i`. Specification, not code. -/
def Arrs.changed {X : XAlloc} (c : Arrs X.toA) (i : Nat) (r : Option Arr × X.St) : XEnd X :=
  match r.1 with
  | some a => .returned { c with st := r.2, vs := c.vs.set i a }
  | none => .threw { c with st := r.2 }

/-- One operation, as `Arrs.step`. Those that do not allocate are the same. Specification, not code. -/
def Arrs.stepX (sz : Nat) {X : XAlloc} (c : Arrs X.toA) : ArrOp → M (XEnd X)
  | .newSize n => do
    let r ← Arr.ofSizeX sz X c.st n
    pure (c.made r)
  | .newFill n x =>
    if x.length = sz then do
      let r ← Arr.ofFillX sz X c.st n (.val x)
      pure (c.made r)
    else pure (.returned c)
  | .newRange xs =>
    if ∀ x ∈ xs, x.length = sz then do
      let r ← Arr.ofRangeX sz X c.st xs.length (.val xs.flatten)
      pure (c.made r)
    else pure (.returned c)
  | .copy j =>
    match c.vs[j]? with
    | some o => do
      let r ← Arr.copyX sz X c.st o
      match r.1 with
      | some a => pure (.returned { c with st := r.2, vs := c.vs ++ [a] })
      | none => pure .ended
    | none => pure (.returned c)
  | .copyAssign i j => if i = j then pure (.returned c) else c.copyAssignX sz i j
  | .resize i n =>
    match c.vs[i]? with
    | some v => do
      let r ← v.resizeX sz X c.st n
      pure (c.changed i r)
    | none => pure (.returned c)
  | .assign i xs =>
    match c.vs[i]? with
    | some v =>
      if ∀ x ∈ xs, x.length = sz then do
        let r ← v.assignX sz X c.st xs.length (.val xs.flatten)
        pure (c.changed i r)
      else pure (.returned c)
    | none => pure (.returned c)
  | .assignFrom i j a n =>
    match c.vs[i]?, c.vs[j]? with
    | some v, some o =>
      if i ≠ j ∧ a + n ≤ o.size sz then do
        let r ← v.assignX sz X c.st n (.ref (o.beg + a * sz))
        pure (c.changed i r)
      else pure (.returned c)
    | _, _ => pure (.returned c)
  | o => do
    let c' ← c.step sz o
    pure (.returned c')

/-- A program that catches all exceptions and goes on, and what became of its calls. Specification, not code. -/
structure XArrs (X : XAlloc) where
  c : Arrs X.toA
  /-- the calls that returned -/
  did : List ArrOp := []
  /-- the calls that threw -/
  threw : List ArrOp := []
  /-- the program has been ended by an exception out of a `noexcept` function -/
  over : Bool := false

/-- One call and its `catch`. Specification, not code. -/
def XArrs.step (sz : Nat) {X : XAlloc} (p : XArrs X) (o : ArrOp) : M (XArrs X) := do
  match ← p.c.stepX sz o with
  | .returned c => pure { p with c := c, did := p.did ++ [o] }
  | .threw c => pure { p with c := c, threw := p.threw ++ [o] }
  | .ended => pure { p with over := true }

/-- The whole program. Specification, not code. -/
def XArrs.run (sz : Nat) {X : XAlloc} (p : XArrs X) : List ArrOp → M (XArrs X)
  | [] => pure p
  | o :: os => if p.over then pure p else do
    let p' ← p.step sz o
    p'.run sz os

/-- Construct the allocator object at `b`, then run the program; `none` if already the allocator cannot be constructed. Specification, not
code. -/
def xaplay (sz : Nat) (X : XAlloc) (b : Nat) (ops : List ArrOp) : M (Option (XArrs X)) := do
  match ← X.init b with
  | none => pure none
  | some s => do
    let p ← XArrs.run sz { c := { st := s, vs := [] } } ops
    pure (some p)

/-- The same, and at the end the arrays and the allocator are destroyed, unless the program is over before. Specification, not code. -/
def xalife (sz : Nat) (X : XAlloc) (b : Nat) (ops : List ArrOp) : M Unit := do
  match ← xaplay sz X b ops with
  | none => pure ()
  | some p => if p.over then pure () else do
    let s ← Arrs.destroyAll sz p.c.st p.c.vs
    X.fini s

end KTL
