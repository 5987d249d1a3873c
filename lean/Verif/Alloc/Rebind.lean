import Verif.Alloc.Copy
import Verif.Alloc.Handles

/- `type_allocator` objects of different element types over one underlying allocator: copies, moves and conversions
(`rebind`), as the containers of the standard library make them. -/
namespace KTL

/-- What a program can do with the typed allocators it has. Indices refer to the list of typed allocators, or to the list of live blocks;
steps with an invalid index do nothing. Not modelled: assignment. Specification, not code. -/
inductive ROp where
  /-- copy constructor `allocators/type_allocator.h:60` -/
  | copy (i : Nat)
  /-- move constructor `allocators/type_allocator.h:65-67` -/
  | move (i : Nat)
  /-- conversion to an allocator of another type, whose objects have `sz` bytes, `allocators/type_allocator.h:69-80` -/
  | rebind (i sz : Nat)
  /-- destructor, if there is another typed allocator -/
  | drop (i : Nat)
  /-- `allocate(n)` of the `i`-th one -/
  | allocate (i n : Nat)
  /-- `deallocate(p, n)` of the `i`-th one with the `k`-th live block, which must be one of objects of the same type -/
  | deallocate (i k : Nat)
  /-- store a byte in the `k`-th live block -/
  | write (k off : Nat) (v : UInt8)
  deriving DecidableEq, Repr

/-- A block: where it is, the size of its objects, how many there are, and the bytes the program expects. Specification, not code. -/
structure TBlock where
  p : Nat
  sz : Nat
  n : Nat
  bytes : List UInt8
  deriving DecidableEq, Repr

/-- The fields of the underlying allocator as the typed allocator used last has left them; the typed allocators: `sizeof(T)` and `m_Alloc`
(`allocators/type_allocator.h:193`); the live blocks. -/
structure Typed (A : Allocator) where
  cur : A.St
  objs : List (Nat × A.St)
  live : List TBlock

/-- One step. All constructors copy `m_Alloc` (`m_Alloc(other.m_Alloc)`), also those that take an rvalue: the source stays as it is. -/
def Typed.step (sys : Sys) (t : AllocTy) (c : Typed (t.denote sys)) : ROp → M (Typed (t.denote sys))
  | .copy i =>
    match c.objs[i]? with
    | none => pure c
    | some x => pure { c with objs := c.objs ++ [(x.1, t.sync sys c.cur x.2)] }
  | .move i =>
    match c.objs[i]? with
    | none => pure c
    | some x => pure { c with objs := c.objs ++ [(x.1, t.sync sys c.cur x.2)] }
  | .rebind i sz =>
    match c.objs[i]? with
    | none => pure c
    | some x => pure { c with objs := c.objs ++ [(sz, t.sync sys c.cur x.2)] }
  | .drop i => pure (if 1 < c.objs.length then { c with objs := c.objs.eraseIdx i } else c)
  | .allocate i n =>
    match c.objs[i]? with
    | none => pure c
    | some x => do
      let r ← typedAlloc x.1 (t.denote sys) (t.sync sys c.cur x.2) n
      if r.1 = 0 then pure { c with cur := r.2, objs := c.objs.set i (x.1, r.2) }
      else do
        let bs ← M.readBytes r.1 (x.1 * n)
        pure ⟨r.2, c.objs.set i (x.1, r.2), ⟨r.1, x.1, n, bs⟩ :: c.live⟩
  | .deallocate i k =>
    match c.objs[i]?, c.live[k]? with
    | some x, some y =>
      if x.1 = y.sz then do
        let s ← typedDealloc x.1 (t.denote sys) (t.sync sys c.cur x.2) y.p y.n
        pure ⟨s, c.objs.set i (x.1, s), c.live.eraseIdx k⟩
      else pure c
    | _, _ => pure c
  | .write k off v =>
    match c.live[k]? with
    | none => pure c
    | some y =>
      if off < y.bytes.length then do
        M.store (y.p + off) v
        pure { c with live := c.live.set k { y with bytes := y.bytes.set off v } }
      else pure c

/-- Specification, not code. -/
def Typed.run (sys : Sys) (t : AllocTy) (c : Typed (t.denote sys)) : List ROp → M (Typed (t.denote sys))
  | [] => pure c
  | o :: os => do
    let c' ← c.step sys t o
    c'.run sys t os

/-- Construct `type_allocator<T, Alloc>` at address `b`, with `sizeof(T) = sz`, and use it. `allocators/type_allocator.h:48-58`. -/
def playTyped (sys : Sys) (t : AllocTy) (b sz : Nat) (ops : List ROp) : M (Typed (t.denote sys)) := do
  let s ← (t.denote sys).init b
  Typed.run sys t ⟨s, [(sz, s)], []⟩ ops

end KTL
