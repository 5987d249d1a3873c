import Verif.Base.Machine

/- `shared<Alloc>`: the reference counted handles. Calls of the underlying allocator are forwarded
(`allocators/shared.h:131-179`); here they are events `use b`. A block gets an identity that is never
reused, so that an access to a deleted block is always noticed (real addresses may be reused). -/
namespace KTL

/-- What happens to the block that holds the allocator and the counter. Specification, not code. -/
inductive BEv where
  | create (b : Nat)
  | use (b : Nat)
  | delete (b : Nat)
  deriving DecidableEq, Repr

/-- `counts b`: the counter in block `b`, or `none` if there is no such block (any more); `next`: identity of
the next block; `ptrs`: the handles, `none` for a null pointer; `log`: what happened to blocks so far.
`allocators/shared.h:46-58, 209`. -/
structure Shared where
  counts : Nat → Option Nat
  next : Nat
  ptrs : List (Option Nat)
  log : List BEv

/-- a program start: no handles, no blocks. Specification, not code. -/
def Shared.empty : Shared := ⟨fun _ => none, 0, [], []⟩

/-- Proof helper, not code. -/
def Shared.setCount (s : Shared) (b : Nat) (c : Option Nat) : Shared :=
  { s with counts := fun x => if x = b then c else s.counts x }

/-- `allocators/shared.h:192-197` `increment`; `none` = undefined behaviour (the block is gone).
`UseCount` counts handles that exist, so it is modelled without wrap-around. -/
def Shared.increment (s : Shared) : Option Nat → Option Shared
  | none => some s
  | some b =>
    match s.counts b with
    | none => none
    | some c => some (s.setCount b (some (c + 1)))

/-- `allocators/shared.h:199-206` `decrement`: `fetch_sub` returned 1 means the block is deleted. -/
def Shared.decrement (s : Shared) : Option Nat → Option Shared
  | none => some s
  | some b =>
    match s.counts b with
    | none => none
    | some c => if c = 1 then some { s.setCount b none with log := s.log ++ [.delete b] } else some (s.setCount b (some (c - 1)))

/-- What a program does with `shared` handles; numbers are positions in the list of handles.
`allocators/shared.h:63-189`. -/
inductive SOp where
  /-- `shared()` and the forwarding constructor, `allocators/shared.h:63-76` -/
  | create
  /-- `shared(const shared&)`, `:78-82` -/
  | copy (i : Nat)
  /-- `shared(shared&&)`, `:84-88` -/
  | move (i : Nat)
  /-- `h_i = h_j`, `:95-105` -/
  | assign (i j : Nat)
  /-- `h_i = std::move(h_j)`, `:107-117` -/
  | moveAssign (i j : Nat)
  /-- `~shared()`, `:90-93` -/
  | drop (i : Nat)
  /-- any forwarded call, `:131-189` -/
  | use (i : Nat)
  deriving DecidableEq, Repr

/-- One step; a position without a handle is a no-op (there is no such object), and so is a call through a
null handle (the program's own mistake). `allocators/shared.h:63-189`, see `SOp`. -/
def Shared.step (s : Shared) : SOp → Option Shared
  | .create => some ⟨fun x => if x = s.next then some 1 else s.counts x, s.next + 1, s.ptrs ++ [some s.next], s.log ++ [.create s.next]⟩
  | .copy i =>
    match s.ptrs[i]? with
    | none => some s
    | some p => Shared.increment { s with ptrs := s.ptrs ++ [p] } p
  | .move i =>
    match s.ptrs[i]? with
    | none => some s
    | some p => some { s with ptrs := s.ptrs.set i none ++ [p] }
  | .assign i j =>
    match s.ptrs[i]?, s.ptrs[j]? with
    | some p, some q => do
      let s1 ← s.decrement p
      -- `m_Block = rhs.m_Block`; if `i = j` this is `p` itself
      let s2 := { s1 with ptrs := s1.ptrs.set i q }
      s2.increment q
    | _, _ => some s
  | .moveAssign i j =>
    match s.ptrs[i]?, s.ptrs[j]? with
    | some p, some q => do
      let s1 ← s.decrement p
      some { s1 with ptrs := (s1.ptrs.set i q).set j none }
    | _, _ => some s
  | .drop i =>
    match s.ptrs[i]? with
    | none => some s
    | some p => do
      let s1 ← s.decrement p
      some { s1 with ptrs := s1.ptrs.eraseIdx i }
  | .use i =>
    match s.ptrs[i]? with
    | some (some b) =>
      match s.counts b with
      | none => none
      | some _ => some { s with log := s.log ++ [.use b] }
    | _ => some s

/-- Specification, not code. -/
def Shared.run (s : Shared) : List SOp → Option Shared
  | [] => some s
  | o :: os => do
    let s' ← s.step o
    s'.run os

end KTL
