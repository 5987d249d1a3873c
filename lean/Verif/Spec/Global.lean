import Verif.Spec.Moving
import Verif.Alloc.Handles

/- `global<Alloc>` with `set_allocator`, and programs that use it together with allocator objects of their own. -/
namespace KTL

/-- `allocators/global.h:102-105` `set_allocator(Alloc&& value)`: `s_Alloc = std::move(value)`. The static object and the argument have
the fields `g.obj` and `s`; the result is what both have afterwards. -/
def Globals.setAllocator {A : Allocator} (m : Moves A) (g : Globals A) (s : A.St) : M (Globals A × A.St) := do
  let r ← m.assign g.obj s
  pure (⟨r.1, g.instances⟩, r.2)

/-- `set_allocator(std::move(get_allocator()))` (`allocators/global.h:102-110`): `s_Alloc = std::move(s_Alloc)`. -/
def Globals.setSelf {A : Allocator} (m : Moves A) (g : Globals A) : M (Globals A) := do
  let r ← m.self g.obj
  pure ⟨r, g.instances⟩

/-- `Alloc a(std::move(instance.get_allocator()))` (`allocators/global.h:107-110`), an object at address `a`. -/
def Globals.take {A : Allocator} (m : Moves A) (g : Globals A) (a : Nat) : M (A.St × Globals A) := do
  let r ← m.ctor a g.obj
  pure (r.1, ⟨r.2, g.instances⟩)

/-- What a program can do (specification: this models the client). -/
inductive GlOp where
  /-- another `global<Alloc>` object: default construction, copy or move (`allocators/global.h:26-30`), none of which does anything -/
  | instance
  /-- a `global<Alloc>` object goes out of scope -/
  | drop
  /-- use the allocator through instance `i` -/
  | call (i : Nat) (o : Op)
  /-- `instance_i.set_allocator(std::move(local_j))` -/
  | set (i j : Nat)
  /-- `instance_i.set_allocator(std::move(instance_k.get_allocator()))` -/
  | setSelf (i k : Nat)
  /-- `Alloc local_j(std::move(instance_i.get_allocator()))` -/
  | take (i j : Nat)
  /-- something with the allocator objects of the program -/
  | local (o : MvOp)

/-- The state of a program: where the static object is, the instances, the blocks obtained through any of them (with the bytes the client
expects there), blocks other parties got from `malloc`, and the allocator objects of the program. Specification, not code. -/
structure GlProg (A : Allocator) where
  addr : Nat
  g : Globals A
  live : List (Nat × List UInt8) := []
  foreign : List (Nat × List UInt8) := []
  locals : List (MvObj A)

/-- One step. As in `MvOp.step`, steps that make no sense or are not permitted do nothing: replacing the static object while the client
holds blocks obtained from it, moving from an object while the client holds blocks that do not move along. Blocks that move along
belong to the target afterwards. Specification, not code. -/
def GlOp.step (sys : Sys) {A : Allocator} (m : Moves A) (p : GlProg A) : GlOp → M (GlProg A)
  | .instance => pure { p with g := ⟨p.g.obj, p.g.instances + 1⟩ }
  | .drop => pure { p with g := ⟨p.g.obj, p.g.instances - 1⟩ }
  | .call i o =>
    if i < p.g.instances then do
      let c ← Client.step sys (A := A) { st := p.g.obj, live := p.live, foreign := p.foreign } o
      pure { p with g := ⟨c.st, p.g.instances⟩, live := c.live, foreign := c.foreign }
    else pure p
  | .set i j =>
    match p.locals[j]? with
    | some ⟨b, some s, L, S⟩ =>
      if i < p.g.instances ∧ p.live = [] ∧ m.ready s = true ∧ (L = [] ∨ m.carries = true) then do
        let r ← p.g.setAllocator m s
        pure { p with g := r.1, live := L, locals := p.locals.set j ⟨b, some r.2, [], S⟩ }
      else pure p
    | _ => pure p
  | .setSelf i k =>
    if i < p.g.instances ∧ k < p.g.instances ∧ (p.live = [] ∨ m.keeps = true) then do
      let r ← p.g.setSelf m
      pure { p with g := r }
    else pure p
  | .take i j =>
    match p.locals[j]? with
    | some ⟨a, none, _, R⟩ =>
      if i < p.g.instances ∧ m.ready p.g.obj = true ∧ (p.live = [] ∨ m.carries = true) then do
        let r ← p.g.take m a
        pure { p with g := r.2, live := [], locals := p.locals.set j ⟨a, some r.1, p.live, R⟩ }
      else pure p
    | _ => pure p
  | .local o => do
    let locals ← o.step sys m p.locals
    pure { p with locals := locals }

/-- Steps one after the other. Specification, not code. -/
def glrun (sys : Sys) {A : Allocator} (m : Moves A) (p : GlProg A) : List GlOp → M (GlProg A)
  | [] => pure p
  | o :: os => do
    let p' ← o.step sys m p
    glrun sys m p' os

/-- A program up to some point: the static object at address `a` is constructed first (`allocators/global.h:118`,
`static inline Alloc s_Alloc{}`); there are places for allocator objects at the addresses `bs`, and no instances yet. -/
def glplay (sys : Sys) {A : Allocator} (m : Moves A) (a : Nat) (bs : List Nat) (ops : List GlOp) : M (GlProg A) := do
  let s ← A.init a
  glrun sys m ⟨a, ⟨s, 0⟩, [], [], bs.map fun b => ⟨b, none, [], []⟩⟩ ops

/-- A program with its end, where the static object is destroyed. -/
def glexit (sys : Sys) {A : Allocator} (m : Moves A) (a : Nat) (bs : List Nat) (ops : List GlOp) : M (GlProg A) := do
  let p ← glplay sys m a bs ops
  A.fini p.g.obj
  pure p

end KTL
