import Verif.Alloc.Ty

/- The allocators as they are compiled with `KTL_DEBUG_ASSERT`: the same functions with the assertions in
`deallocate`, `construct`, `destroy` and in the destructor of `cascading` switched on. -/
namespace KTL

/-- `KTL_ASSERT(x)` with `KTL_DEBUG_ASSERT` (`utility/assert.h:14-15`): stop the program if `x` does not hold. A
failing assertion is the same outcome as undefined behaviour (`std::raise(SIGTRAP)` ends the program). -/
def M.assert (c : Bool) : M Unit := if c then pure () else M.ub

/-- The functions of an allocator that give memory back. Groups `deallocate` and the destructors of `allocators/*.h`. -/
structure Freeing (σ : Type) where
  dealloc : σ → Nat → Nat → M σ
  fini : σ → M Unit

/-- The functions of an allocator that make and destroy objects. Groups `construct` and `destroy` of `allocators/*.h`. -/
structure Building (σ : Type) where
  construct : Option (σ → Nat → M σ)
  destroy : Option (σ → Nat → M σ)

/-- the same class with other `deallocate` and destructor. Composition only, no code of its own
(`utility/assert.h:14-18`: the two builds differ in function bodies only). -/
@[reducible] def Allocator.withFreeing (A : Allocator) (o : Freeing A.St) : Allocator :=
  { A with dealloc := o.dealloc, fini := o.fini }

/-- the same class with other `construct` and `destroy`. Composition only, no code of its own
(`utility/assert.h:14-18`: the two builds differ in function bodies only). -/
@[reducible] def Allocator.withBuilding (A : Allocator) (o : Building A.St) : Allocator :=
  { A with construct := o.construct, destroy := o.destroy }

/-- the functions of a class without further assertions. Composition only, no code of its own
(`utility/assert.h:17`). -/
@[reducible] def Allocator.freeing (A : Allocator) : Freeing A.St := ⟨A.dealloc, A.fini⟩

/-- the functions of a class without further assertions. Composition only, no code of its own
(`utility/assert.h:17`). -/
@[reducible] def Allocator.building (A : Allocator) : Building A.St := ⟨A.construct, A.destroy⟩

/-- `deallocate` begins with `KTL_ASSERT(p != nullptr)`: `allocators/linear_allocator.h:98`,
`allocators/freelist.h:139`, `allocators/cascading.h:138`, `allocators/overflow.h:129`. -/
@[reducible] def Allocator.notNull (A : Allocator) : Freeing A.St where
  dealloc s p n := do
    M.assert (p != 0)
    A.dealloc s p n
  fini := A.fini

namespace Cascading

/-- `allocators/cascading.h:264-281` `release`, with `KTL_ASSERT(next == m_Node)` (`:273`): `front` = this node is the
first one. -/
def releaseD (sys : Sys) (A : Allocator) (front : Bool) : List (Node A.St) → M Unit
  | [] => pure ()
  | nd :: rest => do
    M.assert front
    alignedDelete sys nd.addr (A.fini nd.st)
    releaseD sys A false rest

/-- `allocators/cascading.h:174-225` `construct`/`destroy`, with the `KTL_ASSERT(false)` of `:193` and `:222` when no
node owns the location. -/
def routeGoD (A : Allocator) (c : A.St → Nat → M A.St) (ev : Nat → Ev) (p : Nat) :
    List (Node A.St) → M (List (Node A.St))
  | [] => do
    M.assert false
    M.event (ev p)
    pure []
  | nd :: rest =>
    if A.ownsD nd.st p then do
      let st ← c nd.st p
      pure (⟨nd.addr, st, nd.cnt⟩ :: rest)
    else do
      let rest' ← routeGoD A c ev p rest
      pure (nd :: rest')

end Cascading

namespace AllocTy

/-- `deallocate` and the destructor of a composed allocator with assertions. Each class calls those of its parts.
`allocators/null_allocator.h:42` asserts that only the null pointer is given back; `allocators/mallocator.h`,
`allocators/stack_allocator.h`, `allocators/fallback.h`, `allocators/segragator.h`, `allocators/threaded.h`,
`allocators/shared.h` and `allocators/reference.h` have no assertions of their own; the others see
`Allocator.notNull` and `Cascading.releaseD`. -/
def freeing (sys : Sys) : (t : AllocTy) → Freeing (t.denote sys).St
  | null => ⟨fun s p n => do
      M.assert (p == 0)
      nullAlloc.dealloc s p n, nullAlloc.fini⟩
  | mallocator => (KTL.mallocator sys).freeing
  | linear S => (KTL.linear S).notNull
  | stack S => (stackAlloc S).freeing
  | freelist m M A => (KTL.freelist m M ((A.denote sys).withFreeing (A.freeing sys))).notNull
  | fallback P F =>
    (KTL.fallback ((P.denote sys).withFreeing (P.freeing sys)) ((F.denote sys).withFreeing (F.freeing sys))).freeing
  | segragator T P F =>
    (KTL.segragator T ((P.denote sys).withFreeing (P.freeing sys)) ((F.denote sys).withFreeing (F.freeing sys))).freeing
  | cascading A =>
    ⟨(KTL.cascading sys ((A.denote sys).withFreeing (A.freeing sys))).notNull.dealloc,
      Cascading.releaseD sys ((A.denote sys).withFreeing (A.freeing sys)) true⟩
  | overflow A => (KTL.overflow ((A.denote sys).withFreeing (A.freeing sys))).notNull
  | threaded A => (KTL.threaded ((A.denote sys).withFreeing (A.freeing sys))).freeing
  | shared A => (KTL.sharedAlloc sys ((A.denote sys).withFreeing (A.freeing sys))).freeing
  | reference A => (KTL.reference ((A.denote sys).withFreeing (A.freeing sys))).freeing

/-- `construct` and `destroy` of a composed allocator with assertions; only `cascading` has any
(`allocators/cascading.h:193`, `:222`). Each class calls those of its parts. -/
def building (sys : Sys) : (t : AllocTy) → Building (t.denote sys).St
  | null => nullAlloc.building
  | mallocator => (KTL.mallocator sys).building
  | linear S => (KTL.linear S).building
  | stack S => (stackAlloc S).building
  | freelist m M A => (KTL.freelist m M ((A.denote sys).withBuilding (A.building sys))).building
  | fallback P F =>
    (KTL.fallback ((P.denote sys).withBuilding (P.building sys)) ((F.denote sys).withBuilding (F.building sys))).building
  | segragator T P F =>
    (KTL.segragator T ((P.denote sys).withBuilding (P.building sys)) ((F.denote sys).withBuilding (F.building sys))).building
  | cascading A =>
    ⟨(A.building sys).construct.map fun c s p => Cascading.routeGoD (A.denote sys) c .ctor p s,
      (A.building sys).destroy.map fun c s p => Cascading.routeGoD (A.denote sys) c .dtor p s⟩
  | overflow A => (KTL.overflow ((A.denote sys).withBuilding (A.building sys))).building
  | threaded A => (KTL.threaded ((A.denote sys).withBuilding (A.building sys))).building
  | shared A => (KTL.sharedAlloc sys ((A.denote sys).withBuilding (A.building sys))).building
  | reference A => (KTL.reference ((A.denote sys).withBuilding (A.building sys))).building

/-- The class a type expression denotes in a build with `KTL_DEBUG_ASSERT` (`utility/assert.h:14-15`): that of
`denote` with the assertions of `freeing` and `building`. -/
def debug (sys : Sys) (t : AllocTy) : Allocator :=
  ((t.denote sys).withFreeing (t.freeing sys)).withBuilding (t.building sys)

end AllocTy
end KTL
