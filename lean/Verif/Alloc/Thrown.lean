import Verif.Alloc.Ty
import Verif.Base.Post

/- Allocators of a user that report failure with an exception, and the library's allocators built on top of them. Nothing in the library
catches an exception: it leaves the function, and what the function did before stays done.

Simplified: `deallocate`, `destroy`, `owns`, `max_size` and destructors do not throw (for `std::terminate` see C77); the mutex of
`threaded` does not throw. -/
namespace KTL

/-- An allocator class whose functions may throw. As `Allocator`; `init` is `none` if the constructor throws, `alloc` is `none` if
`allocate` throws, with the fields as they are when the exception leaves the function, and the last argument of `construct` says whether
the constructor of the object throws. Specification, not code. -/
structure XAlloc where
  St : Type
  objSize : Nat
  init : Nat → M (Option St)
  alloc : St → Nat → M (Option Nat × St)
  dealloc : St → Nat → Nat → M St
  owns : Option (St → Nat → Bool)
  maxSize : Option (St → Option Nat)
  construct : Option (St → Nat → Bool → M St)
  destroy : Option (St → Nat → M St)
  fini : St → M Unit

namespace XAlloc

/-- the end of the program. Proof helper, not code. -/
def stop {α : Type} : M α := fun w => .oom { w with failed := true }

/-- The class as seen by somebody who does not tell exceptions from null pointers, and stops if the constructor throws. Proof helper, not
code. -/
@[reducible] def toA (X : XAlloc) : Allocator where
  St := X.St
  objSize := X.objSize
  init b := do
    match ← X.init b with
    | some s => pure s
    | none => stop
  alloc s n := do
    let r ← X.alloc s n
    pure (r.1.getD 0, r.2)
  dealloc := X.dealloc
  owns := X.owns
  maxSize := X.maxSize
  construct := X.construct.map fun c s p => c s p false
  destroy := X.destroy
  fini := X.fini

/-- The constructor never throws. Specification, not code. -/
def CtorQuiet (X : XAlloc) : Prop := ∀ b w w', X.init b w ≠ .ok none w'

end XAlloc

/-- A class that never throws: the leaves of the library (`allocators/null_allocator.h:14-51`, `allocators/mallocator.h:12-49`,
`allocators/linear_allocator.h:14-107`, `allocators/stack_allocator.h:27-114`); they have no `construct`. -/
def Allocator.toX (A : Allocator) : XAlloc where
  St := A.St
  objSize := A.objSize
  init b := do
    let s ← A.init b
    pure (some s)
  alloc s n := do
    let r ← A.alloc s n
    pure (some r.1, r.2)
  dealloc := A.dealloc
  owns := A.owns
  maxSize := A.maxSize
  construct := A.construct.map fun c s p _ => c s p
  destroy := A.destroy
  fini := A.fini

/-- `freelist<Min, Max, Alloc>`: constructor `allocators/freelist.h:40-44`, `allocate` `allocators/freelist.h:113-129` (an exception of
`m_Alloc.allocate` comes before any change), `construct` `allocators/freelist.h:158-164`; the rest as `freelist`. -/
def xfreelist (Min Max : Nat) (X : XAlloc) : XAlloc where
  St := Freelist.St X.St
  objSize := X.objSize + 16
  init b := do
    match ← X.init b with
    | none => pure none
    | some a => pure (some ⟨a, 0⟩)
  alloc s n :=
    if n > Min ∧ n ≤ Max then
      if s.free ≠ 0 then do
        let nx ← M.readPtr s.free
        pure (some s.free, ⟨s.a, nx⟩)
      else do
        let r ← X.alloc s.a Max
        pure (r.1, ⟨r.2, s.free⟩)
    else pure (some 0, s)
  dealloc := (freelist Min Max X.toA).dealloc
  owns := (freelist Min Max X.toA).owns
  maxSize := (freelist Min Max X.toA).maxSize
  construct := X.construct.map fun c s p thr => do
    let a ← c s.a p thr
    pure ⟨a, s.free⟩
  destroy := (freelist Min Max X.toA).destroy
  fini := (freelist Min Max X.toA).fini

/-- Constructor of the two-way allocators: if the second member throws, the first is destroyed. `allocators/fallback.h:206-207`,
`allocators/segragator.h:200-201`. -/
def xinit2 (P F : XAlloc) (a : Nat) : M (Option (P.St × F.St)) := do
  match ← P.init a with
  | none => pure none
  | some s1 =>
    match ← F.init (a + P.objSize) with
    | none => do
      P.fini s1
      pure none
    | some s2 => pure (some (s1, s2))

/-- `construct` of the two-way allocators (`allocators/fallback.h:123-151`, `allocators/segragator.h:117-145`), as `route2`; the object is
only there if its constructor returns. -/
def xroute2 (P F : XAlloc) : Option (P.St × F.St → Nat → Bool → M (P.St × F.St)) :=
  if P.construct.isSome || F.construct.isSome then
    some fun s p thr =>
      let owned := P.toA.ownsD s.1 p
      match owned, P.construct, F.construct with
      | true, some c, _ => do
        let s1 ← c s.1 p thr
        pure (s1, s.2)
      | false, _, some c => do
        let s2 ← c s.2 p thr
        pure (s.1, s2)
      | _, _, _ => do
        M.ifThen (thr = false) (M.event (.ctor p))
        pure s
  else none

/-- `fallback<P, F>`: `allocate` `allocators/fallback.h:100-107`: an exception of the primary is not caught, the second allocator is not
tried; the rest as `fallback`. -/
def xfallback (P F : XAlloc) : XAlloc where
  St := P.St × F.St
  objSize := P.objSize + F.objSize
  init := xinit2 P F
  alloc s n := do
    let r ← P.alloc s.1 n
    match r.1 with
    | none => pure (none, (r.2, s.2))
    | some p =>
      if p = 0 then do
        let q ← F.alloc s.2 n
        pure (q.1, (r.2, q.2))
      else pure (some p, (r.2, s.2))
  dealloc := (fallback P.toA F.toA).dealloc
  owns := (fallback P.toA F.toA).owns
  maxSize := (fallback P.toA F.toA).maxSize
  construct := xroute2 P F
  destroy := (fallback P.toA F.toA).destroy
  fini := (fallback P.toA F.toA).fini

/-- `segragator<T, P, F>`: `allocate` `allocators/segragator.h:97-104`; the rest as `segragator`. -/
def xsegragator (T : Nat) (P F : XAlloc) : XAlloc where
  St := P.St × F.St
  objSize := P.objSize + F.objSize
  init := xinit2 P F
  alloc s n :=
    if n ≤ T then do
      let r ← P.alloc s.1 n
      pure (r.1, (r.2, s.2))
    else do
      let q ← F.alloc s.2 n
      pure (q.1, (s.1, q.2))
  dealloc := (segragator T P.toA F.toA).dealloc
  owns := (segragator T P.toA F.toA).owns
  maxSize := (segragator T P.toA F.toA).maxSize
  construct := xroute2 P F
  destroy := (segragator T P.toA F.toA).destroy
  fini := (segragator T P.toA F.toA).fini

/-- `detail::aligned_new`: if the constructor throws, the memory it got is not given back. `utility/aligned_malloc.h:88-95`. -/
def xalignedNew {α} (sys : Sys) (size : Nat) (ctor : Nat → M (Option α)) : M (Option (Nat × α)) := do
  let p ← alignedMalloc sys size
  if p = 0 then M.nullDeref
  else do
    match ← ctor p with
    | none => pure none
    | some a => pure (some (p, a))

namespace Cascading

/-- `detail::aligned_new<node>(ALIGNMENT)`. Used in `allocators/cascading.h:100` and `:115`. -/
def xnewNode (sys : Sys) (X : XAlloc) : M (Option (Node X.St)) := do
  match ← xalignedNew sys (nodeSize X.toA) X.init with
  | none => pure none
  | some r => pure (some ⟨r.1, r.2, 0⟩)

/-- `allocators/cascading.h:98-100` -/
def xensure (sys : Sys) (X : XAlloc) (s : List (Node X.St)) : M (Option (List (Node X.St))) :=
  match s with
  | [] => do
    match ← xnewNode sys X with
    | none => pure none
    | some nd => pure (some [nd])
  | _ => pure (some s)

/-- `allocators/cascading.h:108-124`: if the `allocate` of the front node throws, no node is added; if that of the new node throws, the node
stays, with no allocations. -/
def xallocFront (sys : Sys) (X : XAlloc) (nd : Node X.St) (rest : List (Node X.St)) (n : Nat) :
    M (Option Nat × List (Node X.St)) := do
  let r ← X.alloc nd.st n
  match r.1 with
  | none => pure (none, ⟨nd.addr, r.2, nd.cnt⟩ :: rest)
  | some p =>
    if p = 0 then do
      match ← xnewNode sys X with
      | none => pure (none, ⟨nd.addr, r.2, nd.cnt⟩ :: rest)
      | some nd2 => do
        let q ← X.alloc nd2.st n
        pure (q.1, ⟨nd2.addr, q.2, if q.1.getD 0 ≠ 0 then nd2.cnt + 1 else nd2.cnt⟩ :: ⟨nd.addr, r.2, nd.cnt⟩ :: rest)
    else pure (some p, ⟨nd.addr, r.2, nd.cnt + 1⟩ :: rest)

/-- `allocators/cascading.h:93-125` `allocate` -/
def xalloc (sys : Sys) (X : XAlloc) (s : List (Node X.St)) (n : Nat) : M (Option Nat × List (Node X.St)) := do
  match ← xensure sys X s with
  | none => pure (none, s)
  | some [] => M.ub
  | some (nd :: rest) =>
    match X.maxSize with
    | none => xallocFront sys X nd rest n
    | some f =>
      match f nd.st with
      | none => M.ub
      | some m => if n > m then pure (some 0, nd :: rest) else xallocFront sys X nd rest n

/-- `allocators/cascading.h:174-196` `construct`, as `routeGo` -/
def xrouteGo (X : XAlloc) (c : X.St → Nat → Bool → M X.St) (p : Nat) (thr : Bool) : List (Node X.St) → M (List (Node X.St))
  | [] => do
    M.ifThen (thr = false) (M.event (.ctor p))
    pure []
  | nd :: rest =>
    if X.toA.ownsD nd.st p then do
      let st ← c nd.st p thr
      pure (⟨nd.addr, st, nd.cnt⟩ :: rest)
    else do
      let rest' ← xrouteGo X c p thr rest
      pure (nd :: rest')

end Cascading

/-- `cascading<Alloc>`: `allocate` `allocators/cascading.h:93-125`; the constructor (`allocators/cascading.h:45-46`) creates no node; the
rest as `cascading`. -/
def xcascading (sys : Sys) (X : XAlloc) : XAlloc where
  St := List (Cascading.Node X.St)
  objSize := 16
  init _ := pure (some [])
  alloc s n := Cascading.xalloc sys X s n
  dealloc := (cascading sys X.toA).dealloc
  owns := (cascading sys X.toA).owns
  maxSize := (cascading sys X.toA).maxSize
  construct := X.construct.map fun c s p thr => Cascading.xrouteGo X c p thr s
  destroy := (cascading sys X.toA).destroy
  fini := (cascading sys X.toA).fini

open Overflow in
/-- `overflow<Alloc>`: `allocate` `allocators/overflow.h:104-119`: the bytes are counted before the call that may throw; `construct`
`allocators/overflow.h:178-189`: so are the objects; constructor `allocators/overflow.h:35-40`; the rest as `overflow`. -/
def xoverflow (X : XAlloc) : XAlloc where
  St := Overflow.St X.St
  objSize := X.objSize + 32
  init b := do
    match ← X.init b with
    | none => pure none
    | some a => pure (some ⟨a, 0, 0⟩)
  alloc s n := do
    let allocs := wrap64 (s.allocs + n)
    let r ← X.alloc s.a (addW n 128)
    match r.1 with
    | none => pure (none, ⟨r.2, allocs, s.constructs⟩)
    | some p =>
      if p = 0 then pure (some 0, ⟨r.2, allocs, s.constructs⟩)
      else do
        M.writeBytes p (List.replicate 64 pattern)
        M.writeBytes (p + 64 + n) (List.replicate 64 pattern)
        pure (some (p + 64), ⟨r.2, allocs, s.constructs⟩)
  dealloc := (overflow X.toA).dealloc
  owns := (overflow X.toA).owns
  maxSize := (overflow X.toA).maxSize
  construct := some fun s p thr =>
    match X.construct with
    | some c => do
      let a ← c s.a p thr
      pure ⟨a, s.allocs, s.constructs + 1⟩
    | none => do
      M.ifThen (thr = false) (M.event (.ctor p))
      pure ⟨s.a, s.allocs, s.constructs + 1⟩
  destroy := (overflow X.toA).destroy
  fini := (overflow X.toA).fini

/-- `threaded<Alloc>` (`allocators/threaded.h:61-116`; one thread: the lock guard gives the lock back when an exception leaves), as
`threaded` -/
def xthreaded (X : XAlloc) : XAlloc := { X with objSize := X.objSize + 48 }

/-- `shared<Alloc>` with a single handle (`allocators/shared.h:46-58, 63-76, 131-189`), as `sharedAlloc` -/
def xshared (sys : Sys) (X : XAlloc) : XAlloc where
  St := Nat × X.St
  objSize := 16
  init _ := xalignedNew sys (Cascading.nodeSize X.toA) X.init
  alloc s n := do
    let r ← X.alloc s.2 n
    pure (r.1, (s.1, r.2))
  dealloc := (sharedAlloc sys X.toA).dealloc
  owns := (sharedAlloc sys X.toA).owns
  maxSize := (sharedAlloc sys X.toA).maxSize
  construct := X.construct.map fun c s p thr => do
    let a ← c s.2 p thr
    pure (s.1, a)
  destroy := (sharedAlloc sys X.toA).destroy
  fini := (sharedAlloc sys X.toA).fini

/-- `reference<Alloc>` with the allocator it refers to (`allocators/reference.h:61-109`), as `reference` -/
def xreference (X : XAlloc) : XAlloc := { X with objSize := X.objSize + 16 }

/-- What a constructor leaves behind: an object, or, if it throws, nothing. Specification, not code. -/
def ended {α : Type} (Q : α → HProp) (R : HProp) : Option α → HProp
  | some s => Q s
  | none => R

/-- The contract of a class that may throw: the contract of C01–C06, where after an exception of `allocate` no block has been handed out;
an exception of the constructor leaves the storage as it was, and one of `construct` does not disturb the allocator. Specification, not
code. -/
structure XSound (X : XAlloc) (Fits : Nat → Prop) where
  sound : Sound X.toA Fits
  init_spec : ∀ b, b ≠ 0 → b % 16 = 0 → b + X.objSize < W64 →
    Triple (bytes b X.objSize) (X.init b) (ended (fun s => sound.Inv b s []) (bytes b X.objSize))
  construct_spec : ∀ c, X.construct = some c → ∀ b s L p thr,
    Triple (sound.Inv b s L) (c s p thr) (fun s' => sound.Inv b s' L)

/-- An allocator written by a user that may throw: any class that satisfies the contract for all sizes but zero. `max_size`, if present,
does not depend on the state. Specification, not code. -/
structure XUser where
  X : XAlloc
  sound : XSound X (fun n => n ≠ 0)
  max : MaxTotal X.toA

/-- Type expressions over the library's allocators and allocators of users that may throw. The class templates of `allocators/*.h`. -/
inductive XTy : Type 1 where
  | null
  | mallocator
  | linear (Size : Nat)
  | stack (Size : Nat)
  | user (U : XUser)
  | freelist (Min Max : Nat) (A : XTy)
  | fallback (P F : XTy)
  | segragator (Threshold : Nat) (P F : XTy)
  | cascading (A : XTy)
  | overflow (A : XTy)
  | threaded (A : XTy)
  | shared (A : XTy)
  | reference (A : XTy)

namespace XTy

/-- The class a type expression denotes. The class templates of `allocators/*.h`. -/
def denote (sys : Sys) : XTy → XAlloc
  | null => nullAlloc.toX
  | mallocator => (KTL.mallocator sys).toX
  | linear S => (KTL.linear S).toX
  | stack S => (stackAlloc S).toX
  | user U => U.X
  | freelist m M A => xfreelist m M (A.denote sys)
  | fallback P F => xfallback (P.denote sys) (F.denote sys)
  | segragator T P F => xsegragator T (P.denote sys) (F.denote sys)
  | cascading A => xcascading sys (A.denote sys)
  | overflow A => xoverflow (A.denote sys)
  | threaded A => xthreaded (A.denote sys)
  | shared A => xshared sys (A.denote sys)
  | reference A => xreference (A.denote sys)

/-- `detail::has_owns_v`. `utility/meta.h:64-71`. -/
def hasOwns : XTy → Bool
  | null => true
  | mallocator => false
  | linear _ => true
  | stack _ => true
  | user U => U.X.owns.isSome
  | freelist _ _ A => A.hasOwns
  | fallback P F => P.hasOwns && F.hasOwns
  | segragator _ P F => P.hasOwns && F.hasOwns
  | cascading _ => true
  | overflow A => A.hasOwns
  | threaded A => A.hasOwns
  | shared A => A.hasOwns
  | reference A => A.hasOwns

/-- `detail::has_max_size_v`. `utility/meta.h:54-61`. -/
def hasMax : XTy → Bool
  | null => false
  | mallocator => false
  | linear _ => true
  | stack _ => true
  | user U => U.X.maxSize.isSome
  | freelist _ _ A => A.hasMax
  | fallback P F => P.hasMax && F.hasMax
  | segragator _ P F => P.hasMax && F.hasMax
  | cascading A => A.hasMax
  | overflow A => A.hasMax
  | threaded A => A.hasMax
  | shared A => A.hasMax
  | reference A => A.hasMax

/-- see `AllocTy.safeMax`. Specification, not code. -/
def safeMax : XTy → Bool
  | null => true
  | mallocator => true
  | linear _ => true
  | stack _ => true
  | user _ => true
  | freelist _ _ A => A.safeMax
  | fallback P F => !(P.hasMax && F.hasMax) || (P.safeMax && F.safeMax)
  | segragator _ P F => !(P.hasMax && F.hasMax) || (P.safeMax && F.safeMax)
  | cascading A => !A.hasMax
  | overflow A => A.safeMax
  | threaded A => A.safeMax
  | shared A => A.safeMax
  | reference A => A.safeMax

/-- `sizeof`, see `AllocTy.size`. Specification, not code. -/
def size : XTy → Nat
  | null => 0
  | mallocator => 0
  | linear S => S + (16 - S % 16) % 16 + 16
  | stack S => S + (16 - S % 16) % 16 + 16
  | user U => U.X.objSize
  | freelist _ _ A => A.size + 16
  | fallback P F => P.size + F.size
  | segragator _ P F => P.size + F.size
  | cascading _ => 16
  | overflow A => A.size + 32
  | threaded A => A.size + 48
  | shared _ => 16
  | reference A => A.size + 16

/-- How far below 2^64 a request must stay so that no size computation wraps, see `AllocTy.margin`. Specification, not code. -/
def margin : XTy → Nat
  | null => 0
  | mallocator => 16
  | linear S => S + 15
  | stack S => S + 15
  | user _ => 0
  | freelist _ M A => M + A.margin
  | fallback P F => P.margin + F.margin
  | segragator _ P F => P.margin + F.margin
  | cascading A => A.margin
  | overflow A => A.margin + 128
  | threaded A => A.margin
  | shared A => A.margin
  | reference A => A.margin

/-- No allocator of a user that is constructed together with the object has a constructor that throws (`cascading` constructs its instances
later). Specification, not code. -/
def QuietCtor : XTy → Prop
  | null | mallocator | linear _ | stack _ => True
  | user U => U.X.CtorQuiet
  | freelist _ _ A | overflow A | threaded A | shared A | reference A => A.QuietCtor
  | fallback P F | segragator _ P F => P.QuietCtor ∧ F.QuietCtor
  | cascading _ => True

/-- Well-formed types, see `AllocTy.WF`; and an allocator below `cascading` or `shared` has a constructor that does not throw (not checked
by the library). `allocators/freelist.h:28`, `allocators/cascading.h:31`, `allocators/fallback.h:27`. -/
def WF : XTy → Prop
  | null => True
  | mallocator => True
  | linear _ => True
  | stack _ => True
  | user _ => True
  | freelist _ M A => A.WF ∧ 8 ≤ M ∧ M + A.margin < W64
  | fallback P F => P.WF ∧ F.WF ∧ P.hasOwns = true
  | segragator _ P F => P.WF ∧ F.WF
  | cascading A => A.WF ∧ A.hasOwns = true ∧ A.safeMax = true ∧ A.size + 32 < W64 ∧ A.QuietCtor
  | overflow A => A.WF
  | threaded A => A.WF
  | shared A => A.WF ∧ A.size + 32 < W64 ∧ A.QuietCtor
  | reference A => A.WF

/-- Request sizes for which the contract is proved. Specification, not code. -/
def fits (plat : Plat) : XTy → Nat → Prop
  | null => fun _ => True
  | mallocator => MallocFits plat
  | linear S => Linear.Fits S
  | stack S => Linear.Fits S
  | user _ => fun n => n ≠ 0
  | freelist m M A => Freelist.Fits m M (A.fits plat)
  | fallback P F => FallbackFits (P.fits plat) (F.fits plat)
  | segragator T P F => SegFits T (P.fits plat) (F.fits plat)
  | cascading A => Cascading.Fits (A.fits plat)
  | overflow A => Overflow.Fits (A.fits plat)
  | threaded A => A.fits plat
  | shared A => A.fits plat
  | reference A => A.fits plat

end XTy

/-! ### The contract -/

/-- A class with other functions. Proof helper, not code. -/
def Allocator.with3 (A : Allocator) (i : Nat → M A.St) (a : A.St → Nat → M (Nat × A.St)) (c : Option (A.St → Nat → M A.St)) : Allocator :=
  { A with init := i, alloc := a, construct := c }

/-- The contract with other functions. Proof helper, not code. -/
def Sound.with3 {A : Allocator} {f : Nat → Prop} (hA : Sound A f) (i : Nat → M A.St) (a : A.St → Nat → M (Nat × A.St))
    (c : Option (A.St → Nat → M A.St))
    (hi : ∀ b, b ≠ 0 → b % 16 = 0 → b + A.objSize < W64 → Triple (bytes b A.objSize) (i b) (fun s => hA.Inv b s []))
    (ha : ∀ b s L n, f n → n < W64 → Triple (hA.Inv b s L) (a s n) (fun r h => (r.1 = 0 ∧ hA.Inv b r.2 L h) ∨
      (Good r.1 n ∧ (hA.Inv b r.2 ((r.1, n) :: L) ∗ bytes r.1 n) h)))
    (hc : ∀ c', c = some c' → ∀ b s L p, Triple (hA.Inv b s L) (c' s p) (fun s' => hA.Inv b s' L)) : Sound (A.with3 i a c) f where
  Inv := hA.Inv
  objAlign := hA.objAlign
  perm := hA.perm
  init_spec := hi
  alloc_spec := ha
  dealloc_local := hA.dealloc_local
  live_good := hA.live_good
  live_max := hA.live_max
  owns_sound := hA.owns_sound
  owns_complete := hA.owns_complete
  construct_spec := hc
  destroy_spec := hA.destroy_spec
  fini_spec := hA.fini_spec

theorem Triple.unmap {α β : Type} {P : HProp} {c : M α} {g : α → β} {Q : β → HProp}
    (h : Triple P (c >>= fun a => Pure.pure (g a)) Q) : Triple P c (fun a => Q (g a)) := by
  intro w s hf hd he hp
  have := h w s hf hd he hp
  rw [M.bind_apply] at this
  cases hc : c w with
  | ok a w' => rw [hc] at this; exact this
  | oom w' => rw [hc] at this; exact this
  | ub => rw [hc] at this; exact this

theorem Triple.remap {α β : Type} {P : HProp} {c : M α} {g : α → β} {Q : β → HProp}
    (h : Triple P c (fun a => Q (g a))) : Triple P (c >>= fun a => Pure.pure (g a)) Q :=
  Triple.bind h fun _ => Triple.pure _ fun _ hh => hh

theorem Triple.stop {α : Type} {P : HProp} {Q : α → HProp} : Triple P (XAlloc.stop : M α) Q :=
  fun _ _ _ _ _ _ => rfl

theorem toA_init {X : XAlloc} {b : Nat} {P R : HProp} {Q : X.St → HProp} (h : Triple P (X.init b) (ended Q R)) :
    Triple P (X.toA.init b) Q := by
  refine Triple.bind h fun o => ?_
  cases o with
  | none => exact Triple.stop
  | some s => exact Triple.pure _ fun _ hh => hh

namespace XSound

variable {X : XAlloc} {f : Nat → Prop} (hX : XSound X f)

theorem alloc_spec (b : Nat) (s : X.St) (L : List (Nat × Nat)) (n : Nat) (hf : f n) (hn : n < W64) :
    Triple (hX.sound.Inv b s L) (X.alloc s n) (fun r h => (r.1.getD 0 = 0 ∧ hX.sound.Inv b r.2 L h) ∨
      (Good (r.1.getD 0) n ∧ (hX.sound.Inv b r.2 ((r.1.getD 0, n) :: L) ∗ bytes (r.1.getD 0) n) h)) :=
  Triple.unmap (hX.sound.alloc_spec b s L n hf hn)

end XSound

/-- `construct` for the functions that exist. -/
theorem construct_toA {X : XAlloc} {I : Nat → X.St → List (Nat × Nat) → HProp}
    (h : ∀ c, X.construct = some c → ∀ b s L p thr, Triple (I b s L) (c s p thr) (fun s' => I b s' L)) :
    ∀ c', X.construct.map (fun c s p => c s p false) = some c' → ∀ b s L p, Triple (I b s L) (c' s p) (fun s' => I b s' L) := by
  intro c' hc' b s L p
  obtain ⟨c, hc, rfl⟩ := Option.map_eq_some_iff.1 hc'
  exact h c hc b s L p false

theorem Triple.ifEvent {P : HProp} (q : Prop) [Decidable q] (e : Ev) : Triple P (M.ifThen q (M.event e)) (fun _ => P) := by
  unfold M.ifThen
  split
  · exact Triple.event e
  · exact Triple.pure _ fun _ hh => hh

/-- Classes that do not throw. Proof helper, not code. -/
def toX_sound {A : Allocator} {f : Nat → Prop} (hA : Sound A f) : XSound A.toX f :=
  have hi : ∀ b, b ≠ 0 → b % 16 = 0 → b + A.objSize < W64 →
      Triple (bytes b A.objSize) (A.toX.init b) (ended (fun s => hA.Inv b s []) (bytes b A.objSize)) := fun b h1 h2 h3 =>
    Triple.bind (hA.init_spec b h1 h2 h3) fun _ => Triple.pure _ fun _ hh => hh
  have hc : ∀ c, A.toX.construct = some c → ∀ b s L p thr, Triple (hA.Inv b s L) (c s p thr) (fun s' => hA.Inv b s' L) := by
    intro c hc b s L p thr
    obtain ⟨c', hc', rfl⟩ := Option.map_eq_some_iff.1 (show A.construct.map (fun c s p (_ : Bool) => c s p) = some c from hc)
    exact hA.construct_spec c' hc' b s L p
  { sound := hA.with3 _ _ _ (fun b h1 h2 h3 => toA_init (hi b h1 h2 h3))
      (fun b s L n hf hn => Triple.remap (Triple.remap (hA.alloc_spec b s L n hf hn)))
      (construct_toA (X := A.toX) hc)
    init_spec := hi
    construct_spec := hc }

/-- `freelist`. Proof helper, not code. -/
def xfreelist_sound (m M : Nat) {X : XAlloc} {f : Nat → Prop} (hX : XSound X f) (hM8 : 8 ≤ M) (hMW : M < W64) :
    XSound (xfreelist m M X) (Freelist.Fits m M f) :=
  let hS := freelist_sound m M hX.sound hM8 hMW
  have hi : ∀ b, b ≠ 0 → b % 16 = 0 → b + (X.objSize + 16) < W64 →
      Triple (bytes b (X.objSize + 16)) ((xfreelist m M X).init b) (ended (fun s => hS.Inv b s []) (bytes b (X.objSize + 16))) := by
    intro b h1 h2 h3
    rw [bytes_split]
    refine Triple.bind ((hX.init_spec b h1 h2 (by omega)).frame _) (fun o => ?_)
    cases o with
    | none => exact Triple.pure _ fun _ hh => hh
    | some a =>
      refine Triple.pure _ (fun h hh => ⟨by simp, [], ⟨rfl, by simp⟩, ?_⟩)
      simpa [Freelist.slack, blocksV, ended] using hh
  have hc : ∀ c, (xfreelist m M X).construct = some c → ∀ b s L p thr, Triple (hS.Inv b s L) (c s p thr) (fun s' => hS.Inv b s' L) := by
    intro c hc b s L p thr
    obtain ⟨c', hc', rfl⟩ := Option.map_eq_some_iff.1 hc
    refine Triple.and (fun hL => Triple.exists (fun R => Triple.and fun hR => ?_))
    refine Triple.bind ((hX.construct_spec c' hc' b s.a _ p thr).frame _) (fun a => ?_)
    exact Triple.pure _ fun h hh => ⟨hL, R, hR, hh⟩
  { sound := hS.with3 _ _ _ (fun b h1 h2 h3 => toA_init (hi b h1 h2 h3))
      (fun b s L n hf hn => by
        have := hS.alloc_spec b s L n hf hn
        refine Triple.remap ?_
        simp only [freelist, xfreelist] at this ⊢
        split
        · rename_i h1
          rw [if_pos h1] at this
          split
          · rename_i h2
            rw [if_pos h2] at this
            exact Triple.remap (Triple.unmap this)
          · rename_i h2
            rw [if_neg h2] at this
            simp only [XAlloc.toA, bind_assoc, pure_bind] at this
            exact Triple.remap (Triple.unmap this)
        · rename_i h1
          rw [if_neg h1] at this
          refine Triple.pure _ fun h hh => ?_
          obtain ⟨hL, R, hR⟩ := hh
          exact .inl ⟨rfl, hL, R, hR⟩)
      (construct_toA (X := xfreelist m M X) hc)
    init_spec := hi
    construct_spec := hc }

section two
variable {P F : XAlloc} {fP fF : Nat → Prop} (hP : XSound P fP) (hF : XSound F fF)
include hP hF

theorem xinit2_spec (b : Nat) (h1 : b ≠ 0) (h2 : b % 16 = 0) (h3 : b + (P.objSize + F.objSize) < W64) :
    Triple (bytes b (P.objSize + F.objSize)) (xinit2 P F b)
      (ended (fun s => hP.sound.Inv b s.1 [] ∗ hF.sound.Inv (b + P.objSize) s.2 []) (bytes b (P.objSize + F.objSize))) := by
  rw [bytes_split]
  have ha : P.objSize % 16 = 0 := hP.sound.objAlign
  refine Triple.bind ((hP.init_spec b h1 h2 (by omega)).frame _) (fun o => ?_)
  cases o with
  | none => exact Triple.pure _ fun _ hh => hh
  | some s1 =>
    show Triple (hP.sound.Inv b s1 [] ∗ bytes (b + P.objSize) F.objSize) _ _
    rw [star_comm]
    refine Triple.bind ((hF.init_spec (b + P.objSize) (by omega) (by omega) (by omega)).frame _) (fun o => ?_)
    cases o with
    | none =>
      show Triple (bytes (b + P.objSize) F.objSize ∗ hP.sound.Inv b s1 []) _ _
      rw [star_comm]
      exact Triple.bind ((hP.sound.fini_spec b s1).frame _) fun _ => Triple.pure _ fun _ hh => hh
    | some s2 => exact Triple.pure _ fun h hh => by rw [star_comm] at hh; exact hh

theorem xroute2_spec (c) (hc : xroute2 P F = some c) (b b' s L1 L2 p thr) :
    Triple (hP.sound.Inv b s.1 L1 ∗ hF.sound.Inv b' s.2 L2) (c s p thr)
      (fun s' => hP.sound.Inv b s'.1 L1 ∗ hF.sound.Inv b' s'.2 L2) := by
  unfold xroute2 at hc
  split at hc
  · cases hc
    simp only
    cases P.toA.ownsD s.1 p with
    | true =>
      cases hcP : P.construct with
      | some c =>
        simp only
        refine Triple.bind ((hP.construct_spec c hcP b s.1 L1 p thr).frame _) (fun s1 => ?_)
        exact Triple.pure _ (fun h hh => hh)
      | none =>
        simp only
        exact Triple.bind (Triple.ifEvent _ _) (fun _ => Triple.pure _ (fun h hh => hh))
    | false =>
      cases hcF : F.construct with
      | some c =>
        simp only
        rw [star_comm]
        refine Triple.bind ((hF.construct_spec c hcF b' s.2 L2 p thr).frame _) (fun s1 => ?_)
        exact Triple.pure _ (fun h hh => by rw [star_comm]; exact hh)
      | none =>
        simp only
        exact Triple.bind (Triple.ifEvent _ _) (fun _ => Triple.pure _ (fun h hh => hh))
  · cases hc

end two

/-- `fallback`. Proof helper, not code. -/
def xfallback_sound {P F : XAlloc} {fP fF : Nat → Prop} (hP : XSound P fP) (hF : XSound F fF) (ho : P.owns.isSome = true) :
    XSound (xfallback P F) (FallbackFits fP fF) :=
  let hS := fallback_sound hP.sound hF.sound ho
  have hi : ∀ b, b ≠ 0 → b % 16 = 0 → b + (P.objSize + F.objSize) < W64 →
      Triple (bytes b (P.objSize + F.objSize)) ((xfallback P F).init b)
        (ended (fun s => hS.Inv b s []) (bytes b (P.objSize + F.objSize))) := by
    intro b h1 h2 h3
    refine (xinit2_spec hP hF b h1 h2 h3).post ?_
    rintro (_ | s) h hh
    · exact hh
    · exact ⟨by simp, [], [], by simp, hh⟩
  have hc : ∀ c, (xfallback P F).construct = some c → ∀ b s L p thr, Triple (hS.Inv b s L) (c s p thr) (fun s' => hS.Inv b s' L) := by
    intro c hc b s L p thr
    refine Triple.and (fun hL => Triple.exists (fun L1 => Triple.exists (fun L2 => Triple.and (fun hp => ?_))))
    exact (xroute2_spec hP hF c hc b _ s L1 L2 p thr).post fun s' h hh => ⟨hL, L1, L2, hp, hh⟩
  { sound := hS.with3 _ _ _ (fun b h1 h2 h3 => toA_init (hi b h1 h2 h3))
      (fun b s L n hf hn => by
        refine Triple.remap ?_
        refine Triple.and (fun hL => Triple.exists (fun L1 => Triple.exists (fun L2 => Triple.and (fun hp => ?_))))
        refine Triple.bind ((hP.alloc_spec b s.1 L1 n hf.2.1 hn).frame _) (fun r => ?_)
        have hL' : ∀ p, ∀ c ∈ (p, n) :: L, FallbackFits fP fF c.2 := by
          intro p c hc
          rcases List.mem_cons.1 hc with rfl | hc
          · exact hf
          · exact hL c hc
        obtain ⟨r1, r2⟩ := r
        cases r1 with
        | none =>
          refine Triple.pure _ fun h hh => ?_
          obtain ⟨h1, h2, hd, rfl, h3 | h3, h4⟩ := hh
          · exact .inl ⟨rfl, hL, L1, L2, hp, h1, h2, hd, rfl, h3.2, h4⟩
          · exact absurd rfl h3.1.1
        | some p =>
          simp only
          by_cases hr : p = 0
          · simp only [hr, if_true]
            refine Triple.pre (P := hF.sound.Inv (b + P.objSize) s.2 L2 ∗ hP.sound.Inv b r2 L1) ?_ ?_
            · refine Triple.bind ((hF.alloc_spec _ s.2 L2 n hf.2.2 hn).frame _) (fun q => ?_)
              refine Triple.pure _ (fun h hh => ?_)
              obtain ⟨h1, h2, hd, rfl, h3 | h3, h4⟩ := hh
              · left
                refine ⟨h3.1, hL, L1, L2, hp, ?_⟩
                rw [star_comm]
                exact ⟨h1, h2, hd, rfl, h3.2, h4⟩
              · right
                refine ⟨h3.1, ?_⟩
                have : ((hP.sound.Inv b r2 L1 ∗ hF.sound.Inv (b + P.objSize) q.2 ((q.1.getD 0, n) :: L2)) ∗ bytes (q.1.getD 0) n) (h1.add h2) := by
                  have e : ((hP.sound.Inv b r2 L1 ∗ hF.sound.Inv (b + P.objSize) q.2 ((q.1.getD 0, n) :: L2)) ∗ bytes (q.1.getD 0) n) =
                    ((hF.sound.Inv (b + P.objSize) q.2 ((q.1.getD 0, n) :: L2) ∗ bytes (q.1.getD 0) n) ∗ hP.sound.Inv b r2 L1) := by ac_rfl
                  rw [e]
                  exact ⟨h1, h2, hd, rfl, h3.2, h4⟩
                refine star_mono_left ?_ _ this
                intro h hh
                exact ⟨hL' _, L1, (q.1.getD 0, n) :: L2, (hp.cons _).trans List.perm_middle.symm, hh⟩
            · rintro h ⟨h1, h2, hd, rfl, h3 | h3, h4⟩
              · rw [star_comm]; exact ⟨h1, h2, hd, rfl, h3.2, h4⟩
              · exact absurd rfl h3.1.1
          · simp only [hr, if_false]
            refine Triple.pure _ (fun h hh => ?_)
            obtain ⟨h1, h2, hd, rfl, h3 | h3, h4⟩ := hh
            · exact absurd h3.1 hr
            · right
              refine ⟨h3.1, ?_⟩
              have : ((hP.sound.Inv b r2 ((p, n) :: L1) ∗ hF.sound.Inv (b + P.objSize) s.2 L2) ∗ bytes p n) (h1.add h2) := by
                have e : ((hP.sound.Inv b r2 ((p, n) :: L1) ∗ hF.sound.Inv (b + P.objSize) s.2 L2) ∗ bytes p n) =
                  ((hP.sound.Inv b r2 ((p, n) :: L1) ∗ bytes p n) ∗ hF.sound.Inv (b + P.objSize) s.2 L2) := by ac_rfl
                rw [e]
                exact ⟨h1, h2, hd, rfl, h3.2, h4⟩
              refine star_mono_left ?_ _ this
              intro h hh
              exact ⟨hL' _, (p, n) :: L1, L2, hp.cons _, hh⟩)
      (construct_toA (X := xfallback P F) hc)
    init_spec := hi
    construct_spec := hc }

/-- `segragator`. Proof helper, not code. -/
def xsegragator_sound (T : Nat) {P F : XAlloc} {fP fF : Nat → Prop} (hP : XSound P fP) (hF : XSound F fF) :
    XSound (xsegragator T P F) (SegFits T fP fF) :=
  let hS := segragator_sound T hP.sound hF.sound
  have hi : ∀ b, b ≠ 0 → b % 16 = 0 → b + (P.objSize + F.objSize) < W64 →
      Triple (bytes b (P.objSize + F.objSize)) ((xsegragator T P F).init b)
        (ended (fun s => hS.Inv b s []) (bytes b (P.objSize + F.objSize))) := by
    intro b h1 h2 h3
    refine (xinit2_spec hP hF b h1 h2 h3).post ?_
    rintro (_ | s) h hh
    · exact hh
    · exact ⟨by simp, hh⟩
  have hc : ∀ c, (xsegragator T P F).construct = some c → ∀ b s L p thr, Triple (hS.Inv b s L) (c s p thr) (fun s' => hS.Inv b s' L) := by
    intro c hc b s L p thr
    refine Triple.and (fun hL => ?_)
    exact (xroute2_spec hP hF c hc b _ s _ _ p thr).post fun s' h hh => ⟨hL, hh⟩
  { sound := hS.with3 _ _ _ (fun b h1 h2 h3 => toA_init (hi b h1 h2 h3))
      (fun b s L n hf hn => by
        have := hS.alloc_spec b s L n hf hn
        refine Triple.remap ?_
        simp only [segragator, xsegragator] at this ⊢
        split
        · rename_i h1
          rw [if_pos h1] at this
          simp only [XAlloc.toA, bind_assoc, pure_bind] at this
          exact Triple.remap (Triple.unmap this)
        · rename_i h1
          rw [if_neg h1] at this
          simp only [XAlloc.toA, bind_assoc, pure_bind] at this
          exact Triple.remap (Triple.unmap this))
      (construct_toA (X := xsegragator T P F) hc)
    init_spec := hi
    construct_spec := hc }

theorem xalignedNew_eq (sys : Sys) {X : XAlloc} (hq : X.CtorQuiet) (size : Nat) :
    xalignedNew sys size X.init = (do let r ← alignedNew sys size X.toA.init; pure (some r)) := by
  unfold xalignedNew alignedNew
  rw [bind_assoc]
  congr 1; funext p
  split
  · funext w
    simp only [M.bind_apply, M.nullDeref]
    split <;> rfl
  · funext w
    simp only [XAlloc.toA, M.bind_apply]
    cases hp : X.init p w with
    | ok o w' =>
      cases o with
      | none => exact absurd hp (hq p w w')
      | some s => rfl
    | oom w' => rfl
    | ub => rfl

namespace Cascading

variable {X : XAlloc} {f : Nat → Prop}

theorem xnewNode_eq (sys : Sys) (hq : X.CtorQuiet) : xnewNode sys X = (do let nd ← newNode sys X.toA; pure (some nd)) := by
  unfold xnewNode newNode
  rw [xalignedNew_eq sys hq]
  simp only [bind_assoc, pure_bind]

theorem xallocFront_spec (sys : Sys) (hX : XSound X f) (hq : X.CtorQuiet) (hsz : MallocFits sys.plat (nodeSize X.toA))
    (nd : Node X.St) (Li : List (Nat × Nat)) (NL : List (Node X.St × List (Nat × Nat))) (n : Nat)
    (hok : NodesOk (A := X.toA) ((nd, Li) :: NL)) (hf : Fits f n) (hn : n < W64) :
    Triple (nodesInv sys.plat hX.sound ((nd, Li) :: NL)) (xallocFront sys X nd (NL.map Prod.fst) n)
      (fun r h => ∃ NL', (NL'.map Prod.fst = r.2 ∧ NodesOk (A := X.toA) NL') ∧
        ((r.1.getD 0 = 0 ∧ NL'.flatMap Prod.snd = ((nd, Li) :: NL).flatMap Prod.snd ∧ nodesInv sys.plat hX.sound NL' h) ∨
         (Good (r.1.getD 0) n ∧ NL'.flatMap Prod.snd = (r.1.getD 0, n) :: ((nd, Li) :: NL).flatMap Prod.snd ∧
          (nodesInv sys.plat hX.sound NL' ∗ bytes (r.1.getD 0) n) h))) := by
  obtain ⟨hc, ha⟩ := hok (nd, Li) (by simp)
  have hok' : NodesOk (A := X.toA) NL := fun x hx => hok x (List.mem_cons_of_mem _ hx)
  simp only at hc ha
  unfold xallocFront
  simp only [nodesInv]
  rw [star_assoc]
  refine Triple.bind ((hX.alloc_spec nd.addr nd.st Li n hf.2 hn).frame _) (fun r => ?_)
  obtain ⟨r1, r2⟩ := r
  have hok2 : NodesOk (A := X.toA) ((⟨nd.addr, r2, nd.cnt⟩, Li) :: NL) := by
    intro x hx
    rcases List.mem_cons.1 hx with rfl | hx
    · exact ⟨hc, ha⟩
    · exact hok' x hx
  cases r1 with
  | none =>
    refine Triple.pure _ fun h hh => ?_
    obtain ⟨h1, h2, hd, rfl, h3 | h3, h4⟩ := hh
    · refine ⟨(⟨nd.addr, r2, nd.cnt⟩, Li) :: NL, ⟨by simp, hok2⟩, .inl ⟨rfl, by simp, ?_⟩⟩
      rw [nodesInv, star_assoc]
      exact ⟨h1, h2, hd, rfl, h3.2, h4⟩
    · exact absurd rfl h3.1.1
  | some p =>
    simp only
    by_cases hr : p = 0
    · simp only [hr, if_true]
      refine Triple.pre (P := emp ∗ nodesInv sys.plat hX.sound ((⟨nd.addr, r2, nd.cnt⟩, Li) :: NL)) ?_ ?_
      · rw [xnewNode_eq sys hq, bind_assoc]
        refine Triple.bind ((newNode_spec sys hX.sound hsz).frame _) (fun nd2 => ?_)
        rw [pure_bind, star_and]
        refine Triple.and (fun ⟨hc2, ha2⟩ => ?_)
        rw [star_assoc]
        refine Triple.bind ((hX.alloc_spec nd2.addr nd2.st [] n hf.2 hn).frame _) (fun q => ?_)
        refine Triple.pure _ (fun h hh => ?_)
        obtain ⟨h1, h2, hd, rfl, h3 | h3, h4⟩ := hh
        · refine ⟨(⟨nd2.addr, q.2, nd2.cnt⟩, []) :: (⟨nd.addr, r2, nd.cnt⟩, Li) :: NL, ⟨?_, ?_⟩, .inl ⟨h3.1, ?_, ?_⟩⟩
          · simp [h3.1]
          · intro x hx
            rcases List.mem_cons.1 hx with rfl | hx
            · exact ⟨by simp [hc2], ha2⟩
            · exact hok2 x hx
          · simp
          · rw [nodesInv, star_assoc]
            exact ⟨h1, h2, hd, rfl, h3.2, h4⟩
        · have hq : q.1.getD 0 ≠ 0 := h3.1.1
          refine ⟨(⟨nd2.addr, q.2, nd2.cnt + 1⟩, [(q.1.getD 0, n)]) :: (⟨nd.addr, r2, nd.cnt⟩, Li) :: NL, ⟨?_, ?_⟩,
            .inr ⟨h3.1, ?_, ?_⟩⟩
          · simp [hq]
          · intro x hx
            rcases List.mem_cons.1 hx with rfl | hx
            · exact ⟨by simp [hc2], ha2⟩
            · exact hok2 x hx
          · simp
          · have h5 : ((hX.sound.Inv nd2.addr q.2 [(q.1.getD 0, n)] ∗ bytes (q.1.getD 0) n) ∗
                ((bytes (nd2.addr + X.objSize) 16 ∗ mTok sys.plat nd2.addr (nodeSize X.toA)) ∗
                 nodesInv sys.plat hX.sound ((⟨nd.addr, r2, nd.cnt⟩, Li) :: NL))) (h1.add h2) := ⟨h1, h2, hd, rfl, h3.2, h4⟩
            have e : (nodesInv sys.plat hX.sound ((⟨nd2.addr, q.2, nd2.cnt + 1⟩, [(q.1.getD 0, n)]) :: (⟨nd.addr, r2, nd.cnt⟩, Li) :: NL) ∗ bytes (q.1.getD 0) n) =
              ((hX.sound.Inv nd2.addr q.2 [(q.1.getD 0, n)] ∗ bytes (q.1.getD 0) n) ∗
                ((bytes (nd2.addr + X.toA.objSize) 16 ∗ mTok sys.plat nd2.addr (nodeSize X.toA)) ∗
                 nodesInv sys.plat hX.sound ((⟨nd.addr, r2, nd.cnt⟩, Li) :: NL))) := by
              rw [nodesInv]
              generalize nodesInv sys.plat hX.sound ((⟨nd.addr, r2, nd.cnt⟩, Li) :: NL) = Y
              simp only
              ac_rfl
            rw [e]; exact h5
      · rintro h ⟨h1, h2, hd, rfl, h3 | h3, h4⟩
        · rw [emp_star, nodesInv, star_assoc]
          exact ⟨h1, h2, hd, rfl, h3.2, h4⟩
        · exact absurd rfl h3.1.1
    · simp only [hr, if_false]
      refine Triple.pure _ (fun h hh => ?_)
      obtain ⟨h1, h2, hd, rfl, h3 | h3, h4⟩ := hh
      · exact absurd h3.1 hr
      · refine ⟨(⟨nd.addr, r2, nd.cnt + 1⟩, (p, n) :: Li) :: NL, ⟨by simp, ?_⟩, .inr ⟨h3.1, by simp, ?_⟩⟩
        · intro x hx
          rcases List.mem_cons.1 hx with rfl | hx
          · exact ⟨by simp [hc], ha⟩
          · exact hok' x hx
        · have h5 : ((hX.sound.Inv nd.addr r2 ((p, n) :: Li) ∗ bytes p n) ∗
              ((bytes (nd.addr + X.toA.objSize) 16 ∗ mTok sys.plat nd.addr (nodeSize X.toA)) ∗ nodesInv sys.plat hX.sound NL)) (h1.add h2) :=
            ⟨h1, h2, hd, rfl, h3.2, h4⟩
          have e : (nodesInv sys.plat hX.sound ((⟨nd.addr, r2, nd.cnt + 1⟩, (p, n) :: Li) :: NL) ∗ bytes p n) =
            ((hX.sound.Inv nd.addr r2 ((p, n) :: Li) ∗ bytes p n) ∗
              ((bytes (nd.addr + X.toA.objSize) 16 ∗ mTok sys.plat nd.addr (nodeSize X.toA)) ∗ nodesInv sys.plat hX.sound NL)) := by
            rw [nodesInv]; simp only; ac_rfl
          show (nodesInv sys.plat hX.sound ((⟨nd.addr, r2, nd.cnt + 1⟩, (p, n) :: Li) :: NL) ∗ bytes p n) (h1.add h2)
          rw [e]; exact h5

theorem xrouteGo_spec (plat : Plat) (hX : XSound X f) (c : X.St → Nat → Bool → M X.St) (hc : X.construct = some c)
    (p : Nat) (thr : Bool) (NL : List (Node X.St × List (Nat × Nat))) (hok : NodesOk (A := X.toA) NL) :
    Triple (nodesInv plat hX.sound NL) (xrouteGo X c p thr (NL.map Prod.fst))
      (fun nodes h => ∃ NL', (NL'.map Prod.fst = nodes ∧ NodesOk (A := X.toA) NL' ∧ NL'.flatMap Prod.snd = NL.flatMap Prod.snd) ∧
        nodesInv plat hX.sound NL' h) := by
  induction NL with
  | nil =>
    refine Triple.bind (Triple.ifEvent _ _) (fun _ => ?_)
    exact Triple.pure _ (fun h hh => ⟨[], ⟨rfl, hok, rfl⟩, hh⟩)
  | cons x NL ih =>
    obtain ⟨nd, Li⟩ := x
    obtain ⟨hcn, ha⟩ := hok (nd, Li) (by simp)
    have hok' : NodesOk (A := X.toA) NL := fun x hx => hok x (List.mem_cons_of_mem _ hx)
    simp only [List.map_cons, xrouteGo, nodesInv]
    by_cases ho : X.toA.ownsD nd.st p = true
    · simp only [ho, if_true]
      rw [star_assoc]
      refine Triple.bind ((hX.construct_spec c hc nd.addr nd.st Li p thr).frame _) (fun st => ?_)
      refine Triple.pure _ (fun h hh => ⟨(⟨nd.addr, st, nd.cnt⟩, Li) :: NL, ⟨by simp, ?_, by simp⟩, ?_⟩)
      · intro x hx
        rcases List.mem_cons.1 hx with rfl | hx
        · exact ⟨hcn, ha⟩
        · exact hok' x hx
      · rw [nodesInv, star_assoc]; exact hh
    · simp only [ho, Bool.false_eq_true, if_false]
      rw [star_comm]
      refine Triple.bind ((ih hok').frame _) (fun rest' => ?_)
      refine Triple.pure _ (fun h hh => ?_)
      rw [star_exists] at hh
      obtain ⟨NL', hh⟩ := hh
      rw [star_and] at hh
      obtain ⟨⟨h1, h2, h3⟩, hh⟩ := hh
      refine ⟨(nd, Li) :: NL', ⟨by simp [h1], ?_, by simp [h3]⟩, ?_⟩
      · intro x hx
        rcases List.mem_cons.1 hx with rfl | hx
        · exact ⟨hcn, ha⟩
        · exact h2 x hx
      · rw [nodesInv, star_comm]; exact hh

end Cascading

open Cascading in
theorem xcascading_alloc (sys : Sys) {X : XAlloc} {f : Nat → Prop} (hX : XSound X f) (ho : X.owns.isSome = true)
    (hmax : MaxTotal X.toA) (hsz : MallocFits sys.plat (nodeSize X.toA)) (hq : X.CtorQuiet) (b : Nat) (s : List (Node X.St))
    (L : List (Nat × Nat)) (n : Nat) (hf : Cascading.Fits f n) (hn : n < W64) :
    Triple ((cascading_sound sys hX.sound ho hmax hsz).Inv b s L) (xalloc sys X s n) (fun r h =>
      (r.1.getD 0 = 0 ∧ (cascading_sound sys hX.sound ho hmax hsz).Inv b r.2 L h) ∨
      (Good (r.1.getD 0) n ∧ ((cascading_sound sys hX.sound ho hmax hsz).Inv b r.2 ((r.1.getD 0, n) :: L) ∗ bytes (r.1.getD 0) n) h)) := by
  refine Triple.and (fun hL => Triple.exists (fun NL => Triple.and (fun ⟨h1, h2, h3⟩ => ?_)))
  subst h1
  have hL' : ∀ p, ∀ c ∈ (p, n) :: L, Cascading.Fits f c.2 := by
    intro p c hc
    rcases List.mem_cons.1 hc with rfl | hc
    · exact hf
    · exact hL c hc
  unfold xalloc
  refine Triple.bind (R := fun o h => ∃ nd Li NL2, (o = some (nd :: NL2.map Prod.fst) ∧ NodesOk (A := X.toA) ((nd, Li) :: NL2) ∧
      L.Perm (((nd, Li) :: NL2).flatMap Prod.snd)) ∧ (nodesInv sys.plat hX.sound ((nd, Li) :: NL2) ∗ bytes b 16) h) ?_ (fun o => ?_)
  · cases NL with
    | nil =>
      simp only [List.map_nil, xensure]
      have := (newNode_spec sys hX.sound hsz).frame (bytes b 16)
      rw [xnewNode_eq sys hq, bind_assoc]
      refine Triple.bind (this.pre (fun h hh => ?_)) (fun nd => ?_)
      · simpa [nodesInv] using hh
      · rw [star_and]
        refine Triple.and (fun hnd => Triple.pure _ (fun h hh => ⟨nd, [], [], ⟨rfl, ?_, ?_⟩, ?_⟩))
        · intro x hx
          have hx' : x = (nd, []) := by simpa using hx
          subst hx'
          exact ⟨hnd.1, hnd.2⟩
        · simpa using h3
        · simpa [nodesInv] using hh
    | cons x NL =>
      simp only [List.map_cons, xensure]
      exact Triple.pure _ (fun h hh => ⟨x.1, x.2, NL, ⟨rfl, h2, h3⟩, hh⟩)
  · refine Triple.exists (fun nd => Triple.exists (fun Li => Triple.exists (fun NL2 => Triple.and (fun ⟨e1, e2, e3⟩ => ?_))))
    subst e1
    have key : Triple (nodesInv sys.plat hX.sound ((nd, Li) :: NL2) ∗ bytes b 16) (xallocFront sys X nd (NL2.map Prod.fst) n)
        (fun r h => (r.1.getD 0 = 0 ∧ ((∀ c ∈ L, Cascading.Fits f c.2) ∧ ∃ NL, (NL.map Prod.fst = r.2 ∧ NodesOk (A := X.toA) NL ∧
          L.Perm (NL.flatMap Prod.snd)) ∧ (nodesInv sys.plat hX.sound NL ∗ bytes b 16) h)) ∨
        (Good (r.1.getD 0) n ∧ ((fun h => (∀ c ∈ (r.1.getD 0, n) :: L, Cascading.Fits f c.2) ∧ ∃ NL, (NL.map Prod.fst = r.2 ∧ NodesOk (A := X.toA) NL ∧
          ((r.1.getD 0, n) :: L).Perm (NL.flatMap Prod.snd)) ∧ (nodesInv sys.plat hX.sound NL ∗ bytes b 16) h) ∗ bytes (r.1.getD 0) n) h)) := by
      refine ((xallocFront_spec sys hX hq hsz nd Li NL2 n e2 hf hn).frame (bytes b 16)).post ?_
      rintro r h ⟨g1, g2, hd, rfl, ⟨NL', ⟨m1, m2⟩, k⟩, hb⟩
      rcases k with ⟨k1, k2, k3⟩ | ⟨k1, k2, k3⟩
      · exact .inl ⟨k1, hL, NL', ⟨m1, m2, by rw [k2]; exact e3⟩, g1, g2, hd, rfl, k3, hb⟩
      · refine .inr ⟨k1, ?_⟩
        have h5 : ((nodesInv sys.plat hX.sound NL' ∗ bytes (r.1.getD 0) n) ∗ bytes b 16) (g1.add g2) := ⟨g1, g2, hd, rfl, k3, hb⟩
        have e : ((nodesInv sys.plat hX.sound NL' ∗ bytes (r.1.getD 0) n) ∗ bytes b 16) =
          ((nodesInv sys.plat hX.sound NL' ∗ bytes b 16) ∗ bytes (r.1.getD 0) n) := by ac_rfl
        rw [e] at h5
        exact star_mono_left (fun _ h => ⟨hL' _, NL', ⟨m1, m2, by rw [k2]; exact e3.cons _⟩, h⟩) _ h5
    simp only
    cases hm : X.maxSize with
    | none => exact key
    | some g =>
      simp only
      obtain ⟨m, hgm⟩ := hmax g hm
      replace hgm := hgm nd.st
      simp only [hgm]
      by_cases hgt : n > m
      · simp only [hgt, if_true]
        exact Triple.pure _ (fun h hh => .inl ⟨rfl, hL, (nd, Li) :: NL2, ⟨rfl, e2, e3⟩, hh⟩)
      · simp only [hgt, if_false]
        exact key

open Cascading in
/-- `cascading`. Proof helper, not code. -/
def xcascading_sound (sys : Sys) {X : XAlloc} {f : Nat → Prop} (hX : XSound X f) (ho : X.owns.isSome = true)
    (hmax : MaxTotal X.toA) (hsz : MallocFits sys.plat (nodeSize X.toA)) (hq : X.CtorQuiet) :
    XSound (xcascading sys X) (Cascading.Fits f) :=
  let hS := cascading_sound sys hX.sound ho hmax hsz
  have hi : ∀ b, b ≠ 0 → b % 16 = 0 → b + 16 < W64 →
      Triple (bytes b 16) ((xcascading sys X).init b) (ended (fun s => hS.Inv b s []) (bytes b 16)) := by
    intro b h1 h2 h3
    refine Triple.pure _ (fun h hh => ⟨by simp, [], ⟨rfl, by intro x hx; simp at hx, by simp⟩, ?_⟩)
    rw [nodesInv, emp_star]; exact hh
  have hc : ∀ c, (xcascading sys X).construct = some c → ∀ b s L p thr, Triple (hS.Inv b s L) (c s p thr) (fun s' => hS.Inv b s' L) := by
    intro c hc b s L p thr
    obtain ⟨c', hc', rfl⟩ := Option.map_eq_some_iff.1 hc
    refine Triple.and (fun hL => Triple.exists (fun NL => Triple.and (fun ⟨h1, h2, h3⟩ => ?_)))
    subst h1
    refine ((xrouteGo_spec sys.plat hX c' hc' p thr NL h2).frame (bytes b 16)).post ?_
    rintro s' h ⟨g1, g2, hd, rfl, ⟨NL', ⟨m1, m2, m3⟩, hh⟩, hb⟩
    exact ⟨hL, NL', ⟨m1, m2, by rw [m3]; exact h3⟩, g1, g2, hd, rfl, hh, hb⟩
  { sound := hS.with3 _ _ _ (fun b h1 h2 h3 => toA_init (X := xcascading sys X) (hi b h1 h2 h3))
      (fun b s L n hf hn => Triple.remap (xcascading_alloc sys hX ho hmax hsz hq b s L n hf hn))
      (construct_toA (X := xcascading sys X) hc)
    init_spec := hi
    construct_spec := hc }

open Overflow in
/-- `overflow`. Proof helper, not code. -/
def xoverflow_sound {X : XAlloc} {f : Nat → Prop} (hX : XSound X f) : XSound (xoverflow X) (Overflow.Fits f) :=
  let hS := overflow_sound hX.sound
  have hi : ∀ b, b ≠ 0 → b % 16 = 0 → b + (X.objSize + 32) < W64 →
      Triple (bytes b (X.objSize + 32)) ((xoverflow X).init b) (ended (fun s => hS.Inv b s []) (bytes b (X.objSize + 32))) := by
    intro b h1 h2 h3
    rw [bytes_split]
    refine Triple.bind ((hX.init_spec b h1 h2 (by omega)).frame _) (fun o => ?_)
    cases o with
    | none => exact Triple.pure _ fun _ hh => hh
    | some a =>
      refine Triple.pure _ (fun h hh => ⟨by simp, ?_⟩)
      simpa [guards, ended] using hh
  have hc : ∀ c, (xoverflow X).construct = some c → ∀ b s L p thr, Triple (hS.Inv b s L) (c s p thr) (fun s' => hS.Inv b s' L) := by
    intro c hc b s L p thr
    cases hc
    refine Triple.and (fun hL => ?_)
    simp only
    cases hc' : X.construct with
    | none => exact Triple.bind (Triple.ifEvent _ _) fun _ => Triple.pure _ fun h hh => ⟨hL, hh⟩
    | some c' =>
      refine Triple.bind ((hX.construct_spec c' hc' b s.a _ p thr).frame _) (fun a => ?_)
      exact Triple.pure _ fun h hh => ⟨hL, hh⟩
  { sound := hS.with3 _ _ _ (fun b h1 h2 h3 => toA_init (hi b h1 h2 h3))
      (fun b s L n hf hn => by
        have := hS.alloc_spec b s L n hf hn
        simp only [overflow, XAlloc.toA, xoverflow, bind_assoc, pure_bind] at this ⊢
        have e : ∀ c d : M (Nat × Overflow.St X.St), c = d → Triple (hS.Inv b s L) d (fun r h => (r.1 = 0 ∧ hS.Inv b r.2 L h) ∨
            (Good r.1 n ∧ (hS.Inv b r.2 ((r.1, n) :: L) ∗ bytes r.1 n) h)) → Triple (hS.Inv b s L) c (fun r h => (r.1 = 0 ∧ hS.Inv b r.2 L h) ∨
            (Good r.1 n ∧ (hS.Inv b r.2 ((r.1, n) :: L) ∗ bytes r.1 n) h)) := fun c d h ht => h ▸ ht
        refine e _ _ ?_ this
        congr 1; funext r
        obtain ⟨r1, r2⟩ := r
        cases r1 with
        | none => rfl
        | some p =>
          simp only [Option.getD_some]
          by_cases hp : p = 0
          · simp only [hp, if_true, pure_bind, Option.getD_some]
          · simp only [hp, if_false, bind_assoc, pure_bind, Option.getD_some])
      (construct_toA (X := xoverflow X) hc)
    init_spec := hi
    construct_spec := hc }

/-- `threaded`. Proof helper, not code. -/
def xthreaded_sound {X : XAlloc} {f : Nat → Prop} (hX : XSound X f) : XSound (xthreaded X) f :=
  let hS := threaded_sound hX.sound
  have hi : ∀ b, b ≠ 0 → b % 16 = 0 → b + (X.objSize + 48) < W64 →
      Triple (bytes b (X.objSize + 48)) ((xthreaded X).init b) (ended (fun s => hS.Inv b s []) (bytes b (X.objSize + 48))) := by
    intro b h1 h2 h3
    rw [bytes_split]
    refine ((hX.init_spec b h1 h2 (by omega)).frame _).post ?_
    rintro (_ | s) h hh
    · exact hh
    · exact hh
  have hc : ∀ c, (xthreaded X).construct = some c → ∀ b s L p thr, Triple (hS.Inv b s L) (c s p thr) (fun s' => hS.Inv b s' L) :=
    fun c hc b s L p thr => (hX.construct_spec c hc b s L p thr).frame _
  { sound := hS.with3 _ _ _ (fun b h1 h2 h3 => toA_init (X := xthreaded X) (hi b h1 h2 h3))
      (fun b s L n hf hn => hS.alloc_spec b s L n hf hn)
      (construct_toA (X := xthreaded X) hc)
    init_spec := hi
    construct_spec := hc }

/-- `reference`. Proof helper, not code. -/
def xreference_sound {X : XAlloc} {f : Nat → Prop} (hX : XSound X f) : XSound (xreference X) f :=
  let hS := reference_sound hX.sound
  have hi : ∀ b, b ≠ 0 → b % 16 = 0 → b + (X.objSize + 16) < W64 →
      Triple (bytes b (X.objSize + 16)) ((xreference X).init b) (ended (fun s => hS.Inv b s []) (bytes b (X.objSize + 16))) := by
    intro b h1 h2 h3
    rw [bytes_split]
    refine ((hX.init_spec b h1 h2 (by omega)).frame _).post ?_
    rintro (_ | s) h hh
    · exact hh
    · exact hh
  have hc : ∀ c, (xreference X).construct = some c → ∀ b s L p thr, Triple (hS.Inv b s L) (c s p thr) (fun s' => hS.Inv b s' L) :=
    fun c hc b s L p thr => (hX.construct_spec c hc b s L p thr).frame _
  { sound := hS.with3 _ _ _ (fun b h1 h2 h3 => toA_init (X := xreference X) (hi b h1 h2 h3))
      (fun b s L n hf hn => hS.alloc_spec b s L n hf hn)
      (construct_toA (X := xreference X) hc)
    init_spec := hi
    construct_spec := hc }

open Cascading in
/-- `shared`. Proof helper, not code. -/
def xshared_sound (sys : Sys) {X : XAlloc} {f : Nat → Prop} (hX : XSound X f) (hsz : MallocFits sys.plat (nodeSize X.toA))
    (hq : X.CtorQuiet) : XSound (xshared sys X) f :=
  let hS := shared_sound sys hX.sound hsz
  have hi : ∀ b, b ≠ 0 → b % 16 = 0 → b + 16 < W64 →
      Triple (bytes b 16) ((xshared sys X).init b) (ended (fun s => hS.Inv b s []) (bytes b 16)) := by
    intro b h1 h2 h3
    show Triple _ (xalignedNew sys (nodeSize X.toA) X.init) _
    rw [xalignedNew_eq sys hq]
    exact Triple.bind (hS.init_spec b h1 h2 h3) fun s => Triple.pure _ fun _ hh => hh
  have hc : ∀ c, (xshared sys X).construct = some c → ∀ b s L p thr, Triple (hS.Inv b s L) (c s p thr) (fun s' => hS.Inv b s' L) := by
    intro c hc b s L p thr
    obtain ⟨c', hc', rfl⟩ := Option.map_eq_some_iff.1 hc
    refine Triple.and (fun h0 => ?_)
    exact Triple.bind ((hX.construct_spec c' hc' s.1 s.2 L p thr).frame _) fun a => Triple.pure _ fun h hh => ⟨h0, hh⟩
  { sound := hS.with3 _ _ _ (fun b h1 h2 h3 => toA_init (X := xshared sys X) (hi b h1 h2 h3))
      (fun b s L n hf hn => by
        have := hS.alloc_spec b s L n hf hn
        refine Triple.remap ?_
        simp only [sharedAlloc, XAlloc.toA, bind_assoc, pure_bind] at this
        exact Triple.remap (Triple.unmap this))
      (construct_toA (X := xshared sys X) hc)
    init_spec := hi
    construct_spec := hc }

namespace XTy

theorem objSize_eq (sys : Sys) : ∀ t : XTy, (t.denote sys).objSize = t.size
  | null => rfl
  | mallocator => rfl
  | linear _ => rfl
  | stack _ => rfl
  | user _ => rfl
  | freelist _ _ A => by simp only [denote, xfreelist, size, objSize_eq sys A]
  | fallback P F => by simp only [denote, xfallback, size, objSize_eq sys P, objSize_eq sys F]
  | segragator _ P F => by simp only [denote, xsegragator, size, objSize_eq sys P, objSize_eq sys F]
  | cascading _ => rfl
  | overflow A => by simp only [denote, xoverflow, size, objSize_eq sys A]
  | threaded A => by simp only [denote, xthreaded, size, objSize_eq sys A]
  | shared _ => rfl
  | reference A => by simp only [denote, xreference, size, objSize_eq sys A]

theorem owns_isSome (sys : Sys) : ∀ t : XTy, (t.denote sys).owns.isSome = t.hasOwns
  | null => rfl
  | mallocator => rfl
  | linear _ => rfl
  | stack _ => rfl
  | user _ => rfl
  | freelist _ _ A => by simp only [denote, xfreelist, KTL.freelist, XAlloc.toA, hasOwns, Option.isSome_map, owns_isSome sys A]
  | fallback P F => by
    have h1 := owns_isSome sys P; have h2 := owns_isSome sys F
    simp only [denote, xfallback, KTL.fallback, XAlloc.toA, hasOwns, owns2, ← h1, ← h2]
    cases (P.denote sys).owns <;> cases (F.denote sys).owns <;> rfl
  | segragator _ P F => by
    have h1 := owns_isSome sys P; have h2 := owns_isSome sys F
    simp only [denote, xsegragator, KTL.segragator, XAlloc.toA, hasOwns, owns2, ← h1, ← h2]
    cases (P.denote sys).owns <;> cases (F.denote sys).owns <;> rfl
  | cascading _ => rfl
  | overflow A => by simp only [denote, xoverflow, KTL.overflow, XAlloc.toA, hasOwns, Option.isSome_map, owns_isSome sys A]
  | threaded A => by simp only [denote, xthreaded, hasOwns, owns_isSome sys A]
  | shared A => by simp only [denote, xshared, KTL.sharedAlloc, XAlloc.toA, hasOwns, Option.isSome_map, owns_isSome sys A]
  | reference A => by simp only [denote, xreference, hasOwns, owns_isSome sys A]

theorem max_isSome (sys : Sys) : ∀ t : XTy, (t.denote sys).maxSize.isSome = t.hasMax
  | null => rfl
  | mallocator => rfl
  | linear _ => rfl
  | stack _ => rfl
  | user _ => rfl
  | freelist _ _ A => by simp only [denote, xfreelist, KTL.freelist, XAlloc.toA, hasMax, Option.isSome_map, max_isSome sys A]
  | fallback P F => by
    have h1 := max_isSome sys P; have h2 := max_isSome sys F
    simp only [denote, xfallback, KTL.fallback, XAlloc.toA, hasMax, maxSize2, ← h1, ← h2]
    cases (P.denote sys).maxSize <;> cases (F.denote sys).maxSize <;> rfl
  | segragator _ P F => by
    have h1 := max_isSome sys P; have h2 := max_isSome sys F
    simp only [denote, xsegragator, KTL.segragator, XAlloc.toA, hasMax, maxSize2, ← h1, ← h2]
    cases (P.denote sys).maxSize <;> cases (F.denote sys).maxSize <;> rfl
  | cascading A => by simp only [denote, xcascading, KTL.cascading, XAlloc.toA, hasMax, Option.isSome_map, max_isSome sys A]
  | overflow A => by simp only [denote, xoverflow, KTL.overflow, XAlloc.toA, hasMax, Option.isSome_map, max_isSome sys A]
  | threaded A => by simp only [denote, xthreaded, hasMax, max_isSome sys A]
  | shared A => by simp only [denote, xshared, KTL.sharedAlloc, XAlloc.toA, hasMax, Option.isSome_map, max_isSome sys A]
  | reference A => by simp only [denote, xreference, hasMax, max_isSome sys A]

theorem maxTotal (sys : Sys) : ∀ t : XTy, t.safeMax = true → MaxTotal (t.denote sys).toA
  | null, _ => by intro f hf; cases hf
  | mallocator, _ => by intro f hf; cases hf
  | linear _, _ => by intro f hf; cases hf; exact ⟨_, fun _ => rfl⟩
  | stack _, _ => by intro f hf; cases hf; exact ⟨_, fun _ => rfl⟩
  | user U, _ => U.max
  | freelist _ _ A, h => by
    intro f hf
    exact AllocTy.maxTotal_map (fun s : Freelist.St _ => s.a) (maxTotal sys A h) f hf
  | fallback P F, h => by
    intro f hf
    refine AllocTy.maxTotal2 (P := (P.denote sys).toA) (F := (F.denote sys).toA) (fun h1 h2 => ?_) f hf
    rw [show (P.denote sys).toA.maxSize = (P.denote sys).maxSize from rfl, max_isSome] at h1
    rw [show (F.denote sys).toA.maxSize = (F.denote sys).maxSize from rfl, max_isSome] at h2
    simp only [safeMax, h1, h2, Bool.and_self, Bool.not_true, Bool.false_or, Bool.and_eq_true] at h
    exact ⟨maxTotal sys P h.1, maxTotal sys F h.2⟩
  | segragator _ P F, h => by
    intro f hf
    refine AllocTy.maxTotal2 (P := (P.denote sys).toA) (F := (F.denote sys).toA) (fun h1 h2 => ?_) f hf
    rw [show (P.denote sys).toA.maxSize = (P.denote sys).maxSize from rfl, max_isSome] at h1
    rw [show (F.denote sys).toA.maxSize = (F.denote sys).maxSize from rfl, max_isSome] at h2
    simp only [safeMax, h1, h2, Bool.and_self, Bool.not_true, Bool.false_or, Bool.and_eq_true] at h
    exact ⟨maxTotal sys P h.1, maxTotal sys F h.2⟩
  | cascading A, h => by
    intro f hf
    have h1 := max_isSome sys A
    simp only [safeMax, Bool.not_eq_true'] at h
    rw [h] at h1
    obtain ⟨f', hf', rfl⟩ := Option.map_eq_some_iff.1 hf
    have hf'' : (A.denote sys).maxSize = some f' := hf'
    simp [hf''] at h1
  | overflow A, h => by
    intro f hf
    exact AllocTy.maxTotal_map (fun s : Overflow.St _ => s.a) (maxTotal sys A h) f hf
  | threaded A, h => maxTotal sys A h
  | shared A, h => by
    intro f hf
    exact AllocTy.maxTotal_map (fun s : Nat × _ => s.2) (maxTotal sys A h) f hf
  | reference A, h => maxTotal sys A h

/-- a constructor that does not throw, in terms of its results. Proof helper, not code. -/
theorem quiet_post {X : XAlloc} : X.CtorQuiet ↔ ∀ b, Post (X.init b) (fun o => o ≠ none) :=
  ⟨fun h b w o w' e ho => h b w w' (by rw [e, ho]), fun h b w w' e => h b w none w' e rfl⟩

theorem quiet_init1 {X : XAlloc} {α : Type} (g : X.St → α) (h : X.CtorQuiet) (b : Nat) :
    Post (do match ← X.init b with
      | none => pure none
      | some a => pure (some (g a)) : M (Option α)) (fun o => o ≠ none) := by
  refine Post.bind (quiet_post.1 h b) fun o ho => ?_
  cases o with
  | none => exact absurd rfl ho
  | some a => exact Post.pure (by simp)

theorem quiet_init2 {P F : XAlloc} (hP : P.CtorQuiet) (hF : F.CtorQuiet) (b : Nat) : Post (xinit2 P F b) (fun o => o ≠ none) := by
  refine Post.bind (quiet_post.1 hP b) fun o ho => ?_
  cases o with
  | none => exact absurd rfl ho
  | some a =>
    refine Post.bind (quiet_post.1 hF _) fun o ho => ?_
    cases o with
    | none => exact absurd rfl ho
    | some a => exact Post.pure (by simp)

theorem quiet (sys : Sys) : ∀ t : XTy, t.QuietCtor → (t.denote sys).CtorQuiet
  | null, _ | mallocator, _ | linear _, _ | stack _, _ => quiet_post.2 fun b => Post.bind' fun s => Post.pure nofun
  | user _, h => h
  | freelist _ _ A, h => quiet_post.2 fun b => quiet_init1 _ (quiet sys A h) b
  | overflow A, h => quiet_post.2 fun b => quiet_init1 _ (quiet sys A h) b
  | threaded A, h => quiet sys A h
  | reference A, h => quiet sys A h
  | shared A, h => quiet_post.2 fun b => by
    show Post (xalignedNew sys _ (A.denote sys).init) _
    rw [xalignedNew_eq sys (quiet sys A h)]
    exact Post.bind' fun s => Post.pure nofun
  | fallback P F, h => quiet_post.2 fun b => quiet_init2 (quiet sys P h.1) (quiet sys F h.2) b
  | segragator _ P F, h => quiet_post.2 fun b => quiet_init2 (quiet sys P h.1) (quiet sys F h.2) b
  | cascading _, _ => quiet_post.2 fun b => Post.pure nofun

/-- Every well-formed composition satisfies the contract. Proof helper, not code. -/
def sound (sys : Sys) : (t : XTy) → t.WF → XSound (t.denote sys) (t.fits sys.plat)
  | null, _ => toX_sound null_sound
  | mallocator, _ => toX_sound (mallocator_sound sys)
  | linear S, _ => toX_sound (linear_sound S)
  | stack S, _ => toX_sound (stack_sound S)
  | user U, _ => U.sound
  | freelist m M A, hw => xfreelist_sound m M (sound sys A hw.1) hw.2.1 (by have := hw.2.2; omega)
  | fallback P F, hw => xfallback_sound (sound sys P hw.1) (sound sys F hw.2.1) (by rw [owns_isSome]; exact hw.2.2)
  | segragator T P F, hw => xsegragator_sound T (sound sys P hw.1) (sound sys F hw.2)
  | cascading A, hw => xcascading_sound sys (sound sys A hw.1) (by rw [owns_isSome]; exact hw.2.1) (maxTotal sys A hw.2.2.1)
      (fun _ => by have := hw.2.2.2.1; simp only [Cascading.nodeSize, XAlloc.toA, objSize_eq]; omega) (quiet sys A hw.2.2.2.2)
  | overflow A, hw => xoverflow_sound (sound sys A hw)
  | threaded A, hw => xthreaded_sound (sound sys A hw)
  | shared A, hw => xshared_sound sys (sound sys A hw.1)
      (fun _ => by have := hw.2.1; simp only [Cascading.nodeSize, XAlloc.toA, objSize_eq]; omega) (quiet sys A hw.2.2)
  | reference A, hw => xreference_sound (sound sys A hw)

/-- Non-empty requests that stay below the margin are covered. -/
theorem fits_of_margin (plat : Plat) : ∀ (t : XTy) (_ : t.WF) (n : Nat), 0 < n → n + t.margin < W64 → t.fits plat n
  | null, _, _, _, _ => trivial
  | mallocator, _, n, _, h => fun _ => h
  | linear S, _, n, _, h => by simp only [margin] at h; show n + 15 + S < W64; omega
  | stack S, _, n, _, h => by simp only [margin] at h; show n + 15 + S < W64; omega
  | user U, _, n, hn, h => by show n ≠ 0; omega
  | freelist m M A, hw, n, hn, h => fun _ => fits_of_margin plat A hw.1 M (by have := hw.2.1; omega) hw.2.2
  | fallback P F, hw, n, hn, h => by
    simp only [margin] at h
    exact ⟨by omega, fits_of_margin plat P hw.1 n hn (by omega), fits_of_margin plat F hw.2.1 n hn (by omega)⟩
  | segragator T P F, hw, n, hn, h => by
    simp only [margin] at h
    exact ⟨fun _ => fits_of_margin plat P hw.1 n hn (by omega), fun _ => fits_of_margin plat F hw.2 n hn (by omega)⟩
  | cascading A, hw, n, hn, h => ⟨by omega, fits_of_margin plat A hw.1 n hn h⟩
  | overflow A, hw, n, hn, h => by
    simp only [margin] at h
    exact ⟨by omega, fits_of_margin plat A hw (n + 128) (by omega) (by omega)⟩
  | threaded A, hw, n, hn, h => fits_of_margin plat A hw n hn h
  | shared A, hw, n, hn, h => fits_of_margin plat A hw.1 n hn h
  | reference A, hw, n, hn, h => fits_of_margin plat A hw n hn h

end XTy

end KTL
