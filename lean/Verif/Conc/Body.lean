import Verif.Alloc.Ty

/- The calls of the allocators as trees of their accesses to memory, so that other threads can move between two accesses. -/
namespace KTL

/-- What a call does, access by access. `g`: the call gives memory back (`deallocate`, destructors), it does not call `malloc`; otherwise it takes
memory (`allocate`, constructors), and does not call `free`. C++ machine, not library code. -/
inductive Body (g : Bool) (α : Type) where
  | ret (a : α)
  | ub
  /-- the unchecked null result of `malloc` is used, see `M.nullDeref` -/
  | null (hg : g = false)
  /-- read a byte -/
  | load (p : Nat) (k : UInt8 → Body g α)
  /-- write a byte -/
  | store (p : Nat) (v : UInt8) (k : Body g α)
  /-- C `malloc`, which is thread-safe -/
  | malloc (hg : g = false) (n : Nat) (k : Nat → Body g α)
  /-- C `free`, which is thread-safe -/
  | free (hg : g = true) (p : Nat) (k : Body g α)
  /-- `operator<<` of the stream; only when memory is given back -/
  | print (hg : g = true) (m : Msg) (k : Body g α)

namespace Body
variable {g : Bool} {α β : Type}

/-- C++ machine, not library code. -/
def bind : Body g α → (α → Body g β) → Body g β
  | .ret a, f => f a
  | .ub, _ => .ub
  | .null h, _ => .null h
  | .load p k, f => .load p fun v => (k v).bind f
  | .store p v k, f => .store p v (k.bind f)
  | .malloc h n k, f => .malloc h n fun p => (k p).bind f
  | .free h p k, f => .free h p (k.bind f)
  | .print h m k, f => .print h m (k.bind f)

instance : Monad (Body g) where
  pure := .ret
  bind := Body.bind

/-- The call without interruption. C++ machine, not library code. -/
def seq (sys : Sys) : Body g α → M α
  | .ret a => Pure.pure a
  | .ub => M.ub
  | .null _ => M.nullDeref
  | .load p k => do
    let v ← M.load p
    (k v).seq sys
  | .store p v k => do
    M.store p v
    k.seq sys
  | .malloc _ n k => do
    let p ← cMalloc sys n
    (k p).seq sys
  | .free _ p k => do
    cFree p
    k.seq sys
  | .print _ m k => do
    M.print m
    k.seq sys

/-- One access. C++ machine, not library code. -/
def step (sys : Sys) : Body g α → M (Body g α)
  | .ret a => Pure.pure (.ret a)
  | .ub => M.ub
  | .null _ => M.nullDeref
  | .load p k => do
    let v ← M.load p
    Pure.pure (k v)
  | .store p v k => do
    M.store p v
    Pure.pure k
  | .malloc _ n k => do
    let p ← cMalloc sys n
    Pure.pure (k p)
  | .free _ p k => do
    cFree p
    Pure.pure k
  | .print _ m k => do
    M.print m
    Pure.pure k

theorem seq_step (sys : Sys) (x : Body g α) : x.seq sys = x.step sys >>= fun y => y.seq sys := by
  cases x with
  | null _ =>
    show M.nullDeref = M.nullDeref >>= _
    funext w
    simp only [M.bind_apply, M.nullDeref]
    split <;> rfl
  | _ => simp only [seq, step, bind_assoc, pure_bind] <;> rfl

@[simp] theorem seq_pure (sys : Sys) (a : α) : (Pure.pure a : Body g α).seq sys = Pure.pure a := rfl

@[simp] theorem seq_bind (sys : Sys) (x : Body g α) (f : α → Body g β) : (x >>= f).seq sys = x.seq sys >>= fun a => (f a).seq sys := by
  show (x.bind f).seq sys = _
  induction x with
  | ret a => rfl
  | ub => rfl
  | null _ =>
    show M.nullDeref = M.nullDeref >>= _
    funext w
    simp only [M.bind_apply, M.nullDeref]
    split <;> rfl
  | load p k ih =>
    show (M.load p >>= fun v => ((k v).bind f).seq sys) = (M.load p >>= fun v => (k v).seq sys) >>= _
    rw [bind_assoc]
    exact congrArg _ (funext fun v => ih v)
  | store p v k ih =>
    show (M.store p v >>= fun _ => (k.bind f).seq sys) = (M.store p v >>= fun _ => k.seq sys) >>= _
    rw [bind_assoc]
    exact congrArg _ (funext fun _ => ih)
  | malloc _ n k ih =>
    show (cMalloc sys n >>= fun p => ((k p).bind f).seq sys) = (cMalloc sys n >>= fun p => (k p).seq sys) >>= _
    rw [bind_assoc]
    exact congrArg _ (funext fun v => ih v)
  | free _ p k ih =>
    show (cFree p >>= fun _ => (k.bind f).seq sys) = (cFree p >>= fun _ => k.seq sys) >>= _
    rw [bind_assoc]
    exact congrArg _ (funext fun _ => ih)
  | print _ m k ih =>
    show (M.print m >>= fun _ => (k.bind f).seq sys) = (M.print m >>= fun _ => k.seq sys) >>= _
    rw [bind_assoc]
    exact congrArg _ (funext fun _ => ih)

theorem seq_ite (sys : Sys) (c : Prop) [Decidable c] (x y : Body g α) :
    (if c then x else y).seq sys = if c then x.seq sys else y.seq sys := by split <;> rfl

/-! ### Memory -/

/-- C++ machine, not library code. -/
def readBytes (p : Nat) : Nat → Body g (List UInt8)
  | 0 => pure []
  | n + 1 => .load p fun x => do
    let xs ← readBytes (p + 1) n
    pure (x :: xs)

/-- C++ machine, not library code. -/
def writeBytes (p : Nat) : List UInt8 → Body g Unit
  | [] => pure ()
  | x :: xs => .store p x (writeBytes (p + 1) xs)

/-- read a pointer, byte by byte. C++ machine, not library code. -/
def readPtr (p : Nat) : Body g Nat := do
  let bs ← readBytes p 8
  pure (M.decPtr bs)

/-- write a pointer, byte by byte. C++ machine, not library code. -/
def writePtr (p v : Nat) : Body g Unit := writeBytes p (M.encPtr v)

@[simp] theorem seq_readBytes (sys : Sys) (p n : Nat) : (readBytes p n : Body g _).seq sys = M.readBytes p n := by
  induction n generalizing p with
  | zero => rfl
  | succ n ih =>
    show (M.load p >>= fun x => (readBytes (p + 1) n >>= fun xs => pure (x :: xs) : Body g _).seq sys) = M.load p >>= _
    refine congrArg _ (funext fun x => ?_)
    rw [seq_bind, ih]
    rfl

@[simp] theorem seq_writeBytes (sys : Sys) (p : Nat) (xs : List UInt8) : (writeBytes p xs : Body g _).seq sys = M.writeBytes p xs := by
  induction xs generalizing p with
  | nil => rfl
  | cons x xs ih =>
    show (M.store p x >>= fun _ => (writeBytes (p + 1) xs : Body g _).seq sys) = M.store p x >>= _
    rw [ih]

@[simp] theorem seq_readPtr (sys : Sys) (p : Nat) : (readPtr p : Body g _).seq sys = M.readPtr p := by
  unfold readPtr M.readPtr
  rw [seq_bind, seq_readBytes]; rfl

@[simp] theorem seq_writePtr (sys : Sys) (p v : Nat) : (writePtr p v : Body g _).seq sys = M.writePtr p v := seq_writeBytes ..

/-- `alignedMalloc`, access by access. `utility/aligned_malloc.h:48-71`. -/
def alignedMalloc (plat : Plat) (n : Nat) : Body false Nat :=
  match plat with
  | .direct => .malloc rfl n .ret
  | .manual => .malloc rfl (addW n 16) fun ptr =>
    if ptr ≠ 0 then do
      let res := addW (ptr / 16 * 16) 16
      writePtr (subW res 8) ptr
      pure res
    else pure 0

/-- `alignedFree`, access by access. `utility/aligned_malloc.h:73-87`. -/
def alignedFree (plat : Plat) (p : Nat) : Body true Unit :=
  match plat with
  | .direct => .free rfl p (.ret ())
  | .manual =>
    if p ≠ 0 then do
      let q ← readPtr (subW p 8)
      .free rfl q (.ret ())
    else pure ()

/-- `alignedNew`, access by access. `utility/aligned_malloc.h:89-96`. -/
def alignedNew (plat : Plat) (size : Nat) (ctor : Nat → Body false α) : Body false (Nat × α) := do
  let p ← alignedMalloc plat size
  if p = 0 then .null rfl
  else do
    let a ← ctor p
    pure (p, a)

/-- `alignedDelete`, access by access. `utility/aligned_malloc.h:98-104`. -/
def alignedDelete (plat : Plat) (p : Nat) (dtor : Body true Unit) : Body true Unit := do
  dtor
  alignedFree plat p

theorem seq_alignedMalloc (sys : Sys) (n : Nat) : (alignedMalloc sys.plat n).seq sys = KTL.alignedMalloc sys n := by
  unfold alignedMalloc KTL.alignedMalloc
  cases sys.plat with
  | direct => exact bind_pure _
  | manual =>
    refine congrArg (cMalloc sys (addW n 16) >>= ·) (funext fun ptr => ?_)
    rw [seq_ite]
    simp only [seq_bind, seq_writePtr, seq_pure]

theorem seq_alignedFree (sys : Sys) (p : Nat) : (alignedFree sys.plat p).seq sys = KTL.alignedFree sys p := by
  unfold alignedFree KTL.alignedFree
  cases sys.plat with
  | direct => exact bind_pure _
  | manual =>
    simp only
    rw [seq_ite, seq_bind, seq_readPtr, seq_pure]
    have : ∀ q, (Body.free rfl q (.ret ()) : Body true Unit).seq sys = cFree q := fun q => bind_pure _
    simp only [this]

theorem seq_alignedNew (sys : Sys) (size : Nat) (ctor : Nat → Body false α) :
    (alignedNew sys.plat size ctor).seq sys = KTL.alignedNew sys size fun p => (ctor p).seq sys := by
  unfold alignedNew KTL.alignedNew
  rw [seq_bind, seq_alignedMalloc]
  refine congrArg _ (funext fun p => ?_)
  rw [seq_ite, seq_bind]
  rfl

theorem seq_alignedDelete (sys : Sys) (p : Nat) (dtor : Body true Unit) :
    (alignedDelete sys.plat p dtor).seq sys = KTL.alignedDelete sys p (dtor.seq sys) := by
  unfold alignedDelete KTL.alignedDelete
  rw [seq_bind]
  exact congrArg _ (funext fun _ => seq_alignedFree sys p)

end Body

/-! ### The allocators -/

/-- An allocator class whose functions are given access by access; compare `Allocator`. The fields of the object are not memory: they are read at the
beginning of a call and written at its end, and are private. `finish` is the destructor without interruption, `fini` the same access by access
(not given for `freelist`, whose destructor is a loop of unknown length). -/
structure BAlloc where
  S : Type
  objSize : Nat
  init : Nat → Body false S
  alloc : S → Nat → Body false (Nat × S)
  dealloc : S → Nat → Nat → Body true S
  owns : Option (S → Nat → Bool)
  maxSize : Option (S → Option Nat)
  construct : Option (S → Nat → M S)
  destroy : Option (S → Nat → M S)
  fini : S → Body true Unit
  finish : Sys → S → M Unit

namespace BAlloc

/-- The allocator whose calls are not interrupted. Proof helper, not code. -/
def toA (X : BAlloc) (sys : Sys) : Allocator where
  St := X.S
  objSize := X.objSize
  init a := (X.init a).seq sys
  alloc s n := (X.alloc s n).seq sys
  dealloc s p n := (X.dealloc s p n).seq sys
  owns := X.owns
  maxSize := X.maxSize
  construct := X.construct
  destroy := X.destroy
  fini := X.finish sys

/-- Proof helper, not code. -/
theorem ext {S : Type} {o : Nat} {i i' : Nat → M S} {a a' : S → Nat → M (Nat × S)} {d d' : S → Nat → Nat → M S} {ow ow' : Option (S → Nat → Bool)}
    {m m' : Option (S → Option Nat)} {c c' e e' : Option (S → Nat → M S)} {f f' : S → M Unit} (hi : ∀ x, i x = i' x) (ha : ∀ s n, a s n = a' s n)
    (hd : ∀ s p n, d s p n = d' s p n) (hf : ∀ s, f s = f' s)
    (how : ow = ow') (hm : m = m') (hc : c = c') (he : e = e') :
    (⟨S, o, i, a, d, ow, m, c, e, f⟩ : Allocator) = ⟨S, o, i', a', d', ow', m', c', e', f'⟩ := by
  subst how hm hc he
  obtain rfl := funext hi
  obtain rfl : a = a' := funext fun s => funext fun n => ha s n
  obtain rfl : d = d' := funext fun s => funext fun p => funext fun n => hd s p n
  obtain rfl := funext hf
  rfl

theorem toA_ownsD (X : BAlloc) (s1 s2 : Sys) (s : X.S) (p : Nat) : (X.toA s1).ownsD s p = (X.toA s2).ownsD s p := by
  obtain ⟨_, _, _, _, _, ow, _, _, _, _, _⟩ := X
  cases ow <;> rfl

/-- the destructor is given access by access. Proof helper, not code. -/
def Finite (plat : Plat) (X : BAlloc) : Prop := ∀ sys, sys.plat = plat → ∀ s, (X.fini s).seq sys = X.finish sys s

end BAlloc

/-- A `malloc` that always fails: the functions without memory access (`owns`, `max_size`) do not depend on it. Proof helper, not code. -/
def noSys (plat : Plat) : Sys where
  plat := plat
  malloc _ _ _ := none
  valid := by intro _ _ _ _ _ h; cases h

/-- `null_allocator` access by access. `allocators/null_allocator.h:35-50`. -/
def nullB : BAlloc where
  S := Unit
  objSize := 0
  init _ := pure ()
  alloc _ _ := pure (0, ())
  dealloc _ _ _ := pure ()
  owns := nullAlloc.owns
  maxSize := nullAlloc.maxSize
  construct := nullAlloc.construct
  destroy := nullAlloc.destroy
  fini _ := pure ()
  finish _ := nullAlloc.fini

theorem nullB_toA (sys : Sys) : nullB.toA sys = nullAlloc := rfl

/-- `mallocator` access by access. `allocators/mallocator.h:38-48`. -/
def mallocB (plat : Plat) : BAlloc where
  S := Unit
  objSize := 0
  init _ := pure ()
  alloc _ n := do
    let p ← Body.alignedMalloc plat n
    pure (p, ())
  dealloc _ p _ := Body.alignedFree plat p
  owns := none
  maxSize := none
  construct := none
  destroy := none
  fini _ := pure ()
  finish sys := (mallocator sys).fini

theorem mallocB_toA (sys : Sys) : (mallocB sys.plat).toA sys = mallocator sys := by
  refine BAlloc.ext (fun _ => rfl) (fun s n => ?_) (fun s p n => ?_) (fun _ => rfl) rfl rfl rfl rfl
  · simp only [mallocB, Body.seq_bind, Body.seq_alignedMalloc, Body.seq_pure]
  · exact Body.seq_alignedFree sys p

/-- `linear_allocator` access by access: it only works on its fields. `allocators/linear_allocator.h:21-24, 75-110`. -/
def linearB (Size : Nat) : BAlloc where
  S := Linear.St
  objSize := Linear.objSize Size
  init a := pure (Linear.init a)
  alloc s n := pure (Linear.alloc Size s n)
  dealloc s p n := pure (Linear.dealloc s p n)
  owns := (linear Size).owns
  maxSize := (linear Size).maxSize
  construct := none
  destroy := none
  fini _ := pure ()
  finish _ := (linear Size).fini

theorem linearB_toA (Size : Nat) (sys : Sys) : (linearB Size).toA sys = linear Size := rfl

/-- `stack_allocator` access by access: it only works on the fields of the stack. `allocators/stack_allocator.h:22-25, 63-90`. -/
def stackB (Size : Nat) : BAlloc where
  S := Stack
  objSize := Linear.objSize Size
  init a := pure (Stack.init a)
  alloc s n := pure (Stack.alloc Size s n)
  dealloc s p n := pure (Stack.dealloc s p n)
  owns := (stackAlloc Size).owns
  maxSize := (stackAlloc Size).maxSize
  construct := none
  destroy := none
  fini _ := pure ()
  finish _ := (stackAlloc Size).fini

theorem stackB_toA (Size : Nat) (sys : Sys) : (stackB Size).toA sys = stackAlloc Size := rfl

/-- `freelist` access by access. The destructor is not given access by access (placeholder `ub`, no claim is made for it).
`allocators/freelist.h:40-44, 113-147`. -/
def freelistB (plat : Plat) (Min Max : Nat) (X : BAlloc) : BAlloc where
  S := Freelist.St X.S
  objSize := X.objSize + 16
  init b := do
    let a ← X.init b
    pure ⟨a, 0⟩
  alloc s n :=
    if n > Min ∧ n ≤ Max then
      if s.free ≠ 0 then do
        let nx ← Body.readPtr s.free
        pure (s.free, ⟨s.a, nx⟩)
      else do
        let r ← X.alloc s.a Max
        pure (r.1, ⟨r.2, s.free⟩)
    else pure (0, s)
  dealloc s p n :=
    if n > Min ∧ n ≤ Max ∧ p ≠ 0 then do
      Body.writePtr p s.free
      pure ⟨s.a, p⟩
    else pure s
  owns := (freelist Min Max (X.toA (noSys plat))).owns
  maxSize := (freelist Min Max (X.toA (noSys plat))).maxSize
  construct := (freelist Min Max (X.toA (noSys plat))).construct
  destroy := (freelist Min Max (X.toA (noSys plat))).destroy
  fini _ := .ub
  finish sys := (freelist Min Max (X.toA sys)).fini

theorem freelistB_toA (plat : Plat) (Min Max : Nat) (X : BAlloc) (sys : Sys) : (freelistB plat Min Max X).toA sys = freelist Min Max (X.toA sys) := by
  refine BAlloc.ext (fun b => ?_) (fun s n => ?_) (fun s p n => ?_) (fun _ => rfl) rfl rfl rfl rfl
  · simp only [freelistB, Body.seq_bind, Body.seq_pure]; rfl
  · simp only [freelistB, Body.seq_ite, Body.seq_bind, Body.seq_readPtr, Body.seq_pure]; rfl
  · simp only [freelistB, Body.seq_ite, Body.seq_bind, Body.seq_writePtr, Body.seq_pure]; rfl

/-- `fallback` access by access. `allocators/fallback.h:100-119, 207-208`. -/
def fallbackB (plat : Plat) (P F : BAlloc) : BAlloc where
  S := P.S × F.S
  objSize := P.objSize + F.objSize
  init a := do
    let s1 ← P.init a
    let s2 ← F.init (a + P.objSize)
    pure (s1, s2)
  alloc s n := do
    let r ← P.alloc s.1 n
    if r.1 = 0 then do
      let q ← F.alloc s.2 n
      pure (q.1, (r.2, q.2))
    else pure (r.1, (r.2, s.2))
  dealloc s p n :=
    if (P.toA (noSys plat)).ownsD s.1 p then do
      let s1 ← P.dealloc s.1 p n
      pure (s1, s.2)
    else do
      let s2 ← F.dealloc s.2 p n
      pure (s.1, s2)
  owns := (fallback (P.toA (noSys plat)) (F.toA (noSys plat))).owns
  maxSize := (fallback (P.toA (noSys plat)) (F.toA (noSys plat))).maxSize
  construct := (fallback (P.toA (noSys plat)) (F.toA (noSys plat))).construct
  destroy := (fallback (P.toA (noSys plat)) (F.toA (noSys plat))).destroy
  fini s := do
    F.fini s.2
    P.fini s.1
  finish sys := (fallback (P.toA sys) (F.toA sys)).fini

theorem maxSize2_congr (P F : BAlloc) (s1 s2 : Sys) : maxSize2 (P.toA s1) (F.toA s1) = maxSize2 (P.toA s2) (F.toA s2) := by
  obtain ⟨_, _, _, _, _, _, m1, _, _, _, _⟩ := P
  obtain ⟨_, _, _, _, _, _, m2, _, _, _, _⟩ := F
  cases m1 <;> cases m2 <;> rfl

theorem owns2_congr (P F : BAlloc) (s1 s2 : Sys) : owns2 (P.toA s1) (F.toA s1) = owns2 (P.toA s2) (F.toA s2) := by
  obtain ⟨_, _, _, _, _, o1, _, _, _, _, _⟩ := P
  obtain ⟨_, _, _, _, _, o2, _, _, _, _, _⟩ := F
  cases o1 <;> cases o2 <;> rfl

theorem route2_congr (P F : BAlloc) (s1 s2 : Sys) (c : Option (P.S → Nat → M P.S)) (d : Option (F.S → Nat → M F.S)) (ev : Nat → Ev) :
    route2 (P.toA s1) (F.toA s1) c d ev = route2 (P.toA s2) (F.toA s2) c d ev := by
  obtain ⟨_, _, _, _, _, ow, _, _, _, _, _⟩ := P
  cases ow <;> cases c <;> cases d <;> first
    | rfl
    | (refine congrArg some (funext fun (s : _ × _) => funext fun p => ?_)
       rename_i v _
       simp only [BAlloc.toA, Allocator.ownsD]
       cases v s.1 p <;> rfl)
    | (refine congrArg some (funext fun (s : _ × _) => funext fun p => ?_)
       rename_i v _ _
       simp only [BAlloc.toA, Allocator.ownsD]
       cases v s.1 p <;> rfl)

theorem fallbackB_toA (plat : Plat) (P F : BAlloc) (sys : Sys) : (fallbackB plat P F).toA sys = fallback (P.toA sys) (F.toA sys) := by
  refine BAlloc.ext (fun b => ?_) (fun s n => ?_) (fun s p n => ?_) (fun _ => rfl) (owns2_congr ..) (maxSize2_congr ..) (route2_congr ..) (route2_congr ..)
  · simp only [fallbackB, Body.seq_bind, Body.seq_pure]; rfl
  · simp only [fallbackB, Body.seq_bind, Body.seq_ite, Body.seq_pure]; rfl
  · simp only [fallbackB, Body.seq_ite, Body.seq_bind, Body.seq_pure, P.toA_ownsD (noSys plat) sys]; rfl

/-- `segragator` access by access. `allocators/segragator.h:97-113`. -/
def segragatorB (plat : Plat) (T : Nat) (P F : BAlloc) : BAlloc where
  S := P.S × F.S
  objSize := P.objSize + F.objSize
  init a := do
    let s1 ← P.init a
    let s2 ← F.init (a + P.objSize)
    pure (s1, s2)
  alloc s n :=
    if n ≤ T then do
      let r ← P.alloc s.1 n
      pure (r.1, (r.2, s.2))
    else do
      let q ← F.alloc s.2 n
      pure (q.1, (s.1, q.2))
  dealloc s p n :=
    if n ≤ T then do
      let s1 ← P.dealloc s.1 p n
      pure (s1, s.2)
    else do
      let s2 ← F.dealloc s.2 p n
      pure (s.1, s2)
  owns := (segragator T (P.toA (noSys plat)) (F.toA (noSys plat))).owns
  maxSize := (segragator T (P.toA (noSys plat)) (F.toA (noSys plat))).maxSize
  construct := (segragator T (P.toA (noSys plat)) (F.toA (noSys plat))).construct
  destroy := (segragator T (P.toA (noSys plat)) (F.toA (noSys plat))).destroy
  fini s := do
    F.fini s.2
    P.fini s.1
  finish sys := (segragator T (P.toA sys) (F.toA sys)).fini

theorem segragatorB_toA (plat : Plat) (T : Nat) (P F : BAlloc) (sys : Sys) :
    (segragatorB plat T P F).toA sys = segragator T (P.toA sys) (F.toA sys) := by
  refine BAlloc.ext (fun b => ?_) (fun s n => ?_) (fun s p n => ?_) (fun _ => rfl) (owns2_congr ..) (maxSize2_congr ..) (route2_congr ..) (route2_congr ..)
  · simp only [segragatorB, Body.seq_bind, Body.seq_pure]; rfl
  · simp only [segragatorB, Body.seq_bind, Body.seq_ite, Body.seq_pure]; rfl
  · simp only [segragatorB, Body.seq_ite, Body.seq_bind, Body.seq_pure]; rfl

namespace Cascading
open Body (alignedNew alignedDelete)

/-- `newNode` access by access. `allocators/cascading.h:100, 115`. -/
def newNodeB (plat : Plat) (X : BAlloc) : Body false (Node X.S) := do
  let r ← Body.alignedNew plat (X.objSize + 16) X.init
  pure ⟨r.1, r.2, 0⟩

/-- `ensure` access by access. `allocators/cascading.h:98-100`. -/
def ensureB (plat : Plat) (X : BAlloc) (s : List (Node X.S)) : Body false (List (Node X.S)) :=
  match s with
  | [] => do
    let nd ← newNodeB plat X
    pure [nd]
  | _ => pure s

/-- `allocFront` access by access. `allocators/cascading.h:108-124`. -/
def allocFrontB (plat : Plat) (X : BAlloc) (nd : Node X.S) (rest : List (Node X.S)) (n : Nat) : Body false (Nat × List (Node X.S)) := do
  let r ← X.alloc nd.st n
  if r.1 = 0 then do
    let nd2 ← newNodeB plat X
    let q ← X.alloc nd2.st n
    pure (q.1, ⟨nd2.addr, q.2, if q.1 ≠ 0 then nd2.cnt + 1 else nd2.cnt⟩ :: ⟨nd.addr, r.2, nd.cnt⟩ :: rest)
  else pure (r.1, ⟨nd.addr, r.2, nd.cnt + 1⟩ :: rest)

/-- `allocate` access by access. `allocators/cascading.h:93-125`. -/
def allocB (plat : Plat) (X : BAlloc) (s : List (Node X.S)) (n : Nat) : Body false (Nat × List (Node X.S)) := do
  let s' ← ensureB plat X s
  match s' with
  | [] => .ub
  | nd :: rest =>
    match X.maxSize with
    | none => allocFrontB plat X nd rest n
    | some f =>
      match f nd.st with
      | none => .ub
      | some m => if n > m then pure (0, s') else allocFrontB plat X nd rest n

/-- `deallocate` access by access. `allocators/cascading.h:133-163`. -/
def deallocB (plat : Plat) (X : BAlloc) (p n : Nat) (prev : Bool) : List (Node X.S) → Body true (List (Node X.S))
  | [] => pure []
  | nd :: rest =>
    if (X.toA (noSys plat)).ownsD nd.st p then do
      let st ← X.dealloc nd.st p n
      let cnt := decr nd.cnt
      if cnt = 0 ∧ prev = true then do
        Body.alignedDelete plat nd.addr (X.fini st)
        pure rest
      else pure (⟨nd.addr, st, cnt⟩ :: rest)
    else do
      let rest' ← deallocB plat X p n true rest
      pure (nd :: rest')

/-- `release` access by access. `allocators/cascading.h:264-281`. -/
def releaseB (plat : Plat) (X : BAlloc) : List (Node X.S) → Body true Unit
  | [] => pure ()
  | nd :: rest => do
    Body.alignedDelete plat nd.addr (X.fini nd.st)
    releaseB plat X rest

theorem seq_newNodeB (X : BAlloc) (sys : Sys) : (newNodeB sys.plat X).seq sys = newNode sys (X.toA sys) := by
  unfold newNodeB newNode
  rw [Body.seq_bind, Body.seq_alignedNew]
  rfl

theorem seq_ensureB (X : BAlloc) (sys : Sys) (s : List (Node X.S)) : (ensureB sys.plat X s).seq sys = ensure sys (X.toA sys) s := by
  cases s with
  | nil =>
    unfold ensureB ensure
    simp only [Body.seq_bind, seq_newNodeB]
    rfl
  | cons => rfl

theorem seq_allocFrontB (X : BAlloc) (sys : Sys) (nd : Node X.S) (rest : List (Node X.S)) (n : Nat) :
    (allocFrontB sys.plat X nd rest n).seq sys = allocFront sys (X.toA sys) nd rest n := by
  unfold allocFrontB allocFront
  simp only [Body.seq_bind, Body.seq_ite, seq_newNodeB, Body.seq_pure]
  rfl

theorem seq_allocB (X : BAlloc) (sys : Sys) (s : List (Node X.S)) (n : Nat) : (allocB sys.plat X s n).seq sys = alloc sys (X.toA sys) s n := by
  unfold allocB alloc
  rw [Body.seq_bind, seq_ensureB]
  refine congrArg _ (funext fun s' => ?_)
  cases s' with
  | nil => rfl
  | cons nd rest =>
    simp only
    cases hm : X.maxSize with
    | none =>
      have hm' : (X.toA sys).maxSize = none := hm
      simp only [hm', seq_allocFrontB]
      rfl
    | some f =>
      have hm' : (X.toA sys).maxSize = some f := hm
      simp only [hm']
      cases f nd.st with
      | none => rfl
      | some m => simp only [Body.seq_ite, seq_allocFrontB, Body.seq_pure]; rfl

theorem seq_deallocB {X : BAlloc} {sys : Sys} (hX : X.Finite sys.plat) (p n : Nat) (prev : Bool) (s : List (Node X.S)) :
    (deallocB sys.plat X p n prev s).seq sys = dealloc sys (X.toA sys) p n prev s := by
  induction s generalizing prev with
  | nil => rfl
  | cons nd rest ih =>
    rw [deallocB]
    refine Eq.trans ?_ (dealloc.eq_2 sys (X.toA sys) p n prev nd rest).symm
    simp only [Body.seq_ite, Body.seq_bind, Body.seq_alignedDelete, hX sys rfl, ih, Body.seq_pure, X.toA_ownsD (noSys sys.plat) sys]
    rfl

theorem seq_releaseB {X : BAlloc} {sys : Sys} (hX : X.Finite sys.plat) (s : List (Node X.S)) :
    (releaseB sys.plat X s).seq sys = release sys (X.toA sys) s := by
  induction s with
  | nil => rfl
  | cons nd rest ih =>
    rw [releaseB]
    refine Eq.trans ?_ (release.eq_2 sys (X.toA sys) nd rest).symm
    rw [Body.seq_bind, Body.seq_alignedDelete, hX sys rfl, ih]
    rfl

end Cascading

/-- `cascading` access by access. `allocators/cascading.h`. -/
def cascadingB (plat : Plat) (X : BAlloc) : BAlloc where
  S := List (Cascading.Node X.S)
  objSize := 16
  init _ := pure []
  alloc s n := Cascading.allocB plat X s n
  dealloc s p n := Cascading.deallocB plat X p n false s
  owns := (cascading (noSys plat) (X.toA (noSys plat))).owns
  maxSize := (cascading (noSys plat) (X.toA (noSys plat))).maxSize
  construct := (cascading (noSys plat) (X.toA (noSys plat))).construct
  destroy := (cascading (noSys plat) (X.toA (noSys plat))).destroy
  fini s := Cascading.releaseB plat X s
  finish sys := (cascading sys (X.toA sys)).fini

theorem Cascading.routeGo_congr (X : BAlloc) (s1 s2 : Sys) (c : X.S → Nat → M X.S) (ev : Nat → Ev) (p : Nat) (s : List (Cascading.Node X.S)) :
    Cascading.routeGo (X.toA s1) c ev p s = Cascading.routeGo (X.toA s2) c ev p s := by
  induction s with
  | nil => rfl
  | cons nd rest ih =>
    refine (Cascading.routeGo.eq_2 (X.toA s1) c ev p nd rest).trans (Eq.trans ?_ (Cascading.routeGo.eq_2 (X.toA s2) c ev p nd rest).symm)
    rw [ih, X.toA_ownsD s1 s2]; rfl

theorem cascadingB_toA {X : BAlloc} {sys : Sys} (hX : X.Finite sys.plat) : (cascadingB sys.plat X).toA sys = cascading sys (X.toA sys) := by
  have ho : (cascadingB sys.plat X).owns = (cascading sys (X.toA sys)).owns := by
    refine congrArg some (funext fun s => funext fun p => ?_)
    exact congrArg (fun f => List.any s f) (funext fun nd => X.toA_ownsD ..)
  have hm : (cascadingB sys.plat X).maxSize = (cascading sys (X.toA sys)).maxSize := by
    show Option.map _ X.maxSize = Option.map _ X.maxSize
    congr 1
    funext f s
    cases s <;> rfl
  have hc : (cascadingB sys.plat X).construct = (cascading sys (X.toA sys)).construct := by
    show Option.map _ X.construct = Option.map _ X.construct
    congr 1
    funext c s p
    exact Cascading.routeGo_congr ..
  have hd : (cascadingB sys.plat X).destroy = (cascading sys (X.toA sys)).destroy := by
    show Option.map _ X.destroy = Option.map _ X.destroy
    congr 1
    funext c s p
    exact Cascading.routeGo_congr ..
  exact BAlloc.ext (fun _ => rfl) (fun s n => Cascading.seq_allocB X sys s n) (fun s p n => Cascading.seq_deallocB hX p n false s) (fun _ => rfl)
    ho hm hc hd

namespace Overflow

/-- `scanBefore` access by access. `allocators/overflow.h:141-145`. -/
def scanBeforeB (ptr k : Nat) : Nat → Nat → Body true Nat
  | 0, cur => pure cur
  | r + 1, cur => .load (ptr - k) fun v => scanBeforeB ptr (k + 1) r (if v ≠ pattern then k else cur)

/-- `scanAfter` access by access. `allocators/overflow.h:147-151`. -/
def scanAfterB (e k : Nat) : Nat → Nat → Body true Nat
  | 0, cur => pure cur
  | r + 1, cur => .load (e + k) fun v => scanAfterB e (k + 1) r (if v ≠ pattern then k + 1 else cur)

theorem seq_scanBeforeB (sys : Sys) (ptr k r cur : Nat) : (scanBeforeB ptr k r cur).seq sys = scanBefore ptr k r cur := by
  induction r generalizing k cur with
  | zero => rfl
  | succ r ih => exact congrArg (M.load (ptr - k) >>= ·) (funext fun v => ih ..)

theorem seq_scanAfterB (sys : Sys) (e k r cur : Nat) : (scanAfterB e k r cur).seq sys = scanAfter e k r cur := by
  induction r generalizing k cur with
  | zero => rfl
  | succ r ih => exact congrArg (M.load (e + k) >>= ·) (funext fun v => ih ..)

/-- print if. C++ machine, not library code. -/
def printIf (c : Prop) [Decidable c] (m : Msg) : Body true Unit := if c then .print rfl m (.ret ()) else pure ()

theorem seq_printIf (sys : Sys) (c : Prop) [Decidable c] (m : Msg) : (printIf c m).seq sys = M.ifThen c (M.print m) := by
  unfold printIf M.ifThen
  split
  · exact bind_pure _
  · rfl

end Overflow

open Overflow in
/-- `overflow` access by access. `allocators/overflow.h:35-40, 59-78, 104-167`. -/
def overflowB (plat : Plat) (X : BAlloc) : BAlloc where
  S := Overflow.St X.S
  objSize := X.objSize + 32
  init b := do
    let a ← X.init b
    pure ⟨a, 0, 0⟩
  alloc s n := do
    let allocs := wrap64 (s.allocs + n)
    let r ← X.alloc s.a (addW n 128)
    if r.1 = 0 then pure (0, ⟨r.2, allocs, s.constructs⟩)
    else do
      Body.writeBytes r.1 (List.replicate 64 pattern)
      Body.writeBytes (r.1 + 64 + n) (List.replicate 64 pattern)
      pure (r.1 + 64, ⟨r.2, allocs, s.constructs⟩)
  dealloc s p n := do
    let allocs := wrap64 (s.allocs - n)
    if p ≠ 0 then do
      let before ← scanBeforeB p 1 64 0
      let after ← scanAfterB (p + n) 0 64 0
      printIf (before ≠ 0 ∨ after ≠ 0) (.corruption p n before after)
      let a ← X.dealloc s.a (p - 64) (addW n 128)
      pure ⟨a, allocs, s.constructs⟩
    else pure ⟨s.a, allocs, s.constructs⟩
  owns := (overflow (X.toA (noSys plat))).owns
  maxSize := (overflow (X.toA (noSys plat))).maxSize
  construct := (overflow (X.toA (noSys plat))).construct
  destroy := (overflow (X.toA (noSys plat))).destroy
  fini s := do
    printIf (s.allocs ≠ 0) (.leak s.allocs)
    printIf (s.constructs ≠ 0) (.logic s.constructs)
    X.fini s.a
  finish sys := (overflow (X.toA sys)).fini

theorem overflowB_toA (plat : Plat) (X : BAlloc) (sys : Sys) : (overflowB plat X).toA sys = overflow (X.toA sys) := by
  refine BAlloc.ext (fun b => ?_) (fun s n => ?_) (fun s p n => ?_) (fun _ => rfl) rfl rfl ?_ ?_
  · simp only [overflowB, Body.seq_bind, Body.seq_pure]; rfl
  · simp only [overflowB, Body.seq_bind, Body.seq_ite, Body.seq_writeBytes, Body.seq_pure]; rfl
  · simp only [overflowB, Body.seq_ite, Body.seq_bind, Overflow.seq_scanBeforeB, Overflow.seq_scanAfterB, Overflow.seq_printIf, Body.seq_pure]; rfl
  · obtain ⟨_, _, _, _, _, _, _, c, _, _, _⟩ := X
    cases c <;> rfl
  · obtain ⟨_, _, _, _, _, _, _, _, c, _, _⟩ := X
    cases c <;> rfl

/-- The class behind the mutex of `threaded`, access by access; the mutex itself is in `Verif/Conc/Gang`. `allocators/threaded.h:61-116`. -/
def threadedB (X : BAlloc) : BAlloc := { X with objSize := X.objSize + 48 }

theorem threadedB_toA (X : BAlloc) (sys : Sys) : (threadedB X).toA sys = threaded (X.toA sys) := rfl

/-- `reference` access by access. `allocators/reference.h:61-109`. -/
def referenceB (X : BAlloc) : BAlloc := { X with objSize := X.objSize + 16 }

theorem referenceB_toA (X : BAlloc) (sys : Sys) : (referenceB X).toA sys = reference (X.toA sys) := rfl

/-- `shared` with a single handle, access by access. `allocators/shared.h:46-58, 63-76, 90-93, 131-189`. -/
def sharedB (plat : Plat) (X : BAlloc) : BAlloc where
  S := Nat × X.S
  objSize := 16
  init _ := Body.alignedNew plat (X.objSize + 16) X.init
  alloc s n := do
    let r ← X.alloc s.2 n
    pure (r.1, (s.1, r.2))
  dealloc s p n := do
    let a ← X.dealloc s.2 p n
    pure (s.1, a)
  owns := (sharedAlloc (noSys plat) (X.toA (noSys plat))).owns
  maxSize := (sharedAlloc (noSys plat) (X.toA (noSys plat))).maxSize
  construct := (sharedAlloc (noSys plat) (X.toA (noSys plat))).construct
  destroy := (sharedAlloc (noSys plat) (X.toA (noSys plat))).destroy
  fini s := Body.alignedDelete plat s.1 (X.fini s.2)
  finish sys := (sharedAlloc sys (X.toA sys)).fini

theorem sharedB_toA (X : BAlloc) (sys : Sys) : (sharedB sys.plat X).toA sys = sharedAlloc sys (X.toA sys) := by
  refine BAlloc.ext (fun b => ?_) (fun s n => ?_) (fun s p n => ?_) (fun _ => rfl) rfl rfl rfl rfl
  · exact Body.seq_alignedNew ..
  · simp only [sharedB, Body.seq_bind, Body.seq_pure]; rfl
  · simp only [sharedB, Body.seq_bind, Body.seq_pure]; rfl

namespace AllocTy

/-- The class a type expression denotes, access by access; compare `denote`.
The class templates of `allocators/*.h`, each by the definition that cites it. -/
def denoteB (plat : Plat) : AllocTy → BAlloc
  | null => nullB
  | mallocator => mallocB plat
  | linear S => linearB S
  | stack S => stackB S
  | freelist m M A => freelistB plat m M (A.denoteB plat)
  | fallback P F => fallbackB plat (P.denoteB plat) (F.denoteB plat)
  | segragator T P F => segragatorB plat T (P.denoteB plat) (F.denoteB plat)
  | cascading A => cascadingB plat (A.denoteB plat)
  | overflow A => overflowB plat (A.denoteB plat)
  | threaded A => threadedB (A.denoteB plat)
  | shared A => sharedB plat (A.denoteB plat)
  | reference A => referenceB (A.denoteB plat)

/-- no destructor contains the loop of `freelist` (`allocators/freelist.h:228-238`). Specification, not code. -/
def loopFree : AllocTy → Bool
  | null => true
  | mallocator => true
  | linear _ => true
  | stack _ => true
  | freelist _ _ _ => false
  | fallback P F => P.loopFree && F.loopFree
  | segragator _ P F => P.loopFree && F.loopFree
  | cascading A => A.loopFree
  | overflow A => A.loopFree
  | threaded A => A.loopFree
  | shared A => A.loopFree
  | reference A => A.loopFree

/-- the types whose calls are given access by access: no `freelist` below a `cascading` (which destroys emptied instances during `deallocate`).
Specification, not code. -/
def stepwise : AllocTy → Bool
  | null => true
  | mallocator => true
  | linear _ => true
  | stack _ => true
  | freelist _ _ A => A.stepwise
  | fallback P F => P.stepwise && F.stepwise
  | segragator _ P F => P.stepwise && F.stepwise
  | cascading A => A.stepwise && A.loopFree
  | overflow A => A.stepwise
  | threaded A => A.stepwise
  | shared A => A.stepwise
  | reference A => A.stepwise

theorem finite (plat : Plat) (t : AllocTy) (h : t.loopFree = true) : (t.denoteB plat).Finite plat := by
  induction t with
  | null => exact fun _ _ _ => rfl
  | mallocator => exact fun _ _ _ => rfl
  | linear _ => exact fun _ _ _ => rfl
  | stack _ => exact fun _ _ _ => rfl
  | freelist _ _ _ _ => cases h
  | fallback P F ihP ihF =>
    simp only [loopFree, Bool.and_eq_true] at h
    intro sys hp s
    show ((F.denoteB plat).fini s.2 >>= fun _ => (P.denoteB plat).fini s.1).seq sys = _
    rw [Body.seq_bind, ihF h.2 sys hp, ihP h.1 sys hp]; rfl
  | segragator _ P F ihP ihF =>
    simp only [loopFree, Bool.and_eq_true] at h
    intro sys hp s
    show ((F.denoteB plat).fini s.2 >>= fun _ => (P.denoteB plat).fini s.1).seq sys = _
    rw [Body.seq_bind, ihF h.2 sys hp, ihP h.1 sys hp]; rfl
  | cascading A ih =>
    intro sys hp s
    subst hp
    exact Cascading.seq_releaseB (ih h) s
  | overflow A ih =>
    intro sys hp s
    show (Overflow.printIf (s.allocs ≠ 0) (.leak s.allocs) >>= fun _ => Overflow.printIf (s.constructs ≠ 0) (.logic s.constructs) >>= fun _ =>
      (A.denoteB plat).fini s.a).seq sys = _
    simp only [Body.seq_bind, Overflow.seq_printIf, ih h sys hp]
    rfl
  | threaded A ih => exact ih h
  | shared A ih =>
    intro sys hp s
    subst hp
    show (Body.alignedDelete sys.plat s.1 ((A.denoteB sys.plat).fini s.2)).seq sys = _
    rw [Body.seq_alignedDelete, ih h sys rfl]; rfl
  | reference A ih => exact ih h

/-- The calls access by access, without interruption, are the calls of the model. -/
theorem denoteB_toA (sys : Sys) (t : AllocTy) (h : t.stepwise = true) : (t.denoteB sys.plat).toA sys = t.denote sys := by
  induction t with
  | null => rfl
  | mallocator => exact mallocB_toA sys
  | linear _ => rfl
  | stack _ => rfl
  | freelist m M A ih =>
    show (freelistB _ m M _).toA sys = _
    rw [freelistB_toA, ih h]; rfl
  | fallback P F ihP ihF =>
    simp only [stepwise, Bool.and_eq_true] at h
    show (fallbackB _ _ _).toA sys = _
    rw [fallbackB_toA, ihP h.1, ihF h.2]; rfl
  | segragator T P F ihP ihF =>
    simp only [stepwise, Bool.and_eq_true] at h
    show (segragatorB _ T _ _).toA sys = _
    rw [segragatorB_toA, ihP h.1, ihF h.2]; rfl
  | cascading A ih =>
    simp only [stepwise, Bool.and_eq_true] at h
    show (cascadingB _ _).toA sys = _
    rw [cascadingB_toA (finite _ _ h.2), ih h.1]; rfl
  | overflow A ih =>
    show (overflowB _ _).toA sys = _
    rw [overflowB_toA, ih h]; rfl
  | threaded A ih =>
    show (threadedB _).toA sys = _
    rw [threadedB_toA, ih h]; rfl
  | shared A ih =>
    show (sharedB _ _).toA sys = _
    rw [sharedB_toA, ih h]; rfl
  | reference A ih =>
    show (referenceB _).toA sys = _
    rw [referenceB_toA, ih h]; rfl

end AllocTy
end KTL
