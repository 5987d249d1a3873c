import Verif.Conc.Prog
import Verif.Alloc.Ty

/- Allocators that belong to one thread and get their memory from an allocator that all threads share: their functions access by access. -/
namespace KTL

/-- An allocator class whose functions are given access by access, on top of another allocator (`Prog.alloc`, `Prog.dealloc`); compare
`Allocator`. The fields of the object are not memory: they are private to the thread. -/
structure PAlloc where
  S : Type
  objSize : Nat
  init : Nat → Prog S
  alloc : S → Nat → Prog (Nat × S)
  dealloc : S → Nat → Nat → Prog S
  owns : Option (S → Nat → Bool)
  fini : S → Prog Unit

/-- `allocate` and `deallocate` of an allocator without fields of its own. C++ machine, not library code. -/
structure Raw where
  al : Nat → M Nat
  de : Nat → Nat → M Unit

/-- Proof helper, not code. -/
def Raw.A (B : Raw) : Allocator where
  St := Unit
  objSize := 0
  init _ := pure ()
  alloc _ n := do
    let p ← B.al n
    pure (p, ())
  dealloc _ p n := do
    B.de p n
    pure ()
  owns := none
  maxSize := none
  construct := none
  destroy := none
  fini _ := pure ()

namespace Prog
variable {α β : Type}

/-- The program without interruption, over the allocator `B`. C++ machine, not library code. -/
def on (B : Raw) : Prog α → M α
  | .ret a => Pure.pure a
  | .stop => M.oom
  | .ub => M.ub
  | .load p k => do
    let v ← M.load p
    (k v).on B
  | .store p v k => do
    M.store p v
    k.on B
  | .alloc n k => do
    let p ← B.al n
    (k p).on B
  | .dealloc p n k => do
    B.de p n
    k.on B

@[simp] theorem on_pure (B : Raw) (a : α) : (Pure.pure a : Prog α).on B = Pure.pure a := rfl

@[simp] theorem on_bind (B : Raw) (x : Prog α) (f : α → Prog β) : (x >>= f).on B = x.on B >>= fun a => (f a).on B := by
  show (x.bind f).on B = _
  induction x with
  | ret a => rfl
  | stop => rfl
  | ub => rfl
  | load p k ih =>
    show (M.load p >>= fun v => ((k v).bind f).on B) = (M.load p >>= fun v => (k v).on B) >>= _
    rw [bind_assoc]
    exact congrArg _ (funext fun v => ih v)
  | store p v k ih =>
    show (M.store p v >>= fun _ => (k.bind f).on B) = (M.store p v >>= fun _ => k.on B) >>= _
    rw [bind_assoc]
    exact congrArg _ (funext fun _ => ih)
  | alloc n k ih =>
    show (B.al n >>= fun p => ((k p).bind f).on B) = (B.al n >>= fun p => (k p).on B) >>= _
    rw [bind_assoc]
    exact congrArg _ (funext fun v => ih v)
  | dealloc p n k ih =>
    show (B.de p n >>= fun _ => (k.bind f).on B) = (B.de p n >>= fun _ => k.on B) >>= _
    rw [bind_assoc]
    exact congrArg _ (funext fun _ => ih)

theorem on_ite (B : Raw) (c : Prop) [Decidable c] (x y : Prog α) : (if c then x else y).on B = if c then x.on B else y.on B := by
  split <;> rfl

@[simp] theorem on_readBytes (B : Raw) (p n : Nat) : (readBytes p n).on B = M.readBytes p n := by
  induction n generalizing p with
  | zero => rfl
  | succ n ih =>
    show (M.load p >>= fun x => (readBytes (p + 1) n >>= fun xs => pure (x :: xs) : Prog _).on B) = M.load p >>= _
    refine congrArg _ (funext fun x => ?_)
    rw [on_bind, ih]
    rfl

@[simp] theorem on_writeBytes (B : Raw) (p : Nat) (xs : List UInt8) : (writeBytes p xs).on B = M.writeBytes p xs := by
  induction xs generalizing p with
  | nil => rfl
  | cons x xs ih =>
    show (M.store p x >>= fun _ => (writeBytes (p + 1) xs).on B) = M.store p x >>= _
    rw [ih]

/-- read a pointer, byte by byte. C++ machine, not library code. -/
def readPtr (p : Nat) : Prog Nat := do
  let bs ← readBytes p 8
  pure (M.decPtr bs)

/-- write a pointer, byte by byte. C++ machine, not library code. -/
def writePtr (p v : Nat) : Prog Unit := writeBytes p (M.encPtr v)

@[simp] theorem on_readPtr (B : Raw) (p : Nat) : (readPtr p).on B = M.readPtr p := by
  unfold readPtr M.readPtr
  rw [on_bind, on_readBytes]; rfl

@[simp] theorem on_writePtr (B : Raw) (p v : Nat) : (writePtr p v).on B = M.writePtr p v := on_writeBytes ..

/-- The program with the allocator `X` in place of its own: every call becomes the accesses of `X`. C++ machine, not library code. -/
def over (X : PAlloc) : Prog α → X.S → Prog (α × X.S)
  | .ret a, s => .ret (a, s)
  | .stop, _ => .stop
  | .ub, _ => .ub
  | .load p k, s => .load p fun v => (k v).over X s
  | .store p v k, s => .store p v (k.over X s)
  | .alloc n k, s => do
    let r ← X.alloc s n
    (k r.1).over X r.2
  | .dealloc p n k, s => do
    let s' ← X.dealloc s p n
    k.over X s'

end Prog

/-- The allocator whose calls are not interrupted, on top of `B`. `max_size`, `construct` and `destroy` are left out. Proof helper, not code. -/
@[reducible] def PAlloc.toA (X : PAlloc) (B : Raw) : Allocator where
  St := X.S
  objSize := X.objSize
  init a := (X.init a).on B
  alloc s n := (X.alloc s n).on B
  dealloc s p n := (X.dealloc s p n).on B
  owns := X.owns
  maxSize := none
  construct := none
  destroy := none
  fini s := (X.fini s).on B

theorem Prog.on_over {α : Type} (X : PAlloc) (B : Raw) (x : Prog α) (s : X.S) :
    (x.over X s).on B = (x.seq (X.toA B) s) >>= fun r => Pure.pure (r.2, r.1) := by
  induction x generalizing s with
  | ret a => rfl
  | stop => rfl
  | ub => rfl
  | load p k ih =>
    show (M.load p >>= fun v => ((k v).over X s).on B) = (M.load p >>= fun v => (k v).seq (X.toA B) s) >>= _
    rw [bind_assoc]
    exact congrArg _ (funext fun v => ih v s)
  | store p v k ih =>
    show (M.store p v >>= fun _ => (k.over X s).on B) = (M.store p v >>= fun _ => k.seq (X.toA B) s) >>= _
    rw [bind_assoc]
    exact congrArg _ (funext fun _ => ih s)
  | alloc n k ih =>
    show (X.alloc s n >>= fun r => (k r.1).over X r.2 : Prog _).on B = ((X.alloc s n).on B >>= fun r => (k r.1).seq (X.toA B) r.2) >>= _
    rw [on_bind, bind_assoc]
    exact congrArg _ (funext fun r => ih r.1 r.2)
  | dealloc p n k ih =>
    show (X.dealloc s p n >>= fun s' => k.over X s' : Prog _).on B = ((X.dealloc s p n).on B >>= fun s' => k.seq (X.toA B) s') >>= _
    rw [on_bind, bind_assoc]
    exact congrArg _ (funext fun s' => ih s')

/-! ### The classes -/

/-- A `reference` to the allocator that the threads share. `allocators/reference.h:61-73`. -/
def baseL : PAlloc where
  S := Unit
  objSize := 16
  init _ := pure ()
  alloc _ n := .alloc n fun p => .ret (p, ())
  dealloc _ p n := .dealloc p n (.ret ())
  owns := none
  fini _ := pure ()

/-- `null_allocator` access by access. `allocators/null_allocator.h:35-50`. -/
def nullL : PAlloc where
  S := Unit
  objSize := 0
  init _ := pure ()
  alloc _ _ := pure (0, ())
  dealloc _ _ _ := pure ()
  owns := nullAlloc.owns
  fini _ := pure ()

/-- `linear_allocator` access by access: it only works on its fields. `allocators/linear_allocator.h:21-24, 75-110`. -/
def linearL (Size : Nat) : PAlloc where
  S := Linear.St
  objSize := Linear.objSize Size
  init a := pure (Linear.init a)
  alloc s n := pure (Linear.alloc Size s n)
  dealloc s p n := pure (Linear.dealloc s p n)
  owns := (linear Size).owns
  fini _ := pure ()

/-- `stack_allocator` access by access: it only works on the fields of the stack. `allocators/stack_allocator.h:22-25, 63-90`. -/
def stackL (Size : Nat) : PAlloc where
  S := Stack
  objSize := Linear.objSize Size
  init a := pure (Stack.init a)
  alloc s n := pure (Stack.alloc Size s n)
  dealloc s p n := pure (Stack.dealloc s p n)
  owns := (stackAlloc Size).owns
  fini _ := pure ()

/-- `release` of `freelist`, access by access. Simplification: the loop is cut off, as undefined behaviour, after `fuel` rounds; the destructor
below gives it 2^64, one for every address. `allocators/freelist.h:228-238`. -/
def releaseL (Max : Nat) (X : PAlloc) : Nat → X.S → Nat → Prog X.S
  | 0, s, next => if next ≠ 0 then .ub else pure s
  | fuel + 1, s, next =>
    if next ≠ 0 then do
      let nx ← Prog.readPtr next
      let s' ← X.dealloc s next Max
      releaseL Max X fuel s' nx
    else pure s

/-- `freelist` access by access. `allocators/freelist.h:40-44, 70-73, 113-147`. -/
def freelistL (Min Max : Nat) (X : PAlloc) : PAlloc where
  S := Freelist.St X.S
  objSize := X.objSize + 16
  init b := do
    let a ← X.init b
    pure ⟨a, 0⟩
  alloc s n :=
    if n > Min ∧ n ≤ Max then
      if s.free ≠ 0 then do
        let nx ← Prog.readPtr s.free
        pure (s.free, ⟨s.a, nx⟩)
      else do
        let r ← X.alloc s.a Max
        pure (r.1, ⟨r.2, s.free⟩)
    else pure (0, s)
  dealloc s p n :=
    if n > Min ∧ n ≤ Max ∧ p ≠ 0 then do
      Prog.writePtr p s.free
      pure ⟨s.a, p⟩
    else pure s
  owns := X.owns.map fun f s p => f s.a p
  fini s := do
    let a ← releaseL Max X W64 s.a s.free
    X.fini a

/-- Call of `owns`, see `Allocator.ownsD`. `allocators/fallback.h:27`. -/
def PAlloc.ownsD (X : PAlloc) (s : X.S) (p : Nat) : Bool :=
  match X.owns with
  | some f => f s p
  | none => false

/-- `owns` of the allocators with two parts. `allocators/fallback.h:197-203`, `allocators/segragator.h:191-197`. -/
def PAlloc.owns2 (P F : PAlloc) : Option (P.S × F.S → Nat → Bool) :=
  match P.owns, F.owns with
  | some f, some g => some fun s p => f s.1 p || g s.2 p
  | _, _ => none

/-- `fallback` access by access. `allocators/fallback.h:100-119, 207-208`. -/
def fallbackL (P F : PAlloc) : PAlloc where
  S := P.S × F.S
  objSize := P.objSize + F.objSize
  init a := do
    let s1 ← P.init a
    let s2 ← F.init (a + P.objSize)
    pure (s1, s2)
  alloc s n := do
    let r ← P.alloc s.1 n
    if r.1 = 0 then do
      let q ← F.alloc s.2 n
      pure (q.1, (r.2, q.2))
    else pure (r.1, (r.2, s.2))
  dealloc s p n :=
    if P.ownsD s.1 p then do
      let s1 ← P.dealloc s.1 p n
      pure (s1, s.2)
    else do
      let s2 ← F.dealloc s.2 p n
      pure (s.1, s2)
  owns := PAlloc.owns2 P F
  fini s := do
    F.fini s.2
    P.fini s.1

/-- `segragator` access by access. `allocators/segragator.h:97-113`. -/
def segragatorL (T : Nat) (P F : PAlloc) : PAlloc where
  S := P.S × F.S
  objSize := P.objSize + F.objSize
  init a := do
    let s1 ← P.init a
    let s2 ← F.init (a + P.objSize)
    pure (s1, s2)
  alloc s n :=
    if n ≤ T then do
      let r ← P.alloc s.1 n
      pure (r.1, (r.2, s.2))
    else do
      let q ← F.alloc s.2 n
      pure (q.1, (s.1, q.2))
  dealloc s p n :=
    if n ≤ T then do
      let s1 ← P.dealloc s.1 p n
      pure (s1, s.2)
    else do
      let s2 ← F.dealloc s.2 p n
      pure (s.1, s2)
  owns := PAlloc.owns2 P F
  fini s := do
    F.fini s.2
    P.fini s.1

/-! ### All compositions -/

/-- Type expressions for the allocator of one thread. `base` is a `reference` to the allocator that all threads share; it may occur several times.
The class templates of `allocators/*.h`. -/
inductive LTy where
  | base
  | null
  | linear (Size : Nat)
  | stack (Size : Nat)
  | freelist (Min Max : Nat) (A : LTy)
  | fallback (P F : LTy)
  | segragator (Threshold : Nat) (P F : LTy)
  deriving DecidableEq, Repr

/-- The class a type expression denotes, access by access.
The class templates of `allocators/*.h`, each by the definition that cites it. -/
def LTy.denoteP : LTy → PAlloc
  | base => baseL
  | null => nullL
  | linear S => linearL S
  | stack S => stackL S
  | freelist m M A => freelistL m M A.denoteP
  | fallback P F => fallbackL P.denoteP F.denoteP
  | segragator T P F => segragatorL T P.denoteP F.denoteP

/-- The same type with `reference<t>` for `base`. Specification, not code. -/
def LTy.plug (t : AllocTy) : LTy → AllocTy
  | base => .reference t
  | null => .null
  | linear S => .linear S
  | stack S => .stack S
  | freelist m M A => .freelist m M (A.plug t)
  | fallback P F => .fallback (P.plug t) (F.plug t)
  | segragator T P F => .segragator T (P.plug t) (F.plug t)

/-- `detail::has_owns_v`; the `owns` of the shared allocator is left out. `utility/meta.h:64-71`. -/
def LTy.hasOwns : LTy → Bool
  | base => false
  | null => true
  | linear _ => true
  | stack _ => true
  | freelist _ _ A => A.hasOwns
  | fallback P F => P.hasOwns && F.hasOwns
  | segragator _ P F => P.hasOwns && F.hasOwns

/-- The `static_assert`s of the library, see `AllocTy.WF`. `allocators/freelist.h:28`, `allocators/fallback.h:27`. -/
def LTy.WF : LTy → Prop
  | base => True
  | null => True
  | linear _ => True
  | stack _ => True
  | freelist _ M A => A.WF ∧ 8 ≤ M ∧ M < W64
  | fallback P F => P.WF ∧ F.WF ∧ P.hasOwns = true
  | segragator _ P F => P.WF ∧ F.WF

/-- Proof helper, not code. -/
instance LTy.decWF : (t : LTy) → Decidable t.WF
  | base => isTrue trivial
  | null => isTrue trivial
  | linear _ => isTrue trivial
  | stack _ => isTrue trivial
  | freelist _ _ A => have := decWF A; by unfold WF; infer_instance
  | fallback P F => have := decWF P; have := decWF F; by unfold WF; infer_instance
  | segragator _ P F => have := decWF P; have := decWF F; by unfold WF; infer_instance

/-- `sizeof`, rounded to 16. Specification, not code. -/
def LTy.size : LTy → Nat
  | base => 16
  | null => 0
  | linear S => S + (16 - S % 16) % 16 + 16
  | stack S => S + (16 - S % 16) % 16 + 16
  | freelist _ _ A => A.size + 16
  | fallback P F => P.size + F.size
  | segragator _ P F => P.size + F.size

/-- A request for 0 bytes is not passed on to the shared allocator. Specification, not code. -/
def LTy.keepsEmpty : LTy → Bool
  | base => false
  | null => true
  | linear _ => true
  | stack _ => true
  | freelist _ _ _ => true
  | fallback P F => P.keepsEmpty && F.keepsEmpty
  | segragator _ P _ => P.keepsEmpty

/-! ### The thread -/

/-- A thread that constructs an allocator object of class `X` in a block from the shared allocator, does `p` with it and destroys it.
If there is no memory for the object the thread stops. C++ machine, not library code. -/
def lthread {α : Type} (X : PAlloc) (p : Prog α) : Prog α :=
  .alloc X.objSize fun a =>
    if a = 0 then .stop
    else do
      let s ← X.init a
      let r ← p.over X s
      X.fini r.2
      .dealloc a X.objSize (.ret r.1)

end KTL
