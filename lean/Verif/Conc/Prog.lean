import Verif.Containers.Pool

/- Programs of one thread as trees of their memory accesses and calls of the allocator, and several threads over one `threaded`
allocator. -/
namespace KTL

/-- What a thread does, access by access. C++ machine, not library code. -/
inductive Prog (α : Type) where
  | ret (a : α)
  /-- the null result of an allocation is used without a check, see `M.oom` -/
  | stop
  | ub
  /-- read a byte -/
  | load (p : Nat) (k : UInt8 → Prog α)
  /-- write a byte -/
  | store (p : Nat) (v : UInt8) (k : Prog α)
  /-- `allocate(n)` of the underlying allocator -/
  | alloc (n : Nat) (k : Nat → Prog α)
  /-- `deallocate(p, n)` of the underlying allocator -/
  | dealloc (p n : Nat) (k : Prog α)

namespace Prog
variable {α β : Type}

/-- C++ machine, not library code. -/
def bind : Prog α → (α → Prog β) → Prog β
  | .ret a, f => f a
  | .stop, _ => .stop
  | .ub, _ => .ub
  | .load p k, f => .load p fun v => (k v).bind f
  | .store p v k, f => .store p v (k.bind f)
  | .alloc n k, f => .alloc n fun p => (k p).bind f
  | .dealloc p n k, f => .dealloc p n (k.bind f)

instance : Monad Prog where
  pure := .ret
  bind := Prog.bind

/-- The program run by itself, with an allocator `A` whose fields are `s`. C++ machine, not library code. -/
def seq (A : Allocator) (s : A.St) : Prog α → M (A.St × α)
  | .ret a => pure (s, a)
  | .stop => M.oom
  | .ub => M.ub
  | .load p k => do
    let v ← M.load p
    (k v).seq A s
  | .store p v k => do
    M.store p v
    k.seq A s
  | .alloc n k => do
    let r ← A.alloc s n
    (k r.1).seq A r.2
  | .dealloc p n k => do
    let s' ← A.dealloc s p n
    k.seq A s'

theorem seq_pure (A : Allocator) (s : A.St) (a : α) : (Pure.pure a : Prog α).seq A s = Pure.pure (s, a) := rfl

theorem seq_bind (A : Allocator) (x : Prog α) (f : α → Prog β) (s : A.St) :
    (x >>= f).seq A s = x.seq A s >>= fun r => (f r.2).seq A r.1 := by
  show (x.bind f).seq A s = _
  induction x generalizing s with
  | ret a => rfl
  | stop => rfl
  | ub => rfl
  | load p k ih =>
    show (M.load p >>= fun v => ((k v).bind f).seq A s) = (M.load p >>= fun v => (k v).seq A s) >>= _
    rw [bind_assoc]
    exact congrArg _ (funext fun v => ih v s)
  | store p v k ih =>
    show (M.store p v >>= fun _ => (k.bind f).seq A s) = (M.store p v >>= fun _ => k.seq A s) >>= _
    rw [bind_assoc]
    exact congrArg _ (funext fun _ => ih s)
  | alloc n k ih =>
    show (A.alloc s n >>= fun r => ((k r.1).bind f).seq A r.2) = (A.alloc s n >>= fun r => (k r.1).seq A r.2) >>= _
    rw [bind_assoc]
    exact congrArg _ (funext fun r => ih r.1 r.2)
  | dealloc p n k ih =>
    show (A.dealloc s p n >>= fun s' => (k.bind f).seq A s') = (A.dealloc s p n >>= fun s' => k.seq A s') >>= _
    rw [bind_assoc]
    exact congrArg _ (funext fun s' => ih s')

theorem seq_ite (A : Allocator) (s : A.St) (c : Prop) [Decidable c] (x y : Prog α) :
    (if c then x else y).seq A s = if c then x.seq A s else y.seq A s := by split <;> rfl

/-! ### The accesses of the containers -/

/-- C++ machine, not library code. -/
def readBytes (p : Nat) : Nat → Prog (List UInt8)
  | 0 => pure []
  | n + 1 => .load p fun x => do
    let xs ← readBytes (p + 1) n
    pure (x :: xs)

/-- C++ machine, not library code. -/
def writeBytes (p : Nat) : List UInt8 → Prog Unit
  | [] => pure ()
  | x :: xs => .store p x (writeBytes (p + 1) xs)

/-- C `memcpy`, byte by byte: here all reads come first. C++ machine, not library code. -/
def memcpy (dst src n : Nat) : Prog Unit :=
  if src < dst + n ∧ dst < src + n then .ub else do
    let bs ← readBytes src n
    writeBytes dst bs

/-- C `memmove`. C++ machine, not library code. -/
def memmove (dst src n : Nat) : Prog Unit := do
  let bs ← readBytes src n
  writeBytes dst bs

/-- `grab`: `Traits::allocate(m_Alloc, n)` over `allocators/type_allocator.h:98-102`. -/
def grab (sz n : Nat) : Prog Nat := .alloc (mulW sz n) fun p => if p = 0 ∧ n ≠ 0 then .stop else .ret p

/-- `typedDealloc`: `Traits::deallocate(m_Alloc, p, n)` over `allocators/type_allocator.h:109-113`. -/
def ungrab (sz p n : Nat) : Prog Unit := .dealloc p (mulW sz n) (.ret ())

section
variable (A : Allocator) (s : A.St)

theorem seq_readBytes (p n : Nat) : (readBytes p n).seq A s = M.readBytes p n >>= fun xs => pure (s, xs) := by
  induction n generalizing p with
  | zero => rfl
  | succ n ih =>
    show (M.load p >>= fun x => ((readBytes (p + 1) n >>= fun xs => Pure.pure (x :: xs) : Prog _)).seq A s) = _
    simp only [seq_bind, ih, seq_pure, M.readBytes, bind_assoc, pure_bind]

theorem seq_writeBytes (p : Nat) (bs : List UInt8) : (writeBytes p bs).seq A s = M.writeBytes p bs >>= fun _ => pure (s, ()) := by
  induction bs generalizing p with
  | nil => rfl
  | cons x bs ih =>
    show (M.store p x >>= fun _ => (writeBytes (p + 1) bs).seq A s) = _
    simp only [ih, M.writeBytes, bind_assoc]

theorem seq_memmove (dst src n : Nat) : (memmove dst src n).seq A s = M.memmove dst src n >>= fun _ => pure (s, ()) := by
  simp only [memmove, M.memmove, seq_bind, seq_readBytes, seq_writeBytes, bind_assoc, pure_bind]

theorem seq_memcpy (dst src n : Nat) : (memcpy dst src n).seq A s = M.memcpy dst src n >>= fun _ => pure (s, ()) := by
  unfold memcpy M.memcpy
  split
  · rfl
  · exact seq_memmove A s dst src n

theorem seq_grab (sz n : Nat) : (grab sz n).seq A s = KTL.grab sz A s n >>= fun r => pure (r.2, r.1) := by
  show (A.alloc s (mulW sz n) >>= fun r => (if r.1 = 0 ∧ n ≠ 0 then (.stop : Prog Nat) else .ret r.1).seq A r.2) = _
  unfold KTL.grab typedAlloc
  rw [bind_assoc]
  refine congrArg _ (funext fun r => ?_)
  split <;> rfl

theorem seq_ungrab (sz p n : Nat) : (ungrab sz p n).seq A s = typedDealloc sz A s p n >>= fun s' => pure (s', ()) := rfl

end
end Prog

/-! ### Several threads -/

/-- The threads of a program and the fields of the `threaded` allocator they share. Specification, not code. -/
structure Crew (A : Allocator) (α : Type) where
  st : A.St
  threads : Nat → Prog α

/-- Specification, not code. -/
def Crew.put {A : Allocator} {α : Type} (c : Crew A α) (i : Nat) (p : Prog α) : Crew A α :=
  { c with threads := fun j => if j = i then p else c.threads j }

/-- One access of thread `i`. Simplification: a call of `allocate` or `deallocate` is one step, as `allocators/threaded.h:61-73` holds the
mutex from its beginning to its end (C27). -/
def Crew.step {A : Allocator} {α : Type} (c : Crew A α) (i : Nat) : M (Crew A α) :=
  match c.threads i with
  | .ret _ => pure c
  | .stop => M.oom
  | .ub => M.ub
  | .load p k => do
    let v ← M.load p
    pure (c.put i (k v))
  | .store p v k => do
    M.store p v
    pure (c.put i k)
  | .alloc n k => do
    let r ← A.alloc c.st n
    pure { c.put i (k r.1) with st := r.2 }
  | .dealloc p n k => do
    let s ← A.dealloc c.st p n
    pure { c.put i k with st := s }

/-- A schedule: which thread moves. Scheduler, not library code. -/
def Crew.run {A : Allocator} {α : Type} (c : Crew A α) : List Nat → M (Crew A α)
  | [] => pure c
  | i :: is => do
    let c' ← c.step i
    c'.run is

/-- Construct the allocator object at `b`, then let the threads run. Specification, not code. -/
def crewPlay {α : Type} (A : Allocator) (b : Nat) (progs : Nat → Prog α) (sched : List Nat) : M (Crew A α) := do
  let s ← A.init b
  Crew.run ⟨s, progs⟩ sched

end KTL
