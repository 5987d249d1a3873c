import Verif.Conc.Prog
import Verif.Conc.Body

/- Several threads over one `threaded` allocator, access by access also inside the calls of the allocator: the mutex is taken at the beginning
of a call and given back at its end, and in between the other threads move on. -/
namespace KTL

/-- A call of `allocate` or `deallocate` under way: the accesses still to be made, and how the thread goes on.
`allocators/threaded.h:61-73`. -/
inductive Visit (X : BAlloc) (α : Type) where
  | taking (x : Body false (Nat × X.S)) (k : Nat → Prog α)
  | giving (x : Body true X.S) (k : Prog α)

namespace Visit
variable {X : BAlloc} {α : Type}

/-- One access of the call. C++ machine, not library code. -/
def step (sys : Sys) : Visit X α → M (Visit X α)
  | .taking x k => do
    let x' ← x.step sys
    pure (.taking x' k)
  | .giving x k => do
    let x' ← x.step sys
    pure (.giving x' k)

/-- The call is over: the fields of the allocator, and what the thread does next. C++ machine, not library code. -/
def over : Visit X α → Option (X.S × Prog α)
  | .taking (.ret r) k => some (r.2, k r.1)
  | .giving (.ret s) k => some (s, k)
  | _ => none

end Visit

/-- The threads, the fields of the allocator they share, and the mutex: who holds it, and the call it is held for. The fields are
only meaningful while nobody holds the mutex. `allocators/threaded.h:140-143`. -/
structure Gang (X : BAlloc) (α : Type) where
  st : X.S
  threads : Nat → Prog α
  inside : Option (Nat × Visit X α)

namespace Gang
variable {X : BAlloc} {α : Type}

/-- Specification, not code. -/
def put (T : Gang X α) (i : Nat) (p : Prog α) : Gang X α := { T with threads := fun j => if j = i then p else T.threads j }

/-- The call for which thread `i` holds the mutex, if it does. Specification, not code. -/
def holds (T : Gang X α) (i : Nat) : Option (Visit X α) :=
  match T.inside with
  | some (j, c) => if j = i then some c else none
  | none => none

/-- One access of thread `i`, which may hold the mutex or not. A thread that needs the mutex while another holds it waits.
`allocators/threaded.h:61-73`: `std::lock_guard` at the beginning of `allocate` and `deallocate`. -/
def step (sys : Sys) (T : Gang X α) (i : Nat) : M (Gang X α) :=
  match T.holds i with
  | some c =>
    match c.over with
    | some r => pure { T.put i r.2 with st := r.1, inside := none }
    | none => do
      let c' ← c.step sys
      pure { T with inside := some (i, c') }
  | none =>
    match T.threads i with
    | .ret _ => pure T
    | .stop => M.oom
    | .ub => M.ub
    | .load p k => do
      let v ← M.load p
      pure (T.put i (k v))
    | .store p v k => do
      M.store p v
      pure (T.put i k)
    | .alloc n k => if T.inside.isSome then pure T else pure { T with inside := some (i, .taking (X.alloc T.st n) k) }
    | .dealloc p n k => if T.inside.isSome then pure T else pure { T with inside := some (i, .giving (X.dealloc T.st p n) k) }

/-- A schedule: which thread moves. Scheduler, not library code. -/
def run (sys : Sys) (T : Gang X α) : List Nat → M (Gang X α)
  | [] => pure T
  | i :: is => do
    let T' ← T.step sys i
    T'.run sys is

end Gang

/-- Construct the allocator object at `b`, then let the threads run. Specification, not code. -/
def gangPlay {α : Type} (X : BAlloc) (sys : Sys) (b : Nat) (progs : Nat → Prog α) (sched : List Nat) : M (Gang X α) := do
  let s ← (X.init b).seq sys
  Gang.run sys ⟨s, progs, none⟩ sched

end KTL
