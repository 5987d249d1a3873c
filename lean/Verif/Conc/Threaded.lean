import Verif.Alloc.Basic

/- `threaded<Alloc>`: calls of one allocator from several threads. -/
namespace KTL

/-- The body of a call, as the sequence of its accesses to the shared state `σ` (the state of the underlying
allocator and the memory it manages): each access is one atomic step, and what comes next may depend on what
was read. `ρ` is the type of results. Specification, not code. -/
inductive Act (σ ρ : Type) where
  | done (r : ρ)
  | step (f : σ → σ) (k : σ → Act σ ρ)

/-- the call run without interruption. Specification, not code. -/
def Act.run {σ ρ : Type} : Act σ ρ → σ → ρ × σ
  | .done r, s => (r, s)
  | .step f k, s => (k s).run (f s)

/-- The calls `κ` a `threaded` object offers: their bodies, and whether they hold `m_Lock` while they run.
`allocators/threaded.h:61-73`: `allocate` and `deallocate` take a `lock_guard`;
`:77-117`: `construct`, `destroy`, `max_size` and `owns` do not. -/
structure Calls (σ ρ κ : Type) where
  body : κ → Act σ ρ
  locked : κ → Bool

/-- Where a thread is. `allocators/threaded.h:61-116`. -/
inductive Phase (σ ρ κ : Type) where
  | idle
  /-- has called, and has not started the body yet -/
  | waiting (c : κ)
  /-- is inside the body; what is left of it -/
  | running (c : κ) (a : Act σ ρ)

/-- a thread: the calls it has completed, with their results, and where it is. Specification, not code. -/
structure TState (σ ρ κ : Type) where
  hist : List (κ × ρ)
  phase : Phase σ ρ κ

/-- the whole system; `lock` is the owner of `m_Lock`; `log` lists the completed calls of all threads in the
order in which they completed. `m_Lock` of `allocators/threaded.h`. -/
structure Mach (σ ρ κ : Type) where
  mem : σ
  lock : Option Nat
  threads : Nat → TState σ ρ κ
  log : List (Nat × κ × ρ)

variable {σ ρ κ : Type}

/-- Specification, not code. -/
def Mach.start (s : σ) : Mach σ ρ κ := ⟨s, none, fun _ => ⟨[], .idle⟩, []⟩

/-- Proof helper, not code. -/
def Mach.put (m : Mach σ ρ κ) (t : Nat) (th : TState σ ρ κ) : Mach σ ρ κ :=
  { m with threads := fun u => if u = t then th else m.threads u }

/-- One atomic step of thread `t`. `prog t` is what thread `t` does: the next call, depending on the results of
its earlier ones.
`std::lock_guard` of `allocators/threaded.h:63, 70` is taken, then the body runs, then it is given back. -/
def Mach.step (C : Calls σ ρ κ) (prog : Nat → List (κ × ρ) → Option κ) (m : Mach σ ρ κ) (t : Nat) : Mach σ ρ κ :=
  let th := m.threads t
  match th.phase with
  | .idle =>
    match prog t th.hist with
    | none => m
    | some c => m.put t { th with phase := .waiting c }
  | .waiting c =>
    if C.locked c then
      -- `std::lock_guard` blocks while another thread holds the mutex
      match m.lock with
      | some _ => m
      | none => { m.put t { th with phase := .running c (C.body c) } with lock := some t }
    else m.put t { th with phase := .running c (C.body c) }
  | .running c (.step f k) => { m.put t { th with phase := .running c (k m.mem) } with mem := f m.mem }
  | .running c (.done r) =>
    { m.put t ⟨th.hist ++ [(c, r)], .idle⟩ with
      lock := if C.locked c then none else m.lock
      log := m.log ++ [(t, c, r)] }

/-- a schedule: which thread moves. Scheduler, not library code. -/
def Mach.run (C : Calls σ ρ κ) (prog : Nat → List (κ × ρ) → Option κ) (m : Mach σ ρ κ) : List Nat → Mach σ ρ κ
  | [] => m
  | t :: ts => (m.step C prog t).run C prog ts

/-! ### The calls of `threaded<Alloc>` -/

/-- the calls of a `threaded` object. `allocators/threaded.h:61-116`. -/
inductive TCall where
  | allocate (n : Nat)
  | deallocate (p n : Nat)
  | construct (p : Nat)
  | destroy (p : Nat)
  | owns (p : Nat)
  deriving DecidableEq

/-- which calls hold `m_Lock`. `allocators/threaded.h:61-66` (`allocate`), `:68-73` (`deallocate`): a `lock_guard`;
`:77-85` (`construct`), `:87-95` (`destroy`): the `lock_guard` is commented out; `:107-113` (`owns`): none. -/
def TCall.locked : TCall → Bool
  | .allocate _ => true
  | .deallocate _ _ => true
  | .construct _ => false
  | .destroy _ => false
  | .owns _ => false

/-- what the calls do to the underlying allocator when nobody interferes: `allocators/threaded.h:65` (`m_Alloc.allocate(n)`),
`:72` (`m_Alloc.deallocate(p, n)`), `:84`, `:94`, `:112`. The result is the pointer, the answer of `owns` (0 or 1), or 0. -/
def TCall.onAlloc {A : Allocator} (s : A.St) : TCall → M (Nat × A.St)
  | .allocate n => A.alloc s n
  | .deallocate p n => do
    let s ← A.dealloc s p n
    pure (0, s)
  | .construct p =>
    match A.construct with
    | some f => do
      let s ← f s p
      pure (0, s)
    | none => pure (0, s)
  | .destroy p =>
    match A.destroy with
    | some f => do
      let s ← f s p
      pure (0, s)
    | none => pure (0, s)
  | .owns p =>
    match A.owns with
    | some f => pure (if f s p then 1 else 0, s)
    | none => pure (0, s)

/-- `C` is `threaded<A>`: the calls hold the lock as above, and the body of a call is some sequence of accesses to the state of `A` and
to memory, which amounts to the call of `A` if it runs alone. (Which sequence is left open: the theorems hold for each. A program that
has already crashed stays so.). Specification, not code. -/
structure IsThreaded (A : Allocator) (C : Calls (Res A.St) Nat TCall) : Prop where
  locked : ∀ c, C.locked c = c.locked
  body : ∀ c s w, (C.body c).run (.ok s w) =
    match c.onAlloc s w with
    | .ok (r, s') w' => (r, .ok s' w')
    | .oom w' => (0, .oom w')
    | .ub => (0, .ub)
  oom : ∀ c w, (C.body c).run (.oom w) = (0, .oom w)
  ub : ∀ c, (C.body c).run .ub = (0, .ub)

end KTL
