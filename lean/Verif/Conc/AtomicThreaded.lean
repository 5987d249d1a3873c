import Verif.Conc.Atomic
import Verif.Conc.Threaded

/- `atomic_shared<threaded<Alloc>>` (`README.md:68, 82`): several threads with handles of one reference counted block, which holds an
allocator and its mutex. The handles are those of `Conc/Atomic.lean`, the calls of the object in the block those of
`Conc/Threaded.lean`; here they run together, and the deletion of the block runs the destructor of the object. -/
namespace KTL

/-- what threads do with the object in the block: calls (`allocators/shared.h:131-179`), and its destruction with the block (`:205`) -/
inductive DCall where
  | call (c : TCall)
  | destruct
  deriving DecidableEq

/-- `D` is the object in the block; `A` is what it does if nobody interferes. The calls are those of `threaded`; the destructor takes no lock
(`allocators/threaded.h` declares none) and amounts to the one of `A`. Which sequence of accesses a body is, is left open.
Specification, not code. -/
structure IsObject (A : Allocator) (D : Calls (Res A.St) Nat DCall) : Prop where
  calls : IsThreaded A ⟨fun c => D.body (.call c), fun c => D.locked (.call c)⟩
  unlocked : D.locked .destruct = false
  fini : ∀ s w, (D.body .destruct).run (.ok s w) =
    match A.fini s w with
    | .ok _ w' => (0, .ok s w')
    | .oom w' => (0, .oom w')
    | .ub => (0, .ub)
  oom : ∀ w, (D.body .destruct).run (.oom w) = (0, .oom w)
  ub : (D.body .destruct).run .ub = (0, .ub)

/-- What an idle thread may start: an operation on its handles, an `allocate(n)` through its handle `i`, or the `deallocate` of the `k`-th
outstanding block, whoever got it, through its handle `i`. `allocators/shared.h:78-117, 131-142`. -/
inductive TOp where
  | copy (i : Nat)
  | move (i : Nat)
  | assign (i j : Nat)
  | moveAssign (i j : Nat)
  | drop (i : Nat)
  | send (i u : Nat)
  | allocate (i n : Nat)
  | deallocate (i k : Nat)
  deriving DecidableEq

/-- The handles of all threads and the counter of the block; the object in the block with the calls in progress; the blocks of memory
the threads have been given and have not begun to give back. `allocators/shared.h:46-58, 209`. -/
structure Team (σ : Type) where
  hdl : Atomic
  obj : Mach σ Nat DCall
  pool : List (Nat × Nat)

/-- Thread 0 has made the first handle (`allocators/shared.h:63-76`), the object is in state `s`; `n` more threads have none.
Specification, not code. -/
def Team.start {σ : Type} (n : Nat) (s : σ) : Team σ :=
  ⟨⟨(Atomic.start 0).blk.create, ⟨[some 0], .idle⟩ :: List.replicate n ⟨[], .idle⟩⟩, Mach.start s, []⟩

/-- the outstanding blocks after a call has returned. Specification, not code. -/
def gained (pool : List (Nat × Nat)) : TCall → Nat → List (Nat × Nat)
  | .allocate n, p => if p = 0 then pool else (p, n) :: pool
  | _, _ => pool

/-- Thread `t` begins the call `c` through its handle `i`, which is not null: it reads the handle and enters the object.
`allocators/shared.h:131-142`. -/
def Team.enter {σ : Type} (D : Calls σ Nat DCall) (s : Team σ) (t i : Nat) (c : TCall) (pool : List (Nat × Nat)) : Option (Team σ) :=
  (s.hdl.step t (.use i)).map fun h => ⟨h, s.obj.step D (fun _ _ => some (.call c)) t, pool⟩

/-- One atomic step of thread `t`, which starts `o` if it is idle. `none`: the block was accessed, or deleted, after it had been deleted.
A call through a null handle, or for a block that does not exist, is a no-op.
Calls: `allocators/shared.h:131-142`, every step of theirs is an access to the block. Deletion, `:205`: the steps of the destructor, then the
memory of the block is given back. Everything else: `:78-117, 192-206`, as in `AThread.step`. -/
def Team.step {σ : Type} (D : Calls σ Nat DCall) (s : Team σ) (t : Nat) (o : TOp) : Option (Team σ) :=
  match s.hdl.threads[t]? with
  | none => some s
  | some th =>
    match th.pc with
    | .idle =>
      match o with
      | .copy i => (s.hdl.step t (.copy i)).map fun h => { s with hdl := h }
      | .move i => (s.hdl.step t (.move i)).map fun h => { s with hdl := h }
      | .assign i j => (s.hdl.step t (.assign i j)).map fun h => { s with hdl := h }
      | .moveAssign i j => (s.hdl.step t (.moveAssign i j)).map fun h => { s with hdl := h }
      | .drop i => (s.hdl.step t (.drop i)).map fun h => { s with hdl := h }
      | .send i u => (s.hdl.step t (.send i u)).map fun h => { s with hdl := h }
      | .allocate i n =>
        match th.hs[i]? with
        | some (some _) => s.enter D t i (.allocate n) s.pool
        | _ => some s
      | .deallocate i k =>
        match th.hs[i]?, s.pool[k]? with
        | some (some _), some x => s.enter D t i (.deallocate x.1 x.2) (s.pool.eraseIdx k)
        | _, _ => some s
    | .inUse b =>
      match (s.obj.threads t).phase with
      | .running (.call c) (.done r) =>
        -- the call returns
        (s.hdl.step t (.drop 0)).map fun h => ⟨h, s.obj.step D (fun _ _ => none) t, gained s.pool c r⟩
      | _ => (s.hdl.blk.touch b).map fun B => { s with hdl := { s.hdl with blk := B }, obj := s.obj.step D (fun _ _ => none) t }
    | .deleting b _ =>
      match (s.obj.threads t).phase with
      | .running .destruct (.done _) =>
        -- the destructor is done, the block is freed
        (s.hdl.step t (.drop 0)).map fun h => { s with hdl := h, obj := s.obj.step D (fun _ _ => none) t }
      | _ => (s.hdl.blk.touch b).map fun B => { s with hdl := { s.hdl with blk := B }, obj := s.obj.step D (fun _ _ => some .destruct) t }
    | _ => (s.hdl.step t (.drop 0)).map fun h => { s with hdl := h }

/-- a schedule: which thread moves, and what it starts if it is idle. Scheduler, not library code. -/
def Team.run {σ : Type} (D : Calls σ Nat DCall) (s : Team σ) : List (Nat × TOp) → Option (Team σ)
  | [] => some s
  | (t, o) :: os => do
    let s' ← s.step D t o
    s'.run D os

end KTL
