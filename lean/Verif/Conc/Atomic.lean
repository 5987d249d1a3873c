import Verif.Conc.Shared

/- `atomic_shared<Alloc>` (`allocators/shared_fwd.h`): `shared` with `std::atomic` as the counter, used by
several threads. Every access to memory that other threads can see is one atomic step: the `fetch_add` and
`fetch_sub` on the counter (read-modify-write operations on one atomic object are totally ordered for every
memory order), the deletion of the block, the start and the end of a forwarded call. A handle (`m_Block`
pointer) belongs to one thread; handing one over to another thread is a step of its own. -/
namespace KTL

/-- the blocks: counters, `none` once deleted; the identity of the next block; the events so far.
`allocators/shared.h:46-58`. -/
structure Blocks where
  counts : Nat → Option Nat
  next : Nat
  log : List BEv

namespace Blocks

/-- Proof helper, not code. -/
def setCount (B : Blocks) (b : Nat) (c : Option Nat) : Blocks :=
  { B with counts := fun x => if x = b then c else B.counts x }

/-- `aligned_new<block>`, `allocators/shared.h:63-76`, with `UseCount(1)` (`:57`) -/
def create (B : Blocks) : Blocks :=
  ⟨fun x => if x = B.next then some 1 else B.counts x, B.next + 1, B.log ++ [.create B.next]⟩

/-- `increment`, `allocators/shared.h:192-197`: null check and `fetch_add`; `none` is an access to a deleted
block. The counter counts existing handles, so it is modelled without wrap-around at 2^64. -/
def fetchAdd (B : Blocks) : Option Nat → Option Blocks
  | none => some B
  | some b =>
    match B.counts b with
    | none => none
    | some c => some (B.setCount b (some (c + 1)))

/-- `decrement`, `allocators/shared.h:199-204`: null check and `fetch_sub`; also tells whether it returned 1.
An underflow counts as an error. -/
def fetchSub (B : Blocks) : Option Nat → Option (Blocks × Bool)
  | none => some (B, false)
  | some b =>
    match B.counts b with
    | none => none
    | some 0 => none
    | some (c + 1) => some (B.setCount b (some c), c == 0)

/-- `aligned_delete(m_Block)`, `allocators/shared.h:205`; `none` is a second deletion -/
def delete (B : Blocks) (b : Nat) : Option Blocks :=
  match B.counts b with
  | none => none
  | some _ => some { B.setCount b none with log := B.log ++ [.delete b] }

/-- the start or the end of a forwarded call, `allocators/shared.h:131-179` -/
def touch (B : Blocks) (b : Nat) : Option Blocks :=
  match B.counts b with
  | none => none
  | some _ => some { B with log := B.log ++ [.use b] }

end Blocks

/-- Where a thread is inside an operation on handles. `allocators/shared.h:78-117, 199-206`. -/
inductive Pc where
  /-- between operations -/
  | idle
  /-- copy constructor, `allocators/shared.h:78-82`: the new handle (the last one) has its pointer; `increment` is next -/
  | copied
  /-- destructor, `:90-93`: `decrement` is done -/
  | dropping (i : Nat)
  /-- `h_i = h_j`, `:95-105`: `decrement` is done -/
  | assigning (i j : Nat)
  /-- `h_i = h_j`: the pointer is overwritten, `increment` is next -/
  | assigned (i : Nat)
  /-- `h_i = std::move(h_j)`, `:107-117`: `decrement` is done -/
  | moving (i j : Nat)
  /-- `fetch_sub` returned 1: deletion is next, `:204-205` -/
  | deleting (b : Nat) (k : Pc)
  /-- inside a forwarded call -/
  | inUse (b : Nat)
  deriving DecidableEq, Repr

/-- the handles a thread owns, and where it is. `m_Block` of `allocators/shared.h:209`. -/
structure AThread where
  hs : List (Option Nat)
  pc : Pc
  deriving DecidableEq, Repr

/-- What an idle thread may start. `allocators/shared.h:63-189`. -/
inductive AOp where
  | create
  | copy (i : Nat)
  | move (i : Nat)
  | assign (i j : Nat)
  | moveAssign (i j : Nat)
  | drop (i : Nat)
  | use (i : Nat)
  /-- hand handle `i` over to the idle thread `u` -/
  | send (i u : Nat)
  deriving DecidableEq, Repr

/-- `decrement` on handle `i`, up to and including the `fetch_sub`. `allocators/shared.h:199-204`. -/
def AThread.release (B : Blocks) (th : AThread) (i : Nat) (k : Pc) : Option (Blocks × AThread) :=
  match th.hs[i]? with
  | none => some (B, th)
  | some p =>
    match B.fetchSub p with
    | none => none
    | some (B', last) =>
      match last, p with
      | true, some b => some (B', { th with pc := .deleting b k })
      | _, _ => some (B', { th with pc := k })

/-- One atomic step of one thread; when it is idle it starts `o`. Positions without a handle are no-ops.
`allocators/shared.h:63-206`, see `Pc`. -/
def AThread.step (B : Blocks) (th : AThread) (o : AOp) : Option (Blocks × AThread) :=
  match th.pc with
  | .idle =>
    match o with
    | .create => some (B.create, { th with hs := th.hs ++ [some B.next] })
    | .copy i =>
      match th.hs[i]? with
      | none => some (B, th)
      | some p => some (B, ⟨th.hs ++ [p], .copied⟩)
    | .move i =>
      match th.hs[i]? with
      | none => some (B, th)
      | some p => some (B, { th with hs := th.hs.set i none ++ [p] })
    | .assign i j => if j < th.hs.length then th.release B i (.assigning i j) else some (B, th)
    | .moveAssign i j => if j < th.hs.length then th.release B i (.moving i j) else some (B, th)
    | .drop i => th.release B i (.dropping i)
    | .use i =>
      match th.hs[i]? with
      | some (some b) => (B.touch b).map fun B' => (B', { th with pc := .inUse b })
      | _ => some (B, th)
    | .send _ _ => some (B, th)
  | .copied =>
    match th.hs.getLast? with
    | none => some (B, { th with pc := .idle })
    | some p => (B.fetchAdd p).map fun B' => (B', { th with pc := .idle })
  | .dropping i => some (B, ⟨th.hs.eraseIdx i, .idle⟩)
  | .assigning i j =>
    match th.hs[j]? with
    | none => some (B, { th with pc := .idle })
    | some q => some (B, ⟨th.hs.set i q, .assigned i⟩)
  | .assigned i =>
    match th.hs[i]? with
    | none => some (B, { th with pc := .idle })
    | some q => (B.fetchAdd q).map fun B' => (B', { th with pc := .idle })
  | .moving i j =>
    match th.hs[j]? with
    | none => some (B, { th with pc := .idle })
    | some q => some (B, ⟨(th.hs.set i q).set j none, .idle⟩)
  | .deleting b k => (B.delete b).map fun B' => (B', { th with pc := k })
  | .inUse b => (B.touch b).map fun B' => (B', { th with pc := .idle })

/-- the whole system. Specification, not code. -/
structure Atomic where
  blk : Blocks
  threads : List AThread

/-- `n` threads, no handles, no blocks. Specification, not code. -/
def Atomic.start (n : Nat) : Atomic := ⟨⟨fun _ => none, 0, []⟩, List.replicate n ⟨[], .idle⟩⟩

/-- The scheduler lets thread `t` take one step (starting `o` if it is idle). `none`: a deleted block was
accessed, or deleted again. Scheduler, not library code. -/
def Atomic.step (s : Atomic) (t : Nat) (o : AOp) : Option Atomic :=
  match s.threads[t]? with
  | none => some s
  | some th =>
    match th.pc, o with
    | .idle, .send i u =>
      match th.hs[i]?, s.threads[u]? with
      | some p, some tu =>
        if u = t ∨ tu.pc ≠ .idle then some s
        else some { s with threads := (s.threads.set t { th with hs := th.hs.eraseIdx i }).set u { tu with hs := tu.hs ++ [p] } }
      | _, _ => some s
    | _, _ => (th.step s.blk o).map fun (B', th') => ⟨B', s.threads.set t th'⟩

/-- a schedule: which thread moves, and what it starts if it is idle. Scheduler, not library code. -/
def Atomic.run (s : Atomic) : List (Nat × AOp) → Option Atomic
  | [] => some s
  | (t, o) :: os => do
    let s' ← s.step t o
    s'.run os

end KTL
