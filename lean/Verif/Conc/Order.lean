import Verif.Conc.Atomic

/- The order in which the memory accesses of `atomic_shared` happen. `Conc/Atomic.lean` says what the atomic
steps do; here every step is recorded with the access it makes to the memory of a block, and the C++
happens-before relation ([intro.races]) is defined on the records. -/
namespace KTL

/-- the accesses to a block's memory. `allocators/shared.h:63-206`. -/
inductive Acc where
  /-- the block is constructed -/
  | create (b : Nat)
  /-- `UseCount.fetch_add` -/
  | add (b : Nat)
  /-- `UseCount.fetch_sub` -/
  | sub (b : Nat)
  /-- the start or the end of a call of the wrapped allocator -/
  | touch (b : Nat)
  /-- the block is destroyed and its memory is freed -/
  | delete (b : Nat)
  deriving DecidableEq, Repr

/-- the block that is accessed. Specification, not code. -/
def Acc.block : Acc → Nat
  | .create b | .add b | .sub b | .touch b | .delete b => b

/-- The access thread `th` makes with its next step, when it starts `o` if idle; the same case distinction as
`AThread.step`. Constructors `allocators/shared.h:63-76`; `increment` `:192-197` in the copy constructor `:78-82`
and the copy assignment `:95-105`; `decrement` `:199-206` in the destructor `:90-93` and the assignments `:95-117`;
forwarded calls `:131-179`. -/
def AThread.acc (B : Blocks) (th : AThread) (o : AOp) : Option Acc :=
  match th.pc with
  | .idle =>
    match o with
    | .create => some (.create B.next)
    | .assign i j | .moveAssign i j => if j < th.hs.length then (th.hs[i]?).join.map .sub else none
    | .drop i => (th.hs[i]?).join.map .sub
    | .use i => (th.hs[i]?).join.map .touch
    | .copy _ | .move _ | .send _ _ => none
  | .copied => th.hs.getLast?.join.map .add
  | .assigned i => (th.hs[i]?).join.map .add
  | .deleting b _ => some (.delete b)
  | .inUse b => some (.touch b)
  | .dropping _ | .assigning _ _ | .moving _ _ => none

/-- the record of one step: who, which access, and the thread a handle is handed over to. Specification, not code. -/
structure ARec where
  thread : Nat
  acc : Option Acc
  to : Option Nat
  deriving DecidableEq, Repr

/-- the record of the step that `Atomic.step` takes. Specification, not code. -/
def Atomic.record (s : Atomic) (t : Nat) (o : AOp) : ARec :=
  match s.threads[t]? with
  | none => ⟨t, none, none⟩
  | some th =>
    match th.pc, o with
    | .idle, .send i u =>
      match th.hs[i]?, s.threads[u]? with
      | some _, some tu => if u = t ∨ tu.pc ≠ .idle then ⟨t, none, none⟩ else ⟨t, none, some u⟩
      | _, _ => ⟨t, none, none⟩
    | _, _ => ⟨t, th.acc s.blk o, none⟩

/-- the records of a schedule; the record of step `k` is at position `k`. Specification, not code. -/
def Atomic.trace (s : Atomic) : List (Nat × AOp) → List ARec
  | [] => []
  | (t, o) :: os => s.record t o :: (match s.step t o with | none => [] | some s' => s'.trace os)

/-- what a memory order of a read-modify-write operation includes. C++ machine, not library code. -/
structure MemOrder where
  release : Bool
  acquire : Bool
  deriving DecidableEq, Repr

/-- C++ machine, not library code. -/
def MemOrder.relaxed : MemOrder := ⟨false, false⟩
/-- C++ machine, not library code. -/
def MemOrder.acqRel : MemOrder := ⟨true, true⟩

/-- the order of `fetch_add` in `increment`, `allocators/shared.h:196` -/
def orderAdd : MemOrder := .acqRel

/-- the order of `fetch_sub` in `decrement`, `allocators/shared.h:204` -/
def orderSub : MemOrder := .acqRel

/-- the counter a record operates on atomically, and with which order. Specification, not code. -/
def ARec.rmw (oa os : MemOrder) (r : ARec) : Option (Nat × MemOrder) :=
  match r.acc with
  | some (.add b) => some (b, oa)
  | some (.sub b) => some (b, os)
  | _ => none

/-- Step `k` happens before step `l` ([intro.races]). A release operation on a counter synchronizes with every
later acquire operation on it: a counter is modified by read-modify-write operations only, so every later one
belongs to its release sequence and the next one reads from it. Handing a handle to another thread (through a
queue, a mutex, starting or joining a thread) synchronizes with the steps the receiver takes from then on.
Specification, not code. -/
inductive HB (oa os : MemOrder) (tr : List ARec) : Nat → Nat → Prop
  | program {k l : Nat} {r q : ARec} (hlt : k < l) (hk : tr[k]? = some r) (hl : tr[l]? = some q)
      (h : r.thread = q.thread) : HB oa os tr k l
  | counter {k l b : Nat} {r q : ARec} {m m' : MemOrder} (hlt : k < l) (hk : tr[k]? = some r) (hl : tr[l]? = some q)
      (h : r.rmw oa os = some (b, m)) (h' : q.rmw oa os = some (b, m')) (hr : m.release = true)
      (ha : m'.acquire = true) : HB oa os tr k l
  | handover {k l : Nat} {r q : ARec} (hlt : k < l) (hk : tr[k]? = some r) (hl : tr[l]? = some q)
      (h : r.to = some q.thread) : HB oa os tr k l
  | trans {k l m : Nat} (h : HB oa os tr k l) (h' : HB oa os tr l m) : HB oa os tr k m

end KTL
