import Verif.Conc.Gang

/- The order in which the accesses of threads over one `threaded` allocator happen. `Conc/Gang.lean` says what the steps do; here every step is
recorded with the memory it accesses and what it does to the mutex, and the C++ happens-before relation ([intro.races]) is defined on the
records. -/
namespace KTL

/-- The memory that the next step of a call accesses: address, number of bytes, and whether it is written. To `free` a block is to write it, as
far as races are concerned. Calls of `malloc` and the stream access no memory of the program. C++ machine, not library code. -/
def Body.access {g : Bool} {α : Type} (h : Heap) : Body g α → Option (Nat × Nat × Bool)
  | .load p _ => some (p, 1, false)
  | .store p _ _ => some (p, 1, true)
  | .free _ p _ => if p = 0 then none else (h.t p).map fun n => (p, n, true)
  | _ => none

/-- C++ machine, not library code. -/
def Visit.access {X : BAlloc} {α : Type} (h : Heap) : Visit X α → Option (Nat × Nat × Bool)
  | .taking x _ => x.access h
  | .giving x _ => x.access h

/-- The record of one step: who, which memory, and whether the mutex is taken or given back. Specification, not code. -/
structure GRec where
  thread : Nat
  acc : Option (Nat × Nat × Bool)
  takes : Bool
  gives : Bool
  deriving DecidableEq, Repr

/-- The step accesses the byte. Specification, not code. -/
def GRec.at (r : GRec) (x : Nat) : Prop := ∃ p n wr, r.acc = some (p, n, wr) ∧ p ≤ x ∧ x < p + n

/-- The step accesses the fields of the allocator object: they are read when the mutex has been taken and written before it is given back, see
`Gang.step`. Specification, not code. -/
def GRec.fields (r : GRec) : Bool := r.takes || r.gives

/-- Two steps access something in common: a byte, or the fields of the allocator. C++ speaks of a race only if one of the accesses
writes; here two reads count as well. Specification, not code. -/
def GRec.Meets (r q : GRec) : Prop := (r.fields = true ∧ q.fields = true) ∨ ∃ x, r.at x ∧ q.at x

/-- The record of the step that `Gang.step` takes; the same case distinction. `allocators/threaded.h:61-73`. -/
def Gang.record {X : BAlloc} {α : Type} (T : Gang X α) (h : Heap) (i : Nat) : GRec :=
  match T.holds i with
  | some c =>
    match c.over with
    | some _ => ⟨i, none, false, true⟩
    | none => ⟨i, c.access h, false, false⟩
  | none =>
    match T.threads i with
    | .load p _ => ⟨i, some (p, 1, false), false, false⟩
    | .store p _ _ => ⟨i, some (p, 1, true), false, false⟩
    | .alloc _ _ => ⟨i, none, T.inside.isNone, false⟩
    | .dealloc _ _ _ => ⟨i, none, T.inside.isNone, false⟩
    | _ => ⟨i, none, false, false⟩

/-- The records of a schedule; the record of step `k` is at position `k`. Specification, not code. -/
def Gang.trace {X : BAlloc} {α : Type} (sys : Sys) (T : Gang X α) : List Nat → World → List GRec
  | [], _ => []
  | i :: is, w => T.record w.heap i :: (match T.step sys i w with | .ok T' w' => T'.trace sys is w' | _ => [])

/-- The records of the threads of `gangPlay`. Specification, not code. -/
def gangTrace {α : Type} (X : BAlloc) (sys : Sys) (b : Nat) (progs : Nat → Prog α) (sched : List Nat) (w : World) : List GRec :=
  match (X.init b).seq sys w with
  | .ok s w' => Gang.trace sys (⟨s, progs, none⟩ : Gang X α) sched w'
  | _ => []

/-- Step `k` happens before step `l` ([intro.races]): they are steps of one thread, or the mutex is given back by one and taken by the other
([thread.mutex.requirements.mutex]: `unlock` synchronizes with later `lock`s), or there is a step between. Specification, not code. -/
inductive GHB (tr : List GRec) : Nat → Nat → Prop
  | program {k l : Nat} {r q : GRec} (hlt : k < l) (hk : tr[k]? = some r) (hl : tr[l]? = some q) (h : r.thread = q.thread) : GHB tr k l
  | mutex {k l : Nat} {r q : GRec} (hlt : k < l) (hk : tr[k]? = some r) (hl : tr[l]? = some q) (h : r.gives = true) (h' : q.takes = true) :
      GHB tr k l
  | trans {k l m : Nat} (h : GHB tr k l) (h' : GHB tr l m) : GHB tr k m

end KTL
