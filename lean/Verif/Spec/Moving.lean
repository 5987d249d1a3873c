import Verif.Spec.History
import Verif.Alloc.Move

/- Client programs with several allocator objects that are moved around. Specification: this models the client. -/
namespace KTL

/-- What a program can do with a number of places for allocator objects. -/
inductive MvOp where
  /-- default construct an object at place `i` -/
  | create (i : Nat)
  /-- `A i(std::move(j))` -/
  | moveNew (i j : Nat)
  /-- `i = std::move(j)` -/
  | moveTo (i j : Nat)
  /-- use object `i` -/
  | use (i : Nat) (o : Op)
  /-- destructor -/
  | destroy (i : Nat)

/-- A place: its address, the fields of the object there (if there is one), the blocks the client got from that object with the bytes
it expects in them, and blocks other parties got from `malloc`. -/
structure MvObj (A : Allocator) where
  addr : Nat
  st : Option A.St
  live : List (Nat × List UInt8) := []
  foreign : List (Nat × List UInt8) := []

/-- One step. Steps that make no sense (no such place, no object there, object there already) or are not permitted (destroying or
overwriting an allocator while the client holds blocks, moving from an allocator while the client holds blocks and they do not
move along, or a `freelist` for which its assertion fails; moving an object to itself while the client holds blocks that do not survive it)
do nothing. When the blocks move along, they belong to
the target afterwards. -/
def MvOp.step (sys : Sys) {A : Allocator} (m : Moves A) (objs : List (MvObj A)) : MvOp → M (List (MvObj A))
  | .create i =>
    match objs[i]? with
    | some ⟨a, none, L, R⟩ => do
      let s ← A.init a
      pure (objs.set i ⟨a, some s, L, R⟩)
    | _ => pure objs
  | .moveNew i j =>
    match objs[i]?, objs[j]? with
    | some ⟨a, none, _, R⟩, some ⟨b, some s, L, S⟩ =>
      if m.ready s = true ∧ (L = [] ∨ m.carries = true) then do
        let r ← m.ctor a s
        pure ((objs.set i ⟨a, some r.1, L, R⟩).set j ⟨b, some r.2, [], S⟩)
      else pure objs
    | _, _ => pure objs
  | .moveTo i j =>
    match objs[i]?, objs[j]? with
    | some ⟨a, some t, K, R⟩, some ⟨b, some s, L, S⟩ =>
      if i = j then
        if L = [] ∨ m.keeps = true then do
          let r ← m.self s
          pure (objs.set i ⟨a, some r, L, S⟩)
        else pure objs
      else if K = [] ∧ m.ready s = true ∧ (L = [] ∨ m.carries = true) then do
        let r ← m.assign t s
        pure ((objs.set i ⟨a, some r.1, L, R⟩).set j ⟨b, some r.2, [], S⟩)
      else pure objs
    | _, _ => pure objs
  | .use i o =>
    match objs[i]? with
    | some ⟨a, some s, L, R⟩ => do
      let c ← Client.step sys (A := A) { st := s, live := L, foreign := R } o
      pure (objs.set i ⟨a, some c.st, c.live, c.foreign⟩)
    | _ => pure objs
  | .destroy i =>
    match objs[i]? with
    | some ⟨a, some s, L, R⟩ =>
      if L = [] then do
        A.fini s
        pure (objs.set i ⟨a, none, L, R⟩)
      else pure objs
    | _ => pure objs

/-- A program. -/
def mvrun (sys : Sys) {A : Allocator} (m : Moves A) (objs : List (MvObj A)) : List MvOp → M (List (MvObj A))
  | [] => pure objs
  | o :: os => do
    let objs' ← o.step sys m objs
    mvrun sys m objs' os

/-- A program with places at the addresses `bs`, without objects in the beginning. -/
def mvplay (sys : Sys) {A : Allocator} (m : Moves A) (bs : List Nat) (ops : List MvOp) : M (List (MvObj A)) :=
  mvrun sys m (bs.map fun b => ⟨b, none, [], []⟩) ops

/-- Disjoint places. -/
def Places (w : World) (n : Nat) (bs : List Nat) : Prop :=
  (∀ b ∈ bs, Storage w b n) ∧ bs.Pairwise fun b c => b + n ≤ c ∨ c + n ≤ b

end KTL
