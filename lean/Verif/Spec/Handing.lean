import Verif.Spec.Moving
import Verif.Alloc.Equal

/- Client programs with several allocator objects that hand blocks over to each other when they compare equal, like containers do
when they are swapped or spliced. Specification: this models the client. -/
namespace KTL

/-- What a program can do with a number of places for allocator objects. -/
inductive HdOp where
  /-- default construct an object at place `i` -/
  | create (i : Nat)
  /-- use object `i` -/
  | use (i : Nat) (o : Op)
  /-- if object `i` and object `j` compare equal now, the `k`-th block of object `i` is from now on treated as one of object `j` -/
  | hand (i k j : Nat)
  /-- destructor -/
  | destroy (i : Nat)

/-- One step. Steps that make no sense do nothing, nor does the destruction of an allocator while the client holds blocks of it. `eq` is
the comparison operator. -/
def HdOp.step (sys : Sys) {A : Allocator} (eq : Nat → A.St → Nat → A.St → Option Bool) (objs : List (MvObj A)) : HdOp → M (List (MvObj A))
  | .create i =>
    match objs[i]? with
    | some ⟨a, none, L, R⟩ => do
      let s ← A.init a
      pure (objs.set i ⟨a, some s, L, R⟩)
    | _ => pure objs
  | .use i o =>
    match objs[i]? with
    | some ⟨a, some s, L, R⟩ => do
      let c ← Client.step sys (A := A) { st := s, live := L, foreign := R } o
      pure (objs.set i ⟨a, some c.st, c.live, c.foreign⟩)
    | _ => pure objs
  | .hand i k j =>
    match objs[i]?, objs[j]? with
    | some ⟨a, some s, L, R⟩, some ⟨b, some u, K, S⟩ =>
      match L[k]? with
      | some c =>
        if i ≠ j ∧ eq a s b u = some true then
          pure ((objs.set i ⟨a, some s, L.eraseIdx k, R⟩).set j ⟨b, some u, c :: K, S⟩)
        else pure objs
      | none => pure objs
    | _, _ => pure objs
  | .destroy i =>
    match objs[i]? with
    | some ⟨a, some s, L, R⟩ =>
      if L = [] then do
        A.fini s
        pure (objs.set i ⟨a, none, L, R⟩)
      else pure objs
    | _ => pure objs

/-- A program. -/
def hdrun (sys : Sys) {A : Allocator} (eq : Nat → A.St → Nat → A.St → Option Bool) (objs : List (MvObj A)) : List HdOp → M (List (MvObj A))
  | [] => pure objs
  | o :: os => do
    let objs' ← o.step sys eq objs
    hdrun sys eq objs' os

/-- A program with places at the addresses `bs`, without objects in the beginning. -/
def hdplay (sys : Sys) {A : Allocator} (eq : Nat → A.St → Nat → A.St → Option Bool) (bs : List Nat) (ops : List HdOp) : M (List (MvObj A)) :=
  hdrun sys eq (bs.map fun b => ⟨b, none, [], []⟩) ops

end KTL
