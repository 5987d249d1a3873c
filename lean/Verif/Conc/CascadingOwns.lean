import Verif.Alloc.Cascading
import Verif.Alloc.Linear
import Verif.Conc.Threaded

/- `cascading::owns` as the sequence of its accesses, and a `linear_allocator` whose calls are split into their accesses, for calls that
overlap in time. -/
namespace KTL

open Cascading

/-- the pointer to the first node, null if there is none. `allocators/cascading.h:250` (`m_Node`), `:256` (`next->Next`). -/
def firstNode {α : Type} : List (Node α) → Nat
  | [] => 0
  | nd :: _ => nd.addr

/-- The loop of `allocators/cascading.h:251-257`: `next` is a pointer to a node; each round reads the node it points to. A node that is no longer
in the list has been deleted (`:154`), and reading it is undefined. `fuel` bounds the rounds by the length of the list the loop started
with (simplification: Lean wants a total function; new nodes only ever come in front, so the loop has no more rounds than that). -/
def ownsLoop (A : Allocator) (p : Nat) : Nat → Nat → Act (Res (List (Node A.St))) Nat
  | 0, _ => .done 0
  | fuel + 1, next =>
    if next = 0 then .done 0
    else .step
      (fun r => match r with
        | .ok s w => if s.any (fun nd => nd.addr == next) then .ok s w else .ub
        | r => r)
      (fun r => match r with
        | .ok s _ =>
          match s.dropWhile (fun nd => nd.addr != next) with
          | [] => .done 0
          | nd :: rest => if A.ownsD nd.st p then .done 1 else ownsLoop A p fuel (firstNode rest)
        | _ => .done 0)

/-- `allocators/cascading.h:247-260` `owns`: reads `m_Node`, then walks the list. -/
def cascadingOwns (A : Allocator) (p : Nat) : Act (Res (List (Node A.St))) Nat :=
  .step id fun r => match r with
    | .ok s _ => ownsLoop A p s.length (firstNode s)
    | _ => .done 0

/-- a change of the fields, in a program that has not crashed. Proof helper, not code. -/
def onOk {α : Type} (g : α → α) : Res α → Res α
  | .ok s w => .ok (g s) w
  | r => r

/-- `threaded<linear_allocator<Size>>`, one access to a field at a time. `allocate`: `allocators/linear_allocator.h:75-88`, `deallocate`: `:96-110`,
`owns`: `:128-137`; `construct` and `destroy` do not exist there. Locks: `allocators/threaded.h:61-113`. -/
def fineLinear (Size : Nat) : Calls (Res Linear.St) Nat TCall where
  body c := match c with
    | .allocate n =>
      .step id fun r => match r with
        | .ok s _ =>
          if addW (subW s.free s.base) (addW n (alignPad n)) > Size then .done 0
          else
            .step (onOk fun s => { s with free := addW s.free (addW n (alignPad n)) }) fun _ =>
            .step (onOk fun s => { s with count := addW s.count (addW n (alignPad n)) }) fun _ =>
            .done s.free
        | _ => .done 0
    | .deallocate p n =>
      .step (onOk fun s => if subW s.free (addW n (alignPad n)) = p then { s with free := subW s.free (addW n (alignPad n)) } else s) fun _ =>
      .step (onOk fun s => { s with count := subW s.count (addW n (alignPad n)) }) fun _ =>
      .step (onOk fun s => if s.count = 0 then { s with free := s.base } else s) fun _ =>
      .done 0
    | .owns p =>
      .step id fun r => match r with
        | .ok s _ =>
          if s.base ≤ p then
            .step id fun r => match r with
              | .ok s _ => .done (if p < addW s.base Size then 1 else 0)
              | _ => .done 0
          else .done 0
        | _ => .done 0
    | _ => .done 0
  locked := TCall.locked

end KTL
