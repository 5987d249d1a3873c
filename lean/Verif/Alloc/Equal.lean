import Verif.Alloc.Ty
import Verif.Alloc.Handles

/- What the comparison operators see of allocator objects. -/
namespace KTL

/-- The value of `m_Node`, the pointer to the first node (null: 0). `allocators/cascading.h:284`. -/
def Cascading.firstAddr {α : Type} : List (Cascading.Node α) → Nat
  | [] => 0
  | nd :: _ => nd.addr

namespace AllocTy

/-- The parts of an object at address `b` with fields `s` that `operator==` looks at (`Val.eq` is the operator):
the address of the buffer `linear_allocator.h:59-62` (`m_Data`), the pointer `stack_allocator.h:52-55` (`m_Block`, the address of its
first member), `m_Alloc` and `m_Free` `freelist.h:93-97`, both members `fallback.h:87-91`, `segragator.h:84-88`, the pointer to the first
node `cascading.h:76-79` (null: 0), `m_Alloc` only, not the counters, `overflow.h:84-88`, `m_Alloc` only, not the mutex,
`threaded.h:48-52`, the pointer and the allocator behind it `shared.h:119-123`, `reference.h:49-53`. -/
def view (sys : Sys) : (t : AllocTy) → (b : Nat) → (t.denote sys).St → Val
  | null, _, _ => .null
  | mallocator, _, _ => .mallocator
  | linear _, _, s => .linear (s : Linear.St).base
  | stack _, _, s => .stack (s : Stack).data
  | freelist _ _ A, b, s => .freelist (A.view sys b (s : Freelist.St _).a) (s : Freelist.St _).free
  | fallback P F, b, s => .fallback (P.view sys b s.1) (F.view sys (b + P.size) s.2)
  | segragator _ P F, b, s => .segragator (P.view sys b s.1) (F.view sys (b + P.size) s.2)
  | cascading _, _, s => .cascading (Cascading.firstAddr s)
  | overflow A, b, s => .overflow (A.view sys b (s : Overflow.St _).a)
  | threaded A, b, s => .threaded (A.view sys b s)
  | shared A, _, s => .shared s.1 (A.view sys s.1 s.2)
  | reference A, b, s => .reference b (A.view sys b s)

/-- `x == y` for an object at `b` with fields `s` and an object at `c` with fields `u`. See `Val.eq` for the lines. -/
def equal (sys : Sys) (t : AllocTy) (b : Nat) (s : (t.denote sys).St) (c : Nat) (u : (t.denote sys).St) : Option Bool :=
  (t.view sys b s).eq (t.view sys c u)

end AllocTy

end KTL
