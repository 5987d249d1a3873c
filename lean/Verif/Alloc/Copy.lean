import Verif.Alloc.Ty

/- Copies of allocator objects. -/
namespace KTL

namespace AllocTy

/-- Has a copy constructor. Defaulted or written out: `allocators/null_allocator.h:16`, `mallocator.h:20`, `stack_allocator.h:44`,
`fallback.h:79`, `segragator.h:76`, `overflow.h:55`, `shared.h:78-82`, `reference.h:29-30`; deleted: `linear_allocator.h:26`,
`freelist.h:57`, `cascading.h:48`, `threaded.h:42`. A defaulted one exists if the members have one. -/
def copyable : AllocTy → Bool
  | null => true
  | mallocator => true
  | linear _ => false
  | stack _ => true
  | freelist _ _ _ => false
  | fallback P F => P.copyable && F.copyable
  | segragator _ P F => P.copyable && F.copyable
  | cascading _ => false
  | overflow A => A.copyable
  | threaded _ => false
  | shared _ => true
  | reference _ => true

/-- The fields of a copy. Members that are pointers to something all copies share (`stack_allocator.h:112`, `shared.h:209`,
`reference.h:121`) see the present state of it, which is in `cur`, the fields of the copy that was used last; other members are the
copy's own (`own`): the counters of `overflow` (`overflow.h:274-279`). For the classes whose copy constructor is deleted this says what
a memberwise copy would be, to show why it has to be deleted (`linear_allocator.h:141-143`, `freelist.h:241-242`, `cascading.h:284`, `threaded.h:127-128`; simplified: the buffer
of a `linear_allocator`, which would be copied too, is not). -/
def sync (sys : Sys) : (t : AllocTy) → (cur own : (t.denote sys).St) → (t.denote sys).St
  | null, cur, _ => cur
  | mallocator, cur, _ => cur
  | linear _, _, own => own
  | stack _, cur, _ => cur
  | freelist _ _ _, _, own => own
  | fallback P F, cur, own => (P.sync sys cur.1 own.1, F.sync sys cur.2 own.2)
  | segragator _ P F, cur, own => (P.sync sys cur.1 own.1, F.sync sys cur.2 own.2)
  | cascading _, _, own => own
  | overflow A, cur, own => (⟨A.sync sys cur.a own.a, own.allocs, own.constructs⟩ : Overflow.St _)
  | threaded _, _, own => own
  | shared _, cur, _ => cur
  | reference _, cur, _ => cur

end AllocTy

end KTL
