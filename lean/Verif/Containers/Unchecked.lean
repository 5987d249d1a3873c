import Verif.Containers.Vector
import Verif.Containers.Array
import Verif.Containers.BinaryHeap

/- The functions of the containers that allocate, exactly as they are: the result of the allocator is used without a check. (The
other models of the containers stop the program, `oom`, when a request is refused; see `grab`.) -/
namespace KTL

namespace Vec

/-- `trivial_vector(size_t n)` `containers/trivial_vector.h:60-64` -/
def ofSizeU (sz : Nat) (A : Allocator) (s : A.St) (n : Nat) : M (A.St × Vec) := do
  let r ← typedAlloc sz A s n
  pure (r.2, ⟨r.1, r.1 + n * sz, r.1 + n * sz⟩)

/-- `trivial_vector(first, last)` `containers/trivial_vector.h:106-114` -/
def ofRangeU (sz : Nat) (A : Allocator) (s : A.St) (n : Nat) (src : Arg) : M (A.St × Vec) := do
  let r ← ofSizeU sz A s n
  src.copy r.2.beg (n * sz)
  pure r

/-- copy constructor `containers/trivial_vector.h:116-124` -/
def copyU (sz : Nat) (A : Allocator) (s : A.St) (o : Vec) : M (A.St × Vec) := do
  let r ← ofSizeU sz A s (o.size sz)
  if o.beg ≠ 0 then M.memcpy r.2.beg o.beg (o.size sz * sz)
  pure r

/-- `set_size` `containers/trivial_vector.h:443-459` -/
def setSizeU (sz : Nat) (A : Allocator) (s : A.St) (v : Vec) (n : Nat) : M (A.St × Vec) := do
  let cur := Min.min (v.size sz) n
  let r ← typedAlloc sz A s n
  let s' ← if v.beg ≠ 0 then do
      M.memcpy r.1 v.beg (cur * sz)
      typedDealloc sz A r.2 v.beg (v.capacity sz)
    else pure r.2
  pure (s', ⟨r.1, r.1 + cur * sz, r.1 + n * sz⟩)

/-- `expand` `containers/trivial_vector.h:435-441` -/
def expandU (sz : Nat) (A : Allocator) (s : A.St) (v : Vec) (n : Nat) : M (A.St × Vec) :=
  setSizeU sz A s v (v.capacity sz + Max.max (v.capacity sz / 2) n)

/-- `resize` `containers/trivial_vector.h:285-291` -/
def resizeU (sz : Nat) (A : Allocator) (s : A.St) (v : Vec) (n : Nat) : M (A.St × Vec) := do
  let r ← if v.capacity sz < n then expandU sz A s v (n - v.capacity sz) else pure (s, v)
  pure (r.1, { r.2 with fin := r.2.beg + n * sz })

/-- `reserve` `containers/trivial_vector.h:297-301` -/
def reserveU (sz : Nat) (A : Allocator) (s : A.St) (v : Vec) (n : Nat) : M (A.St × Vec) :=
  if v.capacity sz < n then setSizeU sz A s v n else pure (s, v)

/-- `push_back` `containers/trivial_vector.h:308-315` -/
def pushBackU (sz : Nat) (A : Allocator) (s : A.St) (v : Vec) (x : Arg) : M (Nat × A.St × Vec) := do
  let r ← if v.fin = v.max then expandU sz A s v 1 else pure (s, v)
  let bs ← x.fetch sz
  M.writeBytes r.2.fin bs
  pure (r.2.fin, r.1, { r.2 with fin := r.2.fin + sz })

end Vec

/-- `trivial_array::resize` `containers/trivial_array.h:264-280` -/
def Arr.resizeU (sz : Nat) (A : Allocator) (s : A.St) (a : Arr) (n : Nat) : M (A.St × Arr) :=
  if a.size sz ≠ n then do
    let r ← typedAlloc sz A s n
    let s' ← if a.beg ≠ 0 then do
        M.memcpy r.1 a.beg (Min.min (a.size sz) n * sz)
        typedDealloc sz A r.2 a.beg (a.size sz)
      else pure r.2
    pure (s', ⟨r.1, r.1 + n * sz⟩)
  else pure (s, a)

namespace BHeap
variable {α : Type}

/-- `set_size` `containers/binary_heap.h:374-397` -/
def setSizeU (E : Elt α) (A : Allocator) (s : A.St) (o : Objs α) (h : BHeap) (n : Nat) : M (A.St × Objs α × BHeap) := do
  let r ← typedAlloc E.size A s n
  let x ← if h.beg ≠ 0 then do
      let o1 ← moveAll E r.1 h.beg 0 (Min.min h.size n) o
      let o2 ← destroyAll E h.beg 0 h.size o1
      E.dealloc A r.2 o2 h.beg h.cap
    else pure (r.2, o)
  pure (x.1, x.2, ⟨Min.min h.size n, n, r.1⟩)

/-- `expand` `containers/binary_heap.h:366-372` -/
def expandU (E : Elt α) (A : Allocator) (s : A.St) (o : Objs α) (h : BHeap) (n : Nat) : M (A.St × Objs α × BHeap) :=
  setSizeU E A s o h (h.cap + Max.max h.cap n)

/-- `insert` `containers/binary_heap.h:298-308` -/
def insertU (E : Elt α) (comp : α → α → Bool) (A : Allocator) (s : A.St) (o : Objs α) (h : BHeap) (x : HArg α) : M (Nat × A.St × Objs α × BHeap) := do
  let r ← if h.size = h.cap then expandU E A s o h 1 else pure (s, o, h)
  let v ← x.fetch E r.2.1
  let o1 ← E.construct r.2.1 (r.2.2.beg + r.2.2.size * E.size) v
  let u ← percolateUp E comp r.2.2.beg r.2.2.size o1
  pure (r.2.2.beg + u.1 * E.size, r.1, u.2, { r.2.2 with size := r.2.2.size + 1 })

end BHeap
end KTL
