import Verif.Containers.Array
import Verif.Containers.BinaryHeap
import Verif.Containers.Buffer

/- Loops over containers with the iterators `begin()`, `end()`, `rbegin()`, `rend()`. The iterators are pointers; the loops stop when the
pointer equals the end, so a pointer that misses the end goes on. -/
namespace KTL

/-- `for (auto it = p; it != e; ++it) use(*it)`: what `rd` reads at each position. C++ machine, not library code. -/
def loopUp {β : Type} (rd : Nat → M β) (sz e p : Nat) : M (List β) := do
  if p = e then pure [] else do
    let x ← rd p
    let xs ← loopUp rd sz e (p + sz)
    pure (x :: xs)
partial_fixpoint

/-- the same with `std::reverse_iterator`: dereferencing reads the element before the pointer, `++` goes back. C++ machine, not library
code. -/
def loopDown {β : Type} (rd : Nat → M β) (sz e p : Nat) : M (List β) := do
  if p = e then pure [] else do
    let x ← rd (p - sz)
    let xs ← loopDown rd sz e (p - sz)
    pure (x :: xs)
partial_fixpoint

/-- `for (auto& x : v) x = f(x)`. C++ machine, not library code. -/
def loopMap (f : List UInt8 → List UInt8) (sz e p : Nat) : M Unit := do
  if p = e then pure () else do
    let x ← M.readBytes p sz
    M.writeBytes p (f x)
    loopMap f sz e (p + sz)
partial_fixpoint

namespace Vec

/-- `empty` `trivial_vector.h:257` -/
def empty (v : Vec) : Bool := v.beg = v.fin

/-- from `begin()` to `end()` `trivial_vector.h:224-230` -/
def each (sz : Nat) (v : Vec) : M (List (List UInt8)) := loopUp (M.readBytes · sz) sz v.fin v.beg

/-- from `rbegin()` to `rend()` `trivial_vector.h:232-238` -/
def reach (sz : Nat) (v : Vec) : M (List (List UInt8)) := loopDown (M.readBytes · sz) sz v.beg v.fin

/-- assigning through the iterators `trivial_vector.h:224`, `trivial_vector.h:228` -/
def update (sz : Nat) (f : List UInt8 → List UInt8) (v : Vec) : M Unit := loopMap f sz v.fin v.beg

end Vec

namespace Arr

/-- `empty` `trivial_array.h:236` -/
def empty (v : Arr) : Bool := v.beg = v.fin

/-- from `begin()` to `end()` `trivial_array.h:209-215` -/
def each (sz : Nat) (v : Arr) : M (List (List UInt8)) := loopUp (M.readBytes · sz) sz v.fin v.beg

/-- from `rbegin()` to `rend()` `trivial_array.h:217-223` -/
def reach (sz : Nat) (v : Arr) : M (List (List UInt8)) := loopDown (M.readBytes · sz) sz v.beg v.fin

/-- assigning through the iterators `trivial_array.h:209`, `trivial_array.h:213` -/
def update (sz : Nat) (f : List UInt8 → List UInt8) (v : Arr) : M Unit := loopMap f sz v.fin v.beg

end Arr

namespace BHeap
variable {α : Type}

/-- `empty` `binary_heap.h:278` -/
def empty (h : BHeap) : Bool := h.size = 0

/-- from `begin()` to `end()` `binary_heap.h:233-239` -/
def each (E : Elt α) (o : Objs α) (h : BHeap) : M (List α) := loopUp (E.read o) E.size (h.beg + h.size * E.size) h.beg

/-- from `rbegin()` to `rend()` `binary_heap.h:241-247` -/
def reach (E : Elt α) (o : Objs α) (h : BHeap) : M (List α) := loopDown (E.read o) E.size h.beg (h.beg + h.size * E.size)

end BHeap

namespace Buf

/-- from `begin()` to `end()` `trivial_buffer.h:95-101`. `m_Data` is an array of bytes, so these compile for bytes only, and `Size` counts bytes. -/
def each (b : Buf) : M (List (List UInt8)) := loopUp (M.readBytes · 1) 1 (b.addr + b.n) b.addr

/-- from `rbegin()` to `rend()` `trivial_buffer.h:103-109`, bytes only -/
def reach (b : Buf) : M (List (List UInt8)) := loopDown (M.readBytes · 1) 1 b.addr (b.addr + b.n)

/-- assigning through the iterators `trivial_buffer.h:95`, `trivial_buffer.h:99`, bytes only -/
def update (f : List UInt8 → List UInt8) (b : Buf) : M Unit := loopMap f 1 (b.addr + b.n) b.addr

end Buf

end KTL
