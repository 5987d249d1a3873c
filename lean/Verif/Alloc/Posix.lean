import Verif.Base.Machine

/- The `posix_memalign` branch of `aligned_malloc`. -/
namespace KTL

/-- What POSIX says about the alignment argument: a power of two multiple of `sizeof(void*)`.
C++ machine, not library code. -/
def posixAlignOk (a : Nat) : Prop := a % 8 = 0 ∧ ∃ k, a = 2 ^ k

/-- An arbitrary behaviour of the platform's `posix_memalign(&res, alignment, size)`, within what POSIX
guarantees: it fails (`EINVAL`) if the alignment is not admissible, may fail, and otherwise yields a fresh
block of `size` bytes at a multiple of `alignment`. C++ machine, not library code. -/
structure Posix where
  memalign : Nat → Heap → (alignment size : Nat) → Option (Nat × (Nat → UInt8))
  inval : ∀ k h al n, ¬ posixAlignOk al → memalign k h al n = none
  valid : ∀ k h al n a c, memalign k h al n = some (a, c) →
    0 < a ∧ a % al = 0 ∧ a + n < W64 ∧ h.t a = none ∧ ∀ x, a ≤ x → x < a + n → h.b x = none

/-- `posix_memalign` as a program; the result 0 stands for a failure. C++ machine, not library code. -/
def Posix.call (px : Posix) (alignment size : Nat) : M Nat := fun w =>
  match px.memalign w.tick w.heap alignment size with
  | none => .ok 0 { w with tick := w.tick + 1, failed := true }
  | some (a, c) => .ok a { w with
      tick := w.tick + 1
      heap := ⟨fun x => if a ≤ x ∧ x < a + size then some (c (x - a)) else w.heap.b x,
               fun x => if x = a then some size else w.heap.t x⟩ }

/-- `utility/aligned_malloc.h:54-58`: `posix_memalign(&res, size, alignment)`; `if (failed) res = nullptr;`.
The second argument of `posix_memalign` is the alignment and the third is the size. -/
def alignedMallocPosix (px : Posix) (size alignment : Nat) : M Nat := px.call size alignment

end KTL
