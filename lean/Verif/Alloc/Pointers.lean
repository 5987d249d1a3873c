import Verif.Alloc.Ty

/- The allocators that do pointer arithmetic, with the rule of C++ that a pointer may only be moved inside the array
it points into or to its end, whether it is dereferenced or not. The functions are those of `Verif/Alloc/Linear`,
`Verif/Alloc/Ty` and `Verif/Alloc/Overflow`; before each step that computes a pointer there is a check. -/
namespace KTL

/-- Computing the pointer `p` from a pointer into the array `[lo, hi)`: undefined behaviour outside `[lo, hi]`. `p` is
an integer, so a pointer below the address 0 or above 2^64 counts as outside. Not code of its own: the rule of the
language for `+`, `-`, `+=`, `-=`, `++` and `--` on pointers as they appear at `allocators/linear_allocator.h:79-84`,
`:102-103`, `allocators/stack_allocator.h:67-72`, `:82-83` and `allocators/overflow.h:115-118`, `:141-151`, `:165`. -/
def M.pointer (lo hi p : Int) : M Unit := if lo ≤ p ∧ p ≤ hi then pure () else M.ub

/-- `allocators/linear_allocator.h:75-110`: `m_Free - m_Data` (`:79`), `m_Free += totalSize` (`:84`) and
`m_Free - totalSize` (`:102`) with the rule for pointers; the array is `m_Data`. -/
def linearP (Size : Nat) : Allocator :=
  { linear Size with
    alloc := fun s n => do
      let total := addW n (alignPad n)
      M.pointer s.base (s.base + Size) s.free
      if addW (subW s.free s.base) total > Size then pure (0, s)
      else do
        M.pointer s.base (s.base + Size) (s.free + total)
        pure (Linear.alloc Size s n)
    dealloc := fun s p n => do
      let total := addW n (alignPad n)
      M.pointer s.base (s.base + Size) (s.free - total)
      pure (Linear.dealloc s p n) }

/-- `allocators/stack_allocator.h:63-90`: `Free - Data` (`:67`), `Free += totalSize` (`:72`) and `Free - totalSize`
(`:82`) with the rule for pointers; the array is `Data` of the stack. -/
def stackP (Size : Nat) : Allocator :=
  { stackAlloc Size with
    alloc := fun s n => do
      let total := addW n (alignPad n)
      M.pointer s.data (s.data + Size) s.free
      if addW (subW s.free s.data) total > Size then pure (0, s)
      else do
        M.pointer s.data (s.data + Size) (s.free + total)
        pure (Stack.alloc Size s n)
    dealloc := fun s p n => do
      let total := addW n (alignPad n)
      M.pointer s.data (s.data + Size) (s.free - total)
      pure (Stack.dealloc s p n) }

namespace Overflow

/-- `allocators/overflow.h:141-145`: the first loop of `deallocate`. The `i--` after byte `k` computes `ptr - (k+1)`. -/
def scanBeforeP (lo hi : Int) (ptr k : Nat) : Nat → Nat → M Nat
  | 0, cur => pure cur
  | r + 1, cur => do
    let v ← M.load (ptr - k)
    M.pointer lo hi ((ptr : Int) - (k + 1))
    scanBeforeP lo hi ptr (k + 1) r (if v ≠ pattern then k else cur)

/-- `allocators/overflow.h:147-151`: the second loop of `deallocate`. The `i++` after byte `k` computes `e + k + 1`. -/
def scanAfterP (lo hi : Int) (e k : Nat) : Nat → Nat → M Nat
  | 0, cur => pure cur
  | r + 1, cur => do
    let v ← M.load (e + k)
    M.pointer lo hi (e + k + 1)
    scanAfterP lo hi e (k + 1) r (if v ≠ pattern then k + 1 else cur)

end Overflow

open Overflow in
/-- `overflow<Alloc>` with the rule for pointers: `allocate` (`allocators/overflow.h:104-119`) and `deallocate`
(`:126-167`). The array is the block of `n + 128` bytes obtained from `Alloc`. `slack` is not in the code: so many
bytes in front of the block are counted as part of it. The rule of C++ is `slack = 0`. -/
def overflowP (slack : Nat) (A : Allocator) : Allocator :=
  { overflow A with
    alloc := fun s n => do
      let allocs := wrap64 (s.allocs + n)
      let r ← A.alloc s.a (addW n 128)
      if r.1 = 0 then pure (0, ⟨r.2, allocs, s.constructs⟩)
      else do
        let lo : Int := r.1 - slack
        let hi : Int := r.1 + n + 128
        M.writeBytes r.1 (List.replicate 64 pattern)
        M.pointer lo hi (r.1 + 64)
        M.pointer lo hi (r.1 + 64 + n)
        M.writeBytes (r.1 + 64 + n) (List.replicate 64 pattern)
        pure (r.1 + 64, ⟨r.2, allocs, s.constructs⟩)
    dealloc := fun s p n => do
      let allocs := wrap64 (s.allocs - n)
      if p ≠ 0 then do
        let lo : Int := p - 64 - slack
        let hi : Int := p + n + 64
        M.pointer lo hi ((p : Int) - 1)
        M.pointer lo hi ((p : Int) - 64)
        let before ← scanBeforeP lo hi p 1 64 0
        M.pointer lo hi (p + n)
        M.pointer lo hi (p + n + 64)
        let after ← scanAfterP lo hi (p + n) 0 64 0
        M.ifThen (before ≠ 0 ∨ after ≠ 0) (M.print (.corruption p n before after))
        let a ← A.dealloc s.a (p - 64) (addW n 128)
        pure ⟨a, allocs, s.constructs⟩
      else pure ⟨s.a, allocs, s.constructs⟩ }

namespace AllocTy

/-- The class a type expression denotes, with the rule for pointers in `linear_allocator`, `stack_allocator` and
`overflow`. The other classes move no pointers (`allocators/freelist.h`, `allocators/fallback.h`,
`allocators/segragator.h`, `allocators/cascading.h`, `allocators/threaded.h`, `allocators/shared.h`,
`allocators/reference.h`, `allocators/null_allocator.h`) or only inside the block they access
(`utility/aligned_malloc.h:67`, `:85`). -/
def checked (sys : Sys) (slack : Nat) : AllocTy → Allocator
  | null => nullAlloc
  | mallocator => KTL.mallocator sys
  | linear S => linearP S
  | stack S => stackP S
  | freelist m M A => KTL.freelist m M (A.checked sys slack)
  | fallback P F => KTL.fallback (P.checked sys slack) (F.checked sys slack)
  | segragator T P F => KTL.segragator T (P.checked sys slack) (F.checked sys slack)
  | cascading A => KTL.cascading sys (A.checked sys slack)
  | overflow A => overflowP slack (A.checked sys slack)
  | threaded A => KTL.threaded (A.checked sys slack)
  | shared A => KTL.sharedAlloc sys (A.checked sys slack)
  | reference A => KTL.reference (A.checked sys slack)

/-- Is there an `overflow` (`allocators/overflow.h`) in the composition? -/
def hasOverflow : AllocTy → Bool
  | null | mallocator | linear _ | stack _ => false
  | overflow _ => true
  | freelist _ _ A | cascading A | threaded A | shared A | reference A => A.hasOverflow
  | fallback P F | segragator _ P F => P.hasOverflow || F.hasOverflow

end AllocTy
end KTL
