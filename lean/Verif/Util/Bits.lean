import Verif.Base.Machine

/- `utility/bits.h`, `utility/builder.h` (pow2) and `containers/packed_ptr.h`. -/
namespace KTL

/-- one line of `log2`: `if (n >> k) { r += k; n >>= k; }` (`utility/bits.h:11-16`); the pair is `(r, n)` -/
def log2Step (k : Nat) (s : Nat × Nat) : Nat × Nat := if s.2 >>> k ≠ 0 then (s.1 + k, s.2 >>> k) else s

/-- `utility/bits.h:7-19` `detail::log2` on 64-bit numbers -/
def log2 (n : Nat) : Nat :=
  (log2Step 1 (log2Step 2 (log2Step 4 (log2Step 8 (log2Step 16 (log2Step 32 (0, n))))))).1

/-- `utility/builder.h:10-24` `detail::pow2<N>::Result`, modulo 2^64 -/
def pow2 (N : Nat) : Nat :=
  let A := subW N 1
  let B := A ||| (A >>> 1)
  let C := B ||| (B >>> 2)
  let D := C ||| (C >>> 4)
  let E := D ||| (D >>> 8)
  let F := E ||| (E >>> 16)
  let G := F ||| (F >>> 32)
  addW G 1

/-! ### `packed_ptr<PtrT, Bits, Alignment>` -/
namespace Packed

/-- `containers/packed_ptr.h:19` `FREE_BITS` -/
def freeBits (Alignment : Nat) : Nat := log2 Alignment

/-- `containers/packed_ptr.h:24` `INT_MASK` -/
def intMask (Bits : Nat) : BitVec 64 := (1#64 <<< Bits) - 1#64

/-- `containers/packed_ptr.h:25` `PTR_MASK` -/
def ptrMask (Alignment : Nat) : BitVec 64 := ~~~((1#64 <<< freeBits Alignment) - 1#64)

/-- `containers/packed_ptr.h:28-29` default constructor -/
def empty : BitVec 64 := 0#64

/-- `containers/packed_ptr.h:31-39` constructor. The integer argument has an unsigned type of `k <= 64`
bits; `static_cast<uintptr_t>` is zero extension. -/
def make (Bits Alignment : Nat) (p : BitVec 64) (v : BitVec k) : BitVec 64 :=
  (p &&& ptrMask Alignment) ||| (v.setWidth 64 &&& intMask Bits)

/-- `containers/packed_ptr.h:41` `operator bool` -/
def toBool (m : BitVec 64) : Bool := m != 0#64

/-- `containers/packed_ptr.h:43` `get_ptr` -/
def getPtr (Alignment : Nat) (m : BitVec 64) : BitVec 64 := m &&& ptrMask Alignment

/-- `containers/packed_ptr.h:45-51` `get_int<Int>`, `Int` of `k` bits -/
def getInt (Bits k : Nat) (m : BitVec 64) : BitVec k := (m &&& intMask Bits).setWidth k

/-- `containers/packed_ptr.h:53-59` `set_ptr` -/
def setPtr (Bits Alignment : Nat) (m p : BitVec 64) : BitVec 64 :=
  (p &&& ptrMask Alignment) ||| (m &&& intMask Bits)

/-- `containers/packed_ptr.h:61-67` `set_int` -/
def setInt (Bits Alignment : Nat) (m : BitVec 64) (v : BitVec k) : BitVec 64 :=
  (m &&& ptrMask Alignment) ||| (v.setWidth 64 &&& intMask Bits)

end Packed
end KTL
