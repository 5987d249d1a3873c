import Verif.Util.Bits
import Verif.Alloc.Linear

/- C32–C36: alignment, logarithm, powers of two, packed pointers. -/
namespace KTL

/-- **C32.** `n + align_to_architecture(n)` is the least multiple of 16 that is not below `n`. No
restriction on `n` is needed for unbounded numbers … -/
theorem C32_align_least (n : Nat) :
    (n + alignPad n) % 16 = 0 ∧ n ≤ n + alignPad n ∧ ∀ m, n ≤ m → m % 16 = 0 → n + alignPad n ≤ m := by
  rw [alignPad_eq]
  refine ⟨by omega, by omega, fun m h1 h2 => by omega⟩

/-- … and the 64-bit sum is that number exactly if there is a 64-bit multiple of 16 above `n`. -/
theorem C32_align_64 (n : Nat) :
    addW n (alignPad n) = n + alignPad n ↔ ∃ m, n ≤ m ∧ m % 16 = 0 ∧ m < 2 ^ 64 := by
  have h := C32_align_least n
  constructor
  · intro e
    refine ⟨n + alignPad n, h.2.1, h.1, ?_⟩
    rw [← e]; exact Nat.mod_lt _ (by decide)
  · rintro ⟨m, h1, h2, h3⟩
    have := h.2.2 m h1 h2
    exact Nat.mod_eq_of_lt (by omega)

/-- the padding itself never wraps and is below 16 -/
theorem C32_align_small (n : Nat) : alignPad n < 16 := by rw [alignPad_eq]; omega

example : alignPad 20 = 12 ∧ alignPad 32 = 0 := by decide

/-! ### C33 -/

theorem log2Step_spec (k b : Nat) (s : Nat × Nat) (n0 : Nat) (h1 : s.2 = n0 / 2 ^ s.1) (h2 : 0 < s.2)
    (h3 : s.2 < 2 ^ (k + b)) (hkb : b ≤ k) :
    let s' := log2Step k s
    s'.2 = n0 / 2 ^ s'.1 ∧ 0 < s'.2 ∧ s'.2 < 2 ^ k := by
  simp only [log2Step, Nat.shiftRight_eq_div_pow]
  by_cases h : s.2 / 2 ^ k = 0
  · simp only [h, ne_eq, not_true_eq_false, if_false]
    refine ⟨h1, h2, ?_⟩
    rcases Nat.div_eq_zero_iff.1 h with h | h
    · exact absurd h (by have := Nat.pow_pos (n := k) (show 0 < 2 by decide); omega)
    · exact h
  · simp only [h, ne_eq, not_false_eq_true, if_true]
    refine ⟨?_, Nat.pos_of_ne_zero h, ?_⟩
    · rw [h1, Nat.div_div_eq_div_mul, Nat.pow_add]
    · have : s.2 / 2 ^ k < 2 ^ b := by
        rw [Nat.div_lt_iff_lt_mul (Nat.pow_pos (by decide)), ← Nat.pow_add, Nat.add_comm b k]; exact h3
      exact Nat.lt_of_lt_of_le this (Nat.pow_le_pow_right (by decide) hkb)

/-- **C33.** `detail::log2(n)` is the position of the highest set bit of any non-zero 64-bit `n`. -/
theorem C33_log2_floor (n : Nat) (h0 : n ≠ 0) (hn : n < 2 ^ 64) : 2 ^ log2 n ≤ n ∧ n < 2 ^ (log2 n + 1) := by
  have a := log2Step_spec 32 32 (0, n) n (by simp) (by simp only; omega) (by simpa using hn) (by decide)
  have b := log2Step_spec 16 16 _ n a.1 a.2.1 (by simpa using a.2.2) (by decide)
  have c := log2Step_spec 8 8 _ n b.1 b.2.1 (by simpa using b.2.2) (by decide)
  have d := log2Step_spec 4 4 _ n c.1 c.2.1 (by simpa using c.2.2) (by decide)
  have e := log2Step_spec 2 2 _ n d.1 d.2.1 (by simpa using d.2.2) (by decide)
  have f := log2Step_spec 1 1 _ n e.1 e.2.1 (by simpa using e.2.2) (by decide)
  have h1 : n / 2 ^ log2 n = 1 := by
    have h2 := f.1
    have h3 := f.2.1
    have h4 := f.2.2
    simp only [log2]
    omega
  have hp : 0 < 2 ^ log2 n := Nat.pow_pos (by decide)
  constructor
  · have := Nat.div_mul_le_self n (2 ^ log2 n)
    rw [h1] at this; omega
  · have := Nat.lt_mul_div_succ n hp
    rw [h1] at this
    rw [Nat.pow_succ]; omega

/-- the same with the highest set bit spelled out -/
theorem C33_log2_highest_bit (n : Nat) (h0 : n ≠ 0) (hn : n < 2 ^ 64) :
    n.testBit (log2 n) = true ∧ ∀ i, log2 n < i → n.testBit i = false := by
  obtain ⟨h1, h2⟩ := C33_log2_floor n h0 hn
  constructor
  · rw [Nat.testBit_eq_decide_div_mod_eq]
    have hp : 0 < 2 ^ log2 n := Nat.pow_pos (by decide)
    have e1 : n / 2 ^ log2 n = 1 := by
      apply Nat.le_antisymm
      · have : n / 2 ^ log2 n < 2 := by
          rw [Nat.div_lt_iff_lt_mul hp, Nat.mul_comm, ← Nat.pow_succ]; exact h2
        omega
      · rw [Nat.le_div_iff_mul_le hp]; omega
    simp [e1]
  · intro i hi
    apply Nat.testBit_lt_two_pow
    exact Nat.lt_of_lt_of_le h2 (Nat.pow_le_pow_right (by decide) hi)

example : log2 1000 = 9 := by decide

/-! ### C34 -/

/-- `X` has bit `i` iff `A` has a bit in `[i, i+w)` -/
def Smeared (A w X : Nat) : Prop := ∀ i, X.testBit i = true ↔ ∃ j, i ≤ j ∧ j < i + w ∧ A.testBit j = true

theorem Smeared.step {A w X : Nat} (h : Smeared A w X) : Smeared A (w + w) (X ||| (X >>> w)) := by
  intro i
  rw [Nat.testBit_or, Nat.testBit_shiftRight, Bool.or_eq_true, h i, h (w + i)]
  constructor
  · rintro (⟨j, h1, h2, h3⟩ | ⟨j, h1, h2, h3⟩)
    · exact ⟨j, h1, by omega, h3⟩
    · exact ⟨j, by omega, by omega, h3⟩
  · rintro ⟨j, h1, h2, h3⟩
    by_cases hj : j < i + w
    · exact .inl ⟨j, h1, hj, h3⟩
    · exact .inr ⟨j, by omega, by omega, h3⟩

/-- **C34.** `pow2<N>::Result` is the least power of two that is at least `N`, for `1 <= N <= 2^63`. -/
theorem C34_pow2_least (N : Nat) (h1 : 1 ≤ N) (h2 : N ≤ 2 ^ 63) :
    ∃ k, pow2 N = 2 ^ k ∧ N ≤ 2 ^ k ∧ ∀ j, N ≤ 2 ^ j → 2 ^ k ≤ 2 ^ j := by
  obtain ⟨A, rfl⟩ : ∃ A, N = A + 1 := ⟨N - 1, by omega⟩
  have eA : subW (A + 1) 1 = A := by unfold subW; omega
  have s0 : Smeared A 1 A := by
    intro i
    constructor
    · intro h; exact ⟨i, by omega, by omega, h⟩
    · rintro ⟨j, h1, h2, h3⟩
      obtain rfl : i = j := by omega
      exact h3
  have s := s0.step.step.step.step.step.step
  simp only [pow2, eA]
  generalize hG : (_ ||| _ : Nat) = G
  replace s : Smeared A 64 G := by rw [← hG]; exact s
  clear hG
  by_cases hA : A = 0
  · subst hA
    have : G = 0 := by
      apply Nat.eq_of_testBit_eq
      intro i
      have := s i
      simp only [Nat.zero_testBit, Bool.false_eq_true, and_false, exists_false, iff_false] at this
      simpa using this
    subst this
    exact ⟨0, rfl, by omega, fun j _ => by have := Nat.pow_pos (n := j) (show 0 < 2 by decide); omega⟩
  · have hlog := Nat.log2_lt hA (k := 63)
    have hm : A.log2 < 63 := hlog.2 (by omega)
    have hlo := Nat.log2_self_le hA
    have hhi := Nat.lt_log2_self (n := A)
    have eG : G = 2 ^ (A.log2 + 1) - 1 := by
      apply Nat.eq_of_testBit_eq
      intro i
      rw [Nat.testBit_two_pow_sub_one]
      rw [Bool.eq_iff_iff, s i, decide_eq_true_eq]
      constructor
      · rintro ⟨j, h1, h2, h3⟩
        have := Nat.ge_two_pow_of_testBit h3
        have : j < A.log2 + 1 := by
          apply Classical.byContradiction
          intro hc
          have h4 := Nat.pow_le_pow_right (show 0 < 2 by decide) (show A.log2 + 1 ≤ j by omega)
          omega
        omega
      · intro hi
        refine ⟨A.log2, by omega, by omega, Nat.testBit_log2 hA⟩
    have hp : (2:Nat) ^ (A.log2 + 1) ≤ 2 ^ 63 := Nat.pow_le_pow_right (by decide) (by omega)
    refine ⟨A.log2 + 1, ?_, by omega, fun j hj => ?_⟩
    · rw [eG]; unfold addW
      have hp1 : 0 < (2:Nat) ^ (A.log2 + 1) := Nat.pow_pos (by decide)
      rw [Nat.mod_eq_of_lt (by omega)]; omega
    · apply Nat.pow_le_pow_right (by decide)
      apply Classical.byContradiction
      intro hc
      have := Nat.pow_le_pow_right (show 0 < 2 by decide) (show j ≤ A.log2 by omega)
      omega

example : pow2 5 = 8 ∧ pow2 8 = 8 ∧ pow2 1 = 1 ∧ pow2 (2 ^ 63) = 2 ^ 63 := by decide +kernel

/-! ### C35, C36 -/

/-- What a program can do with a `packed_ptr`. The integer has a type of `k` bits. -/
inductive PackedOp where
  | setPtr (p : BitVec 64)
  | setInt {k : Nat} (v : BitVec k)

namespace Packed

def step (Bits Alignment : Nat) (m : BitVec 64) : PackedOp → BitVec 64
  | .setPtr p => setPtr Bits Alignment m p
  | .setInt v => setInt Bits Alignment m v

/-- a `packed_ptr` constructed from `p`, `v` and then used -/
def run (Bits Alignment : Nat) {k : Nat} (p : BitVec 64) (v : BitVec k) (ops : List PackedOp) : BitVec 64 :=
  ops.foldl (step Bits Alignment) (make Bits Alignment p v)

/-- Specification: the pointer stored last. -/
def lastPtr (p : BitVec 64) : List PackedOp → BitVec 64
  | [] => p
  | .setPtr q :: os => lastPtr q os
  | .setInt _ :: os => lastPtr p os

/-- Specification: the integer stored last. -/
def lastInt (v : Nat) : List PackedOp → Nat
  | [] => v
  | .setPtr _ :: os => lastInt v os
  | .setInt u :: os => lastInt u.toNat os

theorem mask_toNat (k : Nat) (hk : k < 64) : ((1#64 <<< k) - 1#64).toNat = 2 ^ k - 1 := by
  have h1 : (2:Nat) ^ k < 2 ^ 64 := Nat.pow_lt_pow_right (by decide) hk
  have h0 : 0 < (2:Nat) ^ k := Nat.pow_pos (by decide)
  rw [BitVec.toNat_sub, BitVec.toNat_shiftLeft]
  simp only [BitVec.toNat_ofNat, Nat.shiftLeft_eq]
  rw [Nat.mod_eq_of_lt (show (1:Nat) < 2 ^ 64 by decide), Nat.one_mul, Nat.mod_eq_of_lt h1]
  omega

theorem mask_bit (k : Nat) (hk : k < 64) (i : Nat) : ((1#64 <<< k) - 1#64).getLsbD i = decide (i < k) := by
  rw [← BitVec.testBit_toNat, mask_toNat k hk, Nat.testBit_two_pow_sub_one]

theorem ptrMask_bit (Alignment : Nat) (ha : freeBits Alignment < 64) (i : Nat) (hi : i < 64) :
    (ptrMask Alignment).getLsbD i = !decide (i < freeBits Alignment) := by
  rw [ptrMask, BitVec.getLsbD_not, mask_bit _ ha]; simp [hi]

theorem freeBits_lt (Alignment : Nat) (h1 : 0 < Alignment) (h2 : Alignment < 2 ^ 64) : freeBits Alignment < 64 := by
  have := (C33_log2_floor Alignment (by omega) h2).1
  apply Classical.byContradiction
  intro hc
  have := Nat.pow_le_pow_right (show 0 < 2 by decide) (show 64 ≤ log2 Alignment by unfold freeBits at hc; omega)
  omega

/-- the bits of a value holding `p` and `v` -/
def Rep (Bits a : Nat) (m p : BitVec 64) (v : Nat) : Prop :=
  ∀ i, i < 64 → m.getLsbD i = if i < Bits then v.testBit i else if i < a then false else p.getLsbD i

theorem rep_mk {Bits Alignment k : Nat} (hb : Bits ≤ freeBits Alignment) (ha : freeBits Alignment < 64) (p : BitVec 64) (v : BitVec k) :
    Rep Bits (freeBits Alignment) (make Bits Alignment p v) p v.toNat := by
  intro i hi
  rw [make, BitVec.getLsbD_or, BitVec.getLsbD_and, BitVec.getLsbD_and, ptrMask_bit _ ha i hi, intMask, mask_bit _ (by omega),
    BitVec.getLsbD_setWidth, BitVec.testBit_toNat]
  by_cases h1 : i < Bits
  · have : i < freeBits Alignment := by omega
    simp [h1, this, hi]
  · by_cases h2 : i < freeBits Alignment <;> simp [h1, h2]

theorem rep_setPtr {Bits Alignment : Nat} (hb : Bits ≤ freeBits Alignment) (ha : freeBits Alignment < 64) {m q : BitVec 64} {v : Nat}
    (h : Rep Bits (freeBits Alignment) m q v) (p : BitVec 64) : Rep Bits (freeBits Alignment) (setPtr Bits Alignment m p) p v := by
  intro i hi
  rw [setPtr, BitVec.getLsbD_or, BitVec.getLsbD_and, BitVec.getLsbD_and, ptrMask_bit _ ha i hi, intMask, mask_bit _ (by omega), h i hi]
  by_cases h1 : i < Bits
  · have : i < freeBits Alignment := by omega
    simp [h1, this]
  · by_cases h2 : i < freeBits Alignment <;> simp [h1, h2]

theorem rep_setInt {Bits Alignment k : Nat} (hb : Bits ≤ freeBits Alignment) (ha : freeBits Alignment < 64) {m p : BitVec 64} {u : Nat}
    (h : Rep Bits (freeBits Alignment) m p u) (v : BitVec k) :
    Rep Bits (freeBits Alignment) (setInt Bits Alignment m v) p v.toNat := by
  intro i hi
  rw [setInt, BitVec.getLsbD_or, BitVec.getLsbD_and, BitVec.getLsbD_and, ptrMask_bit _ ha i hi, intMask, mask_bit _ (by omega), h i hi,
    BitVec.getLsbD_setWidth, BitVec.testBit_toNat]
  by_cases h1 : i < Bits
  · have : i < freeBits Alignment := by omega
    simp [h1, this, hi]
  · by_cases h2 : i < freeBits Alignment <;> simp [h1, h2]

theorem rep_run {Bits Alignment : Nat} (hb : Bits ≤ freeBits Alignment) (ha : freeBits Alignment < 64) (ops : List PackedOp) {m p : BitVec 64} {v : Nat}
    (h : Rep Bits (freeBits Alignment) m p v) :
    Rep Bits (freeBits Alignment) (ops.foldl (step Bits Alignment) m) (lastPtr p ops) (lastInt v ops) := by
  induction ops generalizing m p v with
  | nil => exact h
  | cons o os ih =>
    cases o with
    | setPtr q => exact ih (rep_setPtr hb ha h q)
    | setInt u => exact ih (rep_setInt hb ha h u)

theorem rep_getPtr {Bits Alignment : Nat} (hb : Bits ≤ freeBits Alignment) (ha : freeBits Alignment < 64) {m p : BitVec 64} {v : Nat}
    (h : Rep Bits (freeBits Alignment) m p v) :
    (getPtr Alignment m).toNat = p.toNat / 2 ^ freeBits Alignment * 2 ^ freeBits Alignment := by
  apply Nat.eq_of_testBit_eq
  intro i
  rw [BitVec.testBit_toNat, Nat.testBit_mul_two_pow, Nat.testBit_div_two_pow]
  by_cases hi : i < 64
  · rw [getPtr, BitVec.getLsbD_and, ptrMask_bit _ ha i hi, h i hi]
    by_cases h2 : i < freeBits Alignment
    · have : ¬ freeBits Alignment ≤ i := by omega
      simp [h2, this]
    · have h3 : freeBits Alignment ≤ i := by omega
      have h4 : ¬ i < Bits := by omega
      simp only [h2, h3, h4, if_false, decide_false, Bool.not_false, Bool.and_true, decide_true, Bool.true_and]
      rw [← BitVec.testBit_toNat]; congr 1; omega
  · rw [BitVec.getLsbD_of_ge _ _ (by omega)]
    by_cases h3 : freeBits Alignment ≤ i
    · simp only [h3, decide_true, Bool.true_and]
      rw [BitVec.testBit_toNat, BitVec.getLsbD_of_ge _ _ (by omega)]
    · simp [h3]

theorem rep_getInt {Bits a : Nat} (hb : Bits < 64) {m p : BitVec 64} {v : Nat} (h : Rep Bits a m p v) (k : Nat) :
    (getInt Bits k m).toNat = v % 2 ^ Bits % 2 ^ k := by
  rw [getInt, BitVec.toNat_setWidth]
  congr 1
  apply Nat.eq_of_testBit_eq
  intro i
  rw [BitVec.testBit_toNat, Nat.testBit_mod_two_pow, BitVec.getLsbD_and, intMask, mask_bit _ hb]
  by_cases h1 : i < Bits
  · rw [h i (by omega)]; simp [h1]
  · simp [h1]

end Packed

open Packed

/-- **C35.** For a power-of-two alignment and `Bits <= log2(Alignment)`: after any history of `set_ptr` and
`set_int` with aligned pointers and integers below `2^Bits`, the getters return the pointer and the
integer stored last. (`k`: width of the type the integer is read as.) -/
theorem C35_packed_ptr_returns_last (a Bits : Nat) (ha : a < 64) (hb : Bits ≤ a) {k0 : Nat}
    (p : BitVec 64) (v : BitVec k0) (ops : List PackedOp)
    (hp : p.toNat % 2 ^ a = 0) (hv : v.toNat < 2 ^ Bits)
    (hops : ∀ o ∈ ops, match o with
      | .setPtr q => q.toNat % 2 ^ a = 0
      | .setInt u => u.toNat < 2 ^ Bits)
    (k : Nat) (hk : Bits ≤ k) :
    getPtr (2 ^ a) (run Bits (2 ^ a) p v ops) = lastPtr p ops ∧
    (getInt Bits k (run Bits (2 ^ a) p v ops)).toNat = lastInt v.toNat ops := by
  have hpow : (2:Nat) ^ a < 2 ^ 64 := Nat.pow_lt_pow_right (by decide) ha
  have hfb : freeBits (2 ^ a) = a := by
    have h := C33_log2_floor (2 ^ a) (by have := Nat.pow_pos (n := a) (show 0 < 2 by decide); omega) hpow
    have h1 := (Nat.pow_le_pow_iff_right (show 1 < 2 by decide)).1 h.1
    have h2 := (Nat.pow_lt_pow_iff_right (show 1 < 2 by decide)).1 h.2
    unfold freeBits; omega
  have hr := rep_run (by rw [hfb]; exact hb) (by rw [hfb]; exact ha) ops
    (rep_mk (Bits := Bits) (Alignment := 2 ^ a) (by rw [hfb]; exact hb) (by rw [hfb]; exact ha) p v)
  have lp : ∀ (ops : List PackedOp) (p : BitVec 64), p.toNat % 2 ^ a = 0 → (∀ o ∈ ops, match o with
      | .setPtr q => q.toNat % 2 ^ a = 0
      | .setInt u => u.toNat < 2 ^ Bits) → (lastPtr p ops).toNat % 2 ^ a = 0 := by
    intro ops
    induction ops with
    | nil => intro p hp _; exact hp
    | cons o os ih =>
      intro p hp ho
      have := ho o (by simp)
      cases o with
      | setPtr q => exact ih q this (fun o h => ho o (List.mem_cons_of_mem _ h))
      | setInt u => exact ih p hp (fun o h => ho o (List.mem_cons_of_mem _ h))
  have li : ∀ (ops : List PackedOp) (v : Nat), v < 2 ^ Bits → (∀ o ∈ ops, match o with
      | .setPtr q => q.toNat % 2 ^ a = 0
      | .setInt u => u.toNat < 2 ^ Bits) → lastInt v ops < 2 ^ Bits := by
    intro ops
    induction ops with
    | nil => intro p hp _; exact hp
    | cons o os ih =>
      intro v hv ho
      have := ho o (by simp)
      cases o with
      | setPtr q => exact ih v hv (fun o h => ho o (List.mem_cons_of_mem _ h))
      | setInt u => exact ih _ this (fun o h => ho o (List.mem_cons_of_mem _ h))
  constructor
  · apply BitVec.eq_of_toNat_eq
    rw [run, rep_getPtr (by rw [hfb]; exact hb) (by rw [hfb]; exact ha) hr, hfb]
    exact Nat.div_mul_cancel (Nat.dvd_of_mod_eq_zero (lp ops p hp hops))
  · rw [run, rep_getInt (by omega) hr]
    have h1 := li ops v.toNat hv hops
    rw [Nat.mod_eq_of_lt h1, Nat.mod_eq_of_lt (Nat.lt_of_lt_of_le h1 (Nat.pow_le_pow_right (by decide) hk))]

/-- **C36.** Whatever is stored (any pointers, any integers, any alignment between 1 and 2^64 - 1,
`Bits <= FREE_BITS`): the pointer read back is the last one with its low `FREE_BITS` bits dropped, the
integer read back is the last one modulo `2^Bits`, and `operator bool` is false iff both are zero. -/
theorem C36_packed_ptr_truncates (Alignment Bits : Nat) (h1 : 0 < Alignment) (h2 : Alignment < 2 ^ 64)
    (hb : Bits ≤ freeBits Alignment) {k0 : Nat} (p : BitVec 64) (v : BitVec k0) (ops : List PackedOp) :
    let m := run Bits Alignment p v ops
    (getPtr Alignment m).toNat = (lastPtr p ops).toNat - (lastPtr p ops).toNat % 2 ^ freeBits Alignment ∧
    (∀ k, (getInt Bits k m).toNat = lastInt v.toNat ops % 2 ^ Bits % 2 ^ k) ∧
    (Packed.toBool m = false ↔ getPtr Alignment m = 0#64 ∧ getInt Bits 64 m = 0#64) := by
  intro m
  have ha := freeBits_lt Alignment h1 h2
  have hr := rep_run hb ha ops (rep_mk (Bits := Bits) (Alignment := Alignment) hb ha p v)
  refine ⟨?_, fun k => rep_getInt (by omega) hr k, ?_⟩
  · rw [show getPtr Alignment m = getPtr Alignment (run Bits Alignment p v ops) from rfl, run, rep_getPtr hb ha hr]
    have := Nat.div_add_mod (lastPtr p ops).toNat (2 ^ freeBits Alignment)
    rw [Nat.mul_comm] at this
    omega
  · simp only [Packed.toBool, bne_eq_false_iff_eq]
    constructor
    · intro h; rw [h]; simp [getPtr, getInt]
    · rintro ⟨e1, e2⟩
      apply BitVec.eq_of_getLsbD_eq
      intro i hi
      have g1 := congrArg (fun x => BitVec.getLsbD x i) e1
      have g2 := congrArg (fun x => BitVec.getLsbD x i) e2
      simp only [getPtr, getInt, BitVec.getLsbD_and, ptrMask_bit _ ha i hi, intMask, mask_bit Bits (by omega), BitVec.getLsbD_setWidth, hi,
        BitVec.getLsbD_zero, decide_true, Bool.true_and] at g1 g2
      have hm := hr i hi
      rw [show List.foldl (step Bits Alignment) (make Bits Alignment p v) ops = m from rfl] at hm
      rw [BitVec.getLsbD_zero]
      by_cases h3 : i < Bits
      · simpa [h3] using g2
      · by_cases h4 : i < freeBits Alignment
        · rw [hm]; simp [h3, h4]
        · simpa [h4] using g1

/-- the hypotheses of C35 for a concrete history -/
example : ∀ o ∈ [PackedOp.setInt 5#8, .setPtr 0x2000#64, .setInt 7#16], match o with
      | .setPtr q => q.toNat % 2 ^ 4 = 0
      | .setInt u => u.toNat < 2 ^ 3 := by
  intro o ho
  simp only [List.mem_cons, List.not_mem_nil, or_false] at ho
  rcases ho with rfl | rfl | rfl <;> decide
example : getPtr 16 (run 3 16 0x1000#64 1#8 [.setInt 5#8, .setPtr 0x2000#64]) = 0x2000#64 ∧
    getInt 3 8 (run 3 16 0x1000#64 1#8 [.setInt 5#8, .setPtr 0x2000#64]) = 5#8 := by decide +kernel

end KTL
