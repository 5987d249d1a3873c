import Verif.Alloc.Malloc
import Verif.Alloc.Posix
import Verif.Spec.Demo

/- C40, C41: `aligned_malloc` and `aligned_free`. -/
namespace KTL

/-! ### Helpers: loads and stores of several bytes -/

/-- memory after storing `bs` at `p` -/
def Heap.put (h : Heap) (p : Nat) (bs : List UInt8) : Heap :=
  ⟨fun x => if p ≤ x ∧ x < p + bs.length then bs[x - p]? else h.b x, h.t⟩

theorem writeBytes_ok (p : Nat) (bs : List UInt8) (w : World) (h : ∀ i < bs.length, (w.heap.b (p + i)).isSome = true) :
    M.writeBytes p bs w = .ok () { w with heap := w.heap.put p bs } := by
  induction bs generalizing p w with
  | nil =>
    have : w.heap.put p [] = w.heap := by
      have e : (fun x => if p ≤ x ∧ x < p + ([] : List UInt8).length then ([] : List UInt8)[x - p]? else w.heap.b x) = w.heap.b := by
        funext x; rw [if_neg]; simp
      unfold Heap.put; rw [e]
    rw [this]; rfl
  | cons v vs ih =>
    have h0 := h 0 (by simp)
    obtain ⟨v0, hv0⟩ := Option.isSome_iff_exists.1 h0
    simp only [Nat.add_zero] at hv0
    simp only [M.writeBytes, M.bind_apply, M.store, hv0]
    rw [ih]
    · have : Heap.put ⟨fun x => if x = p then some v else w.heap.b x, w.heap.t⟩ (p + 1) vs = w.heap.put p (v :: vs) := by
        unfold Heap.put
        congr 1
        funext x
        simp only
        by_cases hx : x = p
        · subst hx
          rw [if_neg (by omega), if_pos (by simp)]
          simp
        · by_cases hx2 : p + 1 ≤ x ∧ x < p + 1 + vs.length
          · rw [if_pos hx2, if_pos (by simp; omega)]
            have : x - p = (x - (p + 1)) + 1 := by omega
            simp only [this, List.getElem?_cons_succ]
          · rw [if_neg hx2, if_neg hx, if_neg (by rw [List.length_cons]; omega)]
      rw [this]
    · intro i hi
      have := h (i + 1) (by simp; omega)
      have e : p + (i + 1) = p + 1 + i := by omega
      rw [e] at this
      simp only
      split
      · rfl
      · exact this

theorem readBytes_ok (p : Nat) (bs : List UInt8) (w : World) (h : ∀ i (hi : i < bs.length), w.heap.b (p + i) = some bs[i]) :
    M.readBytes p bs.length w = .ok bs w := by
  induction bs generalizing p with
  | nil => rfl
  | cons v vs ih =>
    have h0 := h 0 (by simp)
    simp only [Nat.add_zero, List.getElem_cons_zero] at h0
    simp only [List.length_cons, M.readBytes, M.bind_apply, M.load, h0]
    rw [ih (p + 1)]
    · rfl
    · intro i hi
      have := h (i + 1) (by simp; omega)
      rw [show p + (i + 1) = p + 1 + i by omega] at this
      simpa using this

/-! ### The portable branch -/

/-- **C40, allocation.** On a platform without an aligned `malloc`, let `n` be any size such that `n + 16` does
not wrap. Whatever `malloc` does: if it refuses `n + 16` bytes the result is null and memory is unchanged.
Otherwise, with `q` the address `malloc` returned, the result `p` is a multiple of 16; the header at
`p - 8 … p - 1` lies inside the `malloc` block and holds `q`; the bytes `p … p + n - 1` lie inside the `malloc`
block and are accessible; and no byte outside the `malloc` block has changed. -/
theorem C40_portable_aligned_malloc (sys : Sys) (hpl : sys.plat = .manual) (n : Nat) (hn : n + 16 < 2 ^ 64) (w : World) :
    match sys.malloc w.tick w.heap (n + 16) with
    | none => ∃ w', alignedMalloc sys n w = .ok 0 w' ∧ w'.heap = w.heap
    | some (q, _) => ∃ p w', alignedMalloc sys n w = .ok p w' ∧
        p ≠ 0 ∧ p % 16 = 0 ∧ q + 8 ≤ p ∧ p + n ≤ q + (n + 16) ∧
        M.readPtr (p - 8) w' = .ok q w' ∧
        (∀ x, p ≤ x → x < p + n → (w'.heap.b x).isSome = true) ∧
        (∀ x, ¬ (q ≤ x ∧ x < q + (n + 16)) → w'.heap.b x = w.heap.b x) := by
  have e0 : addW n 16 = n + 16 := by unfold addW; omega
  cases hm : sys.malloc w.tick w.heap (n + 16) with
  | none =>
    refine ⟨{ w with tick := w.tick + 1, failed := true }, ?_, ?_⟩
    · simp [alignedMalloc, hpl, e0, M.bind_apply, cMalloc, hm, M.pure_apply]
    · rfl
  | some qc =>
    obtain ⟨q, c⟩ := qc
    obtain ⟨h1, h2, h3, h4, h5⟩ := sys.valid _ _ _ _ _ hm
    rw [hpl] at h2
    have h2 : q % 8 = 0 := h2
    have e1 : addW (q / 16 * 16) 16 = q / 16 * 16 + 16 := by unfold addW; omega
    have e2 : subW (q / 16 * 16 + 16) 8 = q / 16 * 16 + 8 := by unfold subW; omega
    have hlen : (M.encPtr q).length = 8 := rfl
    have hq : q ≠ 0 := by omega
    -- memory after malloc
    let h' : Heap := ⟨fun x => if q ≤ x ∧ x < q + (n + 16) then some (c (x - q)) else w.heap.b x,
               fun x => if x = q then some (n + 16) else w.heap.t x⟩
    let w1 : World := { w with tick := w.tick + 1, heap := h' }
    have hcm : cMalloc sys (n + 16) w = .ok q w1 := by simp only [cMalloc, hm]; rfl
    have hall : ∀ i < (M.encPtr q).length, (w1.heap.b (q / 16 * 16 + 8 + i)).isSome = true := by
      intro i hi
      rw [hlen] at hi
      show (if q ≤ q / 16 * 16 + 8 + i ∧ q / 16 * 16 + 8 + i < q + (n + 16) then some (c (q / 16 * 16 + 8 + i - q)) else w.heap.b _).isSome = true
      rw [if_pos (by omega)]; rfl
    have hw := writeBytes_ok (q / 16 * 16 + 8) (M.encPtr q) w1 hall
    refine ⟨q / 16 * 16 + 16, { w1 with heap := w1.heap.put (q / 16 * 16 + 8) (M.encPtr q) }, ?_, by omega, by omega, by omega, by omega, ?_, ?_, ?_⟩
    · simp only [alignedMalloc, hpl, e0, M.bind_apply, hcm, ne_eq, hq, not_false_eq_true, if_true, e1, e2, M.writePtr, hw, M.pure_apply]
    · have e3 : q / 16 * 16 + 16 - 8 = q / 16 * 16 + 8 := by omega
      rw [e3]
      simp only [M.readPtr, M.bind_apply]
      have hr := readBytes_ok (q / 16 * 16 + 8) (M.encPtr q) { w1 with heap := w1.heap.put (q / 16 * 16 + 8) (M.encPtr q) } (by
          intro i hi
          simp only [Heap.put]
          rw [if_pos ⟨by omega, by omega⟩, show q / 16 * 16 + 8 + i - (q / 16 * 16 + 8) = i by omega]
          exact List.getElem?_eq_getElem hi)
      rw [hlen] at hr
      rw [hr]
      simp only [M.pure_apply]
      rw [decPtr_encPtr q (by omega)]
    · intro x hx1 hx2
      simp only [Heap.put]
      split
      · rename_i hx
        rw [List.getElem?_eq_getElem (by omega)]; rfl
      · show (if q ≤ x ∧ x < q + (n + 16) then some (c (x - q)) else w.heap.b x).isSome = true
        rw [if_pos (by omega)]; rfl
    · intro x hx
      simp only [Heap.put]
      rw [if_neg (by rw [hlen]; omega)]
      show (if q ≤ x ∧ x < q + (n + 16) then some (c (x - q)) else w.heap.b x) = _
      rw [if_neg hx]

/-- **C40, release.** `aligned_free(p)` of such a block passes to `free` exactly the pointer `malloc` returned,
provided the header is still what `aligned_malloc` wrote; the user's `n` bytes may have changed, and so may
anything else. -/
theorem C40_portable_aligned_free (sys : Sys) (hpl : sys.plat = .manual) (n : Nat) (hn : n + 16 < 2 ^ 64) (w w1 w2 : World)
    (q : Nat) (c : Nat → UInt8) (hm : sys.malloc w.tick w.heap (n + 16) = some (q, c)) (p : Nat)
    (ha : alignedMalloc sys n w = .ok p w1) (hsame : ∀ x, p ≤ x + 8 → x < p → w2.heap.b x = w1.heap.b x) :
    alignedFree sys p w2 = cFree q w2 := by
  have h := C40_portable_aligned_malloc sys hpl n hn w
  rw [hm] at h
  obtain ⟨p', w', e, hp0, hp16, hqp, hpn, hrd, _, _⟩ := h
  rw [ha] at e
  cases e
  have e1 : subW p 8 = p - 8 := by
    have h3 := (sys.valid _ _ _ _ _ hm).2.2.1
    unfold subW; omega
  -- the eight bytes of the header
  have key : ∀ k, k ≤ 8 → ∀ a, p - 8 ≤ a → a + k ≤ p → ∀ bs, M.readBytes a k w1 = .ok bs w1 → M.readBytes a k w2 = .ok bs w2 := by
    intro k
    induction k with
    | zero => intro _ a _ _ bs h; simp only [M.readBytes, M.pure_apply] at h ⊢; cases h; rfl
    | succ k ih =>
      intro hk a h1 h2 bs h
      have hs : w2.heap.b a = w1.heap.b a := hsame a (by omega) (by omega)
      simp only [M.readBytes, M.bind_apply, M.load, hs] at h ⊢
      cases hb : w1.heap.b a with
      | none => rw [hb] at h; cases h
      | some v =>
        rw [hb] at h
        simp only at h ⊢
        cases hr : M.readBytes (a + 1) k w1 with
        | ub => rw [hr] at h; cases h
        | oom => rw [hr] at h; cases h
        | ok cs w3 =>
          rw [hr] at h
          simp only [M.pure_apply, Res.ok.injEq] at h
          obtain ⟨h, rfl⟩ := h
          rw [ih (by omega) (a + 1) (by omega) (by omega) cs hr]
          simp only [M.pure_apply, h]
  have hrd2 : M.readPtr (p - 8) w2 = .ok q w2 := by
    simp only [M.readPtr, M.bind_apply] at hrd ⊢
    cases hr : M.readBytes (p - 8) 8 w1 with
    | ub => rw [hr] at hrd; cases hrd
    | oom => rw [hr] at hrd; cases hrd
    | ok bs w3 =>
      rw [hr] at hrd
      simp only [M.pure_apply, Res.ok.injEq] at hrd
      obtain ⟨hd, rfl⟩ := hrd
      rw [key 8 (by omega) (p - 8) (by omega) (by omega) bs hr]
      simp only [M.pure_apply, hd]
  simp only [alignedFree, hpl, ne_eq, hp0, not_false_eq_true, if_true, e1, M.bind_apply, hrd2]

/-- Null is passed through: `aligned_free(nullptr)` does nothing. -/
theorem C40_portable_free_null (sys : Sys) (hpl : sys.plat = .manual) (w : World) : alignedFree sys 0 w = .ok () w := by
  simp [alignedFree, hpl, M.pure_apply]

/-! ### The `posix_memalign` branch -/

/-- **C41 is false.** The arguments of `posix_memalign` are swapped: whatever the platform's implementation
does, `aligned_malloc(n, 16)` either fails or returns a `malloc` block of exactly 16 bytes, for every `n`; and it
fails for every `n` that is not a power of two of at least 8, even if there is plenty of memory. -/
theorem C41_false (px : Posix) (n : Nat) (w w' : World) (p : Nat) (h : alignedMallocPosix px n 16 w = .ok p w') :
    (p ≠ 0 → w'.heap.t p = some 16) ∧ (¬ posixAlignOk n → p = 0) := by
  simp only [alignedMallocPosix, Posix.call] at h
  cases hm : px.memalign w.tick w.heap n 16 with
  | none =>
    rw [hm] at h
    simp only [Res.ok.injEq] at h
    exact ⟨fun hp => absurd h.1.symm hp, fun _ => h.1.symm⟩
  | some a =>
    rw [hm] at h
    simp only [Res.ok.injEq] at h
    obtain ⟨rfl, rfl⟩ := h
    refine ⟨fun _ => by simp, fun hno => ?_⟩
    rw [px.inval _ _ _ _ hno] at hm
    cases hm

open Classical in
/-- a `posix_memalign` that has room at address 4096 (if nothing is there) for the alignments 8 to 128 -/
noncomputable def demoPosix : Posix where
  memalign k h al n :=
    if al ∈ [8, 16, 32, 64, 128] ∧ h.t 4096 = none ∧ n = 16 ∧ (∀ i, i < 16 → h.b (4096 + i) = none) then some (4096, fun _ => 0) else none
  inval := by
    intro k h al n hno
    rw [if_neg]
    rintro ⟨hm, -⟩
    apply hno
    simp only [List.mem_cons, List.not_mem_nil, or_false] at hm
    rcases hm with rfl | rfl | rfl | rfl | rfl
    · exact ⟨rfl, 3, rfl⟩
    · exact ⟨rfl, 4, rfl⟩
    · exact ⟨rfl, 5, rfl⟩
    · exact ⟨rfl, 6, rfl⟩
    · exact ⟨rfl, 7, rfl⟩
  valid := by
    intro k h al n a c he
    split at he
    · rename_i hc
      simp only [Option.some.injEq, Prod.mk.injEq] at he
      obtain ⟨rfl, rfl⟩ := he
      obtain ⟨hm, ht, rfl, hb⟩ := hc
      refine ⟨by omega, ?_, by omega, ht, fun x h1 h2 => ?_⟩
      · simp only [List.mem_cons, List.not_mem_nil, or_false] at hm
        rcases hm with rfl | rfl | rfl | rfl | rfl <;> rfl
      · have := hb (x - 4096) (by omega)
        rwa [show 4096 + (x - 4096) = x by omega] at this
    · cases he

/-- A consequence: a client that asks for 64 bytes gets a non-null pointer, and writing the 17th of them is
undefined behaviour. -/
theorem C41_overrun : (do
      let p ← alignedMallocPosix demoPosix 64 16
      M.store (p + 16) 1) { heap := Heap.empty } = .ub := by
  simp [M.bind_apply, alignedMallocPosix, Posix.call, demoPosix, Heap.empty, M.store]

/-- **C41, what does hold.** For a request of 16 bytes the two arguments coincide, and the result is either null
or a fresh, 16-aligned block of 16 accessible bytes.

Missing from the full statement: all other sizes, see `C41_false`. -/
theorem C41_sixteen_bytes_partial (px : Posix) (w : World) :
    ∃ p w', alignedMallocPosix px 16 16 w = .ok p w' ∧ (p = 0 ∨
      (p % 16 = 0 ∧ w.heap.t p = none ∧ ∀ x, p ≤ x → x < p + 16 → w.heap.b x = none ∧ (w'.heap.b x).isSome = true)) := by
  simp only [alignedMallocPosix, Posix.call]
  cases hm : px.memalign w.tick w.heap 16 16 with
  | none => exact ⟨_, _, rfl, .inl rfl⟩
  | some a =>
    obtain ⟨h1, h2, h3, h4, h5⟩ := px.valid _ _ _ _ _ _ hm
    refine ⟨_, _, rfl, .inr ⟨h2, h4, fun x hx1 hx2 => ⟨h5 x hx1 hx2, ?_⟩⟩⟩
    simp only
    rw [if_pos ⟨hx1, hx2⟩]; rfl

/-! ### Non-vacuity -/

example : (demoSys .manual).plat = .manual := rfl
/-- 40 bytes are obtained and freed on the portable platform -/
example : ((do
      let p ← alignedMalloc (demoSys .manual) 40
      alignedFree (demoSys .manual) p
      pure p) (demoWorld 0)).test (fun p w => p ≠ 0 ∧ p % 16 = 0) = true := by decide +kernel
example : ∃ p w', alignedMallocPosix demoPosix 16 16 { heap := Heap.empty } = .ok p w' ∧ p = 4096 := by
  simp [alignedMallocPosix, Posix.call, demoPosix, Heap.empty]

end KTL
