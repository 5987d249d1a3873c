import Verif.Alloc.Basic

/- `null_allocator`, `aligned_malloc` / `aligned_free`, `aligned_new` / `aligned_delete`,
`mallocator`. -/
namespace KTL

/-- `null_allocator` (`allocators/null_allocator.h:35-50`): always answers null; `deallocate` only
asserts (no-op in release builds); `owns(p)` is `p == nullptr`. An empty class, so no storage. -/
def nullAlloc : Allocator where
  St := Unit
  objSize := 0
  init _ := pure ()
  alloc _ _ := pure (0, ())
  dealloc _ _ _ := pure ()
  owns := some (fun _ p => decide (p = 0))
  maxSize := none
  construct := none
  destroy := none
  fini _ := pure ()

/-- `utility/aligned_malloc.h:48-71` `aligned_malloc(size, 16)`. `direct`: lines 50-51; `manual`:
lines 62-69 (`ptr / 16 * 16` is `ptr & ~15`). The `_mm_malloc` and MSVC branches are library calls
with the same contract as `direct`; the `posix_memalign` branch is modelled in `Verif/Alloc/Posix`. -/
def alignedMalloc (sys : Sys) (n : Nat) : M Nat :=
  match sys.plat with
  | .direct => cMalloc sys n
  | .manual => do
    let ptr ← cMalloc sys (addW n 16)
    if ptr ≠ 0 then do
      let res := addW (ptr / 16 * 16) 16
      M.writePtr (subW res 8) ptr
      pure res
    else pure 0

/-- `utility/aligned_malloc.h:73-87` `aligned_free`. -/
def alignedFree (sys : Sys) (p : Nat) : M Unit :=
  match sys.plat with
  | .direct => cFree p
  | .manual =>
    if p ≠ 0 then do
      let q ← M.readPtr (subW p 8)
      cFree q
    else pure ()

/-- `mallocator` (`allocators/mallocator.h:38-48`). An empty class. -/
def mallocator (sys : Sys) : Allocator where
  St := Unit
  objSize := 0
  init _ := pure ()
  alloc _ n := do
    let p ← alignedMalloc sys n
    pure (p, ())
  dealloc _ p _ := alignedFree sys p
  owns := none
  maxSize := none
  construct := none
  destroy := none
  fini _ := pure ()

/-- `utility/aligned_malloc.h:89-96` `aligned_new<T>` for an object of `size` bytes: the result of
`aligned_malloc` is not checked, so the constructor runs on a null pointer if it fails. -/
def alignedNew {α} (sys : Sys) (size : Nat) (ctor : Nat → M α) : M (Nat × α) := do
  let p ← alignedMalloc sys size
  if p = 0 then M.nullDeref
  else do
    let a ← ctor p
    pure (p, a)

/-- `utility/aligned_malloc.h:98-104` `aligned_delete`. -/
def alignedDelete (sys : Sys) (p : Nat) (dtor : M Unit) : M Unit := do
  dtor
  alignedFree sys p

/-- sizes for which `size + alignment` does not wrap in the portable branch. Specification, not code. -/
def MallocFits (plat : Plat) (n : Nat) : Prop := plat = .manual → n + 16 < W64

/-- The private part of a block returned by `alignedMalloc`. Proof helper, not code. -/
def mTok (plat : Plat) (p n : Nat) : HProp :=
  match plat with
  | .direct => tok p n
  | .manual => fun h => ∃ r, (0 < r ∧ r + 8 ≤ p ∧ p ≤ r + 16 ∧ r + n + 16 < W64) ∧
      (tok r (n + 16) ∗ bytes r (p - 8 - r) ∗ ptrV (p - 8) r ∗ bytes (p + n) (r + 16 - p)) h

/-- A null result means that `malloc` failed. -/
theorem alignedMalloc_null (sys : Sys) (n : Nat) (hf : MallocFits sys.plat n) (w w' : World)
    (h : alignedMalloc sys n w = .ok 0 w') : w'.failed = true := by
  have hcm : ∀ m w1, cMalloc sys m w = .ok 0 w1 → w1.failed = true := by
    intro m w1 h1
    unfold cMalloc at h1
    cases hm : sys.malloc w.tick w.heap m with
    | none => simp only [hm, Res.ok.injEq] at h1; rw [← h1.2]
    | some x =>
      have := (sys.valid _ _ _ _ _ hm).1
      simp only [hm, Res.ok.injEq] at h1
      omega
  unfold alignedMalloc at h
  cases hpl : sys.plat with
  | direct => rw [hpl] at h; exact hcm _ _ h
  | manual =>
    rw [hpl] at h
    simp only [M.bind_apply] at h
    have hf' := hf hpl
    cases hm : sys.malloc w.tick w.heap (addW n 16) with
    | none =>
      have e : cMalloc sys (addW n 16) w = .ok 0 { w with tick := w.tick + 1, failed := true } := by
        simp [cMalloc, hm]
      simp only [e, ne_eq, not_true_eq_false, if_false, M.pure_apply, Res.ok.injEq] at h
      rw [← h.2]
    | some x =>
      have hv := sys.valid _ _ _ _ _ hm
      have hx : x.1 ≠ 0 := by have := hv.1; omega
      simp only [cMalloc, hm, ne_eq, hx, not_false_eq_true, if_true, M.bind_apply] at h
      have e1 : addW (x.1 / 16 * 16) 16 ≠ 0 := by
        have := hv.2.2.1
        unfold addW at this ⊢; omega
      split at h
      · simp only [M.pure_apply, Res.ok.injEq] at h
        exact absurd h.1 e1
      · cases h
      · cases h

theorem alignedMalloc_spec (sys : Sys) (n : Nat) (hf : MallocFits sys.plat n) :
    Triple emp (alignedMalloc sys n) (fun r h => (r = 0 ∧ emp h) ∨
      (Good r n ∧ (mTok sys.plat r n ∗ bytes r n) h)) := by
  have hm := triple_cMalloc sys
  unfold alignedMalloc
  unfold MallocFits at hf
  cases hpl : sys.plat with
  | direct =>
    rw [hpl] at hm
    refine (hm n).post ?_
    rintro r h (h1 | ⟨h1, h2, h3, h4⟩)
    · exact .inl h1
    · exact .inr ⟨⟨by omega, h2, h3⟩, h4⟩
  | manual =>
    rw [hpl] at hm
    have hf' := hf hpl
    have e : addW n 16 = n + 16 := by unfold addW; omega
    simp only [e]
    refine Triple.bind (hm (n + 16)) (fun r => ?_)
    refine Triple.or ?_ ?_
    · refine Triple.and (fun hr => ?_)
      subst hr
      simp only [ne_eq, not_true, if_false]
      exact Triple.pure _ (fun s hs => .inl ⟨rfl, hs⟩)
    · refine Triple.and (fun h1 => Triple.and (fun h2 => Triple.and (fun h3 => ?_)))
      have hr : r ≠ 0 := by omega
      simp only [ne_eq, hr, not_false_eq_true, if_true]
      simp only [Plat.mallocAlign] at h2
      have e1 : addW (r / 16 * 16) 16 = r / 16 * 16 + 16 := by unfold addW; omega
      have e2 : subW (r / 16 * 16 + 16) 8 = r / 16 * 16 + 8 := by unfold subW; omega
      rw [e1, e2]
      generalize hp : r / 16 * 16 + 16 = p
      have hsz : n + 16 = (p - 8 - r) + (8 + (n + (r + 16 - p))) := by omega
      have hsplit : bytes r (n + 16) =
          (bytes r (p - 8 - r) ∗ bytes (p - 8) 8 ∗ bytes p n ∗ bytes (p + n) (r + 16 - p)) := by
        rw [hsz, bytes_split, bytes_split, bytes_split]
        have a1 : r + (p - 8 - r) = p - 8 := by omega
        have a2 : p - 8 + 8 = p := by omega
        rw [a1, a2]
      have e3 : r / 16 * 16 + 8 = p - 8 := by omega
      rw [hsplit, e3]
      refine Triple.bind
        (R := fun _ => ptrV (p - 8) r ∗ (tok r (n+16) ∗ bytes r (p - 8 - r) ∗ bytes p n ∗ bytes (p + n) (r + 16 - p)))
        ?_ (fun _ => ?_)
      · refine ((triple_writePtr (p - 8) r).frame
          (tok r (n+16) ∗ bytes r (p - 8 - r) ∗ bytes p n ∗ bytes (p + n) (r + 16 - p))).pre ?_
        intro s hs
        have : (tok r (n + 16) ∗ bytes r (p - 8 - r) ∗ bytes (p - 8) 8 ∗ bytes p n ∗ bytes (p + n) (r + 16 - p)) =
          (bytes (p - 8) 8 ∗ (tok r (n+16) ∗ bytes r (p - 8 - r) ∗ bytes p n ∗ bytes (p + n) (r + 16 - p))) := by
          ac_rfl
        rw [← this]; exact hs
      · refine Triple.pure _ (fun s hs => .inr ⟨⟨by omega, by omega, by omega⟩, ?_⟩)
        simp only [mTok]
        rw [star_exists]
        refine ⟨r, ?_⟩
        rw [star_and]
        refine ⟨⟨by omega, by omega, by omega, by omega⟩, ?_⟩
        have : ((tok r (n + 16) ∗ bytes r (p - 8 - r) ∗ ptrV (p - 8) r ∗ bytes (p + n) (r + 16 - p)) ∗ bytes p n) =
          (ptrV (p - 8) r ∗ (tok r (n+16) ∗ bytes r (p - 8 - r) ∗ bytes p n ∗ bytes (p + n) (r + 16 - p))) := by
          ac_rfl
        rw [this]; exact hs

theorem alignedFree_spec (sys : Sys) (p n : Nat) (hp : p ≠ 0) :
    Triple (mTok sys.plat p n ∗ bytes p n) (alignedFree sys p) (fun _ => emp) := by
  unfold alignedFree
  cases hpl : sys.plat with
  | direct => exact triple_cFree p n (by omega)
  | manual =>
    simp only [mTok, ne_eq, hp, not_false_eq_true, if_true]
    rw [star_exists]
    refine Triple.exists (fun r => ?_)
    rw [star_and]
    refine Triple.and (fun ⟨h1, h2, h3, h4⟩ => ?_)
    have e1 : subW p 8 = p - 8 := by unfold subW; omega
    rw [e1]
    refine Triple.bind
      (R := fun q s => q = r ∧ (ptrV (p - 8) r ∗ (tok r (n+16) ∗ bytes r (p - 8 - r) ∗ bytes (p + n) (r + 16 - p) ∗ bytes p n)) s)
      ?_ (fun q => ?_)
    · refine ((triple_readPtr (p - 8) r (by omega)).frame
          (tok r (n+16) ∗ bytes r (p - 8 - r) ∗ bytes (p + n) (r + 16 - p) ∗ bytes p n)).conseq ?_ ?_
      · intro s hs
        have : ((tok r (n + 16) ∗ bytes r (p - 8 - r) ∗ ptrV (p - 8) r ∗ bytes (p + n) (r + 16 - p)) ∗ bytes p n) =
          (ptrV (p - 8) r ∗ (tok r (n+16) ∗ bytes r (p - 8 - r) ∗ bytes (p + n) (r + 16 - p) ∗ bytes p n)) := by
          ac_rfl
        rw [← this]; exact hs
      · intro a s hs
        rw [star_and] at hs; exact hs
    · refine Triple.and (fun hq => ?_)
      subst hq
      refine (triple_cFree q (n + 16) h1).pre ?_
      intro s hs
      have hsz : n + 16 = (p - 8 - q) + (8 + (n + (q + 16 - p))) := by omega
      have hsplit : bytes q (n + 16) =
          (bytes q (p - 8 - q) ∗ bytes (p - 8) 8 ∗ bytes p n ∗ bytes (p + n) (q + 16 - p)) := by
        rw [hsz, bytes_split, bytes_split, bytes_split]
        have a1 : q + (p - 8 - q) = p - 8 := by omega
        have a2 : p - 8 + 8 = p := by omega
        rw [a1, a2]
      rw [hsplit]
      have : (tok q (n + 16) ∗ bytes q (p - 8 - q) ∗ bytes (p - 8) 8 ∗ bytes p n ∗ bytes (p + n) (q + 16 - p)) =
          (bytes (p - 8) 8 ∗ (tok q (n+16) ∗ bytes q (p - 8 - q) ∗ bytes (p + n) (q + 16 - p) ∗ bytes p n)) := by
        ac_rfl
      rw [this]
      exact star_mono_left (fun _ h => ptrV_bytes h) s hs

theorem alignedFree_null (sys : Sys) : Triple emp (alignedFree sys 0) (fun _ => emp) := by
  unfold alignedFree
  cases sys.plat with
  | direct => exact triple_cFree_null
  | manual => exact Triple.pure _ (fun _ h => h)

/-- private parts of all live blocks. Proof helper, not code. -/
def mToks (plat : Plat) : List (Nat × Nat) → HProp
  | [] => emp
  | b :: L => mTok plat b.1 b.2 ∗ mToks plat L

theorem mToks_perm {plat L L'} (h : L.Perm L') : mToks plat L = mToks plat L' := by
  induction h with
  | nil => rfl
  | cons x _ ih => simp only [mToks, ih]
  | swap x y l => simp only [mToks, star_left_comm]
  | trans _ _ ih1 ih2 => rw [ih1, ih2]

/-- `mallocator` satisfies the contract on both platforms. Proof helper, not code. -/
def mallocator_sound (sys : Sys) : Sound (mallocator sys) (MallocFits sys.plat) where
  Inv _ _ L := fun h => (∀ b ∈ L, Good b.1 b.2 ∧ MallocFits sys.plat b.2) ∧ mToks sys.plat L h
  objAlign := rfl
  perm := by
    rintro b s L L' h hp ⟨h1, h2⟩
    exact ⟨fun b hb => h1 b (hp.mem_iff.2 hb), by rw [← mToks_perm hp]; exact h2⟩
  init_spec := by
    intro b _ _ _
    refine Triple.pure _ (fun h hh => ⟨by simp, ?_⟩)
    have : bytes b 0 h := hh
    rw [bytes_zero] at this
    exact this
  alloc_spec := by
    intro b s L n hf hn
    refine Triple.and (fun hL => ?_)
    have := (alignedMalloc_spec sys n hf).frame (mToks sys.plat L)
    rw [emp_star] at this
    refine Triple.bind this (fun p => ?_)
    refine Triple.pure _ (fun h hh => ?_)
    obtain ⟨h1, h2, hd, rfl, h3 | h3, h4⟩ := hh
    · left
      obtain ⟨h3, rfl⟩ := h3
      exact ⟨h3, hL, by simpa using h4⟩
    · right
      refine ⟨h3.1, ?_⟩
      rw [star_and]
      refine ⟨?_, ?_⟩
      · intro c hc
        rcases List.mem_cons.1 hc with rfl | hc
        · exact ⟨h3.1, hf⟩
        · exact hL c hc
      · have : (mToks sys.plat ((p, n) :: L) ∗ bytes p n) = ((mTok sys.plat p n ∗ bytes p n) ∗ mToks sys.plat L) := by
          simp only [mToks]; ac_rfl
        show (mToks sys.plat ((p, n) :: L) ∗ bytes p n) _
        rw [this]
        exact ⟨h1, h2, hd, rfl, h3.2, h4⟩
  dealloc_local := by
    intro b s p bs R k _
    rw [star_and]
    refine apart_and (fun hL => ?_)
    have hp := hL (p, bs.length) (by simp)
    have := (alignedFree_spec sys p bs.length hp.1.1).frame (mToks sys.plat (R.map blk))
    rw [emp_star] at this
    refine this.conseq ?_ ?_
    · intro h hh
      have e : ((mTok sys.plat p bs.length ∗ bytes p bs.length) ∗ mToks sys.plat (R.map blk)) =
        (mToks sys.plat ((p, bs.length) :: R.map blk) ∗ bytes p bs.length) := by
        simp only [mToks]; ac_rfl
      rw [e]
      exact star_mono_right (fun _ => bytesV_length) h hh.2
    · intro _ h hh
      exact ⟨fun c hc => hL c (List.mem_cons_of_mem _ hc), hh⟩
  live_good := by
    rintro b s L h p n ⟨h1, _⟩ hm
    exact h1 _ hm
  live_max := by intro f hf; simp [mallocator] at hf
  owns_sound := by intro f hf; simp [mallocator] at hf
  owns_complete := by intro f hf; simp [mallocator] at hf
  construct_spec := by intro f hf; simp [mallocator] at hf
  destroy_spec := by intro f hf; simp [mallocator] at hf
  fini_spec := by
    intro b s
    refine Triple.pure _ (fun h hh => ?_)
    show bytes b 0 h
    rw [bytes_zero]
    exact hh.2

/-- `null_allocator` satisfies the contract. Proof helper, not code. -/
def null_sound : Sound nullAlloc (fun _ => True) where
  Inv _ _ L := fun h => L = [] ∧ emp h
  objAlign := rfl
  perm := by
    rintro b s L L' h hp ⟨rfl, h2⟩
    exact ⟨List.nil_perm.1 hp, h2⟩
  init_spec := by
    intro b _ _ _
    refine Triple.pure _ (fun h hh => ⟨rfl, ?_⟩)
    have : bytes b 0 h := hh
    rw [bytes_zero] at this
    exact this
  alloc_spec := by
    intro b s L n hf hn
    exact Triple.pure _ (fun h hh => .inl ⟨rfl, hh⟩)
  dealloc_local := by
    intro b s p bs R k _
    rw [star_and]
    exact apart_and (fun h => by simp at h)
  live_good := by
    rintro b s L h p n ⟨rfl, _⟩ hm; simp at hm
  live_max := by intro f hf; simp [nullAlloc] at hf
  owns_sound := by
    rintro f hf b s L h x _ hx ho
    cases hf
    simp at ho; exact absurd ho hx
  owns_complete := by
    rintro f hf b s L h x ⟨rfl, _⟩ hl
    exact absurd hl not_inLive_nil
  construct_spec := by intro f hf; simp [nullAlloc] at hf
  destroy_spec := by intro f hf; simp [nullAlloc] at hf
  fini_spec := by
    intro b s
    refine Triple.pure _ (fun h hh => ?_)
    show bytes b 0 h
    rw [bytes_zero]
    exact hh.2

end KTL
