import Verif.Alloc.Basic

/- `overflow<Alloc, Stream>` and `threaded<Alloc>` (sequential behaviour). -/
namespace KTL

namespace Overflow

/-- Fields of `overflow` (`allocators/overflow.h:276-279`). `m_Allocs` is an `int64_t`: additions and
subtractions of `size_t` values wrap modulo 2^64 (`Int.bmod`). `m_Constructs` is modelled unbounded
(simplification: fewer than 2^63 outstanding constructor calls). -/
structure St (α : Type) where
  a : α
  allocs : Int
  constructs : Int

/-- `OVERFLOW_TEST`, the byte written by `memset(.., OVERFLOW_PATTERN, ..)`
(`allocators/overflow.h:26-28`). -/
def pattern : UInt8 := 0xA5

/-- `int64_t` addition with wrap-around. C++ machine, not library code. -/
def wrap64 (x : Int) : Int := Int.bmod x 18446744073709551616

/-- `allocators/overflow.h:141-145`: bytes at distance `k`, `k+1`, .. (`r` of them) before `ptr`; the
last corrupted one visited (the farthest) wins. -/
def scanBefore (ptr k : Nat) : Nat → Nat → M Nat
  | 0, cur => pure cur
  | r + 1, cur => do
    let v ← M.load (ptr - k)
    scanBefore ptr (k + 1) r (if v ≠ pattern then k else cur)

/-- `allocators/overflow.h:147-151`: bytes at offset `k`, `k+1`, .. after the end `e` of the block. -/
def scanAfter (e k : Nat) : Nat → Nat → M Nat
  | 0, cur => pure cur
  | r + 1, cur => do
    let v ← M.load (e + k)
    scanAfter e (k + 1) r (if v ≠ pattern then k + 1 else cur)

end Overflow

open Overflow in
/-- `overflow<Alloc>`: constructor `allocators/overflow.h:35-40`, destructor `:59-78`, `allocate`
`:104-119`, `deallocate` `:126-167`, `construct`/`destroy` `:178-207`, `max_size`/`owns` `:216-236`. -/
def overflow (A : Allocator) : Allocator where
  St := Overflow.St A.St
  objSize := A.objSize + 32
  init b := do
    let a ← A.init b
    pure ⟨a, 0, 0⟩
  alloc s n := do
    let allocs := wrap64 (s.allocs + n)
    let r ← A.alloc s.a (addW n 128)
    if r.1 = 0 then pure (0, ⟨r.2, allocs, s.constructs⟩)
    else do
      M.writeBytes r.1 (List.replicate 64 pattern)
      M.writeBytes (r.1 + 64 + n) (List.replicate 64 pattern)
      pure (r.1 + 64, ⟨r.2, allocs, s.constructs⟩)
  dealloc s p n := do
    let allocs := wrap64 (s.allocs - n)
    if p ≠ 0 then do
      let before ← scanBefore p 1 64 0
      let after ← scanAfter (p + n) 0 64 0
      M.ifThen (before ≠ 0 ∨ after ≠ 0) (M.print (.corruption p n before after))
      let a ← A.dealloc s.a (p - 64) (addW n 128)
      pure ⟨a, allocs, s.constructs⟩
    else pure ⟨s.a, allocs, s.constructs⟩
  owns := A.owns.map fun f s p => f s.a p
  maxSize := A.maxSize.map fun f s => f s.a
  construct := some fun s p =>
    match A.construct with
    | some c => do
      let a ← c s.a p
      pure ⟨a, s.allocs, s.constructs + 1⟩
    | none => do
      M.event (.ctor p)
      pure ⟨s.a, s.allocs, s.constructs + 1⟩
  destroy := some fun s p =>
    match A.destroy with
    | some c => do
      let a ← c s.a p
      pure ⟨a, s.allocs, s.constructs - 1⟩
    | none => do
      M.event (.dtor p)
      pure ⟨s.a, s.allocs, s.constructs - 1⟩
  fini s := do
    M.ifThen (s.allocs ≠ 0) (M.print (.leak s.allocs))
    M.ifThen (s.constructs ≠ 0) (M.print (.logic s.constructs))
    A.fini s.a

/-- `threaded<Alloc>` used by one thread at a time (`allocators/threaded.h:61-116`; the mutex only
matters for interleavings, see `Verif/Conc`). The mutex occupies 40 bytes, 48 after rounding. -/
def threaded (A : Allocator) : Allocator where
  St := A.St
  objSize := A.objSize + 48
  init := A.init
  alloc := A.alloc
  dealloc := A.dealloc
  owns := A.owns
  maxSize := A.maxSize
  construct := A.construct
  destroy := A.destroy
  fini := A.fini

/-- `threaded` satisfies the contract if its part does. Proof helper, not code. -/
def threaded_sound {A : Allocator} {fA : Nat → Prop} (hA : Sound A fA) : Sound (threaded A) fA where
  Inv b s L := hA.Inv b s L ∗ bytes (b + A.objSize) 48
  objAlign := by have := hA.objAlign; simp only [threaded]; omega
  perm := fun hp h => star_mono_left (fun _ h => hA.perm hp h) _ h
  init_spec := by
    intro b h1 h2 h3
    simp only [threaded] at h3 ⊢
    rw [bytes_split]
    exact (hA.init_spec b h1 h2 (by omega)).frame _
  alloc_spec := by
    intro b s L n hf hn
    refine ((hA.alloc_spec b s L n hf hn).frame _).post ?_
    rintro r h ⟨h1, h2, hd, rfl, h3 | h3, h4⟩
    · exact .inl ⟨h3.1, h1, h2, hd, rfl, h3.2, h4⟩
    · refine .inr ⟨h3.1, ?_⟩
      rw [star_assoc, star_comm (bytes _ _), ← star_assoc]
      exact ⟨h1, h2, hd, rfl, h3.2, h4⟩
  dealloc_local := by
    intro b s p bs R k hk
    have e : ((hA.Inv b s ((p, bs.length) :: R.map blk) ∗ bytes (b + A.objSize) 48) ∗ bytesV p bs) =
      ((hA.Inv b s ((p, bs.length) :: R.map blk) ∗ bytesV p bs) ∗ bytes (b + A.objSize) 48) := by ac_rfl
    exact apart_eq e (apart_frame (hA.dealloc_local b s p bs R k hk))
  live_good := by
    rintro b s L h p n ⟨h1, h2, hd, rfl, h3, h4⟩ hm
    exact hA.live_good h3 hm
  live_max := by
    rintro f hf b s L h p n ⟨h1, h2, hd, rfl, h3, h4⟩ hm
    exact hA.live_max f hf h3 hm
  owns_sound := by
    rintro f hf b s L h x ⟨h1, h2, hd, rfl, h3, h4⟩ hx ho
    rcases hA.owns_sound f hf h3 hx ho with h | h
    · left; simp [h]
    · exact .inr h
  owns_complete := by
    rintro f hf b s L h x ⟨h1, h2, hd, rfl, h3, h4⟩ hx
    exact hA.owns_complete f hf h3 hx
  construct_spec := fun c hc b s L p => (hA.construct_spec c hc b s L p).frame _
  destroy_spec := fun c hc b s L p => (hA.destroy_spec c hc b s L p).frame _
  fini_spec := by
    intro b s
    simp only [threaded]
    rw [bytes_split]
    exact (hA.fini_spec b s).frame _

/-! ### overflow -/

/-- A computation that only reads. -/
theorem Triple.ofRead {α} {P : HProp} {c : M α} (a : Heap → α)
    (h : ∀ w s hf, Heap.disj s hf → w.heap = s.add hf → P s → c w = .ok (a s) w) :
    Triple P c (fun r s => r = a s ∧ P s) := by
  intro w s hf hd he hp
  rw [h w s hf hd he hp]
  exact ⟨⟨s, hd, he, rfl, hp⟩, .rfl'⟩

theorem load_ok {a v} {w : World} (h : w.heap.b a = some v) : M.load a w = .ok v w := by
  simp [M.load, h]

namespace Overflow

/-- What the scan computes from the bytes it sees. Proof helper, not code. -/
def beforeOf (f : Nat → Option UInt8) (ptr k : Nat) : Nat → Nat → Nat
  | 0, cur => cur
  | r + 1, cur => beforeOf f ptr (k + 1) r (if f (ptr - k) ≠ some pattern then k else cur)

/-- Proof helper, not code. -/
def afterOf (f : Nat → Option UInt8) (e k : Nat) : Nat → Nat → Nat
  | 0, cur => cur
  | r + 1, cur => afterOf f e (k + 1) r (if f (e + k) ≠ some pattern then k + 1 else cur)

theorem scanBefore_ok (w : World) (ptr k r cur : Nat)
    (h : ∀ i, k ≤ i → i < k + r → (w.heap.b (ptr - i)).isSome = true) :
    scanBefore ptr k r cur w = .ok (beforeOf w.heap.b ptr k r cur) w := by
  induction r generalizing k cur with
  | zero => rfl
  | succ r ih =>
    obtain ⟨v, hv⟩ := Option.isSome_iff_exists.1 (h k (by omega) (by omega))
    simp only [scanBefore, M.bind_apply, load_ok hv]
    rw [ih (k + 1) _ (fun i h1 h2 => h i (by omega) (by omega))]
    simp only [beforeOf, hv]
    simp

theorem scanAfter_ok (w : World) (e k r cur : Nat)
    (h : ∀ i, k ≤ i → i < k + r → (w.heap.b (e + i)).isSome = true) :
    scanAfter e k r cur w = .ok (afterOf w.heap.b e k r cur) w := by
  induction r generalizing k cur with
  | zero => rfl
  | succ r ih =>
    obtain ⟨v, hv⟩ := Option.isSome_iff_exists.1 (h k (by omega) (by omega))
    simp only [scanAfter, M.bind_apply, load_ok hv]
    rw [ih (k + 1) _ (fun i h1 h2 => h i (by omega) (by omega))]
    simp only [afterOf, hv]
    simp

/-- the underlying block of a user block. Proof helper, not code. -/
def wide (c : Nat × Nat) : Nat × Nat := (c.1 - 64, c.2 + 128)

/-- the contents of a guard zone. Proof helper, not code. -/
def pat : List UInt8 := List.replicate 64 pattern

theorem pat_length : pat.length = 64 := rfl

/-- guard zones of the live blocks: every byte is the pattern. Proof helper, not code. -/
def guards : List (Nat × Nat) → HProp
  | [] => emp
  | c :: L => bytesV (c.1 - 64) pat ∗ bytesV (c.1 + c.2) pat ∗ guards L

theorem guards_perm {L L'} (h : L.Perm L') : guards L = guards L' := by
  induction h with
  | nil => rfl
  | cons x _ ih => simp only [guards, ih]
  | swap x y l =>
    simp only [guards]
    ac_rfl
  | trans _ _ ih1 ih2 => rw [ih1, ih2]

/-- Specification, not code. -/
def Fits (fA : Nat → Prop) (n : Nat) : Prop := n + 128 < W64 ∧ fA (n + 128)

/-- a user block with its two guards. Proof helper, not code. -/
def wideV (c : Nat × List UInt8) : Nat × List UInt8 := (c.1 - 64, pat ++ (c.2 ++ pat))

theorem wideV_blk (c : Nat × List UInt8) : blk (wideV c) = wide (blk c) := by
  simp only [blk, wideV, wide, List.length_append, pat_length, Prod.mk.injEq, true_and]; omega

theorem wideV_bytes (c : Nat × List UInt8) (hc : 64 ≤ c.1) :
    bytesV (wideV c).1 (wideV c).2 =
      (bytesV (c.1 - 64) pat ∗ bytesV c.1 c.2 ∗ bytesV (c.1 + c.2.length) pat) := by
  simp only [wideV]
  rw [bytesV_append, bytesV_append, pat_length]
  have : c.1 - 64 + 64 = c.1 := by omega
  rw [this]

/-- user blocks with their guards are underlying blocks -/
theorem widen (R : List (Nat × List UInt8)) (hR : ∀ c ∈ R, 64 ≤ c.1) :
    (guards (R.map blk) ∗ blocksV R) = blocksV (R.map wideV) := by
  induction R with
  | nil => simp [guards, blocksV]
  | cons c R ih =>
    rw [List.map_cons (f := wideV), blocksV_cons (wideV c), wideV_bytes c (hR c (by simp)),
      ← ih (fun c hc => hR c (List.mem_cons_of_mem _ hc))]
    simp only [List.map_cons, guards, blocksV, blk]; ac_rfl

theorem scanBefore_clean (w : World) (ptr k r : Nat)
    (h : ∀ i, k ≤ i → i < k + r → w.heap.b (ptr - i) = some pattern) :
    scanBefore ptr k r 0 w = .ok 0 w := by
  induction r generalizing k with
  | zero => rfl
  | succ r ih =>
    simp only [scanBefore, M.bind_apply, load_ok (h k (by omega) (by omega)), ne_eq, not_true, if_false]
    exact ih (k + 1) (fun i h1 h2 => h i (by omega) (by omega))

theorem scanAfter_clean (w : World) (e k r : Nat)
    (h : ∀ i, k ≤ i → i < k + r → w.heap.b (e + i) = some pattern) :
    scanAfter e k r 0 w = .ok 0 w := by
  induction r generalizing k with
  | zero => rfl
  | succ r ih =>
    simp only [scanAfter, M.bind_apply, load_ok (h k (by omega) (by omega)), ne_eq, not_true, if_false]
    exact ih (k + 1) (fun i h1 h2 => h i (by omega) (by omega))

/-- every byte of a guard is the pattern -/
theorem pat_byte {p h x} (hh : bytesV p pat h) (hx : p ≤ x ∧ x < p + 64) : h.b x = some pattern := by
  rw [hh.2 x, if_pos hx.1]
  unfold pat
  rw [List.getElem?_replicate, if_pos (by omega)]

end Overflow

open Overflow

theorem inLive_wide {L : List (Nat × Nat)} {x : Nat} (hL : ∀ c ∈ L, 64 ≤ c.1) {h : Heap}
    (hg : guards L h) (hx : inLive (L.map wide) x) : (h.b x).isSome = true ∨ inLive L x := by
  induction L generalizing h with
  | nil => exact absurd hx not_inLive_nil
  | cons c L ih =>
    obtain ⟨h1, h23, hd, rfl, hg1, h2, h3, hd2, rfl, hg2, hg3⟩ := hg
    rw [List.map_cons, inLive_cons] at hx
    rw [inLive_cons]
    have hc := hL c (by simp)
    rcases hx with hx | hx
    · simp only [wide] at hx
      by_cases h4 : x < c.1
      · left; have := pat_byte hg1 (x := x) (by omega); simp [this]
      · by_cases h5 : x < c.1 + c.2
        · right; left; omega
        · left; have := pat_byte hg2 (x := x) (by omega); simp [this]
    · rcases ih (fun c hc => hL c (List.mem_cons_of_mem _ hc)) hg3 hx with h | h
      · left; simp [h]
      · right; right; exact h

/-- Both guards of a live block are intact. -/
theorem guards_read {I G : HProp} {p : Nat} {bs : List UInt8} {L : List (Nat × Nat)} {h : Heap} (hp64 : 64 ≤ p)
    (hh : ((I ∗ guards ((p, bs.length) :: L) ∗ G) ∗ bytesV p bs) h) :
    (∀ i, 1 ≤ i → i < 65 → h.b (p - i) = some pattern) ∧ (∀ i, i < 64 → h.b (p + bs.length + i) = some pattern) := by
  obtain ⟨h12, h3, hd, rfl, ⟨h1, h2, hd1, rfl, _, g, k, hd2, rfl, ⟨g1, g23, hd3, rfl, hg1, g2, g3, hd4, rfl, hg2, _⟩, _⟩, _⟩ := hh
  have hx : ∀ {u v : Heap} {x}, Heap.disj u v → v.b x = some pattern → u.b x = none := by
    intro u v x hd hv
    rcases hd.1 x with e | e
    · exact e
    · rw [e] at hv; cases hv
  have lift : ∀ x, (g1.add (g2.add g3)).b x = some pattern →
      ((h1.add ((g1.add (g2.add g3)).add k)).add h3).b x = some pattern := by
    intro x hg
    have e2 : ((g1.add (g2.add g3)).add k).b x = some pattern := by
      simp only [Heap.add_b] at hg ⊢; rw [hg]; rfl
    have e1 : (h1.add ((g1.add (g2.add g3)).add k)).b x = some pattern := by
      rw [Heap.add_b, hx hd1 e2, Option.none_or]; exact e2
    rw [Heap.add_b, e1]; rfl
  constructor
  · intro i hi1 hi2
    refine lift _ ?_
    have := pat_byte hg1 (x := p - i) (by simp only; omega)
    rw [Heap.add_b, this]; rfl
  · intro i hi
    refine lift _ ?_
    have e1 := pat_byte hg2 (x := p + bs.length + i) (by simp only; omega)
    have e2 : (g2.add g3).b (p + bs.length + i) = some pattern := by rw [Heap.add_b, e1]; rfl
    rw [Heap.add_b, hx hd3 e2, Option.none_or]; exact e2

/-- `overflow` satisfies the contract if its part does; in particular a client that stays inside its
blocks never triggers a corruption report. Proof helper, not code. -/
def overflow_sound {A : Allocator} {fA : Nat → Prop} (hA : Sound A fA) :
    Sound (overflow A) (Overflow.Fits fA) where
  Inv b s L := fun h => (∀ c ∈ L, 64 ≤ c.1 ∧ Good c.1 c.2 ∧ Overflow.Fits fA c.2) ∧
    (hA.Inv b s.a (L.map wide) ∗ guards L ∗ bytes (b + A.objSize) 32) h
  objAlign := by have := hA.objAlign; simp only [overflow]; omega
  perm := by
    rintro b s L L' h hp ⟨h1, h2⟩
    refine ⟨fun c hc => h1 c (hp.mem_iff.2 hc), ?_⟩
    rw [← guards_perm hp]
    exact star_mono_left (fun _ h => hA.perm (hp.map _) h) h h2
  init_spec := by
    intro b h1 h2 h3
    simp only [overflow] at h3 ⊢
    rw [bytes_split]
    refine Triple.bind ((hA.init_spec b h1 h2 (by omega)).frame _) (fun a => ?_)
    refine Triple.pure _ (fun h hh => ⟨by simp, ?_⟩)
    simpa [guards] using hh
  alloc_spec := by
    intro b s L n hf hn
    refine Triple.and (fun hL => ?_)
    have e : addW n 128 = n + 128 := by have := hf.1; unfold addW; omega
    simp only [overflow, e]
    refine Triple.bind ((hA.alloc_spec b s.a _ (n + 128) hf.2 hf.1).frame _) (fun r => ?_)
    by_cases hr : r.1 = 0
    · simp only [hr, if_true]
      refine Triple.pure _ (fun h hh => .inl ⟨rfl, hL, ?_⟩)
      obtain ⟨h1, h2, hd, rfl, h3 | h3, h4⟩ := hh
      · exact ⟨h1, h2, hd, rfl, h3.2, h4⟩
      · exact absurd rfl h3.1.1
    · simp only [hr, if_false]
      refine Triple.pre (P := fun h => Good r.1 (n + 128) ∧ (bytes r.1 64 ∗ (bytes (r.1 + 64 + n) 64 ∗
        (hA.Inv b r.2 ((r.1, n + 128) :: L.map wide) ∗ bytes (r.1 + 64) n ∗ guards L ∗ bytes (b + A.objSize) 32))) h) ?_ ?_
      · refine Triple.and (fun hg => ?_)
        have hw1 := triple_writeBytes r.1 (List.replicate 64 pattern)
        have hw2 := triple_writeBytes (r.1 + 64 + n) (List.replicate 64 pattern)
        rw [List.length_replicate] at hw1 hw2
        refine Triple.bind (hw1.frame _) (fun _ => ?_)
        rw [star_left_comm]
        refine Triple.bind (hw2.frame _) (fun _ => ?_)
        refine Triple.pure _ (fun h hh => .inr ⟨?_, ?_⟩)
        · obtain ⟨g1, g2, g3⟩ := hg
          exact ⟨by simp only; omega, by simp only; omega, by simp only; omega⟩
        · rw [star_and]
          refine ⟨?_, ?_⟩
          · intro c hc
            rcases List.mem_cons.1 hc with rfl | hc
            · obtain ⟨g1, g2, g3⟩ := hg
              exact ⟨by simp only; omega, ⟨by simp only; omega, by simp only; omega, by simp only; omega⟩, hf⟩
            · exact hL c hc
          · have e1 : r.1 + 64 - 64 = r.1 := by omega
            simp only [List.map_cons, wide, guards, e1]
            have e2 : ((hA.Inv b r.2 ((r.1, n + 128) :: L.map wide) ∗
                (bytesV r.1 pat ∗ bytesV (r.1 + 64 + n) pat ∗ guards L) ∗ bytes (b + A.objSize) 32) ∗ bytes (r.1 + 64) n) =
              (bytesV (r.1 + 64 + n) pat ∗ (bytesV r.1 pat ∗
                (hA.Inv b r.2 ((r.1, n + 128) :: L.map wide) ∗ bytes (r.1 + 64) n ∗ guards L ∗ bytes (b + A.objSize) 32))) := by
              ac_rfl
            show ((hA.Inv b r.2 ((r.1, n + 128) :: L.map wide) ∗
                (bytesV r.1 pat ∗ bytesV (r.1 + 64 + n) pat ∗ guards L) ∗ bytes (b + A.objSize) 32) ∗ bytes (r.1 + 64) n) h
            rw [e2]
            exact hh
      · rintro h ⟨h1, h2, hd, rfl, h3 | h3, h4⟩
        · exact h3.1.elim
        · refine ⟨h3.1, ?_⟩
          have e1 : bytes r.1 (n + 128) = (bytes r.1 64 ∗ bytes (r.1 + 64) n ∗ bytes (r.1 + 64 + n) 64) := by
            have : n + 128 = 64 + (n + 64) := by omega
            rw [this, bytes_split, bytes_split]
          have e2 : (bytes r.1 64 ∗ (bytes (r.1 + 64 + n) 64 ∗
              (hA.Inv b r.2 ((r.1, n + 128) :: L.map wide) ∗ bytes (r.1 + 64) n ∗ guards L ∗ bytes (b + A.objSize) 32))) =
            ((hA.Inv b r.2 ((r.1, n + 128) :: L.map wide) ∗ (bytes r.1 64 ∗ bytes (r.1 + 64) n ∗ bytes (r.1 + 64 + n) 64)) ∗
              (guards L ∗ bytes (b + A.objSize) 32)) := by ac_rfl
          rw [e2, ← e1]
          exact ⟨h1, h2, hd, rfl, h3.2, h4⟩
  dealloc_local := by
    intro b s p bs R k hk
    rw [star_and]
    refine apart_and (fun hL => ?_)
    obtain ⟨hp64, hg, hf1, hf2⟩ := hL (p, bs.length) (by simp)
    simp only at hp64 hg hf1 hf2
    have e : addW bs.length 128 = bs.length + 128 := by unfold addW; omega
    simp only [overflow, ne_eq, hg.1, not_false_eq_true, if_true, e]
    refine Triple.bind (Triple.ofRead (fun _ => 0) ?_) (fun bf => ?_)
    · intro w s' hf hd he hs
      have h1 := (guards_read hp64 hs.2).1
      exact scanBefore_clean w p 1 64 (fun i h2 h3 => by rw [he, Heap.add_b, h1 i h2 (by omega)]; rfl)
    refine Triple.and (fun hbf => ?_)
    refine Triple.bind (Triple.ofRead (fun _ => 0) ?_) (fun af => ?_)
    · intro w s' hf hd he hs
      have h1 := (guards_read hp64 hs.2).2
      exact scanAfter_clean w (p + bs.length) 0 64 (fun i h2 h3 => by rw [he, Heap.add_b, h1 i (by omega)]; rfl)
    refine Triple.and (fun haf => ?_)
    subst hbf; subst haf
    refine Triple.bind (R := fun _ => apart k ((hA.Inv b s.a (((p, bs.length) :: R.map blk).map wide) ∗
        guards ((p, bs.length) :: R.map blk) ∗ bytes (b + A.objSize) 32) ∗ bytesV p bs)) ?_ (fun _ => ?_)
    · simp only [not_true, or_self, M.ifThen, if_false]
      exact Triple.pure _ (fun _ h => h)
    -- now the call of the underlying deallocate
    have hR64 : ∀ c ∈ (p, bs) :: R, 64 ≤ c.1 := by
      intro c hc
      exact (hL (blk c) (by
        have := List.mem_map_of_mem (f := blk) hc
        simpa [blk] using this)).1
    have hmap : (R.map wideV).map blk = (R.map blk).map wide := by
      simp only [List.map_map]
      exact List.map_congr_left (fun c _ => wideV_blk c)
    have hlen : (wideV (p, bs)).2.length = bs.length + 128 := by
      have := congrArg Prod.snd (wideV_blk (p, bs)); exact this
    have hR64' : ∀ c ∈ R, 64 ≤ c.1 := fun c hc => hR64 c (List.mem_cons_of_mem _ hc)
    -- the guards of the other blocks are here, the blocks themselves are not
    refine Triple.pre (P := fun h => ∃ g, guards (R.map blk) g ∧ Heap.disj g k ∧
      (apart (g.add k) (hA.Inv b s.a (((p, bs.length) :: R.map blk).map wide) ∗ bytesV (p - 64) (wideV (p, bs)).2) ∗
        ((fun x => x = g) ∗ bytes (b + A.objSize) 32)) h) ?_ ?_
    · refine Triple.exists (fun g => Triple.and (fun hg => Triple.and (fun hgk => ?_)))
      have hwk : blocksV (R.map wideV) (g.add k) := by rw [← widen R hR64']; exact ⟨g, k, hgk, rfl, hg, hk⟩
      have hsp := hA.dealloc_local b s.a (p - 64) (wideV (p, bs)).2 (R.map wideV) _ hwk
      rw [hlen, hmap] at hsp
      refine Triple.bind (hsp.frame _) (fun a => Triple.pure _ (fun h hh => ?_))
      refine ⟨fun c hc => hL c (List.mem_cons_of_mem _ hc), ?_⟩
      exact star_mono_right (star_mono_left (fun x hx => by subst hx; exact hg)) _ hh
    · rintro h ⟨hdk, hh⟩
      have e1 : ((hA.Inv b s.a (((p, bs.length) :: R.map blk).map wide) ∗
        guards ((p, bs.length) :: R.map blk) ∗ bytes (b + A.objSize) 32) ∗ bytesV p bs) =
        ((hA.Inv b s.a (((p, bs.length) :: R.map blk).map wide) ∗
          (bytesV (p - 64) pat ∗ bytesV p bs ∗ bytesV (p + bs.length) pat)) ∗ (guards (R.map blk) ∗ bytes (b + A.objSize) 32)) := by
        simp only [guards]; ac_rfl
      rw [e1, ← wideV_bytes (p, bs) hp64] at hh
      obtain ⟨h1, h2, hd, rfl, hw, g, h3, hd3, rfl, hg, hb⟩ := hh
      have hd' := Heap.disj_add_left.1 hdk
      have hd'' := Heap.disj_add_left.1 hd'.2
      exact ⟨g, hg, hd''.1, h1, g.add h3, hd, rfl, ⟨Heap.disj_add_right.2 ⟨(Heap.disj_add_right.1 hd).1, hd'.1⟩, hw⟩, g, h3, hd3, rfl, rfl, hb⟩
  live_good := by
    rintro b s L h p n ⟨h1, _⟩ hm
    exact (h1 _ hm).2
  live_max := by
    rintro f hf b s L h p n ⟨_, h1, h2, hd, rfl, hi, _⟩ hm m hfm
    have hf1 : A.maxSize.map (fun f (s : Overflow.St A.St) => f s.a) = some f := hf
    obtain ⟨f', hf', rfl⟩ := Option.map_eq_some_iff.1 hf1
    have := hA.live_max f' hf' hi (List.mem_map_of_mem (f := wide) hm) m hfm
    simp only at this; omega
  owns_sound := by
    rintro f hf b s L h x ⟨h0, h1, h2, hd, rfl, hi, g, k, hd2, rfl, hg, hk⟩ hx ho
    have hf1 : A.owns.map (fun f (s : Overflow.St A.St) p => f s.a p) = some f := hf
    obtain ⟨f', hf', rfl⟩ := Option.map_eq_some_iff.1 hf1
    rcases hA.owns_sound f' hf' hi hx ho with h | h
    · left; simp [h]
    · rcases inLive_wide (fun c hc => (h0 c hc).1) hg h with h | h
      · left; simp [h]
      · exact .inr h
  owns_complete := by
    rintro f hf b s L h x ⟨h0, h1, h2, hd, rfl, hi, _⟩ ⟨c, hc, hx⟩
    have hf1 : A.owns.map (fun f (s : Overflow.St A.St) p => f s.a p) = some f := hf
    obtain ⟨f', hf', rfl⟩ := Option.map_eq_some_iff.1 hf1
    refine hA.owns_complete f' hf' hi ⟨wide c, List.mem_map_of_mem hc, ?_⟩
    have := h0 c hc
    simp only [wide]; omega
  construct_spec := by
    intro c hc b s L p
    cases hc
    refine Triple.and (fun hL => ?_)
    cases hcc : A.construct with
    | some c =>
      simp only
      refine Triple.bind ((hA.construct_spec c hcc b s.a _ p).frame _) (fun a => ?_)
      exact Triple.pure _ (fun h hh => ⟨hL, hh⟩)
    | none =>
      simp only
      refine Triple.bind (Triple.event _) (fun _ => ?_)
      exact Triple.pure _ (fun h hh => ⟨hL, hh⟩)
  destroy_spec := by
    intro c hc b s L p
    cases hc
    refine Triple.and (fun hL => ?_)
    cases hcc : A.destroy with
    | some c =>
      simp only
      refine Triple.bind ((hA.destroy_spec c hcc b s.a _ p).frame _) (fun a => ?_)
      exact Triple.pure _ (fun h hh => ⟨hL, hh⟩)
    | none =>
      simp only
      refine Triple.bind (Triple.event _) (fun _ => ?_)
      exact Triple.pure _ (fun h hh => ⟨hL, hh⟩)
  fini_spec := by
    intro b s
    refine Triple.and (fun hL => ?_)
    simp only [overflow]
    rw [bytes_split]
    simp only [List.map_nil, guards, emp_star]
    refine Triple.bind (R := fun _ => hA.Inv b s.a [] ∗ bytes (b + A.objSize) 32) ?_ (fun _ => ?_)
    · exact Triple.ifThen (Triple.print _ (by intros; simp))
    refine Triple.bind (R := fun _ => hA.Inv b s.a [] ∗ bytes (b + A.objSize) 32) ?_ (fun _ => ?_)
    · exact Triple.ifThen (Triple.print _ (by intros; simp))
    exact (hA.fini_spec b s.a).frame _

end KTL
