import Verif.Spec.Demo

/- `get_allocator()`: programs that use an allocator and the allocators inside it. -/
namespace KTL

namespace AllocTy

/-- The class `x.get_allocator()…get_allocator()` (`k` calls) returns a reference to, if there is one: `allocators/freelist.h:213-225`,
`allocators/overflow.h:243-255`, `allocators/threaded.h:116-124`, `allocators/shared.h:181-189`, `allocators/reference.h:111-119`. -/
def door : Nat → AllocTy → Option AllocTy
  | 0, t => some t
  | k + 1, freelist _ _ A => A.door k
  | k + 1, overflow A => A.door k
  | k + 1, threaded A => A.door k
  | k + 1, shared A => A.door k
  | k + 1, reference A => A.door k
  | _ + 1, _ => none

/-- How often `get_allocator()` can be called in a row. Specification, not code. -/
def depth : AllocTy → Nat
  | freelist _ _ A => A.depth + 1
  | overflow A => A.depth + 1
  | threaded A => A.depth + 1
  | shared A => A.depth + 1
  | reference A => A.depth + 1
  | _ => 0

/-- The call `f` on `x.get_allocator()…get_allocator()` (`k` calls). The object the reference refers to is a part of `x` or, for `shared`
and `reference`, of what `x` points to: `allocators/freelist.h:213-216`, `allocators/overflow.h:243-246`, `allocators/threaded.h:116-119`,
`allocators/shared.h:181-184`, `allocators/reference.h:111-114`. `threaded` does not lock its mutex. -/
def through (sys : Sys) {α : Type} (f : (u : AllocTy) → (u.denote sys).St → M (α × (u.denote sys).St)) :
    Nat → (t : AllocTy) → (t.denote sys).St → M (α × (t.denote sys).St)
  | 0, t, s => f t s
  | k + 1, freelist _ _ A, (s : Freelist.St (A.denote sys).St) => do
    let r ← A.through sys f k s.a
    pure (r.1, (⟨r.2, s.free⟩ : Freelist.St (A.denote sys).St))
  | k + 1, overflow A, (s : Overflow.St (A.denote sys).St) => do
    let r ← A.through sys f k s.a
    pure (r.1, (⟨r.2, s.allocs, s.constructs⟩ : Overflow.St (A.denote sys).St))
  | k + 1, threaded A, s => A.through sys f k s
  | k + 1, shared A, (s : Nat × (A.denote sys).St) => do
    let r ← A.through sys f k s.2
    pure (r.1, ((s.1, r.2) : Nat × (A.denote sys).St))
  | k + 1, reference A, s => A.through sys f k s
  | _ + 1, _, _ => M.ub

/-- A question that changes nothing, asked there. As `through`: `allocators/freelist.h:222-225`, `allocators/overflow.h:252-255`,
`allocators/threaded.h:121-124`, `allocators/shared.h:186-189`, `allocators/reference.h:116-119`. -/
def ask (sys : Sys) {β : Type} (f : (u : AllocTy) → (u.denote sys).St → β) : Nat → (t : AllocTy) → (t.denote sys).St → Option β
  | 0, t, s => some (f t s)
  | k + 1, freelist _ _ A, (s : Freelist.St (A.denote sys).St) => A.ask sys f k s.a
  | k + 1, overflow A, (s : Overflow.St (A.denote sys).St) => A.ask sys f k s.a
  | k + 1, threaded A, s => A.ask sys f k s
  | k + 1, shared A, (s : Nat × (A.denote sys).St) => A.ask sys f k s.2
  | k + 1, reference A, s => A.ask sys f k s
  | _ + 1, _, _ => none

/-- The class passes `allocate` and `deallocate` on unchanged. Specification, not code. -/
def passes : AllocTy → Bool
  | threaded _ => true
  | shared _ => true
  | reference _ => true
  | _ => false

/-- Between the allocators at depths `j` and `k` there are only classes that pass calls on. Specification, not code. -/
def Same (t : AllocTy) (j k : Nat) : Prop := ∀ i, min j k ≤ i → i < max j k → ∃ u, t.door i = some u ∧ u.passes = true

end AllocTy

/-! ### Programs -/

/-- One step of a program. `k` tells which allocator: `0` is the object itself, `k + 1` is what `get_allocator()` of number `k` returns.
Indices refer to the blocks obtained from that allocator; steps with an invalid index do nothing. Specification, not code. -/
inductive DoorOp where
  /-- `allocate(n)`; if it succeeds, look at the bytes of the block -/
  | allocate (k n : Nat)
  /-- give the `i`-th block of allocator `k` to `deallocate` of allocator `j` -/
  | deallocate (k i j : Nat)
  /-- store a byte in the `i`-th block of allocator `k` -/
  | write (k i off : Nat) (v : UInt8)
  /-- `construct` / `destroy` of allocator `k` (if it has them) -/
  | construct (k p : Nat)
  | destroy (k p : Nat)
  /-- somebody else obtains a block from `malloc` -/
  | foreign (n : Nat)
  deriving DecidableEq, Repr

/-- The fields of the object, for each of the allocators the blocks obtained from it with the bytes the program expects in them, and the
blocks of other parties. Specification, not code. -/
structure DoorClient (sys : Sys) (t : AllocTy) where
  st : (t.denote sys).St
  live : Nat → List (Nat × List UInt8)
  foreign : List (Nat × List UInt8)

/-- one list of blocks replaced -/
def put (D : Nat → List (Nat × List UInt8)) (k : Nat) (E : List (Nat × List UInt8)) : Nat → List (Nat × List UInt8) :=
  fun j => if j = k then E else D j

/-- Execute one step. Specification, not code. -/
def DoorClient.step {sys : Sys} {t : AllocTy} (c : DoorClient sys t) : DoorOp → M (DoorClient sys t)
  | .allocate k n => do
    let r ← t.through sys (fun u s => (u.denote sys).alloc s n) k c.st
    if r.1 = 0 then pure { c with st := r.2 }
    else do
      let bs ← M.readBytes r.1 n
      pure { c with st := r.2, live := put c.live k ((r.1, bs) :: c.live k) }
  | .deallocate k i j =>
    match (c.live k)[i]? with
    | none => pure c
    | some x => do
      let r ← t.through sys (fun u s => do let s ← (u.denote sys).dealloc s x.1 x.2.length; pure ((), s)) j c.st
      pure { c with st := r.2, live := put c.live k ((c.live k).eraseIdx i) }
  | .write k i off v =>
    match (c.live k)[i]? with
    | none => pure c
    | some x =>
      if off < x.2.length then do
        M.store (x.1 + off) v
        pure { c with live := put c.live k ((c.live k).set i (x.1, x.2.set off v)) }
      else pure c
  | .construct k p => do
    let r ← t.through sys (fun u s => do let s ← callOpt (u.denote sys).construct s p; pure ((), s)) k c.st
    pure { c with st := r.2 }
  | .destroy k p => do
    let r ← t.through sys (fun u s => do let s ← callOpt (u.denote sys).destroy s p; pure ((), s)) k c.st
    pure { c with st := r.2 }
  | .foreign n => do
    let p ← cMalloc sys n
    if p = 0 then pure c
    else do
      let bs ← M.readBytes p n
      pure { c with foreign := (p, bs) :: c.foreign }

/-- Execute a list of steps. Specification, not code. -/
def DoorClient.run {sys : Sys} {t : AllocTy} (c : DoorClient sys t) : List DoorOp → M (DoorClient sys t)
  | [] => pure c
  | o :: os => do
    let c' ← c.step o
    c'.run os

/-- Construct an allocator object at address `b` and use it. Specification, not code. -/
def doorPlay (sys : Sys) (t : AllocTy) (b : Nat) (ops : List DoorOp) : M (DoorClient sys t) := do
  let s ← (t.denote sys).init b
  DoorClient.run { st := s, live := fun _ => [], foreign := [] } ops

/-- What a program keeps to: the allocators it uses exist; requests are not empty and so small that no size computation wraps around; and a
block goes back to the allocator it came from, or to one that passes calls on to it, or to one it passes calls on to. Specification, not
code. -/
def DoorSane (t : AllocTy) : DoorOp → Prop
  | .allocate k n => ∃ u, t.door k = some u ∧ 0 < n ∧ n + u.margin < W64
  | .deallocate k _ j => t.Same j k
  | .construct k _ => k ≤ t.depth
  | .destroy k _ => k ≤ t.depth
  | _ => True

/-- The same with the exact condition on requests (proof helper, not code). -/
def DoorFits (sys : Sys) (t : AllocTy) : DoorOp → Prop
  | .allocate k n => n < W64 ∧ ∃ u, t.door k = some u ∧ u.fits sys.plat n
  | .deallocate k _ j => t.Same j k
  | .construct k _ => k ≤ t.depth
  | .destroy k _ => k ≤ t.depth
  | _ => True

/-! ### Blocks the client of an allocator holds besides those of somebody else (proof machinery) -/

/-- An allocator whose life is somebody else's business. Proof helper, not code. -/
@[reducible] def Allocator.sealed (A : Allocator) : Allocator :=
  { A with init := fun _ w => .oom { w with failed := true }, fini := fun _ w => .oom { w with failed := true } }

theorem Triple.halt {α : Type} {P : HProp} {Q : α → HProp} : Triple P (fun w => .oom { w with failed := true } : M α) Q :=
  fun _ _ _ _ _ _ => rfl

namespace Sound

variable {A : Allocator} {f : Nat → Prop}

/-- Proof helper, not code. -/
def sealed (h : Sound A f) : Sound A.sealed f :=
  ⟨h.Inv, h.objAlign, h.perm, fun _ _ _ _ => Triple.halt, h.alloc_spec, h.dealloc_local, h.live_good, h.live_max, h.owns_sound, h.owns_complete,
    h.construct_spec, h.destroy_spec, fun _ _ => Triple.halt⟩

/-- The blocks `D` are held by somebody else. Proof helper, not code. -/
def hide (h : Sound A.sealed f) (D : List (Nat × List UInt8)) : Sound A.sealed f where
  Inv b s L := h.Inv b s (L ++ D.map blk) ∗ blocksV D
  objAlign := h.objAlign
  perm := fun hp hh => star_mono_left (fun _ hh => h.perm (hp.append_right _) hh) _ hh
  init_spec := fun _ _ _ _ => Triple.halt
  alloc_spec := by
    intro b s L n hf hn
    refine ((h.alloc_spec b s _ n hf hn).frame _).post ?_
    rintro r g ⟨h1, h2, hd, rfl, h3 | h3, h4⟩
    · exact .inl ⟨h3.1, h1, h2, hd, rfl, h3.2, h4⟩
    · refine .inr ⟨h3.1, ?_⟩
      rw [star_assoc, star_comm (blocksV _), ← star_assoc]
      exact ⟨h1, h2, hd, rfl, h3.2, h4⟩
  dealloc_local := by
    intro b s p bs R k hk w g hf hd he ⟨hgk, hh⟩
    have e : ((h.Inv b s (((p, bs.length) :: R.map blk) ++ D.map blk) ∗ blocksV D) ∗ bytesV p bs) =
        ((h.Inv b s ((p, bs.length) :: (R ++ D).map blk) ∗ bytesV p bs) ∗ blocksV D) := by
      rw [List.map_append]
      show ((h.Inv b s ((p, bs.length) :: (R.map blk ++ D.map blk)) ∗ blocksV D) ∗ bytesV p bs) = _
      ac_rfl
    rw [e] at hh
    obtain ⟨g1, g2, hd12, rfl, hg1, hg2⟩ := hh
    have d1 := Heap.disj_add_left.1 hgk
    have hkk : blocksV (R ++ D) (k.add g2) := by
      rw [blocksV_append]
      exact ⟨k, g2, Heap.disj_comm d1.2, rfl, hk, hg2⟩
    have key := (h.dealloc_local b s p bs (R ++ D) (k.add g2) hkk).frame (blocksV D) w (g1.add g2) hf hd he
      ⟨g1, g2, hd12, rfl, ⟨Heap.disj_add_right.2 ⟨d1.1, hd12⟩, hg1⟩, hg2⟩
    rw [List.map_append] at key
    exact key
  live_good := by
    rintro b s L g p n ⟨h1, h2, hd, rfl, h3, h4⟩ hm
    exact h.live_good h3 (List.mem_append_left _ hm)
  live_max := by
    rintro q hq b s L g p n ⟨h1, h2, hd, rfl, h3, h4⟩ hm
    exact h.live_max q hq h3 (List.mem_append_left _ hm)
  owns_sound := by
    rintro q hq b s L g x ⟨h1, h2, hd, rfl, h3, h4⟩ hx ho
    rcases h.owns_sound q hq h3 hx ho with h | h
    · exact .inl (heap_left_isSome h)
    · rw [inLive_append] at h
      rcases h with h | h
      · exact .inr h
      · exact .inl (heap_right_isSome (blocksV_isSome h4 h))
  owns_complete := by
    rintro q hq b s L g x ⟨h1, h2, hd, rfl, h3, h4⟩ hx
    exact h.owns_complete q hq h3 (inLive_append.2 (.inl hx))
  construct_spec := fun c hc b s L p => (h.construct_spec c hc b s _ p).frame _
  destroy_spec := fun c hc b s L p => (h.destroy_spec c hc b s _ p).frame _
  fini_spec := fun _ _ => Triple.halt

end Sound

theorem overflow_construct (A : Allocator) : (overflow A.sealed).construct = (overflow A).construct := by
  cases A with
  | mk _ _ _ _ _ _ _ c _ _ => cases c <;> rfl

theorem overflow_destroy (A : Allocator) : (overflow A.sealed).destroy = (overflow A).destroy := by
  cases A with
  | mk _ _ _ _ _ _ _ _ c _ => cases c <;> rfl

namespace AllocTy

/-- The contract of an allocator while a program holds the blocks `D k` of the allocator number `k + 1`. Proof helper, not code. -/
def heldView (sys : Sys) : (t : AllocTy) → t.WF → (Nat → List (Nat × List UInt8)) → Sound (t.denote sys).sealed (t.fits sys.plat)
  | freelist m M A, hw, D =>
    let h := freelist_sound m M ((A.heldView sys hw.1 fun k => D (k + 1)).hide (D 0)) hw.2.1 hw.2.2
    ⟨h.Inv, h.objAlign, h.perm, fun _ _ _ _ => Triple.halt, h.alloc_spec, h.dealloc_local, h.live_good, h.live_max, h.owns_sound,
      h.owns_complete, h.construct_spec, h.destroy_spec, fun _ _ => Triple.halt⟩
  | overflow A, hw, D =>
    let h := overflow_sound ((A.heldView sys hw fun k => D (k + 1)).hide (D 0))
    ⟨h.Inv, h.objAlign, h.perm, fun _ _ _ _ => Triple.halt, h.alloc_spec, h.dealloc_local, h.live_good, h.live_max, h.owns_sound,
      h.owns_complete, fun c hc => h.construct_spec c ((overflow_construct _).trans hc),
      fun c hc => h.destroy_spec c ((overflow_destroy _).trans hc), fun _ _ => Triple.halt⟩
  | threaded A, hw, D =>
    let h := threaded_sound ((A.heldView sys hw fun k => D (k + 1)).hide (D 0))
    ⟨h.Inv, h.objAlign, h.perm, fun _ _ _ _ => Triple.halt, h.alloc_spec, h.dealloc_local, h.live_good, h.live_max, h.owns_sound,
      h.owns_complete, h.construct_spec, h.destroy_spec, fun _ _ => Triple.halt⟩
  | shared A, hw, D =>
    let h := shared_sound sys ((A.heldView sys hw.1 fun k => D (k + 1)).hide (D 0)) (fun _ => by
      have := hw.2; simp only [Cascading.nodeSize, objSize_eq]; omega)
    ⟨h.Inv, h.objAlign, h.perm, fun _ _ _ _ => Triple.halt, h.alloc_spec, h.dealloc_local, h.live_good, h.live_max, h.owns_sound,
      h.owns_complete, h.construct_spec, h.destroy_spec, fun _ _ => Triple.halt⟩
  | reference A, hw, D =>
    let h := reference_sound ((A.heldView sys hw fun k => D (k + 1)).hide (D 0))
    ⟨h.Inv, h.objAlign, h.perm, fun _ _ _ _ => Triple.halt, h.alloc_spec, h.dealloc_local, h.live_good, h.live_max, h.owns_sound,
      h.owns_complete, h.construct_spec, h.destroy_spec, fun _ _ => Triple.halt⟩
  | null, hw, _ => (null.sound sys hw).sealed
  | mallocator, hw, _ => (mallocator.sound sys hw).sealed
  | linear S, hw, _ => ((linear S).sound sys hw).sealed
  | stack S, hw, _ => ((stack S).sound sys hw).sealed
  | fallback P F, hw, _ => ((fallback P F).sound sys hw).sealed
  | segragator T P F, hw, _ => ((segragator T P F).sound sys hw).sealed
  | cascading A, hw, _ => ((cascading A).sound sys hw).sealed

/-- The same with the blocks `D 0` of the allocator itself. Proof helper, not code. -/
def whole (sys : Sys) (t : AllocTy) (hw : t.WF) (D : Nat → List (Nat × List UInt8)) : Sound (t.denote sys).sealed (t.fits sys.plat) :=
  (t.heldView sys hw fun k => D (k + 1)).hide (D 0)

theorem put_self (D : Nat → List (Nat × List UInt8)) (k : Nat) (E) : put D k E k = E := if_pos rfl

theorem put_ne (D : Nat → List (Nat × List UInt8)) {k j : Nat} (E) (h : j ≠ k) : put D k E j = D j := if_neg h

theorem put_same (D : Nat → List (Nat × List UInt8)) (k : Nat) : put D k (D k) = D := by
  funext j
  by_cases h : j = k
  · subst h; exact put_self _ _ _
  · exact put_ne _ _ h

theorem put_put (D : Nat → List (Nat × List UInt8)) (k : Nat) (E E') : put (put D k E) k E' = put D k E' := by
  funext j
  by_cases h : j = k
  · subst h; rw [put_self, put_self]
  · rw [put_ne _ _ h, put_ne _ _ h, put_ne _ _ h]

theorem put_comm (D : Nat → List (Nat × List UInt8)) {k l : Nat} (E E') (h : k ≠ l) : put (put D k E) l E' = put (put D l E') k E := by
  funext j
  by_cases h1 : j = k
  · subst h1; rw [put_ne _ _ h, put_self, put_self]
  · by_cases h2 : j = l
    · subst h2; rw [put_self, put_ne _ _ h1, put_self]
    · rw [put_ne _ _ h2, put_ne _ _ h1, put_ne _ _ h1, put_ne _ _ h2]

theorem put_shift (D : Nat → List (Nat × List UInt8)) (k : Nat) (E) :
    (fun j => put D (k + 1) E (j + 1)) = put (fun j => D (j + 1)) k E := by
  funext j; simp [put]

theorem put_tail (D : Nat → List (Nat × List UInt8)) (E) : (fun j => put D 0 E (j + 1)) = fun j => D (j + 1) := by
  funext j; simp [put]

theorem whole_zero (sys : Sys) (t : AllocTy) (hw : t.WF) (D : Nat → List (Nat × List UInt8)) (E) :
    t.whole sys hw (put D 0 E) = (t.heldView sys hw fun j => D (j + 1)).hide E := by
  unfold whole; rw [put_tail, put_self]

theorem whole_succ (sys : Sys) (t : AllocTy) (hw : t.WF) (D : Nat → List (Nat × List UInt8)) (k : Nat) (E) :
    t.whole sys hw (put D (k + 1) E) = (t.heldView sys hw (put (fun j => D (j + 1)) k E)).hide (D 0) := by
  unfold whole; rw [put_shift, put_ne _ _ (by omega)]

theorem door_of_le : ∀ (k : Nat) (t : AllocTy), k ≤ t.depth → ∃ u, t.door k = some u
  | 0, t, _ => ⟨t, by cases t <;> rfl⟩
  | k + 1, freelist _ _ A, h => door_of_le k A (Nat.le_of_succ_le_succ h)
  | k + 1, overflow A, h => door_of_le k A (Nat.le_of_succ_le_succ h)
  | k + 1, threaded A, h => door_of_le k A (Nat.le_of_succ_le_succ h)
  | k + 1, shared A, h => door_of_le k A (Nat.le_of_succ_le_succ h)
  | k + 1, reference A, h => door_of_le k A (Nat.le_of_succ_le_succ h)

theorem door_of_passes : ∀ (k : Nat) (t : AllocTy) (u : AllocTy), t.door k = some u → u.passes = true → ∃ v, t.door (k + 1) = some v
  | 0, threaded A, _, _, _ => door_of_le 0 A (Nat.zero_le _)
  | 0, shared A, _, _, _ => door_of_le 0 A (Nat.zero_le _)
  | 0, reference A, _, _, _ => door_of_le 0 A (Nat.zero_le _)
  | 0, freelist _ _ _, _, h, hp => by cases h; cases hp
  | 0, overflow _, _, h, hp => by cases h; cases hp
  | 0, null, _, h, hp => by cases h; cases hp
  | 0, mallocator, _, h, hp => by cases h; cases hp
  | 0, linear _, _, h, hp => by cases h; cases hp
  | 0, stack _, _, h, hp => by cases h; cases hp
  | 0, fallback _ _, _, h, hp => by cases h; cases hp
  | 0, segragator _ _ _, _, h, hp => by cases h; cases hp
  | 0, cascading _, _, h, hp => by cases h; cases hp
  | k + 1, freelist _ _ A, u, h, hp => door_of_passes k A u h hp
  | k + 1, overflow A, u, h, hp => door_of_passes k A u h hp
  | k + 1, threaded A, u, h, hp => door_of_passes k A u h hp
  | k + 1, shared A, u, h, hp => door_of_passes k A u h hp
  | k + 1, reference A, u, h, hp => door_of_passes k A u h hp

theorem le_of_door : ∀ (k : Nat) (t : AllocTy) (u : AllocTy), t.door k = some u → k ≤ t.depth
  | 0, _, _, _ => Nat.zero_le _
  | k + 1, freelist _ _ A, u, h => Nat.succ_le_succ (le_of_door k A u h)
  | k + 1, overflow A, u, h => Nat.succ_le_succ (le_of_door k A u h)
  | k + 1, threaded A, u, h => Nat.succ_le_succ (le_of_door k A u h)
  | k + 1, shared A, u, h => Nat.succ_le_succ (le_of_door k A u h)
  | k + 1, reference A, u, h => Nat.succ_le_succ (le_of_door k A u h)

/-- blocks of a free list with their unused tails are underlying blocks -/
theorem filled (Max : Nat) : ∀ (R : List (Nat × List UInt8)) (k hs : Heap), (∀ c ∈ R, c.2.length ≤ Max) → blocksV R k →
    Freelist.slack Max (R.map blk) hs → Heap.disj k hs →
    ∃ R', R'.map blk = (R.map blk).map (Freelist.full Max) ∧ blocksV R' (k.add hs)
  | [], k, hs, _, hk, hh, _ => by
    have e1 : k = Heap.empty := hk
    have e2 : hs = Heap.empty := hh
    subst e1 e2
    exact ⟨[], rfl, by simp [blocksV, emp]⟩
  | c :: R, k, hs, hR, hk, hh, hd => by
    obtain ⟨k1, k2, dk, rfl, hk1, hk2⟩ := hk
    obtain ⟨s1, s2, ds, rfl, hs1, hs2⟩ := hh
    have d1 := Heap.disj_add_left.1 hd
    have d2 := Heap.disj_add_right.1 d1.1
    have d3 := Heap.disj_add_right.1 d1.2
    obtain ⟨R', e, hR'⟩ := filled Max R k2 s2 (fun c hc => hR c (List.mem_cons_of_mem _ hc)) hk2 hs2 d3.2
    rw [bytes_eq_exists] at hs1
    obtain ⟨bs, hl, hs1⟩ := hs1
    have hc := hR c (by simp)
    replace hl : bs.length = Max - c.2.length := hl
    refine ⟨(c.1, c.2 ++ bs) :: R', ?_, ?_⟩
    · simp only [List.map_cons, e, blk, Freelist.full, List.length_append, List.cons.injEq, Prod.mk.injEq, true_and]
      exact ⟨by omega, trivial⟩
    · refine ⟨k1.add s1, k2.add s2, ?_, ?_, ?_, hR'⟩
      · exact Heap.disj_add_left.2 ⟨Heap.disj_add_right.2 ⟨dk, d2.2⟩,
          Heap.disj_add_right.2 ⟨Heap.disj_comm d3.1, ds⟩⟩
      · rw [Heap.add_assoc, Heap.add_assoc, ← Heap.add_assoc k2, Heap.add_comm d3.1, Heap.add_assoc]
      · show bytesV c.1 (c.2 ++ bs) _
        rw [bytesV_append]
        exact ⟨k1, s1, d2.1, rfl, hk1, hs1⟩

/-- A call that works on a part of the memory, with knowledge about the rest. -/
theorem apart_step {α : Type} {k : Heap} {P F : HProp} {c : M α} {Q : α → HProp}
    (h : ∀ h2, F h2 → Heap.disj h2 k → ∃ k', Triple (apart k' P) c Q ∧ ∀ h1, Heap.disj h1 h2 → Heap.disj h1 k → Heap.disj h1 k') :
    Triple (apart k (P ∗ F)) c (fun a => Q a ∗ F) := by
  rintro w _ hf hd he ⟨hk, h1, h2, hd12, rfl, hp, hF⟩
  have dk := Heap.disj_add_left.1 hk
  obtain ⟨k', ht, hdk⟩ := h h2 hF dk.2
  refine ((ht.frame (fun g => g = h2)).post ?_) w _ hf hd he ⟨h1, h2, hd12, rfl, ⟨hdk h1 hd12 dk.1, hp⟩, rfl⟩
  rintro a _ ⟨g1, g2, dg, rfl, hq, rfl⟩
  exact ⟨g1, g2, dg, rfl, hq, hF⟩

theorem star_out {ι : Type} {Q : ι → Prop} {I : ι → HProp} {F : HProp} {h : Heap}
    (hh : ((fun h => ∃ E, Q E ∧ I E h) ∗ F) h) : ∃ E, Q E ∧ (I E ∗ F) h := by
  obtain ⟨h1, h2, hd, rfl, ⟨E, hq, hi⟩, hF⟩ := hh
  exact ⟨E, hq, h1, h2, hd, rfl, hi, hF⟩

/-- A call on the allocator number `k` that changes the blocks held of it changes nothing else. -/
theorem through_whole (sys : Sys) {α : Type} (f : (u : AllocTy) → (u.denote sys).St → M (α × (u.denote sys).St))
    (Q : α → List (Nat × List UInt8) → Prop) : ∀ (k : Nat) (t : AllocTy) (hw : t.WF) (D : Nat → List (Nat × List UInt8)) (u : AllocTy)
    (_ : t.door k = some u)
    (_ : ∀ (hu : Sound (u.denote sys).sealed (u.fits sys.plat)) b s R K, blocksV R K →
      Triple (apart K ((hu.hide (D k)).Inv b s (R.map blk))) (f u s)
        (fun r h => ∃ E, Q r.1 E ∧ (hu.hide E).Inv b r.2 (R.map blk) h)) (b : Nat)
    (s : (t.denote sys).St) (R : List (Nat × List UInt8)) (K : Heap), blocksV R K →
    Triple (apart K ((t.whole sys hw D).Inv b s (R.map blk))) (t.through sys f k s)
      (fun r h => ∃ E, Q r.1 E ∧ (t.whole sys hw (put D k E)).Inv b r.2 (R.map blk) h) := by
  intro k
  induction k with
  | zero =>
    intro t hw D u hu hf b s R K hK
    have : u = t := by cases t <;> exact (Option.some.inj hu).symm
    subst this
    simp only [whole_zero]
    have e : u.through sys f 0 s = f u s := by cases u <;> rfl
    rw [e]
    exact hf _ b s R K hK
  | succ k ih =>
    intro t hw D u hu hf b s R K hK
    simp only [whole_succ]
    -- the blocks held of the allocator itself
    suffices key : ∀ (R : List (Nat × List UInt8)) (K : Heap), blocksV R K →
        Triple (apart K ((t.heldView sys hw fun j => D (j + 1)).Inv b s (R.map blk))) (t.through sys f (k + 1) s)
          (fun r h => ∃ E, Q r.1 E ∧ (t.heldView sys hw (put (fun j => D (j + 1)) k E)).Inv b r.2 (R.map blk) h) by
      show Triple (apart K ((t.heldView sys hw fun j => D (j + 1)).Inv b s (R.map blk ++ (D 0).map blk) ∗ blocksV (D 0))) (t.through sys f (k + 1) s)
        (fun r h => ∃ E, Q r.1 E ∧
          ((t.heldView sys hw (put (fun j => D (j + 1)) k E)).Inv b r.2 (R.map blk ++ (D 0).map blk) ∗ blocksV (D 0)) h)
      rw [← List.map_append]
      refine (apart_step fun h2 hF hd => ⟨K.add h2, key (R ++ D 0) (K.add h2) ?_, fun h1 h3 h4 =>
        Heap.disj_add_right.2 ⟨h4, h3⟩⟩).post fun r h hh => star_out hh
      rw [blocksV_append]
      exact ⟨K, h2, Heap.disj_comm hd, rfl, hK, hF⟩
    clear hK K R
    intro R K hK
    cases t with
    | freelist m M A =>
      refine apart_and fun hL => apart_exists fun C => apart_and fun hl => ?_
      have hR : ∀ c ∈ R, c.2.length ≤ M := fun c hc => (hL (blk c) (List.mem_map_of_mem hc)).2.1
      refine Triple.bind (apart_step (Q := fun r h => ∃ E, Q r.1 E ∧ (A.whole sys hw.1 (put (fun j => D (j + 1)) k E)).Inv b r.2
        ((R.map blk).map (Freelist.full M) ++ C.map blk) h) fun h2 hF hd => ?_) (fun r => Triple.pure _ ?_)
      · obtain ⟨s1, s2, ds, rfl, hs1, s3, s4, ds', rfl, hC, _⟩ := hF
        have d1 := Heap.disj_add_left.1 hd
        have d2 := Heap.disj_add_left.1 d1.2
        have d3 := Heap.disj_add_right.1 ds
        obtain ⟨R', e, hR'⟩ := filled M R K s1 hR hK hs1 (Heap.disj_comm d1.1)
        refine ⟨(K.add s1).add s3, ?_, fun h1 h3 h4 => ?_⟩
        · have hb : blocksV (R' ++ C) ((K.add s1).add s3) := by
            rw [blocksV_append]
            exact ⟨_, _, Heap.disj_add_left.2 ⟨Heap.disj_comm d2.1, d3.1⟩, rfl, hR', hC⟩
          have := ih A hw.1 (fun j => D (j + 1)) u hu hf b (Freelist.St.a s) (R' ++ C) _ hb
          rw [List.map_append, e] at this
          exact this
        · have q1 := Heap.disj_add_right.1 h3
          have q2 := Heap.disj_add_right.1 q1.2
          exact Heap.disj_add_right.2 ⟨Heap.disj_add_right.2 ⟨h4, q1.1⟩, q2.1⟩
      · intro h hh
        obtain ⟨E, hq, hh⟩ := star_out hh
        exact ⟨E, hq, hL, C, hl, hh⟩
    | overflow A =>
      refine apart_and fun hL => ?_
      have hR : ∀ c ∈ R, 64 ≤ c.1 := fun c hc => (hL (blk c) (List.mem_map_of_mem hc)).1
      have hmap : (R.map Overflow.wideV).map blk = (R.map blk).map Overflow.wide := by
        simp only [List.map_map]
        exact List.map_congr_left (fun c _ => Overflow.wideV_blk c)
      refine Triple.bind (apart_step (Q := fun r h => ∃ E, Q r.1 E ∧ (A.whole sys hw (put (fun j => D (j + 1)) k E)).Inv b r.2
        ((R.map blk).map Overflow.wide) h) fun h2 hF hd => ?_) (fun r => Triple.pure _ ?_)
      · obtain ⟨s1, s2, ds, rfl, hs1, _⟩ := hF
        have d1 := Heap.disj_add_left.1 hd
        refine ⟨s1.add K, ?_, fun h1 h3 h4 => ?_⟩
        · have hb : blocksV (R.map Overflow.wideV) (s1.add K) := by
            rw [← Overflow.widen R hR]
            exact ⟨_, _, d1.1, rfl, hs1, hK⟩
          have := ih A hw (fun j => D (j + 1)) u hu hf b (Overflow.St.a s) _ _ hb
          rw [hmap] at this
          exact this
        · exact Heap.disj_add_right.2 ⟨(Heap.disj_add_right.1 h3).1, h4⟩
      · intro h hh
        obtain ⟨E, hq, hh⟩ := star_out hh
        exact ⟨E, hq, hL, hh⟩
    | threaded A =>
      exact (apart_step fun h2 hF hd => ⟨K, ih A hw (fun j => D (j + 1)) u hu hf b s R K hK, fun h1 h3 h4 => h4⟩).post
        fun r h hh => star_out hh
    | shared A =>
      refine apart_and fun hL => ?_
      refine Triple.bind (apart_step (Q := fun r h => ∃ E, Q r.1 E ∧ (A.whole sys hw.1 (put (fun j => D (j + 1)) k E)).Inv _ r.2
        (R.map blk) h) fun h2 hF hd => ⟨K, ih A hw.1 (fun j => D (j + 1)) u hu hf _ (Prod.snd (α := Nat) s) R K hK, fun h1 h3 h4 => h4⟩)
        (fun r => Triple.pure _ ?_)
      intro h hh
      obtain ⟨E, hq, hh⟩ := star_out hh
      exact ⟨E, hq, hL, hh⟩
    | reference A =>
      exact (apart_step fun h2 hF hd => ⟨K, ih A hw (fun j => D (j + 1)) u hu hf b s R K hK, fun h1 h3 h4 => h4⟩).post
        fun r h hh => star_out hh
    | _ => cases hu

/-- The same with no blocks above. -/
theorem through_top (sys : Sys) {α : Type} (f : (u : AllocTy) → (u.denote sys).St → M (α × (u.denote sys).St))
    (Q : α → List (Nat × List UInt8) → Prop) (k : Nat) (t : AllocTy) (hw : t.WF) (D : Nat → List (Nat × List UInt8)) (u : AllocTy)
    (hu : t.door k = some u)
    (hf : ∀ (hu : Sound (u.denote sys).sealed (u.fits sys.plat)) b s R K, blocksV R K →
      Triple (apart K ((hu.hide (D k)).Inv b s (R.map blk))) (f u s)
        (fun r h => ∃ E, Q r.1 E ∧ (hu.hide E).Inv b r.2 (R.map blk) h)) (b : Nat) (s : (t.denote sys).St) :
    Triple ((t.whole sys hw D).Inv b s []) (t.through sys f k s)
      (fun r h => ∃ E, Q r.1 E ∧ (t.whole sys hw (put D k E)).Inv b r.2 [] h) :=
  (through_whole sys f Q k t hw D u hu hf b s [] .empty rfl).pre fun h hh => ⟨Heap.disj_empty _, hh⟩

/-- A step that does not use the allocator. -/
theorem through_const (sys : Sys) {α : Type} (c : M α) : ∀ (k : Nat) (t u : AllocTy) (_ : t.door k = some u) (s : (t.denote sys).St),
    t.through sys (fun _ s => do let a ← c; pure (a, s)) k s = (do let a ← c; pure (a, s)) := by
  intro k
  induction k with
  | zero => intro t u _ s; cases t <;> rfl
  | succ k ih =>
    intro t u hu s
    cases t with
    | freelist m M A =>
      show (do
        let r ← A.through sys (fun _ s => do let a ← c; pure (a, s)) k (Freelist.St.a s)
        pure (r.1, (⟨r.2, Freelist.St.free s⟩ : Freelist.St (A.denote sys).St))) = _
      rw [ih A u hu, bind_assoc]
      rfl
    | overflow A =>
      show (do
        let r ← A.through sys (fun _ s => do let a ← c; pure (a, s)) k (Overflow.St.a s)
        pure (r.1, (⟨r.2, Overflow.St.allocs s, Overflow.St.constructs s⟩ : Overflow.St (A.denote sys).St))) = _
      rw [ih A u hu, bind_assoc]
      rfl
    | threaded A => exact ih A u hu s
    | shared A =>
      show (do
        let r ← A.through sys (fun _ s => do let a ← c; pure (a, s)) k (Prod.snd (α := Nat) s)
        pure (r.1, ((Prod.fst s, r.2) : Nat × (A.denote sys).St))) = _
      rw [ih A u hu, bind_assoc]
      rfl
    | reference A => exact ih A u hu s
    | _ => cases hu

/-- The program does something to the blocks of allocator number `k`. -/
theorem at_top (sys : Sys) {α : Type} (c : M α) (Q : α → List (Nat × List UInt8) → Prop) (k : Nat) (t : AllocTy) (hw : t.WF)
    (D : Nat → List (Nat × List UInt8)) (u : AllocTy) (hu : t.door k = some u)
    (hc : Triple (blocksV (D k)) c (fun a h => ∃ E, Q a E ∧ E.map blk = (D k).map blk ∧ blocksV E h)) (b : Nat)
    (s : (t.denote sys).St) :
    Triple ((t.whole sys hw D).Inv b s []) c (fun a h => ∃ E, Q a E ∧ (t.whole sys hw (put D k E)).Inv b s [] h) := by
  have key := through_top sys (fun u s => do let a ← c; pure (a, s)) Q k t hw D u hu (fun hu b s R K _ => by
    refine Triple.bind (R := fun a h => ∃ E, Q a E ∧ (hu.hide E).Inv b s (R.map blk) h) ?_ (fun a => Triple.pure _ fun h hh => hh)
    refine Triple.pre (P := blocksV (D k) ∗ hu.Inv b s (R.map blk ++ (D k).map blk)) ?_ fun h hh => by rw [star_comm]; exact hh.2
    refine (hc.frame _).post ?_
    rintro a _ ⟨h1, h2, hd, rfl, ⟨E, hq, he, hE⟩, hi⟩
    refine ⟨E, hq, ?_⟩
    show (hu.Inv b s (R.map blk ++ E.map blk) ∗ blocksV E) _
    rw [he, star_comm]
    exact ⟨h1, h2, hd, rfl, hE, hi⟩) b s
  rw [through_const sys c k t u hu] at key
  intro w h hf hd he hh
  have := key w h hf hd he hh
  rw [M.bind_apply] at this
  cases hcw : c w with
  | ok a w' => rw [hcw] at this; exact this
  | oom w' => rw [hcw] at this; exact this
  | ub => rw [hcw] at this; exact this

/-! ### Passing a block from one allocator to the next -/

theorem hide_move {A : Allocator} {f : Nat → Prop} {V V' : Sound A.sealed f} (hV : V' = V) {D0 D1 E0 E1 : List (Nat × List UInt8)}
    (hE : (E0 ++ E1).Perm (D0 ++ D1)) {b : Nat} {s : A.St} {L : List (Nat × Nat)} {F : HProp} {h : Heap}
    (hh : (((V.hide D1).Inv b s (L ++ D0.map blk) ∗ F) ∗ blocksV D0) h) :
    (((V'.hide E1).Inv b s (L ++ E0.map blk) ∗ F) ∗ blocksV E0) h := by
  subst hV
  replace hh : (((V'.Inv b s ((L ++ D0.map blk) ++ D1.map blk) ∗ blocksV D1) ∗ F) ∗ blocksV D0) h := hh
  show (((V'.Inv b s ((L ++ E0.map blk) ++ E1.map blk) ∗ blocksV E1) ∗ F) ∗ blocksV E0) h
  have hL : ((L ++ D0.map blk) ++ D1.map blk).Perm ((L ++ E0.map blk) ++ E1.map blk) := by
    rw [List.append_assoc, List.append_assoc, ← List.map_append, ← List.map_append]
    exact (hE.symm.map _).append_left _
  have hB : (blocksV D1 ∗ blocksV D0) = (blocksV E1 ∗ blocksV E0) := by
    rw [star_comm, ← blocksV_append, star_comm (blocksV E1), ← blocksV_append, blocksV_perm hE]
  rw [star_assoc, star_assoc, star_left_comm (blocksV D1), hB] at hh
  rw [star_assoc, star_assoc, star_left_comm (blocksV E1)]
  exact star_mono_left (fun _ hh => V'.perm hL hh) _ hh

/-- If the allocator number `k` passes calls on, its blocks can be seen as blocks of number `k + 1`, and the other way round. -/
theorem move_whole (sys : Sys) : ∀ (k : Nat) (t : AllocTy) (hw : t.WF) (D D' : Nat → List (Nat × List UInt8)) (u : AllocTy)
    (_ : t.door k = some u) (_ : u.passes = true) (_ : (D' k ++ D' (k + 1)).Perm (D k ++ D (k + 1)))
    (_ : ∀ j, j ≠ k → j ≠ k + 1 → D' j = D j) (b : Nat)
    (s : (t.denote sys).St) (L : List (Nat × Nat)) (h : Heap),
    (t.whole sys hw D).Inv b s L h → (t.whole sys hw D').Inv b s L h := by
  intro k
  induction k with
  | zero =>
    intro t hw D D' u hu hp hE hD b s L h hh
    have : u = t := by cases t <;> exact (Option.some.inj hu).symm
    subst this
    have e : (fun j => D' (j + 1 + 1)) = fun j => D (j + 1 + 1) := funext fun j => hD _ (by omega) (by omega)
    cases u with
    | threaded A => exact hide_move (congrArg (A.heldView sys hw) e) hE hh
    | shared A =>
      obtain ⟨h1, h2, hd, rfl, ⟨hs, hh⟩, hb⟩ := hh
      have hh' := hide_move (congrArg (A.heldView sys hw.1) e) hE (h := h1.add h2) ⟨h1, h2, hd, rfl, hh, hb⟩
      obtain ⟨k1, k2, kd, ke, kh, kb⟩ := hh'
      rw [ke]
      exact ⟨k1, k2, kd, rfl, ⟨hs, kh⟩, kb⟩
    | reference A => exact hide_move (congrArg (A.heldView sys hw) e) hE hh
    | _ => cases hp
  | succ k ih =>
    intro t hw D D' u hu hp hE hD b s L h hh
    have e0 : D' 0 = D 0 := hD 0 (by omega) (by omega)
    have hD' : ∀ j, j ≠ k → j ≠ k + 1 → D' (j + 1) = D (j + 1) := fun j h1 h2 => hD _ (by omega) (by omega)
    replace hh : ((t.heldView sys hw fun j => D (j + 1)).Inv b s (L ++ (D 0).map blk) ∗ blocksV (D 0)) h := hh
    show ((t.heldView sys hw fun j => D' (j + 1)).Inv b s (L ++ (D' 0).map blk) ∗ blocksV (D' 0)) h
    rw [e0]
    refine star_mono_left ?_ h hh
    generalize L ++ (D 0).map blk = L
    clear hh h
    intro h hh
    cases t with
    | freelist m M A =>
      obtain ⟨hL, R, hl, hh⟩ := hh
      exact ⟨hL, R, hl, star_mono_left (fun h hh => ih A hw.1 _ (fun j => D' (j + 1)) u hu hp hE hD' _ _ _ h hh) _ hh⟩
    | overflow A =>
      obtain ⟨hL, hh⟩ := hh
      exact ⟨hL, star_mono_left (fun h hh => ih A hw _ (fun j => D' (j + 1)) u hu hp hE hD' _ _ _ h hh) _ hh⟩
    | threaded A => exact star_mono_left (fun h hh => ih A hw _ (fun j => D' (j + 1)) u hu hp hE hD' _ _ _ h hh) _ hh
    | shared A =>
      obtain ⟨hL, hh⟩ := hh
      exact ⟨hL, star_mono_left (fun h hh => ih A hw.1 _ (fun j => D' (j + 1)) u hu hp hE hD' _ _ _ h hh) _ hh⟩
    | reference A => exact star_mono_left (fun h hh => ih A hw _ (fun j => D' (j + 1)) u hu hp hE hD' _ _ _ h hh) _ hh
    | _ => cases hu

/-- One block of number `k` becomes one of its neighbour. -/
theorem move_one (sys : Sys) (t : AllocTy) (hw : t.WF) (x : Nat × List UInt8) (b : Nat) (s : (t.denote sys).St) (L : List (Nat × Nat)) (h : Heap)
    (j k : Nat) (D : Nat → List (Nat × List UInt8)) (hjk : j = k + 1 ∨ k = j + 1) (u : AllocTy) (hu : t.door (min j k) = some u)
    (hp : u.passes = true) (E : List (Nat × List UInt8)) (hE : (D k).Perm (x :: E)) (hh : (t.whole sys hw D).Inv b s L h) :
    (t.whole sys hw (put (put D k E) j (x :: D j))).Inv b s L h := by
  rcases hjk with rfl | rfl
  · rw [Nat.min_eq_right (by omega)] at hu
    refine move_whole sys k t hw D _ u hu hp ?_ ?_ b s L h hh
    · rw [put_self, put_ne _ _ (by omega), put_self]
      exact List.perm_middle.trans (hE.symm.append_right _)
    · intro i h1 h2
      rw [put_ne _ _ h2, put_ne _ _ h1]
  · rw [Nat.min_eq_left (by omega)] at hu
    refine move_whole sys j t hw D _ u hu hp ?_ ?_ b s L h hh
    · rw [put_self, put_ne _ _ (by omega), put_self]
      exact List.perm_middle.symm.trans (hE.symm.append_left _)
    · intro i h1 h2
      rw [put_ne _ _ h1, put_ne _ _ h2]

/-- One block of number `k` becomes one of number `j`. -/
theorem move_same (sys : Sys) (t : AllocTy) (hw : t.WF) (x : Nat × List UInt8) (b : Nat) (s : (t.denote sys).St) (L : List (Nat × Nat)) (h : Heap) :
    ∀ (n j k : Nat) (D : Nat → List (Nat × List UInt8)), max j k - min j k = n + 1 → t.Same j k → ∀ E, (D k).Perm (x :: E) →
    (t.whole sys hw D).Inv b s L h →
    (t.whole sys hw (put (put D k E) j (x :: D j))).Inv b s L h := by
  intro n
  induction n with
  | zero =>
    intro j k D hn hS E hE hh
    obtain ⟨u, hu, hp⟩ := hS (min j k) (Nat.le_refl _) (by omega)
    exact move_one sys t hw x b s L h j k D (by omega) u hu hp E hE hh
  | succ n ih =>
    intro j k D hn hS E hE hh
    -- one step towards `j`
    obtain ⟨k', hk', hmin⟩ : ∃ k', (k' = k + 1 ∨ k = k' + 1) ∧ max j k' - min j k' = n + 1 := by
      by_cases hlt : k < j
      · exact ⟨k + 1, .inl rfl, by omega⟩
      · exact ⟨k - 1, .inr (by omega), by omega⟩
    obtain ⟨u, hu, hp⟩ := hS (min k' k) (by omega) (by omega)
    have h1 := move_one sys t hw x b s L h k' k D hk' u hu hp E hE hh
    have hS' : t.Same j k' := fun i hi1 hi2 => hS i (by omega) (by omega)
    have h2 := ih j k' _ hmin hS' (D k') (by rw [put_self]) h1
    have e1 : put (put (put D k E) k' (x :: D k')) k' (D k') = put D k E := by
      rw [put_put]
      have := put_same (put D k E) k'
      rw [put_ne _ _ (by omega)] at this
      exact this
    rw [e1, put_ne _ _ (by omega), put_ne _ _ (by omega)] at h2
    exact h2

/-! ### What can be read off -/

/-- the blocks of all the allocators. Specification, not code. -/
def blocks (t : AllocTy) (D : Nat → List (Nat × List UInt8)) : List (Nat × List UInt8) := (List.range (t.depth + 1)).flatMap D

theorem blocks_succ {t A : AllocTy} (h : t.depth = A.depth + 1) (D : Nat → List (Nat × List UInt8)) :
    t.blocks D = D 0 ++ A.blocks fun j => D (j + 1) := by
  unfold blocks
  rw [h, List.range_succ_eq_map, List.flatMap_cons, List.flatMap_map]

theorem mem_blocks {t : AllocTy} {D : Nat → List (Nat × List UInt8)} {x} : x ∈ t.blocks D ↔ ∃ k, k ≤ t.depth ∧ x ∈ D k := by
  simp only [blocks, List.mem_flatMap, List.mem_range]
  exact ⟨fun ⟨k, h1, h2⟩ => ⟨k, by omega, h2⟩, fun ⟨k, h1, h2⟩ => ⟨k, by omega, h2⟩⟩

/-- The memory of all the blocks. -/
theorem gather (sys : Sys) : ∀ (t : AllocTy) (hw : t.WF) (D : Nat → List (Nat × List UInt8)) (b : Nat) (s : (t.denote sys).St)
    (L : List (Nat × Nat)) (h : Heap), (t.whole sys hw D).Inv b s L h →
    ∃ h1 h2, Heap.disj h1 h2 ∧ h = h1.add h2 ∧ blocksV (t.blocks D) h1 := by
  have leaf : ∀ (t : AllocTy), t.depth = 0 → ∀ (D : Nat → List (Nat × List UInt8)) (P : HProp) h, (P ∗ blocksV (D 0)) h →
      ∃ h1 h2, Heap.disj h1 h2 ∧ h = h1.add h2 ∧ blocksV (t.blocks D) h1 := by
    rintro t ht D P h ⟨h1, h2, hd, rfl, _, hb⟩
    refine ⟨h2, h1, Heap.disj_comm hd, Heap.add_comm hd, ?_⟩
    have : t.blocks D = D 0 := by simp [blocks, ht]
    rw [this]; exact hb
  have node : ∀ (t A : AllocTy), t.depth = A.depth + 1 → ∀ (D : Nat → List (Nat × List UInt8)) (P F : HProp) h, ((P ∗ F) ∗ blocksV (D 0)) h →
      (∀ g, P g → ∃ h1 h2, Heap.disj h1 h2 ∧ g = h1.add h2 ∧ blocksV (A.blocks fun j => D (j + 1)) h1) →
      ∃ h1 h2, Heap.disj h1 h2 ∧ h = h1.add h2 ∧ blocksV (t.blocks D) h1 := by
    rintro t A ht D P F h hh hP
    have hh' : (((fun g => blocksV (A.blocks fun j => D (j + 1)) g) ∗ (fun _ => True)) ∗ F ∗ blocksV (D 0)) h := by
      rw [star_assoc] at hh
      refine star_mono_left (fun g hg => ?_) h hh
      obtain ⟨h1, h2, hd, he, hb⟩ := hP g hg
      exact ⟨h1, h2, hd, he, hb, trivial⟩
    have e : (((blocksV (A.blocks fun j => D (j + 1))) ∗ (fun _ => True)) ∗ F ∗ blocksV (D 0)) =
        (blocksV (t.blocks D) ∗ ((fun _ => True) ∗ F)) := by
      rw [blocks_succ ht, blocksV_append]
      ac_rfl
    rw [show ((((fun g => blocksV (A.blocks fun j => D (j + 1)) g) ∗ (fun _ => True)) ∗ F ∗ blocksV (D 0))) = _ from e] at hh'
    obtain ⟨h1, h2, hd, he, hb, _⟩ := hh'
    exact ⟨h1, h2, hd, he, hb⟩
  intro t
  induction t with
  | freelist m M A ih =>
    intro hw D b s L h hh
    obtain ⟨h1, h2, hd, rfl, ⟨_, R, _, hh⟩, hb⟩ := hh
    exact node (.freelist m M A) A rfl D _ _ _ ⟨h1, h2, hd, rfl, hh, hb⟩ fun g hg => ih hw.1 _ _ _ _ g hg
  | overflow A ih =>
    intro hw D b s L h hh
    obtain ⟨h1, h2, hd, rfl, ⟨_, hh⟩, hb⟩ := hh
    exact node (.overflow A) A rfl D _ _ _ ⟨h1, h2, hd, rfl, hh, hb⟩ fun g hg => ih hw _ _ _ _ g hg
  | threaded A ih =>
    intro hw D b s L h hh
    exact node (.threaded A) A rfl D _ _ _ hh fun g hg => ih hw _ _ _ _ g hg
  | shared A ih =>
    intro hw D b s L h hh
    obtain ⟨h1, h2, hd, rfl, ⟨_, hh⟩, hb⟩ := hh
    exact node (.shared A) A rfl D _ _ _ ⟨h1, h2, hd, rfl, hh, hb⟩ fun g hg => ih hw.1 _ _ _ _ g hg
  | reference A ih =>
    intro hw D b s L h hh
    exact node (.reference A) A rfl D _ _ _ hh fun g hg => ih hw _ _ _ _ g hg
  | _ => intro hw D b s L h hh; exact leaf _ rfl D _ h hh

/-- The allocator number `k` and what it has given away: to the program, and to the allocators above. -/
theorem inner (sys : Sys) {β : Type} (f : (u : AllocTy) → (u.denote sys).St → β) : ∀ (k : Nat) (t : AllocTy) (hw : t.WF)
    (D : Nat → List (Nat × List UInt8)) (u : AllocTy) (_ : t.door k = some u) (b : Nat) (s : (t.denote sys).St)
    (L : List (Nat × Nat)) (h : Heap), (t.whole sys hw D).Inv b s L h →
    ∃ (hu : Sound (u.denote sys).sealed (u.fits sys.plat)) (b' : Nat) (s' : (u.denote sys).St) (L' : List (Nat × Nat)) (h1 h2 : Heap),
      Heap.disj h1 h2 ∧ h = h1.add h2 ∧ hu.Inv b' s' (L' ++ (D k).map blk) h1 ∧ t.ask sys f k s = some (f u s') ∧
      (∀ x, inLive L x → inLive (L' ++ (D k).map blk) x) ∧
      ∀ j, j ≤ k → ∀ x, inLive ((D j).map blk) x → inLive (L' ++ (D k).map blk) x := by
  intro k
  induction k with
  | zero =>
    rintro t hw D u hu b s L h ⟨h1, h2, hd, rfl, hi, hb⟩
    have : u = t := by cases t <;> exact (Option.some.inj hu).symm
    subst this
    refine ⟨_, b, s, L, h1, h2, hd, rfl, hi, by cases u <;> rfl, fun x hx => inLive_append.2 (.inl hx), fun j hj x hx => ?_⟩
    have : j = 0 := by omega
    subst this
    exact inLive_append.2 (.inr hx)
  | succ k ih =>
    rintro t hw D u hu b s L h ⟨h1, h2, hd, rfl, hi, hb⟩
    have close : ∀ (A : AllocTy) (hwA : A.WF) (b' : Nat) (s' : (A.denote sys).St) (L1 : List (Nat × Nat)) (F : HProp),
        A.door k = some u → (∀ s0, s0 = s → t.ask sys f (k + 1) s0 = A.ask sys f k s') →
        (∀ x, inLive (L ++ (D 0).map blk) x → inLive L1 x) →
        ((A.whole sys hwA fun j => D (j + 1)).Inv b' s' L1 ∗ F) h1 →
        ∃ (hu : Sound (u.denote sys).sealed (u.fits sys.plat)) (b' : Nat) (s' : (u.denote sys).St) (L' : List (Nat × Nat)) (g1 g2 : Heap),
          Heap.disj g1 g2 ∧ h1.add h2 = g1.add g2 ∧ hu.Inv b' s' (L' ++ (D (k + 1)).map blk) g1 ∧ t.ask sys f (k + 1) s = some (f u s') ∧
          (∀ x, inLive L x → inLive (L' ++ (D (k + 1)).map blk) x) ∧
          ∀ j, j ≤ k + 1 → ∀ x, inLive ((D j).map blk) x → inLive (L' ++ (D (k + 1)).map blk) x := by
      rintro A hwA b' s' L1 F hdoor hask hL ⟨g1, g2, hdg, rfl, hg, _⟩
      obtain ⟨hu', b'', s'', L', k1, k2, hdk, rfl, i1, i2, i3, i4⟩ := ih A hwA _ u hdoor b' s' L1 g1 hg
      have d1 := Heap.disj_add_left.1 hd
      have d2 := Heap.disj_add_left.1 hdg
      have d3 := Heap.disj_add_left.1 d1.1
      refine ⟨hu', b'', s'', L', k1, (k2.add g2).add h2, ?_, ?_, i1, (hask s rfl).trans i2, ?_, ?_⟩
      · exact Heap.disj_add_right.2 ⟨Heap.disj_add_right.2 ⟨hdk, d2.1⟩, d3.1⟩
      · simp only [Heap.add_assoc]
      · exact fun x hx => i3 x (hL x (inLive_append.2 (.inl hx)))
      · intro j hj x hx
        cases j with
        | zero => exact i3 x (hL x (inLive_append.2 (.inr hx)))
        | succ j => exact i4 j (by omega) x hx
    cases t with
    | freelist m M A =>
      obtain ⟨hL, R, _, hh⟩ := hi
      refine close A hw.1 b (Freelist.St.a s) _ _ hu (fun s0 e => by subst e; rfl) (fun x hx => ?_) hh
      obtain ⟨c, hc, hx⟩ := hx
      refine inLive_append.2 (.inl ⟨Freelist.full M c, List.mem_map_of_mem hc, ?_⟩)
      have := (hL c hc).2.1
      simp only [Freelist.full]; omega
    | overflow A =>
      obtain ⟨hL, hh⟩ := hi
      refine close A hw b (Overflow.St.a s) _ _ hu (fun s0 e => by subst e; rfl) (fun x hx => ?_) hh
      obtain ⟨c, hc, hx⟩ := hx
      refine ⟨Overflow.wide c, List.mem_map_of_mem hc, ?_⟩
      have := (hL c hc).1
      simp only [Overflow.wide]; omega
    | threaded A => exact close A hw b s _ _ hu (fun s0 e => by subst e; rfl) (fun x hx => hx) hi
    | shared A => exact close A hw.1 _ (Prod.snd (α := Nat) s) _ _ hu (fun s0 e => by subst e; rfl) (fun x hx => hx) hi.2
    | reference A => exact close A hw b s _ _ hu (fun s0 e => by subst e; rfl) (fun x hx => hx) hi
    | _ => cases hu

/-- All of them answer `owns` alike: the classes with `get_allocator()` pass it on. -/
theorem ask_owns (sys : Sys) (x : Nat) : ∀ (k : Nat) (t u : AllocTy) (_ : t.door k = some u) (s : (t.denote sys).St),
    t.ask sys (fun u s => (u.denote sys).owns.map fun o => o s x) k s = some ((t.denote sys).owns.map fun o => o s x)
  | 0, t, _, _, s => by cases t <;> rfl
  | k + 1, freelist m M A, u, hu, s =>
    (ask_owns sys x k A u hu (Freelist.St.a s)).trans (congrArg some (by simp only [denote, KTL.freelist, Option.map_map]; rfl))
  | k + 1, overflow A, u, hu, s =>
    (ask_owns sys x k A u hu (Overflow.St.a s)).trans (congrArg some (by simp only [denote, KTL.overflow, Option.map_map]; rfl))
  | k + 1, threaded A, u, hu, s => ask_owns sys x k A u hu s
  | k + 1, shared A, u, hu, s =>
    (ask_owns sys x k A u hu (Prod.snd (α := Nat) s)).trans (congrArg some (by simp only [denote, sharedAlloc, Option.map_map]; rfl))
  | k + 1, reference A, u, hu, s => ask_owns sys x k A u hu s
  | _ + 1, null, _, hu, _ => by cases hu
  | _ + 1, mallocator, _, hu, _ => by cases hu
  | _ + 1, linear _, _, hu, _ => by cases hu
  | _ + 1, stack _, _, hu, _ => by cases hu
  | _ + 1, fallback _ _, _, hu, _ => by cases hu
  | _ + 1, segragator _ _ _, _, hu, _ => by cases hu
  | _ + 1, cascading _, _, hu, _ => by cases hu

theorem hasOwns_door : ∀ (k : Nat) (t u : AllocTy) (_ : t.door k = some u), u.hasOwns = t.hasOwns
  | 0, t, u, h => by cases t <;> cases h <;> rfl
  | k + 1, freelist _ _ A, u, h => hasOwns_door k A u h
  | k + 1, overflow A, u, h => hasOwns_door k A u h
  | k + 1, threaded A, u, h => hasOwns_door k A u h
  | k + 1, shared A, u, h => hasOwns_door k A u h
  | k + 1, reference A, u, h => hasOwns_door k A u h
  | _ + 1, null, _, hu => by cases hu
  | _ + 1, mallocator, _, hu => by cases hu
  | _ + 1, linear _, _, hu => by cases hu
  | _ + 1, stack _, _, hu => by cases hu
  | _ + 1, fallback _ _, _, hu => by cases hu
  | _ + 1, segragator _ _ _, _, hu => by cases hu
  | _ + 1, cascading _, _, hu => by cases hu

/-- Without blocks of the inner allocators. -/
theorem bare (sys : Sys) : ∀ (t : AllocTy) (hw : t.WF) (D : Nat → List (Nat × List UInt8)), (∀ k, k < t.depth → D k = []) →
    ∀ (b : Nat) (s : (t.denote sys).St) (L : List (Nat × Nat)), (t.heldView sys hw D).Inv b s L = (t.sound sys hw).Inv b s L := by
  have node : ∀ (A : AllocTy) (hw : A.WF) (D : Nat → List (Nat × List UInt8)) (_ : ∀ k, k < A.depth + 1 → D k = [])
      (_ : ∀ (D : Nat → List (Nat × List UInt8)), (∀ k, k < A.depth → D k = []) →
        ∀ b s L, (A.heldView sys hw D).Inv b s L = (A.sound sys hw).Inv b s L) b s L,
      ((A.heldView sys hw fun k => D (k + 1)).hide (D 0)).Inv b s L = (A.sound sys hw).Inv b s L := by
    intro A hw D hD ih b s L
    show ((A.heldView sys hw fun k => D (k + 1)).Inv b s (L ++ (D 0).map blk) ∗ blocksV (D 0)) = _
    rw [hD 0 (by omega), List.map_nil, List.append_nil, blocksV_nil, star_emp]
    exact ih _ (fun k hk => hD _ (by omega)) b s L
  intro t
  induction t with
  | freelist m M A ih =>
    intro hw D hD b s L
    have e := node A hw.1 D hD (ih hw.1)
    funext h
    show (_ ∧ ∃ R, _ ∧ (((A.heldView sys hw.1 fun k => D (k + 1)).hide (D 0)).Inv b (Freelist.St.a s) _ ∗ _) h) = _
    simp only [e]
    rfl
  | overflow A ih =>
    intro hw D hD b s L
    have e := node A hw D hD (ih hw)
    funext h
    show (_ ∧ (((A.heldView sys hw fun k => D (k + 1)).hide (D 0)).Inv b (Overflow.St.a s) _ ∗ _) h) = _
    simp only [e]
    rfl
  | threaded A ih =>
    intro hw D hD b s L
    show (((A.heldView sys hw fun k => D (k + 1)).hide (D 0)).Inv b s L ∗ _) = _
    rw [node A hw D hD (ih hw) b s L]
    rfl
  | shared A ih =>
    intro hw D hD b s L
    have e := node A hw.1 D hD (ih hw.1)
    funext h
    show (_ ∧ (((A.heldView sys hw.1 fun k => D (k + 1)).hide (D 0)).Inv _ (Prod.snd (α := Nat) s) _ ∗ _) h) = _
    simp only [e]
    rfl
  | reference A ih =>
    intro hw D hD b s L
    show (((A.heldView sys hw fun k => D (k + 1)).hide (D 0)).Inv b s L ∗ _) = _
    rw [node A hw D hD (ih hw) b s L]
    rfl
  | _ => intro hw D hD b s L; rfl

end AllocTy

/-! ### Programs keep the invariant -/

/-- Proof helper, not code. -/
def DoorInv (sys : Sys) (t : AllocTy) (hw : t.WF) (b : Nat) (c : DoorClient sys t) : HProp := fun h =>
  (∀ k, t.depth < k → c.live k = []) ∧ ((t.whole sys hw c.live).Inv b c.st [] ∗ foreignV c.foreign) h

theorem blocksV_read (x : Nat × List UInt8) (R : List (Nat × List UInt8)) :
    Triple (blocksV (x :: R)) (M.readBytes x.1 x.2.length) (fun bs h => bs = x.2 ∧ blocksV (x :: R) h) := by
  refine ((triple_readBytes x.1 x.2).frame (blocksV R)).post ?_
  rintro bs _ ⟨h1, h2, hd, rfl, ⟨rfl, h3⟩, h4⟩
  exact ⟨rfl, h1, h2, hd, rfl, h3, h4⟩

theorem map_blk_set {R : List (Nat × List UInt8)} {i : Nat} {x y : Nat × List UInt8} (hi : R[i]? = some x) (hxy : blk y = blk x) :
    (R.set i y).map blk = R.map blk := by
  rw [List.map_set]
  apply List.ext_getElem?
  intro j
  by_cases hj : i = j
  · subst hj
    have : (R.map blk)[i]? = some (blk y) := by rw [List.getElem?_map, hi, hxy]; rfl
    rw [this, List.getElem?_set_self (by rw [List.getElem?_eq_some_iff] at this; exact this.1)]
  · rw [List.getElem?_set_ne hj]

namespace DoorClient

variable {sys : Sys} {t : AllocTy} (hw : t.WF) (b : Nat)

theorem live_door {c : DoorClient sys t} (h : ∀ k, t.depth < k → c.live k = []) {k i : Nat} {x} (hi : (c.live k)[i]? = some x) :
    ∃ u, t.door k = some u := by
  refine AllocTy.door_of_le k t ?_
  rcases Nat.lt_or_ge t.depth k with hk | hk
  · rw [h k hk] at hi; cases hi
  · exact hk

theorem keep_out {D : Nat → List (Nat × List UInt8)} (h : ∀ k, t.depth < k → D k = []) {k : Nat} (hk : k ≤ t.depth) (E) :
    ∀ j, t.depth < j → put D k E j = [] := by
  intro j hj
  rw [AllocTy.put_ne _ _ (by omega)]
  exact h j hj

theorem step_spec (c : DoorClient sys t) (o : DoorOp) (ho : DoorFits sys t o) :
    Triple (DoorInv sys t hw b c) (c.step o) (DoorInv sys t hw b) := by
  refine Triple.and (fun hout => ?_)
  cases o with
  | allocate k n =>
    obtain ⟨hn, u, hu, hf⟩ := ho
    have hk := AllocTy.le_of_door k t u hu
    have key := AllocTy.through_top sys (fun u s => (u.denote sys).alloc s n)
      (fun p E => (p = 0 ∧ E = c.live k) ∨ (p ≠ 0 ∧ ∃ bs, bs.length = n ∧ E = (p, bs) :: c.live k)) k t hw c.live u hu (fun hu b s R K _ => by
        refine (((hu.alloc_spec b s (R.map blk ++ (c.live k).map blk) n hf hn).frame (blocksV (c.live k)))).conseq (fun h hh => hh.2) ?_
        rintro r _ ⟨h1, h2, hd, rfl, ⟨h3, h4⟩ | ⟨hg, h3⟩, h5⟩
        · exact ⟨_, .inl ⟨h3, rfl⟩, h1, h2, hd, rfl, h4, h5⟩
        · obtain ⟨g1, g2, hdg, rfl, hi, hb⟩ := h3
          rw [bytes_eq_exists] at hb
          obtain ⟨bs, hl, hb⟩ := hb
          refine ⟨_, .inr ⟨hg.1, bs, hl, rfl⟩, ?_⟩
          show (hu.Inv b r.2 (R.map blk ++ (r.1, bs.length) :: (c.live k).map blk) ∗ (bytesV r.1 bs ∗ blocksV (c.live k))) _
          rw [hl, ← star_assoc]
          exact ⟨_, _, hd, rfl, ⟨g1, g2, hdg, rfl, hu.perm List.perm_middle.symm hi, hb⟩, h5⟩) b c.st
    refine Triple.bind (key.frame _) (fun r => ?_)
    refine Triple.pre (P := fun h => ∃ E, ((r.1 = 0 ∧ E = c.live k) ∨ (r.1 ≠ 0 ∧ ∃ bs, bs.length = n ∧ E = (r.1, bs) :: c.live k)) ∧
      ((t.whole sys hw (put c.live k E)).Inv b r.2 [] ∗ foreignV c.foreign) h) ?_ ?_
    · refine Triple.exists fun E => Triple.and fun hE => ?_
      rcases hE with ⟨h0, rfl⟩ | ⟨h0, bs, hl, rfl⟩
      · rw [if_pos h0, AllocTy.put_same]
        exact Triple.pure _ fun h hh => ⟨hout, hh⟩
      · rw [if_neg h0]
        refine Triple.bind ((AllocTy.at_top sys (M.readBytes r.1 n) (fun a E => a = bs ∧ E = (r.1, bs) :: c.live k) k t hw _ u hu
          ?_ b r.2).frame (foreignV c.foreign)) (fun a => ?_)
        · rw [AllocTy.put_self, ← hl]
          refine (blocksV_read (r.1, bs) (c.live k)).post ?_
          rintro a h ⟨rfl, hh⟩
          exact ⟨_, ⟨rfl, rfl⟩, rfl, hh⟩
        · refine Triple.pure _ ?_
          rintro _ ⟨h1, h2, hd, rfl, ⟨E, ⟨rfl, rfl⟩, hh⟩, hF⟩
          refine ⟨keep_out hout hk _, h1, h2, hd, rfl, ?_, hF⟩
          rw [AllocTy.put_put] at hh
          exact hh
    · rintro _ ⟨h1, h2, hd, rfl, ⟨E, hq, hh⟩, hF⟩
      exact ⟨E, hq, h1, h2, hd, rfl, hh, hF⟩
  | deallocate k i j =>
    simp only [step]
    cases hi : (c.live k)[i]? with
    | none => exact Triple.pure _ fun h hh => ⟨hout, hh⟩
    | some x =>
      simp only
      obtain ⟨uk, huk⟩ := live_door hout hi
      have hk := AllocTy.le_of_door k t uk huk
      have hp := perm_eraseIdx hi
      -- what `deallocate` does to the allocator the block belongs to
      have back : ∀ (D : Nat → List (Nat × List UInt8)) (j : Nat) (u : AllocTy) (_ : t.door j = some u) (E : List (Nat × List UInt8))
          (_ : (D j).Perm (x :: E)),
          Triple ((t.whole sys hw D).Inv b c.st []) (t.through sys (fun u s => do
              let s ← (u.denote sys).dealloc s x.1 x.2.length; pure ((), s)) j c.st)
            (fun r h => (t.whole sys hw (put D j E)).Inv b r.2 [] h) := by
        intro D j u hu E hE
        refine (AllocTy.through_top sys (fun u s => do let s ← (u.denote sys).dealloc s x.1 x.2.length; pure ((), s))
          (fun _ E' => E' = E) j t hw D u hu (fun hu b s R K hK => ?_) b c.st).post ?_
        · refine Triple.bind (R := fun s' h => (hu.hide E).Inv b s' (R.map blk) h) ?_ (fun s' => Triple.pure _ fun h hh => ⟨E, rfl, hh⟩)
          refine ((hu.hide E).dealloc_local b s x.1 x.2 R K hK).pre ?_
          rintro h ⟨hd, hh⟩
          refine ⟨hd, ?_⟩
          replace hh : (hu.Inv b s (R.map blk ++ (D j).map blk) ∗ blocksV (D j)) h := hh
          show ((hu.Inv b s (((x.1, x.2.length) :: R.map blk) ++ E.map blk) ∗ blocksV E) ∗ bytesV x.1 x.2) h
          rw [blocksV_perm hE, blocksV_cons, star_comm (bytesV x.1 x.2), ← star_assoc] at hh
          refine star_mono_left (star_mono_left fun _ hh => hu.perm ?_ hh) _ hh
          exact ((hE.map blk).append_left _).trans List.perm_middle
        · rintro r h ⟨E', rfl, hh⟩
          exact hh
      have main : Triple ((t.whole sys hw c.live).Inv b c.st []) (t.through sys (fun u s => do
              let s ← (u.denote sys).dealloc s x.1 x.2.length; pure ((), s)) j c.st)
            (fun r h => (t.whole sys hw (put c.live k ((c.live k).eraseIdx i))).Inv b r.2 [] h) := by
        by_cases hjk : j = k
        · subst hjk
          exact back c.live j uk huk _ hp
        · have hj : ∃ u, t.door j = some u := by
            rcases Nat.lt_or_ge j k with hlt | hge
            · exact AllocTy.door_of_le j t (by omega)
            · obtain ⟨v, hv, hpv⟩ := ho (j - 1) (by omega) (by omega)
              have := AllocTy.door_of_passes (j - 1) t v hv hpv
              rw [show j - 1 + 1 = j by omega] at this
              exact this
          obtain ⟨u, hu⟩ := hj
          refine ((back (put (put c.live k ((c.live k).eraseIdx i)) j (x :: c.live j)) j u hu (c.live j) (by rw [AllocTy.put_self])).pre
            (fun h hh => AllocTy.move_same sys t hw x b c.st [] h (max j k - min j k - 1) j k c.live (by omega) ho _ hp hh)).post ?_
          intro r h hh
          rw [AllocTy.put_put] at hh
          have := AllocTy.put_same (put c.live k ((c.live k).eraseIdx i)) j
          rw [AllocTy.put_ne _ _ hjk] at this
          rw [this] at hh
          exact hh
      refine Triple.bind (main.frame (foreignV c.foreign)) (fun r => Triple.pure _ fun h hh => ⟨keep_out hout hk _, hh⟩)
  | write k i off v =>
    simp only [step]
    cases hi : (c.live k)[i]? with
    | none => exact Triple.pure _ fun h hh => ⟨hout, hh⟩
    | some x =>
      simp only
      by_cases hoff : off < x.2.length
      · simp only [hoff, if_true]
        obtain ⟨u, hu⟩ := live_door hout hi
        have hk := AllocTy.le_of_door k t u hu
        refine Triple.bind ((AllocTy.at_top sys (M.store (x.1 + off) v) (fun _ E => E = (c.live k).set i (x.1, x.2.set off v)) k t hw _ u hu
          ?_ b c.st).frame (foreignV c.foreign)) (fun a => Triple.pure _ ?_)
        · have hp := perm_eraseIdx hi
          have hs := perm_set (y := (x.1, x.2.set off v)) hi
          rw [blocksV_perm hp]
          refine ((triple_storeV x.1 x.2 off v hoff).frame (blocksV ((c.live k).eraseIdx i))).post ?_
          intro _ h hh
          refine ⟨_, rfl, map_blk_set hi (by simp [blk]), ?_⟩
          rw [blocksV_perm hs]
          exact hh
        · rintro _ ⟨h1, h2, hd, rfl, ⟨E, rfl, hh⟩, hF⟩
          exact ⟨keep_out hout hk _, h1, h2, hd, rfl, hh, hF⟩
      · simp only [hoff, if_false]
        exact Triple.pure _ fun h hh => ⟨hout, hh⟩
  | construct k p =>
    obtain ⟨u, hu⟩ := AllocTy.door_of_le k t ho
    refine Triple.bind ((AllocTy.through_top sys (fun u s => do let s ← callOpt (u.denote sys).construct s p; pure ((), s))
      (fun _ E => E = c.live k) k t hw c.live u hu (fun hu b s R K hK => ?_) b c.st).frame (foreignV c.foreign)) (fun r => Triple.pure _ ?_)
    · refine Triple.bind (R := fun s' h => (hu.hide (c.live k)).Inv b s' (R.map blk) h) ?_ (fun s' => Triple.pure _ fun h hh => ⟨_, rfl, hh⟩)
      unfold callOpt
      cases hc : (u.denote sys).construct with
      | none => exact Triple.pure _ (fun _ h => h.2)
      | some f => exact ((hu.hide (c.live k)).construct_spec f hc b s (R.map blk) p).pre fun _ h => h.2
    · rintro _ ⟨h1, h2, hd, rfl, ⟨E, rfl, hh⟩, hF⟩
      rw [AllocTy.put_same] at hh
      exact ⟨hout, h1, h2, hd, rfl, hh, hF⟩
  | destroy k p =>
    obtain ⟨u, hu⟩ := AllocTy.door_of_le k t ho
    refine Triple.bind ((AllocTy.through_top sys (fun u s => do let s ← callOpt (u.denote sys).destroy s p; pure ((), s))
      (fun _ E => E = c.live k) k t hw c.live u hu (fun hu b s R K hK => ?_) b c.st).frame (foreignV c.foreign)) (fun r => Triple.pure _ ?_)
    · refine Triple.bind (R := fun s' h => (hu.hide (c.live k)).Inv b s' (R.map blk) h) ?_ (fun s' => Triple.pure _ fun h hh => ⟨_, rfl, hh⟩)
      unfold callOpt
      cases hc : (u.denote sys).destroy with
      | none => exact Triple.pure _ (fun _ h => h.2)
      | some f => exact ((hu.hide (c.live k)).destroy_spec f hc b s (R.map blk) p).pre fun _ h => h.2
    · rintro _ ⟨h1, h2, hd, rfl, ⟨E, rfl, hh⟩, hF⟩
      rw [AllocTy.put_same] at hh
      exact ⟨hout, h1, h2, hd, rfl, hh, hF⟩
  | foreign n =>
    have := (triple_cMalloc sys n).frame ((t.whole sys hw c.live).Inv b c.st [] ∗ foreignV c.foreign)
    rw [emp_star] at this
    refine Triple.bind this (fun p => ?_)
    by_cases hp : p = 0
    · simp only [hp, if_true]
      refine Triple.pure _ (fun h hh => ⟨hout, ?_⟩)
      obtain ⟨h1, h2, hd, rfl, h3 | h3, h4⟩ := hh
      · have : h1 = Heap.empty := h3.2
        subst this
        rw [Heap.empty_add]; exact h4
      · exact absurd h3.1 (by omega)
    · simp only [hp, if_false]
      refine Triple.pre (P := bytes p n ∗ (tok p n ∗ ((t.whole sys hw c.live).Inv b c.st [] ∗ foreignV c.foreign))) ?_ ?_
      · refine Triple.bind ((triple_readAny p n).frame _) (fun bs => ?_)
        rw [star_and]
        refine Triple.and (fun hl => Triple.pure _ (fun h hh => ⟨hout, ?_⟩))
        subst hl
        simp only [foreignV]
        have e : ((t.whole sys hw c.live).Inv b c.st [] ∗ ((tok p bs.length ∗ bytesV p bs) ∗ foreignV c.foreign)) =
          (bytesV p bs ∗ (tok p bs.length ∗ ((t.whole sys hw c.live).Inv b c.st [] ∗ foreignV c.foreign))) := by ac_rfl
        rw [e]; exact hh
      · rintro h ⟨h1, h2, hd, rfl, h3 | h3, h4⟩
        · exact h3.1.elim
        · have h5 : ((tok p n ∗ bytes p n) ∗ ((t.whole sys hw c.live).Inv b c.st [] ∗ foreignV c.foreign)) (h1.add h2) :=
            ⟨h1, h2, hd, rfl, h3.2.2.2, h4⟩
          have e : ((tok p n ∗ bytes p n) ∗ ((t.whole sys hw c.live).Inv b c.st [] ∗ foreignV c.foreign)) =
            (bytes p n ∗ (tok p n ∗ ((t.whole sys hw c.live).Inv b c.st [] ∗ foreignV c.foreign))) := by ac_rfl
          rw [e] at h5; exact h5

end DoorClient
end KTL
