import Verif.Alloc.Ty

/- Move constructors and move assignments of the allocators. `reference`, `stack_allocator` and `shared` are handles (see
`Alloc/Handles.lean`); `threaded` cannot be moved. -/
namespace KTL

/-- Move operations of an allocator class. Both return the fields of the target and of the source afterwards.

* `ctor b s`: move constructor of an object stored at `b`.
* `assign t s`: move assignment to an object with fields `t`.
* `self s`: the same with the object itself as source, `x = std::move(x)`: fields afterwards.
* `ready s`: the source may be moved from when the client holds no block of it. False only where `freelist` has an assertion against it
  (`allocators/freelist.h:65,86`).
* `carries`: the blocks the client holds move along with the allocator.
* `keeps`: they survive `x = std::move(x)`. -/
structure Moves (A : Allocator) where
  ctor : Nat → A.St → M (A.St × A.St)
  assign : A.St → A.St → M (A.St × A.St)
  self : A.St → M A.St
  ready : A.St → Bool
  carries : Bool
  keeps : Bool

namespace Moves

/-- Implicit (`mallocator.h:22,26`, `null_allocator.h:18,22`): there are no fields. -/
def stateless {A : Allocator} : Moves A where
  ctor _ s := pure (s, s)
  assign _ s := pure (s, s)
  self s := pure s
  ready _ := true
  carries := true
  keeps := true

/-- `allocators/linear_allocator.h:33-40` and `:49-57` (which does not reset `m_ObjectCount`). -/
def linear (Size : Nat) : Moves (KTL.linear Size) where
  ctor b s := pure (Linear.init b, s)
  assign t s := pure (⟨t.base, t.base, t.count⟩, s)
  self s := pure ⟨s.base, s.base, s.count⟩
  ready _ := true
  carries := false
  keeps := false

/-- `allocators/freelist.h:59-68` and `:77-91`. -/
def freelist (Min Max : Nat) {A : Allocator} (m : Moves A) : Moves (KTL.freelist Min Max A) where
  ctor b s := do
    let r ← m.ctor b s.a
    pure (⟨r.1, s.free⟩, ⟨r.2, 0⟩)
  assign t s := do
    let a ← Freelist.release A Max t.a t.free
    let r ← m.assign a s.a
    pure (⟨r.1, s.free⟩, ⟨r.2, 0⟩)
  self s := do
    let a ← Freelist.release A Max s.a s.free
    let a ← m.self a
    pure ⟨a, 0⟩
  ready s := (m.carries || s.free == 0) && m.ready s.a
  carries := m.carries
  keeps := m.keeps

/-- Member-wise, in the order of declaration: `allocators/fallback.h:81,85,207-208`. -/
def fallback {P F : Allocator} (m : Moves P) (k : Moves F) : Moves (KTL.fallback P F) where
  ctor b s := do
    let r ← m.ctor b s.1
    let q ← k.ctor (b + P.objSize) s.2
    pure ((r.1, q.1), (r.2, q.2))
  assign t s := do
    let r ← m.assign t.1 s.1
    let q ← k.assign t.2 s.2
    pure ((r.1, q.1), (r.2, q.2))
  self s := do
    let r ← m.self s.1
    let q ← k.self s.2
    pure (r, q)
  ready s := m.ready s.1 && k.ready s.2
  carries := m.carries && k.carries
  keeps := m.keeps && k.keeps

/-- Member-wise, in the order of declaration: `allocators/segragator.h:78,82,201-202`. -/
def segragator (T : Nat) {P F : Allocator} (m : Moves P) (k : Moves F) : Moves (KTL.segragator T P F) where
  ctor b s := do
    let r ← m.ctor b s.1
    let q ← k.ctor (b + P.objSize) s.2
    pure ((r.1, q.1), (r.2, q.2))
  assign t s := do
    let r ← m.assign t.1 s.1
    let q ← k.assign t.2 s.2
    pure ((r.1, q.1), (r.2, q.2))
  self s := do
    let r ← m.self s.1
    let q ← k.self s.2
    pure (r, q)
  ready s := m.ready s.1 && k.ready s.2
  carries := m.carries && k.carries
  keeps := m.keeps && k.keeps

/-- `allocators/cascading.h:50-55` and `:64-74`. -/
def cascading (sys : Sys) (A : Allocator) : Moves (KTL.cascading sys A) where
  ctor _ s := pure (s, [])
  assign t s := do
    Cascading.release sys A t
    pure (s, [])
  self s := do
    Cascading.release sys A s
    pure []
  ready _ := true
  carries := true
  keeps := false

/-- Member-wise `allocators/overflow.h:57`: the counters are copied. The move assignment is defaulted but the class has a
reference member (`:276`), so it does not exist. -/
def overflow {A : Allocator} (m : Moves A) : Moves (KTL.overflow A) where
  ctor b s := do
    let r ← m.ctor b s.a
    pure (⟨r.1, s.allocs, s.constructs⟩, ⟨r.2, s.allocs, s.constructs⟩)
  assign _ _ := M.ub
  self _ := M.ub
  ready s := m.ready s.a
  carries := m.carries
  keeps := false

/-- For types that are not treated here. Specification, not code. -/
def none {A : Allocator} : Moves A := ⟨fun _ _ => M.ub, fun _ _ => M.ub, fun _ => M.ub, fun _ => false, false, false⟩

end Moves

namespace AllocTy

/-- Move operations of a composed allocator.
Member-wise, `allocators/fallback.h:81`, `allocators/segragator.h:78`; for each class see the definitions above. -/
def moves (sys : Sys) : (t : AllocTy) → Moves (t.denote sys)
  | null => .stateless
  | mallocator => .stateless
  | linear S => .linear S
  | stack _ => .none
  | freelist m M A => .freelist m M (A.moves sys)
  | fallback P F => .fallback (P.moves sys) (F.moves sys)
  | segragator T P F => .segragator T (P.moves sys) (F.moves sys)
  | cascading A => .cascading sys (A.denote sys)
  | overflow A => .overflow (A.moves sys)
  | threaded _ => .none
  | shared _ => .none
  | reference _ => .none

/-- Types with a move constructor that is treated here. `allocators/threaded.h:42-43` deletes the constructors. -/
def movable : AllocTy → Bool
  | null => true
  | mallocator => true
  | linear _ => true
  | stack _ => false
  | freelist _ _ A => A.movable
  | fallback P F => P.movable && F.movable
  | segragator _ P F => P.movable && F.movable
  | cascading _ => true
  | overflow A => A.movable
  | threaded _ => false
  | shared _ => false
  | reference _ => false

/-- Types that also have a move assignment.
`allocators/threaded.h:45-46` deletes the assignments, `allocators/overflow.h` has a reference member. -/
def assignable : AllocTy → Bool
  | null => true
  | mallocator => true
  | linear _ => true
  | stack _ => false
  | freelist _ _ A => A.assignable
  | fallback P F => P.assignable && F.assignable
  | segragator _ P F => P.assignable && F.assignable
  | cascading _ => true
  | overflow _ => false
  | threaded _ => false
  | shared _ => false
  | reference _ => false

end AllocTy

/-! ### The contract of moves -/

/-- After a permitted move the target is a proper allocator with the blocks of the source, and the source one without blocks.
Specification, not code. -/
structure Moves.Builds {A : Allocator} {fA : Nat → Prop} (hA : Sound A fA) (m : Moves A) : Prop where
  ctor_spec : ∀ b b' s L, b ≠ 0 → b % 16 = 0 → b + A.objSize < W64 → m.ready s = true → (L = [] ∨ m.carries = true) →
    Triple (hA.Inv b' s L ∗ bytes b A.objSize) (m.ctor b s) (fun r => hA.Inv b r.1 L ∗ hA.Inv b' r.2 [])

/-- Specification, not code. -/
structure Moves.Assigns {A : Allocator} {fA : Nat → Prop} (hA : Sound A fA) (m : Moves A) : Prop where
  assign_spec : ∀ b b' t s L, m.ready s = true → (L = [] ∨ m.carries = true) →
    Triple (hA.Inv b t [] ∗ hA.Inv b' s L) (m.assign t s) (fun r => hA.Inv b r.1 L ∗ hA.Inv b' r.2 [])
  self_spec : ∀ b s L, (L = [] ∨ m.keeps = true) →
    Triple (hA.Inv b s (L.map blk) ∗ blocksV L) (m.self s) (fun s' => hA.Inv b s' (L.map blk) ∗ blocksV L)

theorem null_builds : (Moves.stateless : Moves nullAlloc).Builds null_sound where
  ctor_spec b b' s L _ _ _ _ _ := by
    refine Triple.pure _ (fun h hh => ?_)
    have e : bytes b nullAlloc.objSize = emp := bytes_zero b
    rw [e, star_emp] at hh
    obtain ⟨rfl, h2⟩ := hh
    refine ⟨h, .empty, Heap.disj_empty _, by simp, ⟨rfl, h2⟩, rfl, rfl⟩

theorem null_assigns : (Moves.stateless : Moves nullAlloc).Assigns null_sound where
  assign_spec b b' t s L _ _ := by
    refine Triple.pure _ (fun h hh => ?_)
    obtain ⟨h1, h2, hd, rfl, h3, h4⟩ := hh
    obtain ⟨rfl, h5⟩ := h4
    exact ⟨h1, h2, hd, rfl, h3, rfl, h5⟩
  self_spec _ _ _ _ := Triple.pure _ (fun _ hh => hh)

theorem mallocator_builds (sys : Sys) : (Moves.stateless : Moves (mallocator sys)).Builds (mallocator_sound sys) where
  ctor_spec b b' s L _ _ _ _ _ := by
    refine Triple.pure _ (fun h hh => ?_)
    have e : bytes b (mallocator sys).objSize = emp := bytes_zero b
    rw [e, star_emp] at hh
    exact ⟨h, .empty, Heap.disj_empty _, by simp, hh, by simp, rfl⟩

theorem mallocator_assigns (sys : Sys) : (Moves.stateless : Moves (mallocator sys)).Assigns (mallocator_sound sys) where
  assign_spec b b' t s L _ _ := by
    refine Triple.pure _ (fun h hh => ?_)
    rw [star_comm] at hh
    exact hh
  self_spec _ _ _ _ := Triple.pure _ (fun _ hh => hh)

theorem linear_builds (Size : Nat) : (Moves.linear Size).Builds (linear_sound Size) where
  ctor_spec b b' s L h1 h2 h3 _ hL := by
    have hL : L = [] := hL.elim id (fun h => by cases h)
    subst hL
    rw [star_comm]
    have := ((linear_sound Size).init_spec b h1 h2 h3).frame ((linear_sound Size).Inv b' s [])
    exact Triple.bind (f := fun a => pure (a, s)) this (fun a => Triple.pure _ (fun h hh => hh))

/-- an unused linear allocator is in its initial state -/
theorem Linear.Ok.fresh' {Size base : Nat} {s : Linear.St} (h : Linear.Ok Size base s []) : s = Linear.init base := by
  have h1 := h.base_eq
  have h2 : s.count = 0 := h.count
  have h3 : s.free = base := h.fresh rfl
  obtain ⟨x, y, z⟩ := s
  simp only at h1 h2 h3
  subst h1 h2 h3
  rfl

theorem linear_assigns (Size : Nat) : (Moves.linear Size).Assigns (linear_sound Size) where
  assign_spec b b' t s L _ hL := by
    have hL : L = [] := hL.elim id (fun h => by cases h)
    subst hL
    refine Triple.have (p := t = Linear.init b) ?_ (fun ht => ?_)
    · rintro h ⟨h1, h2, hd, rfl, h3, h4⟩
      exact Linear.Ok.fresh' h3.2.1
    · subst ht
      exact Triple.pure _ (fun h hh => hh)
  self_spec b s L hL := by
    have hL : L = [] := hL.elim id (fun h => by cases h)
    subst hL
    refine Triple.have (p := s = Linear.init b) ?_ (fun hs => ?_)
    · rintro h ⟨h1, h2, hd, rfl, h3, h4⟩
      exact Linear.Ok.fresh' h3.2.1
    · subst hs
      exact Triple.pure _ (fun h hh => hh)

/-- the blocks of the underlying allocator behind the blocks `L`, with the unused bytes `T` at their ends (helper) -/
def padded : List (Nat × List UInt8) → List (List UInt8) → List (Nat × List UInt8)
  | c :: L, t :: T => (c.1, c.2 ++ t) :: padded L T
  | _, _ => []

/-- the unused ends and the blocks make up the blocks of the underlying allocator -/
theorem slack_padded (Max : Nat) (L : List (Nat × List UInt8)) (hL : ∀ c ∈ L.map blk, c.2 ≤ Max) :
    (Freelist.slack Max (L.map blk) ∗ blocksV L) =
      fun h => ∃ T, (padded L T).map blk = (L.map blk).map (Freelist.full Max) ∧ blocksV (padded L T) h := by
  induction L with
  | nil =>
    funext h
    refine propext ⟨fun hh => ⟨[], rfl, ?_⟩, fun ⟨T, _, hh⟩ => ?_⟩
    · simpa [Freelist.slack, padded, blocksV] using hh
    · simpa [Freelist.slack, padded, blocksV] using hh
  | cons c L ih =>
    have hc : c.2.length ≤ Max := hL (blk c) (by simp)
    have ih := ih (fun d hd => hL d (by rw [List.map_cons]; exact List.mem_cons_of_mem _ hd))
    have e : (Freelist.slack Max ((c :: L).map blk) ∗ blocksV (c :: L)) =
        ((bytesV c.1 c.2 ∗ bytes (c.1 + c.2.length) (Max - c.2.length)) ∗ (Freelist.slack Max (L.map blk) ∗ blocksV L)) := by
      simp only [List.map_cons, Freelist.slack, blocksV, blk]
      ac_rfl
    rw [e, ih]
    funext h
    refine propext ⟨?_, ?_⟩
    · rintro ⟨h1, h2, hd, rfl, ⟨k1, k2, dk, rfl, hk1, hk2⟩, T, hT, hh⟩
      obtain ⟨t, ht, hk2⟩ := bytes_exists hk2
      refine ⟨t :: T, ?_, ?_⟩
      · simp only [padded, List.map_cons, hT, List.cons.injEq, and_true]
        simp only [blk, Freelist.full, List.length_append, ht]
        rw [Nat.add_sub_cancel' hc]
      · simp only [padded, blocksV]
        refine ⟨_, h2, hd, rfl, ?_, hh⟩
        rw [bytesV_append]
        exact ⟨k1, k2, dk, rfl, hk1, hk2⟩
    · rintro ⟨T, hT, hh⟩
      cases T with
      | nil => simp [padded] at hT
      | cons t T =>
        simp only [padded, List.map_cons, List.cons.injEq] at hT
        simp only [padded, blocksV] at hh
        obtain ⟨h1, h2, hd, rfl, hh1, hh2⟩ := hh
        refine ⟨h1, h2, hd, rfl, ?_, T, hT.2, hh2⟩
        rw [bytesV_append] at hh1
        have ht : t.length = Max - c.2.length := by
          have := congrArg Prod.snd hT.1
          simp only [blk, Freelist.full, List.length_append] at this
          omega
        exact star_mono_right (fun h hh => ht ▸ bytesV_length hh) _ hh1

section
variable {A : Allocator} {fA : Nat → Prop} {hA : Sound A fA} {m : Moves A}

theorem freelist_builds (Min Max : Nat) (h8 : 8 ≤ Max) (hW : Max < W64) (hm : m.Builds hA) :
    (m.freelist Min Max).Builds (freelist_sound Min Max hA h8 hW) where
  ctor_spec b b' s L h1 h2 h3 hr hL := by
    have hr' : (m.carries = true ∨ s.free = 0) ∧ m.ready s.a = true := by
      simpa [Moves.freelist] using hr
    have h3' : b + (A.objSize + 16) < W64 := h3
    show Triple ((fun h => _ ∧ ∃ R, Freelist.FInv Max hA b' s L R h) ∗ bytes b (A.objSize + 16)) _ _
    rw [star_and, star_exists]
    refine Triple.and (fun hc => Triple.exists (fun R => ?_))
    unfold Freelist.FInv
    rw [star_and]
    refine Triple.and (fun hl => ?_)
    have hLR : L.map (Freelist.full Max) ++ R.map blk = [] ∨ m.carries = true := by
      rcases hr'.1 with hk | hf
      · exact .inr hk
      · rcases hL with rfl | hk
        · left
          cases R with
          | nil => rfl
          | cons c R => exact absurd (hl.1.1.symm.trans hf) hl.1.2.1
        · exact .inr hk
    rw [bytes_split]
    have e : ((hA.Inv b' s.a (L.map (Freelist.full Max) ++ R.map blk) ∗ Freelist.slack Max L ∗ blocksV R ∗ bytes (b' + A.objSize) 16) ∗
        bytes b A.objSize ∗ bytes (b + A.objSize) 16) =
      ((hA.Inv b' s.a (L.map (Freelist.full Max) ++ R.map blk) ∗ bytes b A.objSize) ∗
        (Freelist.slack Max L ∗ blocksV R ∗ bytes (b' + A.objSize) 16 ∗ bytes (b + A.objSize) 16)) := by ac_rfl
    rw [e]
    refine Triple.bind ((hm.ctor_spec b b' s.a _ h1 h2 (by omega) hr'.2 hLR).frame _) (fun r => ?_)
    refine Triple.pure _ (fun h hh => ?_)
    have e2 : ((hA.Inv b r.1 (L.map (Freelist.full Max) ++ R.map blk) ∗ hA.Inv b' r.2 []) ∗
        (Freelist.slack Max L ∗ blocksV R ∗ bytes (b' + A.objSize) 16 ∗ bytes (b + A.objSize) 16)) =
      ((hA.Inv b r.1 (L.map (Freelist.full Max) ++ R.map blk) ∗ Freelist.slack Max L ∗ blocksV R ∗ bytes (b + A.objSize) 16) ∗
        (hA.Inv b' r.2 [] ∗ bytes (b' + A.objSize) 16)) := by ac_rfl
    rw [e2] at hh
    refine star_mono (fun h hh => ⟨hc, R, hl, hh⟩) (fun h hh => ⟨by simp, [], ⟨rfl, by simp⟩, ?_⟩) h hh
    simpa [Freelist.slack, blocksV] using hh

theorem freelist_assigns (Min Max : Nat) (h8 : 8 ≤ Max) (hW : Max < W64) (hm : m.Assigns hA) :
    (m.freelist Min Max).Assigns (freelist_sound Min Max hA h8 hW) where
  assign_spec b b' t s L hr hL := by
    have hr' : (m.carries = true ∨ s.free = 0) ∧ m.ready s.a = true := by
      simpa [Moves.freelist] using hr
    show Triple ((fun h => _ ∧ ∃ R, Freelist.FInv Max hA b t [] R h) ∗ (fun h => _ ∧ ∃ R, Freelist.FInv Max hA b' s L R h)) _ _
    rw [star_and, star_exists]
    refine Triple.and (fun _ => Triple.exists (fun T => ?_))
    rw [star_and', star_exists']
    refine Triple.and (fun hc => Triple.exists (fun R => ?_))
    unfold Freelist.FInv
    rw [star_and]
    refine Triple.and (fun ht => ?_)
    rw [star_and']
    refine Triple.and (fun hl => ?_)
    have hLR : L.map (Freelist.full Max) ++ R.map blk = [] ∨ m.carries = true := by
      rcases hr'.1 with hk | hf
      · exact .inr hk
      · rcases hL with rfl | hk
        · left
          cases R with
          | nil => rfl
          | cons c R => exact absurd (hl.1.1.symm.trans hf) hl.1.2.1
        · exact .inr hk
    have e : ((hA.Inv b t.a (([] : List (Nat × Nat)).map (Freelist.full Max) ++ T.map blk) ∗ Freelist.slack Max [] ∗ blocksV T ∗ bytes (b + A.objSize) 16) ∗
        (hA.Inv b' s.a (L.map (Freelist.full Max) ++ R.map blk) ∗ Freelist.slack Max L ∗ blocksV R ∗ bytes (b' + A.objSize) 16)) =
      ((hA.Inv b t.a (T.map blk) ∗ blocksV T) ∗ (hA.Inv b' s.a (L.map (Freelist.full Max) ++ R.map blk) ∗
        (Freelist.slack Max L ∗ blocksV R ∗ bytes (b' + A.objSize) 16 ∗ bytes (b + A.objSize) 16))) := by
      simp only [List.map_nil, List.nil_append, Freelist.slack, emp_star]; ac_rfl
    rw [e]
    refine Triple.bind ((Freelist.release_spec hA Max b T t.a t.free ht.1).frame _) (fun a => ?_)
    rw [← star_assoc]
    refine Triple.bind ((hm.assign_spec b b' a s.a _ hr'.2 hLR).frame _) (fun r => ?_)
    refine Triple.pure _ (fun h hh => ?_)
    have e2 : ((hA.Inv b r.1 (L.map (Freelist.full Max) ++ R.map blk) ∗ hA.Inv b' r.2 []) ∗
        (Freelist.slack Max L ∗ blocksV R ∗ bytes (b' + A.objSize) 16 ∗ bytes (b + A.objSize) 16)) =
      ((hA.Inv b r.1 (L.map (Freelist.full Max) ++ R.map blk) ∗ Freelist.slack Max L ∗ blocksV R ∗ bytes (b + A.objSize) 16) ∗
        (hA.Inv b' r.2 [] ∗ bytes (b' + A.objSize) 16)) := by ac_rfl
    rw [e2] at hh
    refine star_mono (fun h hh => ⟨hc, R, hl, hh⟩) (fun h hh => ⟨by simp, [], ⟨rfl, by simp⟩, ?_⟩) h hh
    simpa [Freelist.slack, blocksV] using hh
  self_spec b s L hL := by
    show Triple ((fun h => _ ∧ ∃ R, Freelist.FInv Max hA b s (L.map blk) R h) ∗ blocksV L) _ _
    rw [star_and, star_exists]
    refine Triple.and (fun hc => Triple.exists (fun R => ?_))
    unfold Freelist.FInv
    rw [star_and]
    refine Triple.and (fun hl => ?_)
    have e : ((hA.Inv b s.a ((L.map blk).map (Freelist.full Max) ++ R.map blk) ∗ Freelist.slack Max (L.map blk) ∗ blocksV R ∗ bytes (b + A.objSize) 16) ∗
        blocksV L) = ((Freelist.slack Max (L.map blk) ∗ blocksV L) ∗
          (hA.Inv b s.a ((L.map blk).map (Freelist.full Max) ++ R.map blk) ∗ blocksV R ∗ bytes (b + A.objSize) 16)) := by ac_rfl
    rw [e, slack_padded Max L (fun c hc' => (hc c hc').2.1), star_exists]
    refine Triple.exists (fun T => ?_)
    rw [star_and]
    refine Triple.and (fun hT => ?_)
    have e2 : (blocksV (padded L T) ∗ (hA.Inv b s.a ((L.map blk).map (Freelist.full Max) ++ R.map blk) ∗ blocksV R ∗ bytes (b + A.objSize) 16)) =
        ((hA.Inv b s.a ((L.map blk).map (Freelist.full Max) ++ R.map blk) ∗ blocksV (R ++ padded L T)) ∗ bytes (b + A.objSize) 16) := by
      rw [blocksV_append]; ac_rfl
    rw [e2]
    have hi : ∀ h, hA.Inv b s.a ((L.map blk).map (Freelist.full Max) ++ R.map blk) h → hA.Inv b s.a ((R ++ padded L T).map blk) h := fun h hh =>
      hA.perm (by rw [List.map_append, hT]; exact List.perm_append_comm) hh
    refine Triple.bind (((Freelist.release_keeps hA Max b (padded L T) R s.a s.free hl.1).pre (star_mono_left hi)).frame _) (fun a => ?_)
    have hk : padded L T = [] ∨ m.keeps = true := hL.imp (fun h => by rw [h]; rfl) id
    refine Triple.bind ((hm.self_spec b a _ hk).frame _) (fun a' => ?_)
    refine Triple.pure _ (fun h hh => ?_)
    rw [star_assoc] at hh
    have hh : (hA.Inv b a' ((padded L T).map blk) ∗ (Freelist.slack Max (L.map blk) ∗ blocksV L) ∗ bytes (b + A.objSize) 16) h := by
      refine star_mono_right (star_mono_left (fun g hg => ?_)) h hh
      rw [slack_padded Max L (fun c hc' => (hc c hc').2.1)]
      exact ⟨T, hT, hg⟩
    have e3 : (hA.Inv b a' ((padded L T).map blk) ∗ (Freelist.slack Max (L.map blk) ∗ blocksV L) ∗ bytes (b + A.objSize) 16) =
        ((hA.Inv b a' ((padded L T).map blk) ∗ Freelist.slack Max (L.map blk) ∗ bytes (b + A.objSize) 16) ∗ blocksV L) := by ac_rfl
    rw [e3] at hh
    refine star_mono_left (fun g hg => ⟨hc, [], ⟨rfl, by simp⟩, ?_⟩) h hh
    rw [List.map_nil, List.append_nil, blocksV, emp_star, ← hT]
    exact hg

theorem overflow_builds (hm : m.Builds hA) : m.overflow.Builds (overflow_sound hA) where
  ctor_spec b b' s L h1 h2 h3 hr hL := by
    have h3' : b + (A.objSize + 32) < W64 := h3
    show Triple ((fun h => _ ∧ (hA.Inv b' s.a (L.map Overflow.wide) ∗ Overflow.guards L ∗ bytes (b' + A.objSize) 32) h) ∗ bytes b (A.objSize + 32)) _ _
    rw [star_and]
    refine Triple.and (fun hc => ?_)
    have hL' : L.map Overflow.wide = [] ∨ m.carries = true := hL.imp (fun h => by rw [h]; rfl) id
    rw [bytes_split]
    have e : ((hA.Inv b' s.a (L.map Overflow.wide) ∗ Overflow.guards L ∗ bytes (b' + A.objSize) 32) ∗ bytes b A.objSize ∗ bytes (b + A.objSize) 32) =
      ((hA.Inv b' s.a (L.map Overflow.wide) ∗ bytes b A.objSize) ∗ (Overflow.guards L ∗ bytes (b' + A.objSize) 32 ∗ bytes (b + A.objSize) 32)) := by
      ac_rfl
    rw [e]
    refine Triple.bind ((hm.ctor_spec b b' s.a _ h1 h2 (by omega) hr hL').frame _) (fun r => ?_)
    refine Triple.pure _ (fun h hh => ?_)
    have e2 : ((hA.Inv b r.1 (L.map Overflow.wide) ∗ hA.Inv b' r.2 []) ∗ (Overflow.guards L ∗ bytes (b' + A.objSize) 32 ∗ bytes (b + A.objSize) 32)) =
      ((hA.Inv b r.1 (L.map Overflow.wide) ∗ Overflow.guards L ∗ bytes (b + A.objSize) 32) ∗ (hA.Inv b' r.2 [] ∗ bytes (b' + A.objSize) 32)) := by
      ac_rfl
    rw [e2] at hh
    refine star_mono (fun h hh => ⟨hc, hh⟩) (fun h hh => ⟨by simp, ?_⟩) h hh
    simpa [Overflow.guards] using hh

theorem cascading_builds (sys : Sys) (ho : A.owns.isSome = true) (hmax : MaxTotal A) (hsz : MallocFits sys.plat (Cascading.nodeSize A)) :
    (Moves.cascading sys A).Builds (cascading_sound sys hA ho hmax hsz) where
  ctor_spec b b' s L h1 h2 h3 hr hL := by
    refine Triple.pure _ (fun h hh => ?_)
    obtain ⟨g1, g2, hd, rfl, ⟨hc, NL, hn, hi⟩, hb⟩ := hh
    have hh : ((Cascading.nodesInv sys.plat hA NL ∗ bytes b' 16) ∗ bytes b 16) (g1.add g2) := ⟨g1, g2, hd, rfl, hi, hb⟩
    have e : ((Cascading.nodesInv sys.plat hA NL ∗ bytes b' 16) ∗ bytes b 16) = ((Cascading.nodesInv sys.plat hA NL ∗ bytes b 16) ∗ bytes b' 16) := by
      ac_rfl
    rw [e] at hh
    refine star_mono (fun h hh => ⟨hc, NL, hn, hh⟩) (fun h hh => ⟨by simp, [], ⟨rfl, by intro x hx; simp at hx, by simp⟩, ?_⟩) _ hh
    rw [Cascading.nodesInv, emp_star]; exact hh

theorem cascading_assigns (sys : Sys) (ho : A.owns.isSome = true) (hmax : MaxTotal A) (hsz : MallocFits sys.plat (Cascading.nodeSize A)) :
    (Moves.cascading sys A).Assigns (cascading_sound sys hA ho hmax hsz) where
  assign_spec b b' t s L hr hL := by
    show Triple ((fun h => _ ∧ ∃ NL, _ ∧ (Cascading.nodesInv sys.plat hA NL ∗ bytes b 16) h) ∗
      (fun h => _ ∧ ∃ NL, _ ∧ (Cascading.nodesInv sys.plat hA NL ∗ bytes b' 16) h)) _ _
    rw [star_and, star_exists]
    refine Triple.and (fun _ => Triple.exists (fun TL => ?_))
    rw [star_and]
    refine Triple.and (fun ⟨t1, t2, t3⟩ => ?_)
    rw [star_and', star_exists']
    refine Triple.and (fun hc => Triple.exists (fun NL => ?_))
    rw [star_and']
    refine Triple.and (fun hn => ?_)
    subst t1
    rw [star_assoc]
    refine Triple.bind ((Cascading.release_spec sys hA TL t2 (List.nil_perm.1 t3)).frame _) (fun _ => ?_)
    rw [emp_star]
    refine Triple.pure _ (fun h hh => ?_)
    have e : (bytes b 16 ∗ Cascading.nodesInv sys.plat hA NL ∗ bytes b' 16) = ((Cascading.nodesInv sys.plat hA NL ∗ bytes b 16) ∗ bytes b' 16) := by
      ac_rfl
    rw [e] at hh
    refine star_mono (fun h hh => ⟨hc, NL, hn, hh⟩) (fun h hh => ⟨by simp, [], ⟨rfl, by intro x hx; simp at hx, by simp⟩, ?_⟩) _ hh
    rw [Cascading.nodesInv, emp_star]; exact hh
  self_spec b s L hL := by
    have hL : L = [] := hL.elim id (fun h => by cases h)
    subst hL
    rw [blocksV]
    simp only [star_emp]
    show Triple (fun h => _ ∧ ∃ NL, _ ∧ (Cascading.nodesInv sys.plat hA NL ∗ bytes b 16) h) _ _
    refine Triple.and (fun hc => Triple.exists (fun NL => Triple.and (fun ⟨t1, t2, t3⟩ => ?_)))
    subst t1
    refine Triple.bind ((Cascading.release_spec sys hA NL t2 (List.nil_perm.1 t3)).frame _) (fun _ => ?_)
    refine Triple.pure _ (fun h hh => ⟨hc, [], ⟨rfl, by intro x hx; simp at hx, by simp⟩, ?_⟩)
    rw [Cascading.nodesInv]; exact hh

end

section
variable {P F : Allocator} {fP fF : Nat → Prop} {hP : Sound P fP} {hF : Sound F fF} {m : Moves P} {k : Moves F}

/-- both members, move construction -/
theorem ctor2_spec (hm : m.Builds hP) (hk : k.Builds hF) (b b' : Nat) (s : P.St × F.St) (L1 L2 : List (Nat × Nat)) (h1 : b ≠ 0) (h2 : b % 16 = 0)
    (h3 : b + (P.objSize + F.objSize) < W64) (hr : m.ready s.1 = true ∧ k.ready s.2 = true) (hL1 : L1 = [] ∨ m.carries = true)
    (hL2 : L2 = [] ∨ k.carries = true) :
    Triple ((hP.Inv b' s.1 L1 ∗ hF.Inv (b' + P.objSize) s.2 L2) ∗ bytes b (P.objSize + F.objSize))
      (do
        let r ← m.ctor b s.1
        let q ← k.ctor (b + P.objSize) s.2
        pure ((r.1, q.1), (r.2, q.2)) : M ((P.St × F.St) × (P.St × F.St)))
      (fun r => (hP.Inv b r.1.1 L1 ∗ hF.Inv (b + P.objSize) r.1.2 L2) ∗ (hP.Inv b' r.2.1 [] ∗ hF.Inv (b' + P.objSize) r.2.2 [])) := by
  have ha := hP.objAlign
  rw [bytes_split]
  have e : ((hP.Inv b' s.1 L1 ∗ hF.Inv (b' + P.objSize) s.2 L2) ∗ bytes b P.objSize ∗ bytes (b + P.objSize) F.objSize) =
    ((hP.Inv b' s.1 L1 ∗ bytes b P.objSize) ∗ (hF.Inv (b' + P.objSize) s.2 L2 ∗ bytes (b + P.objSize) F.objSize)) := by ac_rfl
  rw [e]
  refine Triple.bind ((hm.ctor_spec b b' s.1 L1 h1 h2 (by omega) hr.1 hL1).frame _) (fun r => ?_)
  rw [star_comm]
  refine Triple.bind ((hk.ctor_spec (b + P.objSize) (b' + P.objSize) s.2 L2 (by omega) (by omega) (by omega) hr.2 hL2).frame _) (fun q => ?_)
  refine Triple.pure _ (fun h hh => ?_)
  have e2 : ((hF.Inv (b + P.objSize) q.1 L2 ∗ hF.Inv (b' + P.objSize) q.2 []) ∗ (hP.Inv b r.1 L1 ∗ hP.Inv b' r.2 [])) =
    ((hP.Inv b r.1 L1 ∗ hF.Inv (b + P.objSize) q.1 L2) ∗ (hP.Inv b' r.2 [] ∗ hF.Inv (b' + P.objSize) q.2 [])) := by ac_rfl
  rw [e2] at hh; exact hh

/-- both members, move assignment -/
theorem assign2_spec (hm : m.Assigns hP) (hk : k.Assigns hF) (b b' : Nat) (t s : P.St × F.St) (L1 L2 : List (Nat × Nat))
    (hr : m.ready s.1 = true ∧ k.ready s.2 = true) (hL1 : L1 = [] ∨ m.carries = true) (hL2 : L2 = [] ∨ k.carries = true) :
    Triple ((hP.Inv b t.1 [] ∗ hF.Inv (b + P.objSize) t.2 []) ∗ (hP.Inv b' s.1 L1 ∗ hF.Inv (b' + P.objSize) s.2 L2))
      (do
        let r ← m.assign t.1 s.1
        let q ← k.assign t.2 s.2
        pure ((r.1, q.1), (r.2, q.2)) : M ((P.St × F.St) × (P.St × F.St)))
      (fun r => (hP.Inv b r.1.1 L1 ∗ hF.Inv (b + P.objSize) r.1.2 L2) ∗ (hP.Inv b' r.2.1 [] ∗ hF.Inv (b' + P.objSize) r.2.2 [])) := by
  have e : ((hP.Inv b t.1 [] ∗ hF.Inv (b + P.objSize) t.2 []) ∗ (hP.Inv b' s.1 L1 ∗ hF.Inv (b' + P.objSize) s.2 L2)) =
    ((hP.Inv b t.1 [] ∗ hP.Inv b' s.1 L1) ∗ (hF.Inv (b + P.objSize) t.2 [] ∗ hF.Inv (b' + P.objSize) s.2 L2)) := by ac_rfl
  rw [e]
  refine Triple.bind ((hm.assign_spec b b' t.1 s.1 L1 hr.1 hL1).frame _) (fun r => ?_)
  rw [star_comm]
  refine Triple.bind ((hk.assign_spec (b + P.objSize) (b' + P.objSize) t.2 s.2 L2 hr.2 hL2).frame _) (fun q => ?_)
  refine Triple.pure _ (fun h hh => ?_)
  have e2 : ((hF.Inv (b + P.objSize) q.1 L2 ∗ hF.Inv (b' + P.objSize) q.2 []) ∗ (hP.Inv b r.1 L1 ∗ hP.Inv b' r.2 [])) =
    ((hP.Inv b r.1 L1 ∗ hF.Inv (b + P.objSize) q.1 L2) ∗ (hP.Inv b' r.2 [] ∗ hF.Inv (b' + P.objSize) q.2 [])) := by ac_rfl
  rw [e2] at hh; exact hh

/-- both members, `x = std::move(x)` -/
theorem self2_spec (hm : m.Assigns hP) (hk : k.Assigns hF) (b : Nat) (s : P.St × F.St) (L1 L2 : List (Nat × List UInt8))
    (hL1 : L1 = [] ∨ m.keeps = true) (hL2 : L2 = [] ∨ k.keeps = true) :
    Triple ((hP.Inv b s.1 (L1.map blk) ∗ hF.Inv (b + P.objSize) s.2 (L2.map blk)) ∗ blocksV (L1 ++ L2))
      (do
        let r ← m.self s.1
        let q ← k.self s.2
        pure (r, q) : M (P.St × F.St))
      (fun r => (hP.Inv b r.1 (L1.map blk) ∗ hF.Inv (b + P.objSize) r.2 (L2.map blk)) ∗ blocksV (L1 ++ L2)) := by
  rw [blocksV_append]
  have e : ∀ X Y : HProp, ((X ∗ Y) ∗ blocksV L1 ∗ blocksV L2) = ((X ∗ blocksV L1) ∗ (Y ∗ blocksV L2)) := fun X Y => by ac_rfl
  rw [e]
  refine Triple.bind ((hm.self_spec b s.1 L1 hL1).frame _) (fun r => ?_)
  rw [star_comm]
  refine Triple.bind ((hk.self_spec (b + P.objSize) s.2 L2 hL2).frame _) (fun q => ?_)
  refine Triple.pure _ (fun h hh => ?_)
  rw [star_comm] at hh
  dsimp only
  rw [e]; exact hh

theorem split_nil' {α} {L L1 L2 : List α} {x y : Bool} (hp : L.Perm (L1 ++ L2)) (hL : L = [] ∨ (x && y) = true) :
    (L1 = [] ∨ x = true) ∧ (L2 = [] ∨ y = true) := by
  rcases hL with rfl | h
  · have := List.nil_perm.1 hp
    rw [List.append_eq_nil_iff] at this
    exact ⟨.inl this.1, .inl this.2⟩
  · rw [Bool.and_eq_true] at h
    exact ⟨.inr h.1, .inr h.2⟩

theorem split_nil {L L1 L2 : List (Nat × Nat)} {x y : Bool} (hp : L.Perm (L1 ++ L2)) (hL : L = [] ∨ (x && y) = true) :
    (L1 = [] ∨ x = true) ∧ (L2 = [] ∨ y = true) := split_nil' hp hL

theorem fallback_builds (ho : P.owns.isSome = true) (hm : m.Builds hP) (hk : k.Builds hF) : (m.fallback k).Builds (fallback_sound hP hF ho) where
  ctor_spec b b' s L h1 h2 h3 hr hL := by
    have hr' : m.ready s.1 = true ∧ k.ready s.2 = true := by simpa [Moves.fallback] using hr
    show Triple ((fun h => _ ∧ ∃ L1 L2, L.Perm (L1 ++ L2) ∧ (hP.Inv b' s.1 L1 ∗ hF.Inv (b' + P.objSize) s.2 L2) h) ∗ bytes b (P.objSize + F.objSize)) _ _
    rw [star_and, star_exists]
    refine Triple.and (fun hc => Triple.exists (fun L1 => ?_))
    rw [star_exists]
    refine Triple.exists (fun L2 => ?_)
    rw [star_and]
    refine Triple.and (fun hp => ?_)
    obtain ⟨q1, q2⟩ := split_nil hp hL
    refine (ctor2_spec hm hk b b' s L1 L2 h1 h2 h3 hr' q1 q2).post (fun r h hh => ?_)
    exact star_mono (fun h hh => ⟨hc, L1, L2, hp, hh⟩) (fun h hh => ⟨by simp, [], [], .refl _, hh⟩) h hh

theorem fallback_assigns (ho : P.owns.isSome = true) (hm : m.Assigns hP) (hk : k.Assigns hF) : (m.fallback k).Assigns (fallback_sound hP hF ho) where
  assign_spec b b' t s L hr hL := by
    have hr' : m.ready s.1 = true ∧ k.ready s.2 = true := by simpa [Moves.fallback] using hr
    show Triple ((fun h => _ ∧ ∃ L1 L2, [].Perm (L1 ++ L2) ∧ (hP.Inv b t.1 L1 ∗ hF.Inv (b + P.objSize) t.2 L2) h) ∗
      (fun h => _ ∧ ∃ L1 L2, L.Perm (L1 ++ L2) ∧ (hP.Inv b' s.1 L1 ∗ hF.Inv (b' + P.objSize) s.2 L2) h)) _ _
    rw [star_and, star_exists]
    refine Triple.and (fun _ => Triple.exists (fun T1 => ?_))
    rw [star_exists]
    refine Triple.exists (fun T2 => ?_)
    rw [star_and]
    refine Triple.and (fun ht => ?_)
    have := List.nil_perm.1 ht
    rw [List.append_eq_nil_iff] at this
    obtain ⟨rfl, rfl⟩ := this
    rw [star_and', star_exists']
    refine Triple.and (fun hc => Triple.exists (fun L1 => ?_))
    rw [star_exists']
    refine Triple.exists (fun L2 => ?_)
    rw [star_and']
    refine Triple.and (fun hp => ?_)
    obtain ⟨q1, q2⟩ := split_nil hp hL
    refine (assign2_spec hm hk b b' t s L1 L2 hr' q1 q2).post (fun r h hh => ?_)
    exact star_mono (fun h hh => ⟨hc, L1, L2, hp, hh⟩) (fun h hh => ⟨by simp, [], [], .refl _, hh⟩) h hh
  self_spec b s L hL := by
    show Triple ((fun h => _ ∧ ∃ L1 L2, (L.map blk).Perm (L1 ++ L2) ∧ (hP.Inv b s.1 L1 ∗ hF.Inv (b + P.objSize) s.2 L2) h) ∗ blocksV L) _ _
    rw [star_and, star_exists]
    refine Triple.and (fun hc => Triple.exists (fun L1 => ?_))
    rw [star_exists]
    refine Triple.exists (fun L2 => ?_)
    rw [star_and]
    refine Triple.and (fun hp => ?_)
    obtain ⟨L', hp', he⟩ := perm_map_lift blk hp
    obtain ⟨R1, R2, rfl, rfl, rfl⟩ := List.map_eq_append_iff.1 he
    rw [blocksV_perm hp']
    obtain ⟨q1, q2⟩ := split_nil' hp' hL
    refine (self2_spec hm hk b s R1 R2 q1 q2).post (fun r h hh => ?_)
    exact star_mono_left (fun h hh => ⟨hc, R1.map blk, R2.map blk, hp, hh⟩) h hh

theorem segragator_builds (T : Nat) (hm : m.Builds hP) (hk : k.Builds hF) : (m.segragator T k).Builds (segragator_sound T hP hF) where
  ctor_spec b b' s L h1 h2 h3 hr hL := by
    have hr' : m.ready s.1 = true ∧ k.ready s.2 = true := by simpa [Moves.segragator] using hr
    show Triple ((fun h => _ ∧ (hP.Inv b' s.1 (lo T L) ∗ hF.Inv (b' + P.objSize) s.2 (hi T L)) h) ∗ bytes b (P.objSize + F.objSize)) _ _
    rw [star_and]
    refine Triple.and (fun hc => ?_)
    obtain ⟨q1, q2⟩ := split_nil (lo_hi_perm T L) hL
    refine (ctor2_spec hm hk b b' s _ _ h1 h2 h3 hr' q1 q2).post (fun r h hh => ?_)
    exact star_mono (fun h hh => ⟨hc, hh⟩) (fun h hh => ⟨by simp, hh⟩) h hh

theorem segragator_assigns (T : Nat) (hm : m.Assigns hP) (hk : k.Assigns hF) : (m.segragator T k).Assigns (segragator_sound T hP hF) where
  assign_spec b b' t s L hr hL := by
    have hr' : m.ready s.1 = true ∧ k.ready s.2 = true := by simpa [Moves.segragator] using hr
    show Triple ((fun h => _ ∧ (hP.Inv b t.1 (lo T []) ∗ hF.Inv (b + P.objSize) t.2 (hi T [])) h) ∗
      (fun h => _ ∧ (hP.Inv b' s.1 (lo T L) ∗ hF.Inv (b' + P.objSize) s.2 (hi T L)) h)) _ _
    rw [star_and]
    refine Triple.and (fun _ => ?_)
    rw [star_and']
    refine Triple.and (fun hc => ?_)
    obtain ⟨q1, q2⟩ := split_nil (lo_hi_perm T L) hL
    refine (assign2_spec hm hk b b' t s _ _ hr' q1 q2).post (fun r h hh => ?_)
    exact star_mono (fun h hh => ⟨hc, hh⟩) (fun h hh => ⟨by simp, hh⟩) h hh
  self_spec b s L hL := by
    show Triple ((fun h => _ ∧ (hP.Inv b s.1 (lo T (L.map blk)) ∗ hF.Inv (b + P.objSize) s.2 (hi T (L.map blk))) h) ∗ blocksV L) _ _
    rw [star_and]
    refine Triple.and (fun hc => ?_)
    obtain ⟨L', hp', he⟩ := perm_map_lift blk (lo_hi_perm T (L.map blk))
    obtain ⟨R1, R2, rfl, h1, h2⟩ := List.map_eq_append_iff.1 he
    rw [blocksV_perm hp', ← h1, ← h2]
    obtain ⟨q1, q2⟩ := split_nil' hp' hL
    refine (self2_spec hm hk b s R1 R2 q1 q2).post (fun r h hh => ?_)
    rw [h1, h2] at hh
    exact star_mono_left (fun h hh => ⟨hc, hh⟩) h hh

end

namespace AllocTy

theorem builds (sys : Sys) : ∀ (t : AllocTy) (hwf : t.WF), t.movable = true → (t.moves sys).Builds (t.sound sys hwf)
  | null, _, _ => null_builds
  | mallocator, _, _ => mallocator_builds sys
  | linear S, _, _ => linear_builds S
  | stack _, _, h => nomatch h
  | freelist m M A, hw, h => freelist_builds m M hw.2.1 hw.2.2 (builds sys A hw.1 h)
  | fallback P F, hw, h => by
    rw [movable, Bool.and_eq_true] at h
    exact fallback_builds _ (builds sys P hw.1 h.1) (builds sys F hw.2.1 h.2)
  | segragator T P F, hw, h => by
    rw [movable, Bool.and_eq_true] at h
    exact segragator_builds T (builds sys P hw.1 h.1) (builds sys F hw.2 h.2)
  | cascading _, _, _ => cascading_builds sys _ _ _
  | overflow A, hw, h => overflow_builds (builds sys A hw h)
  | threaded _, _, h => nomatch h
  | shared _, _, h => nomatch h
  | reference _, _, h => nomatch h

theorem assigns (sys : Sys) : ∀ (t : AllocTy) (hwf : t.WF), t.assignable = true → (t.moves sys).Assigns (t.sound sys hwf)
  | null, _, _ => null_assigns
  | mallocator, _, _ => mallocator_assigns sys
  | linear S, _, _ => linear_assigns S
  | stack _, _, h => nomatch h
  | freelist m M A, hw, h => freelist_assigns m M hw.2.1 hw.2.2 (assigns sys A hw.1 h)
  | fallback P F, hw, h => by
    rw [assignable, Bool.and_eq_true] at h
    exact fallback_assigns _ (assigns sys P hw.1 h.1) (assigns sys F hw.2.1 h.2)
  | segragator T P F, hw, h => by
    rw [assignable, Bool.and_eq_true] at h
    exact segragator_assigns T (assigns sys P hw.1 h.1) (assigns sys F hw.2 h.2)
  | cascading _, _, _ => cascading_assigns sys _ _ _
  | overflow _, _, h => nomatch h
  | threaded _, _, h => nomatch h
  | shared _, _, h => nomatch h
  | reference _, _, h => nomatch h

end AllocTy
end KTL
