import Verif.Spec.Strict

/- Proof machinery of C86: the classes that call `aligned_free`, with a check that the pointer which the portable
`aligned_malloc` keeps in front of a block is what it has to be. -/
namespace KTL
open Cascading

/-- Undefined unless the `malloc` block at `q` can be the one `aligned_malloc` took for the block at `p`. Not code. -/
def checkHeader (p q : Nat) : M Unit := fun w =>
  if q + 8 ≤ p ∧ p ≤ q + 16 ∧ 16 ≤ (w.heap.t q).getD 0 then .ok () w else .ub

/-- `alignedFree` with the check. Not code: `utility/aligned_malloc.h:73-87` with a check. -/
def alignedFreeG (sys : Sys) (p : Nat) : M Unit :=
  match sys.plat with
  | .direct => cFree p
  | .manual =>
    if p ≠ 0 then do
      let q ← M.readPtr (subW p 8)
      checkHeader p q
      cFree q
    else pure ()

/-- `alignedDelete` with the check. Not code. -/
def alignedDeleteG (sys : Sys) (p : Nat) (dtor : M Unit) : M Unit := do
  dtor
  alignedFreeG sys p

/-- `mallocator` with the check -/
def mallocatorG (sys : Sys) : Allocator := { mallocator sys with dealloc := fun _ p _ => alignedFreeG sys p }

/-- `cascading` with the check -/
def cascadingG (sys : Sys) (A : Allocator) : Allocator :=
  { cascading sys A with
    dealloc := fun s p n => deallocBy (alignedDeleteG sys) A p n false s
    fini := fun s => releaseBy (alignedDeleteG sys) A s }

/-- `shared` with the check -/
def sharedG (sys : Sys) (A : Allocator) : Allocator :=
  { sharedAlloc sys A with fini := fun s => alignedDeleteG sys s.1 (A.fini s.2) }

/-! ### The checks never fail -/

/-- a computation that does the same in every world the precondition allows -/
theorem Triple.same {α} {P : HProp} {c d : M α} {Q : α → HProp} (h : Triple P d Q)
    (e : ∀ w s hf, Heap.disj s hf → w.heap = s.add hf → P s → c w = d w) : Triple P c Q := by
  intro w s hf hd he hp
  rw [e w s hf hd he hp]
  exact h w s hf hd he hp

theorem alignedFreeG_spec (sys : Sys) (p n : Nat) (hp : p ≠ 0) :
    Triple (mTok sys.plat p n ∗ bytes p n) (alignedFreeG sys p) (fun _ => emp) := by
  unfold alignedFreeG
  cases hpl : sys.plat with
  | direct => exact triple_cFree p n (by omega)
  | manual =>
    simp only [mTok, ne_eq, hp, not_false_eq_true, if_true]
    rw [star_exists]
    refine Triple.exists (fun r => ?_)
    rw [star_and]
    refine Triple.and (fun ⟨h1, h2, h3, h4⟩ => ?_)
    have e1 : subW p 8 = p - 8 := by unfold subW; omega
    rw [e1]
    refine Triple.bind
      (R := fun q s => q = r ∧ (ptrV (p - 8) r ∗ (tok r (n+16) ∗ bytes r (p - 8 - r) ∗ bytes (p + n) (r + 16 - p) ∗ bytes p n)) s)
      ?_ (fun q => ?_)
    · refine ((triple_readPtr (p - 8) r (by omega)).frame
          (tok r (n+16) ∗ bytes r (p - 8 - r) ∗ bytes (p + n) (r + 16 - p) ∗ bytes p n)).conseq ?_ ?_
      · intro s hs
        have : ((tok r (n + 16) ∗ bytes r (p - 8 - r) ∗ ptrV (p - 8) r ∗ bytes (p + n) (r + 16 - p)) ∗ bytes p n) =
          (ptrV (p - 8) r ∗ (tok r (n+16) ∗ bytes r (p - 8 - r) ∗ bytes (p + n) (r + 16 - p) ∗ bytes p n)) := by
          ac_rfl
        rw [← this]; exact hs
      · intro a s hs
        rw [star_and] at hs; exact hs
    · refine Triple.and (fun hq => ?_)
      subst hq
      refine Triple.pre (P := tok q (n + 16) ∗ bytes q (n + 16)) ?_ ?_
      · refine (triple_cFree q (n + 16) h1).same ?_
        rintro w s hf hd he ⟨g1, g2, hd1, rfl, hg1, _⟩
        have ht : w.heap.t q = some (n + 16) := by
          rw [he, Heap.add_t, Heap.add_t, hg1.2 q]; simp
        rw [M.bind_apply]
        have : checkHeader p q w = .ok () w := by
          unfold checkHeader
          rw [if_pos ⟨h2, h3, by rw [ht]; simp⟩]
        rw [this]
      · intro s hs
        have hsz : n + 16 = (p - 8 - q) + (8 + (n + (q + 16 - p))) := by omega
        have hsplit : bytes q (n + 16) =
            (bytes q (p - 8 - q) ∗ bytes (p - 8) 8 ∗ bytes p n ∗ bytes (p + n) (q + 16 - p)) := by
          rw [hsz, bytes_split, bytes_split, bytes_split]
          have a1 : q + (p - 8 - q) = p - 8 := by omega
          have a2 : p - 8 + 8 = p := by omega
          rw [a1, a2]
        rw [hsplit]
        have : (tok q (n + 16) ∗ bytes q (p - 8 - q) ∗ bytes (p - 8) 8 ∗ bytes p n ∗ bytes (p + n) (q + 16 - p)) =
            (bytes (p - 8) 8 ∗ (tok q (n+16) ∗ bytes q (p - 8 - q) ∗ bytes (p + n) (q + 16 - p) ∗ bytes p n)) := by
          ac_rfl
        rw [this]
        exact star_mono_left (fun _ h => ptrV_bytes h) s hs

theorem alignedDeleteG_spec (sys : Sys) {A : Allocator} {fA : Nat → Prop} (hA : Sound A fA) : Deletes sys (alignedDeleteG sys) hA := by
  intro p hp st
  unfold alignedDeleteG
  refine Triple.bind ((hA.fini_spec p st).frame _) (fun _ => ?_)
  refine (alignedFreeG_spec sys p (nodeSize A) hp).pre ?_
  intro h hh
  rw [← star_assoc, ← bytes_split, star_comm] at hh
  exact hh

def mallocatorG_sound (sys : Sys) : Sound (mallocatorG sys) (MallocFits sys.plat) :=
  let hL := mallocator_sound sys
  { Inv := hL.Inv
    objAlign := hL.objAlign
    perm := hL.perm
    init_spec := hL.init_spec
    alloc_spec := hL.alloc_spec
    dealloc_local := by
      intro b s p bs R k _
      show Triple (apart k ((fun h => (∀ b ∈ (p, bs.length) :: R.map blk, Good b.1 b.2 ∧ MallocFits sys.plat b.2) ∧
        mToks sys.plat ((p, bs.length) :: R.map blk) h) ∗ bytesV p bs)) (alignedFreeG sys p) _
      rw [star_and]
      refine apart_and (fun hL => ?_)
      have hp := hL (p, bs.length) (by simp)
      have := (alignedFreeG_spec sys p bs.length hp.1.1).frame (mToks sys.plat (R.map blk))
      rw [emp_star] at this
      refine this.conseq ?_ ?_
      · intro h hh
        have e : ((mTok sys.plat p bs.length ∗ bytes p bs.length) ∗ mToks sys.plat (R.map blk)) =
          (mToks sys.plat ((p, bs.length) :: R.map blk) ∗ bytes p bs.length) := by
          simp only [mToks]; ac_rfl
        rw [e]
        exact star_mono_right (fun _ => bytesV_length) h hh.2
      · intro _ h hh
        exact ⟨fun c hc => hL c (List.mem_cons_of_mem _ hc), hh⟩
    live_good := hL.live_good
    live_max := hL.live_max
    owns_sound := hL.owns_sound
    owns_complete := hL.owns_complete
    construct_spec := hL.construct_spec
    destroy_spec := hL.destroy_spec
    fini_spec := hL.fini_spec }

def cascadingG_sound (sys : Sys) {A : Allocator} {fA : Nat → Prop} (hA : Sound A fA)
    (ho : A.owns.isSome = true) (hmax : MaxTotal A) (hsz : MallocFits sys.plat (nodeSize A)) :
    Sound (cascadingG sys A) (Cascading.Fits fA) :=
  let hL := cascading_sound sys hA ho hmax hsz
  { Inv := hL.Inv
    objAlign := hL.objAlign
    perm := hL.perm
    init_spec := hL.init_spec
    alloc_spec := hL.alloc_spec
    dealloc_local := by
      intro b s p bs R k hk
      show Triple (apart k ((fun h => (∀ c ∈ (p, bs.length) :: R.map blk, Cascading.Fits fA c.2) ∧ ∃ NL, (NL.map Prod.fst = s ∧ NodesOk NL ∧
        ((p, bs.length) :: R.map blk).Perm (NL.flatMap Prod.snd)) ∧ (nodesInv sys.plat hA NL ∗ bytes b 16) h) ∗ bytesV p bs))
        (deallocBy (alignedDeleteG sys) A p bs.length false s) _
      rw [star_and]
      refine apart_and (fun hL => ?_)
      rw [star_exists]
      refine apart_exists (fun NL => ?_)
      rw [star_and]
      refine apart_and (fun ⟨h1, h2, h3⟩ => ?_)
      subst h1
      obtain ⟨f, hf⟩ := Option.isSome_iff_exists.1 ho
      have hn : bs.length ≠ 0 := (hL (p, bs.length) (by simp)).1
      have e : ((nodesInv sys.plat hA NL ∗ bytes b 16) ∗ bytesV p bs) =
        ((nodesInv sys.plat hA NL ∗ bytesV p bs) ∗ bytes b 16) := by ac_rfl
      rw [e]
      refine (apart_frame (deallocBy_spec sys _ hA (alignedDeleteG_spec sys hA) f hf p bs hn NL R false h2 h3 k hk)).post ?_
      rintro s' h ⟨g1, g2, hd, rfl, ⟨NL', ⟨m1, m2, m3⟩, hh⟩, hb⟩
      exact ⟨fun c hc => hL c (List.mem_cons_of_mem _ hc), NL', ⟨m1, m2, m3⟩, g1, g2, hd, rfl, hh, hb⟩
    live_good := hL.live_good
    live_max := hL.live_max
    owns_sound := hL.owns_sound
    owns_complete := hL.owns_complete
    construct_spec := hL.construct_spec
    destroy_spec := hL.destroy_spec
    fini_spec := by
      intro b s
      refine Triple.and (fun hL => Triple.exists (fun NL => Triple.and (fun ⟨h1, h2, h3⟩ => ?_)))
      subst h1
      have := (releaseBy_spec sys _ hA (alignedDeleteG_spec sys hA) NL h2 (List.nil_perm.1 h3)).frame (bytes b 16)
      rw [emp_star] at this
      exact this }

def sharedG_sound (sys : Sys) {A : Allocator} {fA : Nat → Prop} (hA : Sound A fA)
    (hsz : MallocFits sys.plat (nodeSize A)) : Sound (sharedG sys A) fA :=
  let hL := shared_sound sys hA hsz
  { Inv := hL.Inv
    objAlign := hL.objAlign
    perm := hL.perm
    init_spec := hL.init_spec
    alloc_spec := hL.alloc_spec
    dealloc_local := hL.dealloc_local
    live_good := hL.live_good
    live_max := hL.live_max
    owns_sound := hL.owns_sound
    owns_complete := hL.owns_complete
    construct_spec := hL.construct_spec
    destroy_spec := hL.destroy_spec
    fini_spec := by
      intro b s
      refine Triple.and (fun h0 => ?_)
      have := (alignedDeleteG_spec sys hA s.1 h0 s.2).frame (bytes b 16)
      rw [emp_star] at this
      refine this.pre ?_
      intro h hh
      have e : ((hA.Inv s.1 s.2 [] ∗ bytes (s.1 + A.objSize) 16 ∗ mTok sys.plat s.1 (nodeSize A)) ∗ bytes b 16) =
          (hA.Inv s.1 s.2 [] ∗ bytes (s.1 + A.objSize) 16 ∗ mTok sys.plat s.1 (nodeSize A) ∗ bytes b 16) := by ac_rfl
      rw [e]; exact hh }

/-! ### With the checks nothing else changes -/

theorem checkHeader_below {α : Type} (p q : Nat) (k : M α) : Below id (checkHeader p q >>= fun _ => k) k := by
  intro w
  by_cases h : q + 8 ≤ p ∧ p ≤ q + 16 ∧ 16 ≤ (w.heap.t q).getD 0
  · right
    have e : checkHeader p q w = .ok () w := by unfold checkHeader; rw [if_pos h]
    rw [M.bind_apply, M.bind_apply, e]
    dsimp only
    cases k w <;> rfl
  · left
    have e : checkHeader p q w = .ub := by unfold checkHeader; rw [if_neg h]
    rw [M.bind_apply, e]

theorem alignedFreeG_below (sys : Sys) (p : Nat) : Below id (alignedFreeG sys p) (alignedFree sys p) := by
  unfold alignedFreeG alignedFree
  cases sys.plat with
  | direct => exact Below.refl _
  | manual =>
    simp only
    split
    · exact Below.bind (f := id) (Below.refl _) fun q => checkHeader_below p q _
    · exact Below.refl _

theorem alignedDeleteG_below (sys : Sys) (p : Nat) (d : M Unit) : Below id (alignedDeleteG sys p d) (alignedDelete sys p d) :=
  Below.bind (f := id) (Below.refl _) fun _ => alignedFreeG_below sys p

theorem mallocatorG_refines (sys : Sys) : Refines (mallocatorG sys) (mallocator sys) id :=
  { Refines.refl (mallocator sys) with dealloc := fun _ p _ => alignedFreeG_below sys p }

theorem deallocG_below (sys : Sys) (A : Allocator) (p n : Nat) (prev : Bool) (s : List (Node A.St)) :
    Below id (deallocBy (alignedDeleteG sys) A p n prev s) (dealloc sys A p n prev s) := by
  induction s generalizing prev with
  | nil => exact Below.refl _
  | cons nd rest ih =>
    simp only [deallocBy, dealloc]
    split
    · refine Below.bind (f := id) (Below.refl _) fun st => ?_
      simp only [id]
      split
      · exact Below.bind (f := id) (alignedDeleteG_below sys _ _) fun _ => Below.refl _
      · exact Below.refl _
    · exact Below.bind (f := id) (ih true) fun _ => Below.refl _

theorem releaseG_cascading_below (sys : Sys) (A : Allocator) (s : List (Node A.St)) :
    Below id (releaseBy (alignedDeleteG sys) A s) (release sys A s) := by
  induction s with
  | nil => exact Below.refl _
  | cons nd rest ih => exact Below.bind (f := id) (alignedDeleteG_below sys _ _) fun _ => ih

theorem cascadingG_refines (sys : Sys) (A : Allocator) : Refines (cascadingG sys A) (cascading sys A) id :=
  { Refines.refl (cascading sys A) with
    dealloc := fun s p n => deallocG_below sys A p n false s
    fini := fun s => releaseG_cascading_below sys A s }

theorem sharedG_refines (sys : Sys) (A : Allocator) : Refines (sharedG sys A) (sharedAlloc sys A) id :=
  { Refines.refl (sharedAlloc sys A) with fini := fun s => alignedDeleteG_below sys s.1 _ }

end KTL
