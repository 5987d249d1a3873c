import Verif.Alloc.Basic

/- `freelist<Min, Max, Alloc>`. -/
namespace KTL

namespace Freelist

/-- Fields of `freelist` (`allocators/freelist.h:240-242`). The links of the chain are stored in the
freed blocks themselves, i.e. in memory. -/
structure St (α : Type) where
  a : α
  free : Nat

/-- `allocators/freelist.h:228-238` `release`: walk the chain, reading each link before giving the
block back. -/
def release (A : Allocator) (Max : Nat) (s : A.St) (next : Nat) : M A.St := do
  if next ≠ 0 then do
    let nx ← M.readPtr next
    let s' ← A.dealloc s next Max
    release A Max s' nx
  else pure s
partial_fixpoint

end Freelist

open Freelist in
/-- `freelist<Min, Max, Alloc>`: constructor `allocators/freelist.h:40-44`, `allocate` `:113-129`,
`deallocate` `:137-147`, `construct`/`destroy` `:158-178`, `max_size`/`owns` `:186-206`, destructor
`:70-73`. -/
def freelist (Min Max : Nat) (A : Allocator) : Allocator where
  St := Freelist.St A.St
  objSize := A.objSize + 16
  init b := do
    let a ← A.init b
    pure ⟨a, 0⟩
  alloc s n :=
    if n > Min ∧ n ≤ Max then
      if s.free ≠ 0 then do
        let nx ← M.readPtr s.free
        pure (s.free, ⟨s.a, nx⟩)
      else do
        let r ← A.alloc s.a Max
        pure (r.1, ⟨r.2, s.free⟩)
    else pure (0, s)
  dealloc s p n :=
    if n > Min ∧ n ≤ Max ∧ p ≠ 0 then do
      M.writePtr p s.free
      pure ⟨s.a, p⟩
    else pure s
  owns := A.owns.map fun f s p => f s.a p
  maxSize := A.maxSize.map fun f s => f s.a
  construct := A.construct.map fun c s p => do
    let a ← c s.a p
    pure ⟨a, s.free⟩
  destroy := A.destroy.map fun c s p => do
    let a ← c s.a p
    pure ⟨a, s.free⟩
  fini s := do
    let a ← release A Max s.a s.free
    A.fini a

namespace Freelist

/-- The blocks `R` form a chain starting at `head`: each starts with a pointer to the next one.
Proof helper, not code. -/
def linked (Max : Nat) : Nat → List (Nat × List UInt8) → Prop
  | head, [] => head = 0
  | head, c :: R => head = c.1 ∧ c.1 ≠ 0 ∧ c.2.length = Max ∧ ∃ nx rest, nx < W64 ∧
      c.2 = M.encPtr nx ++ rest ∧ linked Max nx R

/-- the underlying block of a user block. Proof helper, not code. -/
def full (Max : Nat) (c : Nat × Nat) : Nat × Nat := (c.1, Max)

/-- the unused tails of the live blocks. Proof helper, not code. -/
def slack (Max : Nat) : List (Nat × Nat) → HProp
  | [] => emp
  | c :: L => bytes (c.1 + c.2) (Max - c.2) ∗ slack Max L

theorem slack_perm {Max L L'} (h : L.Perm L') : slack Max L = slack Max L' := by
  induction h with
  | nil => rfl
  | cons x _ ih => simp only [slack, ih]
  | swap x y l => simp only [slack, star_left_comm]
  | trans _ _ ih1 ih2 => rw [ih1, ih2]

theorem linked_map {Max head R} (h : linked Max head R) : R.map blk = R.map (fun c => (c.1, Max)) := by
  induction R generalizing head with
  | nil => rfl
  | cons c R ih =>
    obtain ⟨_, _, h3, nx, rest, _, _, h5⟩ := h
    simp only [List.map_cons, ih h5, blk, h3]

theorem triple_readPtr_head (p nx : Nat) (rest : List UInt8) (hn : nx < W64) :
    Triple (bytesV p (M.encPtr nx ++ rest)) (M.readPtr p)
      (fun r s => r = nx ∧ bytesV p (M.encPtr nx ++ rest) s) := by
  rw [bytesV_append]
  refine ((triple_readPtr p nx hn).frame _).post ?_
  intro a s hs
  rw [star_and] at hs
  exact hs

/-- `release` gives every chained block back and leaves the others `K` alone. -/
theorem release_keeps {A : Allocator} {fA} (hA : Sound A fA) (Max : Nat)
    (b : Nat) (K R : List (Nat × List UInt8)) (s : A.St) (next : Nat) (hl : linked Max next R) :
    Triple (hA.Inv b s ((R ++ K).map blk) ∗ blocksV (R ++ K)) (release A Max s next) (fun s' => hA.Inv b s' (K.map blk) ∗ blocksV K) := by
  induction R generalizing s next with
  | nil =>
    have : next = 0 := hl
    subst this
    rw [release]
    simp only [ne_eq, not_true, if_false]
    exact Triple.pure _ (fun h hh => hh)
  | cons c R ih =>
    obtain ⟨p, x⟩ := c
    obtain ⟨h1, h2, h3, nx, rest, h4, h5, h6⟩ := hl
    simp only at h1 h2 h3 h5
    subst h1
    rw [release]
    simp only [ne_eq, h2, not_false_eq_true, if_true]
    subst h5
    rw [List.cons_append]
    refine Triple.bind (R := fun r h => r = nx ∧
      (bytesV next (M.encPtr nx ++ rest) ∗ (hA.Inv b s (((next, M.encPtr nx ++ rest) :: (R ++ K)).map blk) ∗ blocksV (R ++ K))) h)
      ?_ (fun r => ?_)
    · refine ((triple_readPtr_head next nx rest h4).frame
        (hA.Inv b s (((next, M.encPtr nx ++ rest) :: (R ++ K)).map blk) ∗ blocksV (R ++ K))).conseq ?_ ?_
      · intro h hh
        rw [star_left_comm]; exact hh
      · intro a h hh
        rw [star_and] at hh; exact hh
    · refine Triple.and (fun hr => ?_)
      subst hr
      rw [star_left_comm]
      have := hA.dealloc_spec b s next (M.encPtr r ++ rest) (R ++ K)
      rw [h3] at this
      refine Triple.bind (this.pre ?_) (fun s' => ih s' r h6)
      intro h hh
      simp only [List.map_cons, blk, h3] at hh
      exact hh

/-- `release` gives every chained block back. -/
theorem release_spec {A : Allocator} {fA} (hA : Sound A fA) (Max : Nat)
    (b : Nat) (R : List (Nat × List UInt8)) (s : A.St) (next : Nat) (hl : linked Max next R) :
    Triple (hA.Inv b s (R.map blk) ∗ blocksV R) (release A Max s next) (fun s' => hA.Inv b s' []) := by
  have := release_keeps hA Max b [] R s next hl
  rw [List.append_nil] at this
  exact this.post (fun s' h hh => by simpa [blocksV] using hh)

/-- sizes admissible for a free list over `A`. Specification, not code. -/
def Fits (Min Max : Nat) (fA : Nat → Prop) (n : Nat) : Prop := Min < n ∧ n ≤ Max → fA Max

end Freelist

open Freelist

theorem inLive_full {Max : Nat} {L : List (Nat × Nat)} {x : Nat} (hL : ∀ c ∈ L, c.2 ≤ Max) {h : Heap}
    (hg : slack Max L h) (hx : inLive (L.map (full Max)) x) : (h.b x).isSome = true ∨ inLive L x := by
  induction L generalizing h with
  | nil => exact absurd hx not_inLive_nil
  | cons c L ih =>
    obtain ⟨h1, h2, hd, rfl, hg1, hg2⟩ := hg
    rw [List.map_cons, inLive_cons] at hx
    rw [inLive_cons]
    have hc := hL c (by simp)
    rcases hx with hx | hx
    · simp only [full] at hx
      by_cases h5 : x < c.1 + c.2
      · right; left; omega
      · left; have := bytes_isSome hg1 (x := x) (by omega); simp [this]
    · rcases ih (fun c hc => hL c (List.mem_cons_of_mem _ hc)) hg2 hx with h | h
      · left; simp [h]
      · right; right; exact h

namespace Freelist

/-- The private memory of a free list whose chain of freed blocks is `R`. Proof helper, not code. -/
def FInv (Max : Nat) {A : Allocator} {fA : Nat → Prop} (hA : Sound A fA) (b : Nat) (s : Freelist.St A.St)
    (L : List (Nat × Nat)) (R : List (Nat × List UInt8)) : HProp := fun h => (linked Max s.free R ∧ s.free < W64) ∧
    (hA.Inv b s.a (L.map (full Max) ++ R.map blk) ∗ slack Max L ∗ blocksV R ∗ bytes (b + A.objSize) 16) h

/-- `allocate` takes the head of the chain if there is one. -/
theorem alloc_spec (Min Max : Nat) {A : Allocator} {fA : Nat → Prop} (hA : Sound A fA) (hMW : Max < W64)
    (b : Nat) (s : Freelist.St A.St) (L : List (Nat × Nat)) (R : List (Nat × List UInt8)) (n : Nat) (hf : Fits Min Max fA n) :
    Triple (FInv Max hA b s L R) ((freelist Min Max A).alloc s n) (fun r h =>
      (r.1 = 0 ∧ (R = [] ∨ ¬ (n > Min ∧ n ≤ Max)) ∧ FInv Max hA b r.2 L R h) ∨
      ((n > Min ∧ n ≤ Max) ∧ Good r.1 n ∧ (∀ c T, R = c :: T → r.1 = c.1) ∧
        (FInv Max hA b r.2 ((r.1, n) :: L) R.tail ∗ bytes r.1 n) h)) := by
  refine Triple.and (fun ⟨hl, hw⟩ => ?_)
  simp only [freelist]
  by_cases hr : n > Min ∧ n ≤ Max
  · simp only [hr, and_self, if_true]
    by_cases hz : s.free = 0
    · -- nothing to reuse: ask the underlying allocator
      simp only [hz, ne_eq, not_true, if_false]
      have hR : R = [] := by
        cases R with
        | nil => rfl
        | cons c R => exact absurd (hl.1.symm.trans hz) hl.2.1
      subst hR
      refine Triple.bind ((hA.alloc_spec b s.a _ Max (hf hr) hMW).frame _) (fun r => ?_)
      refine Triple.pure _ (fun h hh => ?_)
      obtain ⟨h1, h2, hd, rfl, h3 | h3, h4⟩ := hh
      · left
        exact ⟨h3.1, .inl rfl, ⟨rfl, by simp⟩, h1, h2, hd, rfl, h3.2, h4⟩
      · right
        have hg := h3.1
        refine ⟨trivial, ⟨hg.1, hg.2.1, by have := hg.2.2; omega⟩, (fun c T h => nomatch h), ?_⟩
        unfold FInv
        rw [star_and]
        refine ⟨⟨rfl, by simp⟩, ?_⟩
        have e1 : bytes r.1 Max = (bytes r.1 n ∗ bytes (r.1 + n) (Max - n)) := by
          rw [← bytes_split]; congr 1; omega
        simp only [List.tail_nil, List.map_nil, List.append_nil, List.map_cons, full, slack, blocksV, emp_star] at h3 h4 ⊢
        have e2 : ((hA.Inv b r.2 ((r.1, Max) :: L.map (full Max)) ∗
            (bytes (r.1 + n) (Max - n) ∗ slack Max L) ∗ bytes (b + A.objSize) 16) ∗ bytes r.1 n) =
          ((hA.Inv b r.2 ((r.1, Max) :: L.map (full Max)) ∗ (bytes r.1 n ∗ bytes (r.1 + n) (Max - n))) ∗
            (slack Max L ∗ bytes (b + A.objSize) 16)) := by ac_rfl
        have h5 : ((hA.Inv b r.2 ((r.1, Max) :: L.map (full Max)) ∗ (bytes r.1 n ∗ bytes (r.1 + n) (Max - n))) ∗
            (slack Max L ∗ bytes (b + A.objSize) 16)) (h1.add h2) := by
          rw [← e1]; exact ⟨h1, h2, hd, rfl, h3.2, h4⟩
        rw [← e2] at h5
        exact h5
    · -- reuse the head of the chain
      simp only [ne_eq, hz, not_false_eq_true, if_true]
      cases R with
      | nil => exact absurd hl hz
      | cons c R =>
        obtain ⟨p, x⟩ := c
        obtain ⟨l1, l2, l3, nx, rest, l4, l5, l6⟩ := hl
        simp only at l1 l2 l3 l5
        subst l5
        rw [l1]
        refine Triple.have (p := Good p Max) ?_ (fun hg => ?_)
        · rintro h ⟨h1, h2, hd, rfl, h3, h4⟩
          have := (hA.live_good h3 (p := p) (n := Max) (by simp [blk, l3])).1
          exact this
        · refine Triple.bind (R := fun r h => r = nx ∧ (bytesV p (M.encPtr nx ++ rest) ∗
            (hA.Inv b s.a (L.map (full Max) ++ (p, Max) :: R.map blk) ∗ slack Max L ∗ blocksV R ∗ bytes (b + A.objSize) 16)) h)
            ?_ (fun r => ?_)
          · refine ((triple_readPtr_head p nx rest l4).frame
              (hA.Inv b s.a (L.map (full Max) ++ (p, Max) :: R.map blk) ∗ slack Max L ∗ blocksV R ∗ bytes (b + A.objSize) 16)).conseq ?_ ?_
            · intro h hh
              have e : (hA.Inv b s.a (L.map (full Max) ++ ((p, M.encPtr nx ++ rest) :: R).map blk) ∗ slack Max L ∗
                  blocksV ((p, M.encPtr nx ++ rest) :: R) ∗ bytes (b + A.objSize) 16) =
                (bytesV p (M.encPtr nx ++ rest) ∗
                  (hA.Inv b s.a (L.map (full Max) ++ (p, Max) :: R.map blk) ∗ slack Max L ∗ blocksV R ∗ bytes (b + A.objSize) 16)) := by
                simp only [List.map_cons, blk, l3, blocksV]
                ac_rfl
              rw [← e]; exact hh
            · intro a h hh
              rw [star_and] at hh; exact hh
          · refine Triple.and (fun hr' => ?_)
            subst hr'
            refine Triple.pure _ (fun h hh => .inr ⟨trivial, ⟨hg.1, hg.2.1, by have := hg.2.2; omega⟩, (fun c T h => by cases h; rfl), ?_⟩)
            unfold FInv
            rw [star_and]
            refine ⟨⟨l6, l4⟩, ?_⟩
            have e1 : bytes p Max = (bytes p n ∗ bytes (p + n) (Max - n)) := by
              rw [← bytes_split]; congr 1; omega
            have h5 := star_mono_left (fun _ h => bytesV_length h) h hh
            rw [l3, e1] at h5
            simp only [List.tail_cons, List.map_cons, full, slack]
            have e2 : ((hA.Inv b s.a ((p, Max) :: L.map (full Max) ++ R.map blk) ∗
                (bytes (p + n) (Max - n) ∗ slack Max L) ∗ blocksV R ∗ bytes (b + A.objSize) 16) ∗ bytes p n) =
              (hA.Inv b s.a ((p, Max) :: L.map (full Max) ++ R.map blk) ∗
               ((bytes p n ∗ bytes (p + n) (Max - n)) ∗ (slack Max L ∗ blocksV R ∗ bytes (b + A.objSize) 16))) := by
              ac_rfl
            show ((hA.Inv b s.a ((p, Max) :: L.map (full Max) ++ R.map blk) ∗
                (bytes (p + n) (Max - n) ∗ slack Max L) ∗ blocksV R ∗ bytes (b + A.objSize) 16) ∗ bytes p n) h
            rw [e2]
            rw [star_left_comm] at h5
            exact star_mono_left (fun _ h => hA.perm List.perm_middle h) h h5
  · simp only [hr, if_false]
    exact Triple.pure _ (fun h hh => .inl ⟨rfl, .inr (by simp), ⟨hl, hw⟩, hh⟩)

/-- `deallocate` puts the block at the head of the chain. -/
theorem dealloc_spec (Min Max : Nat) {A : Allocator} {fA : Nat → Prop} (hA : Sound A fA) (hM8 : 8 ≤ Max)
    (b : Nat) (s : Freelist.St A.St) (p : Nat) (bs : List UInt8) (R C : List (Nat × List UInt8)) (hmin : Min < bs.length) (hmax : bs.length ≤ Max) :
    Triple (FInv Max hA b s ((p, bs.length) :: R.map blk) C ∗ bytesV p bs) ((freelist Min Max A).dealloc s p bs.length)
      (fun s' h => ∃ x, FInv Max hA b s' (R.map blk) ((p, x) :: C) h) := by
  unfold FInv
  rw [star_and]
  refine Triple.and (fun ⟨hl, hw⟩ => ?_)
  refine Triple.have (p := Good p Max) ?_ (fun hg => ?_)
  · rintro h ⟨h12, h3, _, rfl, ⟨h1, h2, hd, rfl, h4, _⟩, _⟩
    exact (hA.live_good h4 (p := p) (n := Max) (by simp [full])).1
  have hc : bs.length > Min ∧ bs.length ≤ Max ∧ p ≠ 0 := ⟨hmin, hmax, hg.1⟩
  simp only [freelist, hc, ne_eq, not_false_eq_true, and_self, if_true]
  have e8 : bytes p Max = (bytes p 8 ∗ bytes (p + 8) (Max - 8)) := by
    rw [← bytes_split]; congr 1; omega
  have e1 : bytes p Max = (bytes p bs.length ∗ bytes (p + bs.length) (Max - bs.length)) := by
    rw [← bytes_split]; congr 1; omega
  refine Triple.bind (R := fun _ => ptrV p s.free ∗ (bytes (p + 8) (Max - 8) ∗
    hA.Inv b s.a (((p, bs.length) :: R.map blk).map (full Max) ++ C.map blk) ∗ slack Max (R.map blk) ∗
    blocksV C ∗ bytes (b + A.objSize) 16)) ?_ (fun _ => ?_)
  · refine ((triple_writePtr p s.free).frame (bytes (p + 8) (Max - 8) ∗
      hA.Inv b s.a (((p, bs.length) :: R.map blk).map (full Max) ++ C.map blk) ∗ slack Max (R.map blk) ∗
      blocksV C ∗ bytes (b + A.objSize) 16)).pre ?_
    intro h hh
    have hh' := star_mono_right (fun _ h => bytesV_length h) h hh
    simp only [slack] at hh'
    have e2 : ((hA.Inv b s.a (((p, bs.length) :: R.map blk).map (full Max) ++ C.map blk) ∗
        (bytes (p + bs.length) (Max - bs.length) ∗ slack Max (R.map blk)) ∗ blocksV C ∗ bytes (b + A.objSize) 16) ∗
        bytes p bs.length) =
      ((bytes p bs.length ∗ bytes (p + bs.length) (Max - bs.length)) ∗
        (hA.Inv b s.a (((p, bs.length) :: R.map blk).map (full Max) ++ C.map blk) ∗ slack Max (R.map blk) ∗
         blocksV C ∗ bytes (b + A.objSize) 16)) := by ac_rfl
    rw [e2, ← e1, e8, star_assoc] at hh'
    exact hh'
  · refine Triple.pure _ (fun h hh => ?_)
    rw [bytes_eq_exists (p + 8)] at hh
    -- pick the contents of the tail
    obtain ⟨h1, h2, hd, rfl, h3, h4⟩ := hh
    obtain ⟨g1, g2, hd2, rfl, ⟨rest, hlen, hrest⟩, h5⟩ := h4
    refine ⟨M.encPtr s.free ++ rest, ?_⟩
    have hlen' : (M.encPtr s.free ++ rest).length = Max := by
      simp [encPtr_length, hlen]; omega
    refine ⟨⟨⟨rfl, hg.1, hlen', s.free, rest, hw, rfl, hl⟩, ?_⟩, ?_⟩
    · have := hg.2.2
      show p < W64
      omega
    · have hfull : (ptrV p s.free ∗ bytesV (p + 8) rest ∗
          (hA.Inv b s.a (((p, bs.length) :: R.map blk).map (full Max) ++ C.map blk) ∗ slack Max (R.map blk) ∗
          blocksV C ∗ bytes (b + A.objSize) 16)) (h1.add (g1.add g2)) :=
        ⟨h1, _, hd, rfl, h3, g1, g2, hd2, rfl, hrest, h5⟩
      have e3 : bytesV p (M.encPtr s.free ++ rest) = (ptrV p s.free ∗ bytesV (p + 8) rest) := by
        rw [bytesV_append]; rfl
      rw [← star_assoc, ← e3] at hfull
      simp only [List.map_cons, blocksV, blk, full, hlen'] at hfull ⊢
      have e4 : (bytesV p (M.encPtr s.free ++ rest) ∗
          (hA.Inv b s.a ((p, Max) :: (R.map blk).map (full Max) ++ C.map blk) ∗ slack Max (R.map blk) ∗
          blocksV C ∗ bytes (b + A.objSize) 16)) =
        (hA.Inv b s.a ((p, Max) :: (R.map blk).map (full Max) ++ C.map blk) ∗
          (slack Max (R.map blk) ∗ (bytesV p (M.encPtr s.free ++ rest) ∗ blocksV C) ∗ bytes (b + A.objSize) 16)) := by
        ac_rfl
      show (hA.Inv b s.a ((R.map blk).map (full Max) ++ (p, Max) :: C.map blk) ∗ slack Max (R.map blk) ∗
          (bytesV p (M.encPtr s.free ++ rest) ∗ blocksV C) ∗ bytes (b + A.objSize) 16) _
      have hfull' : (bytesV p (M.encPtr s.free ++ rest) ∗
          (hA.Inv b s.a ((p, Max) :: (R.map blk).map (full Max) ++ C.map blk) ∗ slack Max (R.map blk) ∗
          blocksV C ∗ bytes (b + A.objSize) 16)) (h1.add (g1.add g2)) := hfull
      rw [e4] at hfull'
      exact star_mono_left (fun _ h => hA.perm List.perm_middle.symm h) _ hfull'

end Freelist

/-- `freelist` satisfies the contract if its part does. Proof helper, not code. -/
def freelist_sound (Min Max : Nat) {A : Allocator} {fA : Nat → Prop} (hA : Sound A fA)
    (hM8 : 8 ≤ Max) (hMW : Max < W64) : Sound (freelist Min Max A) (Freelist.Fits Min Max fA) where
  Inv b s L := fun h => (∀ c ∈ L, Min < c.2 ∧ c.2 ≤ Max ∧ Freelist.Fits Min Max fA c.2) ∧
    ∃ R, FInv Max hA b s L R h
  objAlign := by have := hA.objAlign; simp only [freelist]; omega
  perm := by
    rintro b s L L' h hp ⟨h1, R, h2, h3⟩
    refine ⟨fun c hc => h1 c (hp.mem_iff.2 hc), R, h2, ?_⟩
    rw [← slack_perm hp]
    exact star_mono_left (fun _ h => hA.perm ((hp.map _).append_right _) h) h h3
  init_spec := by
    intro b h1 h2 h3
    simp only [freelist] at h3 ⊢
    rw [bytes_split]
    refine Triple.bind ((hA.init_spec b h1 h2 (by omega)).frame _) (fun a => ?_)
    refine Triple.pure _ (fun h hh => ⟨by simp, [], ⟨rfl, by simp⟩, ?_⟩)
    simpa [slack, blocksV] using hh
  alloc_spec := by
    intro b s L n hf hn
    refine Triple.and (fun hL => Triple.exists (fun R => ?_))
    refine (Freelist.alloc_spec Min Max hA hMW b s L R n hf).post ?_
    rintro r h (⟨h1, _, h2⟩ | ⟨hr, h1, _, h2⟩)
    · exact .inl ⟨h1, hL, R, h2⟩
    · refine .inr ⟨h1, ?_⟩
      rw [star_and]
      refine ⟨?_, ?_⟩
      · intro c hc
        rcases List.mem_cons.1 hc with rfl | hc
        · exact ⟨hr.1, hr.2, hf⟩
        · exact hL c hc
      · rw [star_exists]
        exact ⟨_, h2⟩
  dealloc_local := by
    intro b s p bs R k _
    rw [star_and]
    refine apart_and (fun hL => ?_)
    rw [star_exists]
    refine apart_exists (fun C => ?_)
    obtain ⟨hmin, hmax, hfit⟩ := hL (p, bs.length) (by simp)
    refine (Freelist.dealloc_spec Min Max hA hM8 b s p bs R C hmin hmax).conseq (fun h hh => hh.2) ?_
    rintro s' h ⟨x, hx⟩
    exact ⟨fun c hc => hL c (List.mem_cons_of_mem _ hc), _, hx⟩
  live_good := by
    rintro b s L h p n ⟨h0, R, _, h1, h2, hd, rfl, hi, _⟩ hm
    have h3 := h0 _ hm
    simp only at h3
    have hg := (hA.live_good hi (p := p) (n := Max)
      (List.mem_append_left _ (List.mem_map.2 ⟨(p, n), hm, rfl⟩))).1
    exact ⟨⟨hg.1, hg.2.1, by have := hg.2.2; omega⟩, h3.2.2⟩
  live_max := by
    rintro f hf b s L h p n ⟨h0, R, _, h1, h2, hd, rfl, hi, _⟩ hm m hfm
    have h3 := h0 _ hm
    simp only at h3
    have hf1 : A.maxSize.map (fun f (s : Freelist.St A.St) => f s.a) = some f := hf
    obtain ⟨f', hf', rfl⟩ := Option.map_eq_some_iff.1 hf1
    have := hA.live_max f' hf' hi (p := p) (n := Max)
      (List.mem_append_left _ (List.mem_map.2 ⟨(p, n), hm, rfl⟩)) m hfm
    omega
  owns_sound := by
    rintro f hf b s L h x ⟨h0, R, _, h1, h234, hd, rfl, hi, h2, h34, hd2, rfl, hs, h3, h4, hd3, rfl, hR, _⟩ hx ho
    have hf1 : A.owns.map (fun f (s : Freelist.St A.St) p => f s.a p) = some f := hf
    obtain ⟨f', hf', rfl⟩ := Option.map_eq_some_iff.1 hf1
    rcases hA.owns_sound f' hf' hi hx ho with h | h
    · left; simp [h]
    · rw [inLive_append] at h
      rcases h with h | h
      · rcases inLive_full (fun c hc => (h0 c hc).2.1) hs h with h | h
        · left; simp [h]
        · exact .inr h
      · left
        have := blocksV_isSome hR h
        simp [this]
  owns_complete := by
    rintro f hf b s L h x ⟨h0, R, _, h1, h2, hd, rfl, hi, _⟩ ⟨c, hc, hx⟩
    have hf1 : A.owns.map (fun f (s : Freelist.St A.St) p => f s.a p) = some f := hf
    obtain ⟨f', hf', rfl⟩ := Option.map_eq_some_iff.1 hf1
    refine hA.owns_complete f' hf' hi ⟨full Max c, List.mem_append_left _ (List.mem_map_of_mem hc), ?_⟩
    have := h0 c hc
    simp only [full]; omega
  construct_spec := by
    intro c hc b s L p
    have hc1 : A.construct.map (fun c (s : Freelist.St A.St) p => do
      let a ← c s.a p
      pure (⟨a, s.free⟩ : Freelist.St A.St)) = some c := hc
    obtain ⟨c', hc', rfl⟩ := Option.map_eq_some_iff.1 hc1
    refine Triple.and (fun hL => Triple.exists (fun R => Triple.and (fun hl => ?_)))
    refine Triple.bind ((hA.construct_spec c' hc' b s.a _ p).frame _) (fun a => ?_)
    exact Triple.pure _ (fun h hh => ⟨hL, R, hl, hh⟩)
  destroy_spec := by
    intro c hc b s L p
    have hc1 : A.destroy.map (fun c (s : Freelist.St A.St) p => do
      let a ← c s.a p
      pure (⟨a, s.free⟩ : Freelist.St A.St)) = some c := hc
    obtain ⟨c', hc', rfl⟩ := Option.map_eq_some_iff.1 hc1
    refine Triple.and (fun hL => Triple.exists (fun R => Triple.and (fun hl => ?_)))
    refine Triple.bind ((hA.destroy_spec c' hc' b s.a _ p).frame _) (fun a => ?_)
    exact Triple.pure _ (fun h hh => ⟨hL, R, hl, hh⟩)
  fini_spec := by
    intro b s
    refine Triple.and (fun hL => Triple.exists (fun R => Triple.and (fun hl => ?_)))
    simp only [freelist]
    rw [bytes_split]
    simp only [List.map_nil, List.nil_append, slack, emp_star]
    rw [← star_assoc]
    refine Triple.bind ((release_spec hA Max b R s.a s.free hl.1).frame _) (fun a => ?_)
    exact (hA.fini_spec b a).frame _

end KTL
