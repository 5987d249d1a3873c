import Verif.Alloc.Basic

/- `fallback<P, F>` and `segragator<Threshold, P, F>`. -/
namespace KTL

/-- Call of `owns`; the `false` branch is unreachable in programs that compile (`static_assert` on
`has_owns_v`). `allocators/fallback.h:27`, `allocators/cascading.h:31`. -/
def Allocator.ownsD (A : Allocator) (s : A.St) (p : Nat) : Bool :=
  match A.owns with
  | some f => f s p
  | none => false

/-- `construct`/`destroy` of the two-way allocators (`allocators/fallback.h:123-181`,
`allocators/segragator.h:117-175`): route to the sub-allocator that owns `p` if it has the member,
else act directly (`ev` is the placement-new / destructor event). -/
def route2 (P F : Allocator) (cP : Option (P.St → Nat → M P.St)) (cF : Option (F.St → Nat → M F.St))
    (ev : Nat → Ev) : Option (P.St × F.St → Nat → M (P.St × F.St)) :=
  if cP.isSome || cF.isSome then
    some fun s p =>
      let owned := P.ownsD s.1 p
      match owned, cP, cF with
      | true, some c, _ => do
        let s1 ← c s.1 p
        pure (s1, s.2)
      | false, _, some c => do
        let s2 ← c s.2 p
        pure (s.1, s2)
      | _, _, _ => do
        M.event (ev p)
        pure s
  else none

/-- `max_size` of the two-way allocators (`allocators/fallback.h:185-191`,
`allocators/segragator.h:179-185`). -/
def maxSize2 (P F : Allocator) : Option (P.St × F.St → Option Nat) :=
  match P.maxSize, F.maxSize with
  | some f, some g => some fun s =>
    match f s.1, g s.2 with
    | some a, some b => some (max a b)
    | _, _ => none
  | _, _ => none

/-- `owns` of the two-way allocators (`allocators/fallback.h:193-202`,
`allocators/segragator.h:187-196`). -/
def owns2 (P F : Allocator) : Option (P.St × F.St → Nat → Bool) :=
  match P.owns, F.owns with
  | some f, some g => some fun s p => f s.1 p || g s.2 p
  | _, _ => none

/-- `fallback<P, F>`: `allocate` `allocators/fallback.h:100-107`, `deallocate` `:109-119`; default
constructor and destructor member-wise (`:207-208`). -/
def fallback (P F : Allocator) : Allocator where
  St := P.St × F.St
  objSize := P.objSize + F.objSize
  init a := do
    let s1 ← P.init a
    let s2 ← F.init (a + P.objSize)
    pure (s1, s2)
  alloc s n := do
    let r ← P.alloc s.1 n
    if r.1 = 0 then do
      let q ← F.alloc s.2 n
      pure (q.1, (r.2, q.2))
    else pure (r.1, (r.2, s.2))
  dealloc s p n :=
    if P.ownsD s.1 p then do
      let s1 ← P.dealloc s.1 p n
      pure (s1, s.2)
    else do
      let s2 ← F.dealloc s.2 p n
      pure (s.1, s2)
  owns := owns2 P F
  maxSize := maxSize2 P F
  construct := route2 P F P.construct F.construct .ctor
  destroy := route2 P F P.destroy F.destroy .dtor
  fini s := do
    F.fini s.2
    P.fini s.1

/-- `segragator<T, P, F>`: `allocate` `allocators/segragator.h:97-104`, `deallocate` `:106-113`. -/
def segragator (T : Nat) (P F : Allocator) : Allocator where
  St := P.St × F.St
  objSize := P.objSize + F.objSize
  init a := do
    let s1 ← P.init a
    let s2 ← F.init (a + P.objSize)
    pure (s1, s2)
  alloc s n :=
    if n ≤ T then do
      let r ← P.alloc s.1 n
      pure (r.1, (r.2, s.2))
    else do
      let q ← F.alloc s.2 n
      pure (q.1, (s.1, q.2))
  dealloc s p n :=
    if n ≤ T then do
      let s1 ← P.dealloc s.1 p n
      pure (s1, s.2)
    else do
      let s2 ← F.dealloc s.2 p n
      pure (s.1, s2)
  owns := owns2 P F
  maxSize := maxSize2 P F
  construct := route2 P F P.construct F.construct .ctor
  destroy := route2 P F P.destroy F.destroy .dtor
  fini s := do
    F.fini s.2
    P.fini s.1

theorem maxSize2_some {P F : Allocator} {f s m} (hf : maxSize2 P F = some f) (hm : f s = some m) :
    ∃ f1 f2, P.maxSize = some f1 ∧ F.maxSize = some f2 ∧ ∃ m1 m2, f1 s.1 = some m1 ∧ f2 s.2 = some m2 ∧
      m = max m1 m2 := by
  unfold maxSize2 at hf
  split at hf
  · rename_i f1 f2 h1 h2
    cases hf
    refine ⟨f1, f2, h1, h2, ?_⟩
    simp only at hm
    split at hm
    · rename_i a b ha hb
      cases hm
      exact ⟨a, b, ha, hb, rfl⟩
    · cases hm
  · cases hf

theorem perm_cons_append {α} [DecidableEq α] {a : α} {R L1 L2 : List α} (h : (a :: R).Perm (L1 ++ L2)) :
    (∃ L1', L1.Perm (a :: L1') ∧ R.Perm (L1' ++ L2)) ∨
    (∃ L2', L2.Perm (a :: L2') ∧ R.Perm (L1 ++ L2')) := by
  have hm : a ∈ L1 ++ L2 := h.mem_iff.1 (by simp)
  rcases List.mem_append.1 hm with hm | hm
  · left
    refine ⟨L1.erase a, List.perm_cons_erase hm, ?_⟩
    have := h.trans ((List.perm_cons_erase hm).append_right L2)
    exact (List.perm_cons a).1 this
  · right
    refine ⟨L2.erase a, List.perm_cons_erase hm, ?_⟩
    have h2 : (L1 ++ L2).Perm (a :: (L1 ++ L2.erase a)) :=
      ((List.perm_cons_erase hm).append_left L1).trans List.perm_middle
    exact (List.perm_cons a).1 (h.trans h2)

section
variable {P F : Allocator} {fP fF : Nat → Prop} (hP : Sound P fP) (hF : Sound F fF)
include hP hF

theorem init2_spec (b : Nat) (h1 : b ≠ 0) (h2 : b % 16 = 0) (h3 : b + (P.objSize + F.objSize) < W64) :
    Triple (bytes b (P.objSize + F.objSize))
      (do
        let s1 ← P.init b
        let s2 ← F.init (b + P.objSize)
        pure (s1, s2) : M (P.St × F.St))
      (fun s => hP.Inv b s.1 [] ∗ hF.Inv (b + P.objSize) s.2 []) := by
  rw [bytes_split]
  refine Triple.bind ((hP.init_spec b h1 h2 (by omega)).frame _) (fun s1 => ?_)
  rw [star_comm]
  have ha := hP.objAlign
  refine Triple.bind ((hF.init_spec (b + P.objSize) (by omega) (by omega) (by omega)).frame _) (fun s2 => ?_)
  exact Triple.pure _ (fun h hh => by rw [star_comm]; exact hh)

theorem fini2_spec (b : Nat) (s : P.St × F.St) :
    Triple (hP.Inv b s.1 [] ∗ hF.Inv (b + P.objSize) s.2 [])
      (do
        F.fini s.2
        P.fini s.1 : M Unit)
      (fun _ => bytes b (P.objSize + F.objSize)) := by
  rw [bytes_split, star_comm]
  refine Triple.bind ((hF.fini_spec _ s.2).frame _) (fun _ => ?_)
  rw [star_comm]
  exact (hP.fini_spec _ s.1).frame _

theorem route2_spec {cP cF ev}
    (hcP : ∀ c, cP = some c → ∀ b s L p, Triple (hP.Inv b s L) (c s p) (fun s' => hP.Inv b s' L))
    (hcF : ∀ c, cF = some c → ∀ b s L p, Triple (hF.Inv b s L) (c s p) (fun s' => hF.Inv b s' L))
    (c) (hc : route2 P F cP cF ev = some c) (b b' s L1 L2 p) :
    Triple (hP.Inv b s.1 L1 ∗ hF.Inv b' s.2 L2) (c s p)
      (fun s' => hP.Inv b s'.1 L1 ∗ hF.Inv b' s'.2 L2) := by
  unfold route2 at hc
  split at hc
  · cases hc
    simp only
    cases P.ownsD s.1 p with
    | true =>
      cases cP with
      | some c =>
        simp only
        refine Triple.bind ((hcP c rfl b s.1 L1 p).frame _) (fun s1 => ?_)
        exact Triple.pure _ (fun h hh => hh)
      | none =>
        simp only
        refine Triple.bind (Triple.event _) (fun _ => Triple.pure _ (fun h hh => hh))
    | false =>
      cases cF with
      | some c =>
        simp only
        rw [star_comm]
        refine Triple.bind ((hcF c rfl b' s.2 L2 p).frame _) (fun s1 => ?_)
        exact Triple.pure _ (fun h hh => by rw [star_comm]; exact hh)
      | none =>
        simp only
        refine Triple.bind (Triple.event _) (fun _ => Triple.pure _ (fun h hh => hh))
  · cases hc

end

theorem heap_left_isSome {h1 h2 : Heap} {x : Nat} (h : (h1.b x).isSome = true) :
    ((h1.add h2).b x).isSome = true := by simp [h]

theorem heap_right_isSome {h1 h2 : Heap} {x : Nat} (h : (h2.b x).isSome = true) :
    ((h1.add h2).b x).isSome = true := by simp [h]

/-- Sizes for which `fallback` is claimed sound: admissible for both parts and not zero
(`Verif/Props` shows that zero-size requests break it). Specification, not code. -/
def FallbackFits (fP fF : Nat → Prop) (n : Nat) : Prop := n ≠ 0 ∧ fP n ∧ fF n

theorem inLive_self {L : List (Nat × Nat)} {p n : Nat} (h : (p, n) ∈ L) (hn : n ≠ 0) : inLive L p :=
  ⟨(p, n), h, by simp; omega⟩

/-- `fallback` satisfies the contract if its parts do and the primary has `owns`. Proof helper, not code. -/
def fallback_sound {P F : Allocator} {fP fF : Nat → Prop} (hP : Sound P fP) (hF : Sound F fF)
    (ho : P.owns.isSome = true) : Sound (fallback P F) (FallbackFits fP fF) where
  Inv b s L := fun h => (∀ c ∈ L, FallbackFits fP fF c.2) ∧ ∃ L1 L2, L.Perm (L1 ++ L2) ∧
    (hP.Inv b s.1 L1 ∗ hF.Inv (b + P.objSize) s.2 L2) h
  objAlign := by
    have := hP.objAlign; have := hF.objAlign
    simp only [fallback]; omega
  perm := by
    rintro b s L L' h hp ⟨h1, L1, L2, h2, h3⟩
    exact ⟨fun c hc => h1 c (hp.mem_iff.2 hc), L1, L2, hp.symm.trans h2, h3⟩
  init_spec := by
    intro b h1 h2 h3
    refine (init2_spec hP hF b h1 h2 h3).post ?_
    intro s h hh
    exact ⟨by simp, [], [], by simp, hh⟩
  alloc_spec := by
    intro b s L n hf hn
    refine Triple.and (fun hL => Triple.exists (fun L1 => Triple.exists (fun L2 => Triple.and (fun hp => ?_))))
    refine Triple.bind ((hP.alloc_spec b s.1 L1 n hf.2.1 hn).frame _) (fun r => ?_)
    have hL' : ∀ p, ∀ c ∈ (p, n) :: L, FallbackFits fP fF c.2 := by
      intro p c hc
      rcases List.mem_cons.1 hc with rfl | hc
      · exact hf
      · exact hL c hc
    by_cases hr : r.1 = 0
    · simp only [hr, if_true]
      refine Triple.pre (P := hF.Inv (b + P.objSize) s.2 L2 ∗ hP.Inv b r.2 L1) ?_ ?_
      · refine Triple.bind ((hF.alloc_spec _ s.2 L2 n hf.2.2 hn).frame _) (fun q => ?_)
        refine Triple.pure _ (fun h hh => ?_)
        obtain ⟨h1, h2, hd, rfl, h3 | h3, h4⟩ := hh
        · left
          refine ⟨h3.1, hL, L1, L2, hp, ?_⟩
          rw [star_comm]
          exact ⟨h1, h2, hd, rfl, h3.2, h4⟩
        · right
          refine ⟨h3.1, ?_⟩
          have : ((hP.Inv b r.2 L1 ∗ hF.Inv (b + P.objSize) q.2 ((q.1, n) :: L2)) ∗ bytes q.1 n) (h1.add h2) := by
            have e : ((hP.Inv b r.2 L1 ∗ hF.Inv (b + P.objSize) q.2 ((q.1, n) :: L2)) ∗ bytes q.1 n) =
              ((hF.Inv (b + P.objSize) q.2 ((q.1, n) :: L2) ∗ bytes q.1 n) ∗ hP.Inv b r.2 L1) := by ac_rfl
            rw [e]
            exact ⟨h1, h2, hd, rfl, h3.2, h4⟩
          refine star_mono_left ?_ _ this
          intro h hh
          exact ⟨hL' _, L1, (q.1, n) :: L2, (hp.cons _).trans List.perm_middle.symm, hh⟩
      · rintro h ⟨h1, h2, hd, rfl, h3 | h3, h4⟩
        · rw [star_comm]; exact ⟨h1, h2, hd, rfl, h3.2, h4⟩
        · exact absurd rfl h3.1.1
    · simp only [hr, if_false]
      refine Triple.pure _ (fun h hh => ?_)
      obtain ⟨h1, h2, hd, rfl, h3 | h3, h4⟩ := hh
      · exact h3.1.elim
      · right
        refine ⟨h3.1, ?_⟩
        have : ((hP.Inv b r.2 ((r.1, n) :: L1) ∗ hF.Inv (b + P.objSize) s.2 L2) ∗ bytes r.1 n) (h1.add h2) := by
          have e : ((hP.Inv b r.2 ((r.1, n) :: L1) ∗ hF.Inv (b + P.objSize) s.2 L2) ∗ bytes r.1 n) =
            ((hP.Inv b r.2 ((r.1, n) :: L1) ∗ bytes r.1 n) ∗ hF.Inv (b + P.objSize) s.2 L2) := by ac_rfl
          rw [e]
          exact ⟨h1, h2, hd, rfl, h3.2, h4⟩
        refine star_mono_left ?_ _ this
        intro h hh
        exact ⟨hL' _, (r.1, n) :: L1, L2, hp.cons _, hh⟩
  dealloc_local := by
    intro b s p bs R k hR
    rw [star_and]
    refine apart_and (fun hL => ?_)
    rw [star_exists]
    refine apart_exists (fun L1 => ?_)
    rw [star_exists]
    refine apart_exists (fun L2 => ?_)
    rw [star_and]
    refine apart_and (fun hp => ?_)
    obtain ⟨f, hf⟩ := Option.isSome_iff_exists.1 ho
    have hn : bs.length ≠ 0 := (hL (p, bs.length) (by simp)).1
    have hL' : ∀ c ∈ R.map blk, FallbackFits fP fF c.2 := fun c hc => hL c (List.mem_cons_of_mem _ hc)
    simp only [fallback, Allocator.ownsD, hf]
    by_cases hown : f s.1 p = true
    · simp only [hown, if_true]
      -- the block belongs to the primary
      refine Triple.have (p := ∃ L1', L1.Perm ((p, bs.length) :: L1') ∧ (R.map blk).Perm (L1' ++ L2)) ?_ ?_
      · rintro h ⟨hk, h12, h3, hd, rfl, ⟨h1, h2, hd12, rfl, hi1, hi2⟩, hpb⟩
        rcases perm_cons_append hp with h | ⟨L2', hl2, hrl⟩
        · exact h
        · exfalso
          have hd' := Heap.disj_add_left.1 hd
          have hg := hF.live_good hi2 (hl2.mem_iff.2 (List.mem_cons_self (a := (p, bs.length))))
          have hpx : (h3.b p).isSome = true := bytesV_isSome hpb (by omega)
          rcases hP.owns_sound f hf hi1 hg.1.1 hown with hs | hs
          · exact disj_isSome hd'.1 hs hpx
          · have : inLive (R.map blk) p := by
              rw [inLive_perm hrl, inLive_append]; exact .inl hs
            exact disj_isSome (Heap.disj_add_left.1 hk).2 hpx (blocksV_isSome hR this)
      · rintro ⟨L1', hl1, hrl⟩
        obtain ⟨R1, R2, hRR, hR1, hR2⟩ := split_blocks hrl
        subst hR1 hR2
        rw [blocksV_perm hRR, blocksV_append] at hR
        obtain ⟨k1, k2, hdk, rfl, hk1, _⟩ := hR
        refine Triple.bind (R := fun s1 => hP.Inv b s1 (R1.map blk) ∗ hF.Inv (b + P.objSize) s.2 (R2.map blk)) ?_ (fun s1 => ?_)
        · refine (apart_frame (F := hF.Inv (b + P.objSize) s.2 (R2.map blk)) (hP.dealloc_local b s.1 p bs R1 k1 hk1)).pre ?_
          rintro h ⟨hk, hh⟩
          refine ⟨(Heap.disj_add_right.1 hk).1, ?_⟩
          have e : ((hP.Inv b s.1 L1 ∗ hF.Inv (b + P.objSize) s.2 (R2.map blk)) ∗ bytesV p bs) =
            (hP.Inv b s.1 L1 ∗ (bytesV p bs ∗ hF.Inv (b + P.objSize) s.2 (R2.map blk))) := by
            ac_rfl
          rw [e] at hh
          rw [star_assoc]
          exact star_mono_left (fun _ h => hP.perm hl1 h) h hh
        · exact Triple.pure _ (fun h hh => ⟨hL', R1.map blk, R2.map blk, hrl, hh⟩)
    · simp only [hown, Bool.false_eq_true, if_false]
      refine Triple.have (p := ∃ L2', L2.Perm ((p, bs.length) :: L2') ∧ (R.map blk).Perm (L1 ++ L2')) ?_ ?_
      · rintro h ⟨_, h12, h3, hd, rfl, ⟨h1, h2, hd12, rfl, hi1, hi2⟩, _⟩
        rcases perm_cons_append hp with ⟨L1', hl1, hrl⟩ | h
        · exfalso
          exact hown (hP.owns_complete f hf hi1
            (inLive_self (hl1.mem_iff.2 (List.mem_cons_self (a := (p, bs.length)))) hn))
        · exact h
      · rintro ⟨L2', hl2, hrl⟩
        obtain ⟨R1, R2, hRR, hR1, hR2⟩ := split_blocks hrl
        subst hR1 hR2
        rw [blocksV_perm hRR, blocksV_append] at hR
        obtain ⟨k1, k2, hdk, rfl, _, hk2⟩ := hR
        refine Triple.bind (R := fun s2 => hF.Inv (b + P.objSize) s2 (R2.map blk) ∗ hP.Inv b s.1 (R1.map blk)) ?_ (fun s2 => ?_)
        · refine (apart_frame (F := hP.Inv b s.1 (R1.map blk)) (hF.dealloc_local (b + P.objSize) s.2 p bs R2 k2 hk2)).pre ?_
          rintro h ⟨hk, hh⟩
          refine ⟨(Heap.disj_add_right.1 hk).2, ?_⟩
          have e : ((hP.Inv b s.1 (R1.map blk) ∗ hF.Inv (b + P.objSize) s.2 L2) ∗ bytesV p bs) =
            (hF.Inv (b + P.objSize) s.2 L2 ∗ (bytesV p bs ∗ hP.Inv b s.1 (R1.map blk))) := by
            ac_rfl
          rw [e] at hh
          rw [star_assoc]
          exact star_mono_left (fun _ h => hF.perm hl2 h) h hh
        · refine Triple.pure _ (fun h hh => ⟨hL', R1.map blk, R2.map blk, hrl, ?_⟩)
          rw [star_comm]; exact hh
  live_good := by
    rintro b s L h p n ⟨h0, L1, L2, hp, h1, h2, hd, rfl, hi1, hi2⟩ hm
    refine ⟨?_, h0 _ hm⟩
    rcases List.mem_append.1 (hp.mem_iff.1 hm) with hm | hm
    · exact (hP.live_good hi1 hm).1
    · exact (hF.live_good hi2 hm).1
  live_max := by
    rintro f hf b s L h p n ⟨h0, L1, L2, hp, h1, h2, hd, rfl, hi1, hi2⟩ hm m hfm
    obtain ⟨f1, f2, hf1, hf2, m1, m2, e1, e2, rfl⟩ := maxSize2_some hf hfm
    rcases List.mem_append.1 (hp.mem_iff.1 hm) with hm | hm
    · have := hP.live_max f1 hf1 hi1 hm m1 e1; omega
    · have := hF.live_max f2 hf2 hi2 hm m2 e2; omega
  owns_sound := by
    rintro f hf b s L h x ⟨h0, L1, L2, hp, h1, h2, hd, rfl, hi1, hi2⟩ hx ho
    simp only [fallback, owns2] at hf
    split at hf
    · rename_i f1 f2 hf1 hf2
      cases hf
      rw [inLive_perm hp, inLive_append]
      simp only [Bool.or_eq_true] at ho
      rcases ho with ho | ho
      · rcases hP.owns_sound f1 hf1 hi1 hx ho with h | h
        · exact .inl (heap_left_isSome h)
        · exact .inr (.inl h)
      · rcases hF.owns_sound f2 hf2 hi2 hx ho with h | h
        · exact .inl (heap_right_isSome h)
        · exact .inr (.inr h)
    · cases hf
  owns_complete := by
    rintro f hf b s L h x ⟨h0, L1, L2, hp, h1, h2, hd, rfl, hi1, hi2⟩ hx
    simp only [fallback, owns2] at hf
    split at hf
    · rename_i f1 f2 hf1 hf2
      cases hf
      rw [inLive_perm hp, inLive_append] at hx
      simp only [Bool.or_eq_true]
      rcases hx with hx | hx
      · exact .inl (hP.owns_complete f1 hf1 hi1 hx)
      · exact .inr (hF.owns_complete f2 hf2 hi2 hx)
    · cases hf
  construct_spec := by
    intro c hc b s L p
    refine Triple.and (fun hL => Triple.exists (fun L1 => Triple.exists (fun L2 => Triple.and (fun hp => ?_))))
    exact (route2_spec hP hF hP.construct_spec hF.construct_spec c hc b (b + P.objSize) s L1 L2 p).post
      (fun s' h hh => ⟨hL, L1, L2, hp, hh⟩)
  destroy_spec := by
    intro c hc b s L p
    refine Triple.and (fun hL => Triple.exists (fun L1 => Triple.exists (fun L2 => Triple.and (fun hp => ?_))))
    exact (route2_spec hP hF hP.destroy_spec hF.destroy_spec c hc b (b + P.objSize) s L1 L2 p).post
      (fun s' h hh => ⟨hL, L1, L2, hp, hh⟩)
  fini_spec := by
    intro b s
    refine Triple.and (fun hL => Triple.exists (fun L1 => Triple.exists (fun L2 => Triple.and (fun hp => ?_))))
    have : L1 ++ L2 = [] := List.nil_perm.1 hp
    obtain ⟨rfl, rfl⟩ := List.append_eq_nil_iff.1 this
    exact fini2_spec hP hF b s


/-- Sizes admissible for `segragator`. Specification, not code. -/
def SegFits (T : Nat) (fP fF : Nat → Prop) (n : Nat) : Prop := (n ≤ T → fP n) ∧ (T < n → fF n)

/-- the live blocks served by the primary. Proof helper, not code. -/
def lo (T : Nat) (L : List (Nat × Nat)) : List (Nat × Nat) := L.filter (fun c => decide (c.2 ≤ T))
/-- the live blocks served by the fallback. Proof helper, not code. -/
def hi (T : Nat) (L : List (Nat × Nat)) : List (Nat × Nat) := L.filter (fun c => !decide (c.2 ≤ T))

theorem lo_hi_perm (T : Nat) (L : List (Nat × Nat)) : L.Perm (lo T L ++ hi T L) :=
  (List.filter_append_perm _ _).symm

theorem lo_cons_le {T p n L} (h : n ≤ T) : lo T ((p, n) :: L) = (p, n) :: lo T L := by
  simp [lo, h]
theorem hi_cons_le {T p n L} (h : n ≤ T) : hi T ((p, n) :: L) = hi T L := by
  simp [hi, h]
theorem lo_cons_gt {T p n L} (h : ¬ n ≤ T) : lo T ((p, n) :: L) = lo T L := by
  simp [lo, h]
theorem hi_cons_gt {T p n L} (h : ¬ n ≤ T) : hi T ((p, n) :: L) = (p, n) :: hi T L := by
  simp only [hi]; rw [List.filter_cons_of_pos]; simp; omega

theorem split_lo_hi (T : Nat) (R : List (Nat × List UInt8)) :
    ∃ R1 R2, R.Perm (R1 ++ R2) ∧ R1.map blk = lo T (R.map blk) ∧ R2.map blk = hi T (R.map blk) :=
  split_blocks (lo_hi_perm T (R.map blk))

/-- `segragator` satisfies the contract if its parts do. Proof helper, not code. -/
def segragator_sound (T : Nat) {P F : Allocator} {fP fF : Nat → Prop} (hP : Sound P fP) (hF : Sound F fF) :
    Sound (segragator T P F) (SegFits T fP fF) where
  Inv b s L := fun h => (∀ c ∈ L, SegFits T fP fF c.2) ∧
    (hP.Inv b s.1 (lo T L) ∗ hF.Inv (b + P.objSize) s.2 (hi T L)) h
  objAlign := by
    have := hP.objAlign; have := hF.objAlign
    simp only [segragator]; omega
  perm := by
    rintro b s L L' h hp ⟨h1, h2⟩
    refine ⟨fun c hc => h1 c (hp.mem_iff.2 hc), ?_⟩
    exact star_mono (fun _ h => hP.perm (hp.filter _) h) (fun _ h => hF.perm (hp.filter _) h) h h2
  init_spec := by
    intro b h1 h2 h3
    exact (init2_spec hP hF b h1 h2 h3).post (fun s h hh => ⟨by simp, hh⟩)
  alloc_spec := by
    intro b s L n hf hn
    refine Triple.and (fun hL => ?_)
    have hL' : ∀ p, ∀ c ∈ (p, n) :: L, SegFits T fP fF c.2 := by
      intro p c hc
      rcases List.mem_cons.1 hc with rfl | hc
      · exact hf
      · exact hL c hc
    by_cases hT : n ≤ T
    · simp only [segragator, hT, if_true]
      refine Triple.bind ((hP.alloc_spec b s.1 _ n (hf.1 hT) hn).frame _) (fun r => ?_)
      refine Triple.pure _ (fun h hh => ?_)
      obtain ⟨h1, h2, hd, rfl, h3 | h3, h4⟩ := hh
      · left; exact ⟨h3.1, hL, h1, h2, hd, rfl, h3.2, h4⟩
      · right
        refine ⟨h3.1, ?_⟩
        rw [star_and]
        refine ⟨hL' _, ?_⟩
        show ((hP.Inv b r.2 (lo T ((r.1, n) :: L)) ∗ hF.Inv (b + P.objSize) s.2 (hi T ((r.1, n) :: L))) ∗ bytes r.1 n) _
        rw [lo_cons_le hT, hi_cons_le hT]
        have e : ((hP.Inv b r.2 ((r.1, n) :: lo T L) ∗ hF.Inv (b + P.objSize) s.2 (hi T L)) ∗ bytes r.1 n) =
          ((hP.Inv b r.2 ((r.1, n) :: lo T L) ∗ bytes r.1 n) ∗ hF.Inv (b + P.objSize) s.2 (hi T L)) := by ac_rfl
        rw [e]
        exact ⟨h1, h2, hd, rfl, h3.2, h4⟩
    · simp only [segragator, hT, if_false]
      rw [star_comm]
      refine Triple.bind ((hF.alloc_spec _ s.2 _ n (hf.2 (by omega)) hn).frame _) (fun r => ?_)
      refine Triple.pure _ (fun h hh => ?_)
      obtain ⟨h1, h2, hd, rfl, h3 | h3, h4⟩ := hh
      · left
        refine ⟨h3.1, hL, ?_⟩
        rw [star_comm]
        exact ⟨h1, h2, hd, rfl, h3.2, h4⟩
      · right
        refine ⟨h3.1, ?_⟩
        rw [star_and]
        refine ⟨hL' _, ?_⟩
        show ((hP.Inv b s.1 (lo T ((r.1, n) :: L)) ∗ hF.Inv (b + P.objSize) r.2 (hi T ((r.1, n) :: L))) ∗ bytes r.1 n) _
        rw [lo_cons_gt hT, hi_cons_gt hT]
        have e : ((hP.Inv b s.1 (lo T L) ∗ hF.Inv (b + P.objSize) r.2 ((r.1, n) :: hi T L)) ∗ bytes r.1 n) =
          ((hF.Inv (b + P.objSize) r.2 ((r.1, n) :: hi T L) ∗ bytes r.1 n) ∗ hP.Inv b s.1 (lo T L)) := by ac_rfl
        rw [e]
        exact ⟨h1, h2, hd, rfl, h3.2, h4⟩
  dealloc_local := by
    intro b s p bs R k hR
    rw [star_and]
    refine apart_and (fun hL => ?_)
    have hL' : ∀ c ∈ R.map blk, SegFits T fP fF c.2 := fun c hc => hL c (List.mem_cons_of_mem _ hc)
    obtain ⟨R1, R2, hRR, hR1, hR2⟩ := split_lo_hi T R
    rw [blocksV_perm hRR, blocksV_append] at hR
    obtain ⟨k1, k2, hdk, rfl, hk1, hk2⟩ := hR
    by_cases hT : bs.length ≤ T
    · simp only [segragator, hT, if_true]
      rw [lo_cons_le hT, hi_cons_le hT, ← hR1, ← hR2]
      refine Triple.bind (R := fun s1 => hP.Inv b s1 (R1.map blk) ∗ hF.Inv (b + P.objSize) s.2 (R2.map blk)) ?_ (fun s1 => ?_)
      · refine (apart_frame (F := hF.Inv (b + P.objSize) s.2 (R2.map blk)) (hP.dealloc_local b s.1 p bs R1 k1 hk1)).pre ?_
        rintro h ⟨hk, hh⟩
        refine ⟨(Heap.disj_add_right.1 hk).1, ?_⟩
        have e : ((hP.Inv b s.1 ((p, bs.length) :: R1.map blk) ∗ hF.Inv (b + P.objSize) s.2 (R2.map blk)) ∗ bytesV p bs) =
            ((hP.Inv b s.1 ((p, bs.length) :: R1.map blk) ∗ bytesV p bs) ∗ hF.Inv (b + P.objSize) s.2 (R2.map blk)) := by
            ac_rfl
        rw [e] at hh
        exact hh
      · exact Triple.pure _ (fun h hh => ⟨hL', hh⟩)
    · simp only [segragator, hT, if_false]
      rw [lo_cons_gt hT, hi_cons_gt hT, ← hR1, ← hR2]
      refine Triple.bind (R := fun s2 => hF.Inv (b + P.objSize) s2 (R2.map blk) ∗ hP.Inv b s.1 (R1.map blk)) ?_ (fun s2 => ?_)
      · refine (apart_frame (F := hP.Inv b s.1 (R1.map blk)) (hF.dealloc_local (b + P.objSize) s.2 p bs R2 k2 hk2)).pre ?_
        rintro h ⟨hk, hh⟩
        refine ⟨(Heap.disj_add_right.1 hk).2, ?_⟩
        have e : ((hP.Inv b s.1 (R1.map blk) ∗ hF.Inv (b + P.objSize) s.2 ((p, bs.length) :: R2.map blk)) ∗ bytesV p bs) =
            ((hF.Inv (b + P.objSize) s.2 ((p, bs.length) :: R2.map blk) ∗ bytesV p bs) ∗ hP.Inv b s.1 (R1.map blk)) := by
            ac_rfl
        rw [e] at hh
        exact hh
      · refine Triple.pure _ (fun h hh => ⟨hL', ?_⟩)
        rw [star_comm]; exact hh
  live_good := by
    rintro b s L h p n ⟨h0, h1, h2, hd, rfl, hi1, hi2⟩ hm
    refine ⟨?_, h0 _ hm⟩
    rcases List.mem_append.1 ((lo_hi_perm T L).mem_iff.1 hm) with hm | hm
    · exact (hP.live_good hi1 hm).1
    · exact (hF.live_good hi2 hm).1
  live_max := by
    rintro f hf b s L h p n ⟨h0, h1, h2, hd, rfl, hi1, hi2⟩ hm m hfm
    obtain ⟨f1, f2, hf1, hf2, m1, m2, e1, e2, rfl⟩ := maxSize2_some hf hfm
    rcases List.mem_append.1 ((lo_hi_perm T L).mem_iff.1 hm) with hm | hm
    · have := hP.live_max f1 hf1 hi1 hm m1 e1; omega
    · have := hF.live_max f2 hf2 hi2 hm m2 e2; omega
  owns_sound := by
    rintro f hf b s L h x ⟨h0, h1, h2, hd, rfl, hi1, hi2⟩ hx ho
    simp only [segragator, owns2] at hf
    split at hf
    · rename_i f1 f2 hf1 hf2
      cases hf
      rw [inLive_perm (lo_hi_perm T L), inLive_append]
      simp only [Bool.or_eq_true] at ho
      rcases ho with ho | ho
      · rcases hP.owns_sound f1 hf1 hi1 hx ho with h | h
        · exact .inl (heap_left_isSome h)
        · exact .inr (.inl h)
      · rcases hF.owns_sound f2 hf2 hi2 hx ho with h | h
        · exact .inl (heap_right_isSome h)
        · exact .inr (.inr h)
    · cases hf
  owns_complete := by
    rintro f hf b s L h x ⟨h0, h1, h2, hd, rfl, hi1, hi2⟩ hx
    simp only [segragator, owns2] at hf
    split at hf
    · rename_i f1 f2 hf1 hf2
      cases hf
      rw [inLive_perm (lo_hi_perm T L), inLive_append] at hx
      simp only [Bool.or_eq_true]
      rcases hx with hx | hx
      · exact .inl (hP.owns_complete f1 hf1 hi1 hx)
      · exact .inr (hF.owns_complete f2 hf2 hi2 hx)
    · cases hf
  construct_spec := by
    intro c hc b s L p
    refine Triple.and (fun hL => ?_)
    exact (route2_spec hP hF hP.construct_spec hF.construct_spec c hc b (b + P.objSize) s _ _ p).post
      (fun s' h hh => ⟨hL, hh⟩)
  destroy_spec := by
    intro c hc b s L p
    refine Triple.and (fun hL => ?_)
    exact (route2_spec hP hF hP.destroy_spec hF.destroy_spec c hc b (b + P.objSize) s _ _ p).post
      (fun s' h hh => ⟨hL, hh⟩)
  fini_spec := by
    intro b s
    refine Triple.and (fun hL => ?_)
    exact fini2_spec hP hF b s

end KTL
