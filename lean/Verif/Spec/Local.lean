import Verif.Spec.Depot
import Verif.Conc.BodySound
import Mathlib.Data.List.Perm.Subperm

/- Proof machinery for threads with allocators of their own: the contract of those allocators. -/
namespace KTL

/-- `A` without `max_size`. Proof helper, not code. -/
@[reducible] def noMax (A : Allocator) : Allocator := { A with maxSize := none }

/-- Proof helper, not code. -/
def noMax_sound {A : Allocator} {f : Nat → Prop} (hA : Sound A f) : Sound (noMax A) f where
  Inv := hA.Inv
  objAlign := hA.objAlign
  perm := hA.perm
  init_spec := hA.init_spec
  alloc_spec := hA.alloc_spec
  dealloc_local := hA.dealloc_local
  live_good := hA.live_good
  live_max := by intro f hf; cases hf
  owns_sound := hA.owns_sound
  owns_complete := hA.owns_complete
  construct_spec := hA.construct_spec
  destroy_spec := hA.destroy_spec
  fini_spec := hA.fini_spec

/-- `releaseL` without interruption. Proof helper, not code. -/
def releaseW (A : Allocator) (Max : Nat) : Nat → A.St → Nat → M A.St
  | 0, s, next => if next ≠ 0 then M.ub else pure s
  | fuel + 1, s, next =>
    if next ≠ 0 then do
      let nx ← M.readPtr next
      let s' ← A.dealloc s next Max
      releaseW A Max fuel s' nx
    else pure s

/-- `freelist` with that destructor. Proof helper, not code. -/
@[reducible] def freelistW (Min Max : Nat) (A : Allocator) : Allocator :=
  { freelist Min Max A with
    fini := fun s => do
      let a ← releaseW A Max W64 s.a s.free
      A.fini a }

open Freelist

/-- Blocks that are separate and not empty begin at different addresses. -/
theorem blocksV_nodup {R : List (Nat × List UInt8)} {h : Heap} (hh : blocksV R h) (hn : ∀ c ∈ R, 0 < c.2.length) : (R.map Prod.fst).Nodup := by
  induction R generalizing h with
  | nil => exact .nil
  | cons c R ih =>
    obtain ⟨h1, h2, hd, rfl, hc, hR⟩ := hh
    rw [List.map_cons, List.nodup_cons]
    refine ⟨fun hm => ?_, ih hR fun c hc => hn c (List.mem_cons_of_mem _ hc)⟩
    obtain ⟨d, hd1, hd2⟩ := List.mem_map.1 hm
    have l1 := hn c List.mem_cons_self
    have l2 := hn d (List.mem_cons_of_mem _ hd1)
    refine disj_isSome hd (bytesV_isSome hc (x := c.1) ⟨Nat.le_refl _, by omega⟩) (blocksV_isSome hR ⟨blk d, List.mem_map_of_mem hd1, ?_⟩)
    show d.1 ≤ c.1 ∧ c.1 < d.1 + d.2.length
    omega

theorem linked_length {Max head : Nat} {R : List (Nat × List UInt8)} (h : linked Max head R) : ∀ c ∈ R, c.2.length = Max := by
  induction R generalizing head with
  | nil => intro c hc; cases hc
  | cons d R ih =>
    obtain ⟨_, _, h3, nx, rest, _, _, h5⟩ := h
    intro c hc
    rcases List.mem_cons.1 hc with rfl | hc
    · exact h3
    · exact ih h5 c hc

/-- There are no more blocks than addresses. -/
theorem chain_short {A : Allocator} {fA : Nat → Prop} (hA : Sound A fA) {Max head b : Nat} {s : A.St} {R : List (Nat × List UInt8)} (hM : 0 < Max)
    (hl : linked Max head R) {h : Heap} (hh : (hA.Inv b s (R.map blk) ∗ blocksV R) h) : R.length ≤ W64 := by
  obtain ⟨h1, h2, hd, rfl, hI, hR⟩ := hh
  have hn := blocksV_nodup hR fun c hc => by rw [linked_length hl c hc]; exact hM
  have hsub : (R.map Prod.fst) ⊆ List.range W64 := by
    intro x hx
    obtain ⟨c, hc, rfl⟩ := List.mem_map.1 hx
    have := (hA.live_good hI (p := c.1) (n := c.2.length) (List.mem_map.2 ⟨c, hc, rfl⟩)).1.2.2
    exact List.mem_range.2 (by omega)
  have := (List.Nodup.subperm hn hsub).length_le
  simpa using this

theorem releaseW_spec {A : Allocator} {fA : Nat → Prop} (hA : Sound A fA) (Max : Nat) (b : Nat) (R : List (Nat × List UInt8)) (fuel : Nat)
    (hfuel : R.length ≤ fuel) (s : A.St) (next : Nat) (hl : linked Max next R) :
    Triple (hA.Inv b s (R.map blk) ∗ blocksV R) (releaseW A Max fuel s next) (fun s' => hA.Inv b s' []) := by
  induction R generalizing s next fuel with
  | nil =>
    have : next = 0 := hl
    subst this
    have e : releaseW A Max fuel s 0 = pure s := by cases fuel <;> rfl
    rw [e]
    exact Triple.pure _ (fun h hh => by simpa [blocksV] using hh)
  | cons c R ih =>
    obtain ⟨p, x⟩ := c
    obtain ⟨h1, h2, h3, nx, rest, h4, h5, h6⟩ := hl
    simp only at h1 h2 h3 h5
    subst h1
    cases fuel with
    | zero => cases hfuel
    | succ fuel =>
    simp only [releaseW, ne_eq, h2, not_false_eq_true, if_true]
    subst h5
    refine Triple.bind (R := fun r h => r = nx ∧
      (bytesV next (M.encPtr nx ++ rest) ∗ (hA.Inv b s (((next, M.encPtr nx ++ rest) :: R).map blk) ∗ blocksV R)) h)
      ?_ (fun r => ?_)
    · refine ((triple_readPtr_head next nx rest h4).frame
        (hA.Inv b s (((next, M.encPtr nx ++ rest) :: R).map blk) ∗ blocksV R)).conseq ?_ ?_
      · intro h hh
        rw [star_left_comm]; exact hh
      · intro a h hh
        rw [star_and] at hh; exact hh
    · refine Triple.and (fun hr => ?_)
      subst hr
      rw [star_left_comm]
      have := hA.dealloc_spec b s next (M.encPtr r ++ rest) R
      rw [h3] at this
      refine Triple.bind (this.pre ?_) (fun s' => ih fuel (by simpa using hfuel) s' r h6)
      intro h hh
      simp only [List.map_cons, blk, h3] at hh
      exact hh

/-- Proof helper, not code. -/
def freelistW_sound (Min Max : Nat) {A : Allocator} {fA : Nat → Prop} (hA : Sound A fA) (hM8 : 8 ≤ Max) (hMW : Max < W64) :
    Sound (freelistW Min Max A) (Freelist.Fits Min Max fA) where
  Inv := (freelist_sound Min Max hA hM8 hMW).Inv
  objAlign := (freelist_sound Min Max hA hM8 hMW).objAlign
  perm := (freelist_sound Min Max hA hM8 hMW).perm
  init_spec := (freelist_sound Min Max hA hM8 hMW).init_spec
  alloc_spec := (freelist_sound Min Max hA hM8 hMW).alloc_spec
  dealloc_local := (freelist_sound Min Max hA hM8 hMW).dealloc_local
  live_good := (freelist_sound Min Max hA hM8 hMW).live_good
  live_max := (freelist_sound Min Max hA hM8 hMW).live_max
  owns_sound := (freelist_sound Min Max hA hM8 hMW).owns_sound
  owns_complete := (freelist_sound Min Max hA hM8 hMW).owns_complete
  construct_spec := (freelist_sound Min Max hA hM8 hMW).construct_spec
  destroy_spec := (freelist_sound Min Max hA hM8 hMW).destroy_spec
  fini_spec := by
    intro b s
    refine Triple.and (fun hL => Triple.exists (fun R => Triple.and (fun hl => ?_)))
    show Triple _ (releaseW A Max W64 s.a s.free >>= fun a => A.fini a) (fun _ => bytes b (A.objSize + 16))
    rw [bytes_split]
    simp only [List.map_nil, List.nil_append, slack, emp_star]
    rw [← star_assoc]
    refine Triple.have (p := R.length ≤ W64) ?_ fun hlen => ?_
    · rintro h ⟨h1, h2, hd, rfl, h3, _⟩
      exact chain_short hA (by omega) hl.1 h3
    · refine Triple.bind ((releaseW_spec hA Max b R W64 hlen s.a s.free hl.1).frame _) (fun a => ?_)
      exact (hA.fini_spec b a).frame _

/-! ### Without interruption the classes are those of the sequential model -/

theorem on_releaseL (Max : Nat) (X : PAlloc) (B : Raw) (fuel : Nat) (s : X.S) (next : Nat) :
    (releaseL Max X fuel s next).on B = releaseW (X.toA B) Max fuel s next := by
  induction fuel generalizing s next with
  | zero =>
    simp only [releaseL, releaseW, Prog.on_ite]
    rfl
  | succ fuel ih =>
    simp only [releaseL, releaseW, Prog.on_ite, Prog.on_bind, Prog.on_readPtr, Prog.on_pure, ih]

theorem baseL_toA (B : Raw) : baseL.toA B = reference B.A := rfl

theorem nullL_toA (B : Raw) : nullL.toA B = nullAlloc := rfl

theorem linearL_toA (Size : Nat) (B : Raw) : (linearL Size).toA B = noMax (linear Size) := rfl

theorem stackL_toA (Size : Nat) (B : Raw) : (stackL Size).toA B = noMax (stackAlloc Size) := rfl

theorem freelistL_toA (Min Max : Nat) (X : PAlloc) (B : Raw) : (freelistL Min Max X).toA B = freelistW Min Max (X.toA B) := by
  refine BAlloc.ext (fun b => ?_) (fun s n => ?_) (fun s p n => ?_) (fun s => ?_) rfl rfl rfl rfl
  · simp only [freelistL, Prog.on_bind, Prog.on_pure]; rfl
  · simp only [freelistL, Prog.on_ite, Prog.on_bind, Prog.on_readPtr, Prog.on_pure]; rfl
  · simp only [freelistL, Prog.on_ite, Prog.on_bind, Prog.on_writePtr, Prog.on_pure]; rfl
  · simp only [freelistL, Prog.on_bind, on_releaseL]

theorem PAlloc.toA_owns2 (P F : PAlloc) (B : Raw) : PAlloc.owns2 P F = KTL.owns2 (P.toA B) (F.toA B) := by
  obtain ⟨_, _, _, _, _, o1, _⟩ := P
  obtain ⟨_, _, _, _, _, o2, _⟩ := F
  cases o1 <;> cases o2 <;> rfl

theorem PAlloc.toA_ownsD (X : PAlloc) (B : Raw) (s : X.S) (p : Nat) : X.ownsD s p = (X.toA B).ownsD s p := by
  obtain ⟨_, _, _, _, _, ow, _⟩ := X
  cases ow <;> rfl

theorem fallbackL_toA (P F : PAlloc) (B : Raw) : (fallbackL P F).toA B = fallback (P.toA B) (F.toA B) := by
  refine BAlloc.ext (fun b => ?_) (fun s n => ?_) (fun s p n => ?_) (fun s => ?_) (PAlloc.toA_owns2 P F B) rfl rfl rfl
  · simp only [fallbackL, Prog.on_bind, Prog.on_pure]
  · simp only [fallbackL, Prog.on_bind, Prog.on_ite, Prog.on_pure]
  · simp only [fallbackL, Prog.on_ite, Prog.on_bind, Prog.on_pure, P.toA_ownsD B]
  · simp only [fallbackL, Prog.on_bind]

theorem segragatorL_toA (T : Nat) (P F : PAlloc) (B : Raw) : (segragatorL T P F).toA B = segragator T (P.toA B) (F.toA B) := by
  refine BAlloc.ext (fun b => ?_) (fun s n => ?_) (fun s p n => ?_) (fun s => ?_) (PAlloc.toA_owns2 P F B) rfl rfl rfl
  · simp only [segragatorL, Prog.on_bind, Prog.on_pure]
  · simp only [segragatorL, Prog.on_bind, Prog.on_ite, Prog.on_pure]
  · simp only [segragatorL, Prog.on_ite, Prog.on_bind, Prog.on_pure]
  · simp only [segragatorL, Prog.on_bind]

namespace LTy

/-- Request sizes for which the contract is proved, given those of the shared allocator. Proof helper, not code. -/
def fits (f : Nat → Prop) : LTy → Nat → Prop
  | base => f
  | null => fun _ => True
  | linear S => Linear.Fits S
  | stack S => Linear.Fits S
  | freelist m M A => Freelist.Fits m M (A.fits f)
  | fallback P F => FallbackFits (P.fits f) (F.fits f)
  | segragator T P F => SegFits T (P.fits f) (F.fits f)

theorem objSize_eq : ∀ u : LTy, u.denoteP.objSize = u.size
  | base => rfl
  | null => rfl
  | linear _ => rfl
  | stack _ => rfl
  | freelist _ _ A => congrArg (· + 16) (objSize_eq A)
  | fallback P F => by show _ + _ = _ + _; rw [objSize_eq P, objSize_eq F]
  | segragator _ P F => by show _ + _ = _ + _; rw [objSize_eq P, objSize_eq F]

theorem owns_isSome : ∀ u : LTy, u.denoteP.owns.isSome = u.hasOwns
  | base => rfl
  | null => rfl
  | linear _ => rfl
  | stack _ => rfl
  | freelist _ _ A => by simp only [denoteP, freelistL, hasOwns, Option.isSome_map, owns_isSome A]
  | fallback P F => by
    have h1 := owns_isSome P; have h2 := owns_isSome F
    simp only [denoteP, fallbackL, hasOwns, PAlloc.owns2, ← h1, ← h2]
    cases P.denoteP.owns <;> cases F.denoteP.owns <;> rfl
  | segragator _ P F => by
    have h1 := owns_isSome P; have h2 := owns_isSome F
    simp only [denoteP, segragatorL, hasOwns, PAlloc.owns2, ← h1, ← h2]
    cases P.denoteP.owns <;> cases F.denoteP.owns <;> rfl

/-- The contract of every well-formed type. -/
theorem sound (u : LTy) (hwf : u.WF) {f : Nat → Prop} {B : Raw} (hB : Nonempty (Sound B.A f)) : Nonempty (Sound (u.denoteP.toA B) (u.fits f)) := by
  induction u with
  | base => obtain ⟨hB⟩ := hB; exact ⟨reference_sound hB⟩
  | null => exact ⟨null_sound⟩
  | linear S => exact ⟨noMax_sound (linear_sound S)⟩
  | stack S => exact ⟨noMax_sound (stack_sound S)⟩
  | freelist m M A ih =>
    obtain ⟨hA⟩ := ih hwf.1
    have := freelistW_sound m M hA hwf.2.1 hwf.2.2
    rw [← freelistL_toA] at this
    exact ⟨this⟩
  | fallback P F ihP ihF =>
    obtain ⟨hP⟩ := ihP hwf.1
    obtain ⟨hF⟩ := ihF hwf.2.1
    have := fallback_sound hP hF ((owns_isSome P).trans hwf.2.2)
    rw [← fallbackL_toA] at this
    exact ⟨this⟩
  | segragator T P F ihP ihF =>
    obtain ⟨hP⟩ := ihP hwf.1
    obtain ⟨hF⟩ := ihF hwf.2
    have := segragator_sound T hP hF
    rw [← segragatorL_toA] at this
    exact ⟨this⟩

/-- Sizes for the shared allocator: not 0. Proof helper, not code. -/
def some0 (f : Nat → Prop) (n : Nat) : Prop := 0 < n ∧ f n

theorem fits_pos (plat : Plat) (t : AllocTy) (u : LTy) (hwf : u.WF) (n : Nat) (hn : 0 < n) (h : (u.plug t).fits plat n) : u.fits (some0 (t.fits plat)) n := by
  induction u generalizing n with
  | base => exact ⟨hn, h⟩
  | null => trivial
  | linear S => exact h
  | stack S => exact h
  | freelist m M A ih => exact fun hr => ih hwf.1 M (by have := hwf.2.1; omega) (h hr)
  | fallback P F ihP ihF => exact ⟨h.1, ihP hwf.1 n hn h.2.1, ihF hwf.2.1 n hn h.2.2⟩
  | segragator T P F ihP ihF =>
    exact ⟨fun hT => ihP hwf.1 n hn (h.1 hT), fun hT => ihF hwf.2 n hn (h.2 hT)⟩

end LTy

/-- A thread with an allocator of its own does what `p` does with that allocator. -/
theorem lthread_alone {α : Type} {f : Nat → Prop} (S : List (Nat × List UInt8)) (X : PAlloc) {F : Nat → Prop} (hA : Sound (X.toA (depot f S)) F)
    (hf : f X.objSize) (hn : X.objSize < W64) {Q : α → Prop} (p : Prog α)
    (hp : ∀ a s, Triple (hA.Inv a s []) (p.seq (X.toA (depot f S)) s) (fun r h => Q r.2 ∧ hA.Inv a r.1 [] h)) :
    Triple emp ((lthread X p).on (depot f S)) (fun a h => Q a ∧ emp h) := by
  show Triple emp (depotAl f S X.objSize >>= fun a => _) _
  refine Triple.bind (depotAl_triple f S _ hf hn) fun a => ?_
  by_cases ha : a = 0
  · simp only [ha, if_true]
    exact Triple.oom
  · simp only [ha, if_false, Prog.on_bind, Prog.on_over]
    refine Triple.pre (P := fun h => Good a X.objSize ∧ (bytes a X.objSize ∗ tok a X.objSize) h) ?_ fun h hh => ?_
    · refine Triple.and fun hg => ?_
      refine Triple.bind ((hA.init_spec a hg.1 hg.2.1 hg.2.2).frame _) fun s => ?_
      rw [bind_assoc]
      refine Triple.bind ((hp a s).frame _) fun r => ?_
      rw [star_and]
      refine Triple.and fun hq => ?_
      simp only [pure_bind]
      refine Triple.bind ((hA.fini_spec a r.1).frame _) fun _ => ?_
      show Triple _ (depotDe a X.objSize >>= fun _ => (pure r.2 : M α)) _
      refine Triple.bind ((depotDe_triple a X.objSize).pre fun h hh => ?_) fun _ => Triple.pure _ fun h hh => ⟨hq, hh⟩
      rw [star_comm]; exact hh
    · rcases hh with hh | hh
      · exact hh.1.elim
      · rw [star_comm]; exact hh

end KTL
