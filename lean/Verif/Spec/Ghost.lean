import Verif.Spec.Twin
import Verif.Props.Pointers

/- Proof machinery of C86: the classes that look at the contents of memory, `freelist` (the links of the chain),
`overflow` (the guards) and those that call `aligned_free` (`Verif/Spec/Header`), with checks that what they read is
what it has to be. -/
namespace KTL
open Overflow

/-- `release`, with the check that the chain is the list `stk`. Not code: `Freelist.release` with checks. -/
def releaseG (A : Allocator) (Max : Nat) (s : A.St) (next : Nat) : List Nat → M A.St
  | [] => do
    M.assert (next == 0)
    pure s
  | p :: stk => do
    M.assert (next == p && p != 0)
    let nx ← M.readPtr next
    let s' ← A.dealloc s next Max
    releaseG A Max s' nx stk

/-- the free list with the check that its first block is the one freed last -/
def freelistG (Min Max : Nat) (A : Allocator) : Allocator :=
  { lifoFreelist Min Max A with
    alloc := fun s n => do
      M.assert (s.1.free == s.2.headD 0)
      (lifoFreelist Min Max A).alloc s n
    fini := fun s => do
      let a ← releaseG A Max s.1.a s.1.free s.2
      A.fini a }

/-- `overflow` with the check that it finds no corruption -/
def overflowG (A : Allocator) : Allocator :=
  { overflow A with
    dealloc := fun s p n => do
      let allocs := wrap64 (s.allocs - n)
      if p ≠ 0 then do
        let before ← scanBefore p 1 64 0
        let after ← scanAfter (p + n) 0 64 0
        M.assert (before == 0 && after == 0)
        let a ← A.dealloc s.a (p - 64) (addW n 128)
        pure ⟨a, allocs, s.constructs⟩
      else pure ⟨s.a, allocs, s.constructs⟩ }

/-! ### The checks never fail -/

theorem Below.check {α β : Type} {f : α → β} {p : Bool} {k : M α} {d : M β} (h : p = true → Below f k d) :
    Below f (M.assert p >>= fun _ => k) d := by
  cases p with
  | false => exact fun _ => .inl rfl
  | true => exact h rfl

theorem linked_head {Max head R} (h : Freelist.linked Max head R) : head = (R.map Prod.fst).headD 0 := by
  cases R with
  | nil => exact h
  | cons c R => exact h.1

theorem releaseG_spec {A : Allocator} {fA} (hA : Sound A fA) (Max : Nat)
    (b : Nat) (R : List (Nat × List UInt8)) (s : A.St) (next : Nat) (hl : Freelist.linked Max next R) :
    Triple (hA.Inv b s (R.map blk) ∗ blocksV R) (releaseG A Max s next (R.map Prod.fst)) (fun s' => hA.Inv b s' []) := by
  induction R generalizing s next with
  | nil =>
    have : next = 0 := hl
    subst this
    exact Triple.pure _ (fun h hh => by simpa [blocksV] using hh)
  | cons c R ih =>
    obtain ⟨p, x⟩ := c
    obtain ⟨h1, h2, h3, nx, rest, h4, h5, h6⟩ := hl
    simp only at h1 h2 h3 h5
    subst h1
    simp only [List.map_cons, releaseG]
    rw [assert_true (by simp [h2])]
    subst h5
    refine Triple.bind (R := fun r h => r = nx ∧
      (bytesV next (M.encPtr nx ++ rest) ∗ (hA.Inv b s (((next, M.encPtr nx ++ rest) :: R).map blk) ∗ blocksV R)) h)
      ?_ (fun r => ?_)
    · refine ((Freelist.triple_readPtr_head next nx rest h4).frame
        (hA.Inv b s (((next, M.encPtr nx ++ rest) :: R).map blk) ∗ blocksV R)).conseq ?_ ?_
      · intro h hh
        rw [star_left_comm]; exact hh
      · intro a h hh
        rw [star_and] at hh; exact hh
    · refine Triple.and (fun hr => ?_)
      subst hr
      rw [star_left_comm]
      have := hA.dealloc_spec b s next (M.encPtr r ++ rest) R
      rw [h3] at this
      refine Triple.bind (this.pre ?_) (fun s' => ih s' r h6)
      intro h hh
      simp only [List.map_cons, blk, h3] at hh
      exact hh

open Freelist in
def freelistG_sound (Min Max : Nat) {A : Allocator} {fA : Nat → Prop} (hA : Sound A fA)
    (hM8 : 8 ≤ Max) (hMW : Max < W64) : Sound (freelistG Min Max A) (Freelist.Fits Min Max fA) :=
  let hL := lifo_sound Min Max hA hM8 hMW
  { Inv := hL.Inv
    objAlign := hL.objAlign
    perm := hL.perm
    init_spec := hL.init_spec
    alloc_spec := by
      intro b s L n hf hn
      refine Triple.have (p := s.1.free = s.2.headD 0) ?_ (fun he => ?_)
      · rintro h ⟨_, R, h1, ⟨h2, _⟩, _⟩
        rw [← h1]; exact linked_head h2
      · show Triple _ (M.assert (s.1.free == s.2.headD 0) >>= fun _ => (lifoFreelist Min Max A).alloc s n) _
        rw [assert_true (by simp [he])]
        exact hL.alloc_spec b s L n hf hn
    dealloc_local := hL.dealloc_local
    live_good := hL.live_good
    live_max := hL.live_max
    owns_sound := hL.owns_sound
    owns_complete := hL.owns_complete
    construct_spec := hL.construct_spec
    destroy_spec := hL.destroy_spec
    fini_spec := by
      intro b s
      refine Triple.and (fun _ => Triple.exists (fun R => Triple.and (fun hR => Triple.and (fun hl => ?_))))
      show Triple _ (releaseG A Max s.1.a s.1.free s.2 >>= fun a => A.fini a) (fun _ => bytes b (A.objSize + 16))
      rw [← hR, bytes_split]
      simp only [List.map_nil, List.nil_append, slack, emp_star]
      rw [← star_assoc]
      exact Triple.bind ((releaseG_spec hA Max b R s.1.a s.1.free hl.1).frame _) (fun a => (hA.fini_spec b a).frame _) }

theorem overflowG_same {A : Allocator} (s : Overflow.St A.St) (p n : Nat) (w : World)
    (h1 : ∀ i, 1 ≤ i → i < 65 → w.heap.b (p - i) = some pattern) (h2 : ∀ i, i < 64 → w.heap.b (p + n + i) = some pattern) :
    (overflowG A).dealloc s p n w = (overflow A).dealloc s p n w := by
  have e1 := scanBefore_clean w p 1 64 (fun i a b => h1 i a (by omega))
  have e2 := scanAfter_clean w (p + n) 0 64 (fun i _ b => h2 i (by omega))
  simp only [overflowG, overflow]
  split
  · rw [M.bind_apply, M.bind_apply, e1]
    simp only
    rw [M.bind_apply, M.bind_apply, e2]
    simp only [M.ifThen]
    rfl
  · rfl

def overflowG_sound {A : Allocator} {fA : Nat → Prop} (hA : Sound A fA) : Sound (overflowG A) (Overflow.Fits fA) :=
  let hL := overflow_sound hA
  { Inv := hL.Inv
    objAlign := hL.objAlign
    perm := hL.perm
    init_spec := hL.init_spec
    alloc_spec := hL.alloc_spec
    dealloc_local := by
      intro b s p bs R k hk
      refine (hL.dealloc_local b s p bs R k hk).same ?_
      rintro w h hf hd he ⟨_, hh⟩
      have hh' : ((fun h => (∀ c ∈ (p, bs.length) :: R.map blk, 64 ≤ c.1 ∧ Good c.1 c.2 ∧ Overflow.Fits fA c.2) ∧
        (hA.Inv b s.a (((p, bs.length) :: R.map blk).map wide) ∗ guards ((p, bs.length) :: R.map blk) ∗ bytes (b + A.objSize) 32) h)
          ∗ bytesV p bs) h := hh
      rw [star_and] at hh'
      obtain ⟨h1, h2⟩ := guards_read (hh'.1 (p, bs.length) (by simp)).1 hh'.2
      refine overflowG_same (A := A) s p bs.length w ?_ ?_
      · intro i a b; rw [he, Heap.add_b, h1 i a b]; rfl
      · intro i a; rw [he, Heap.add_b, h2 i a]; rfl
    live_good := hL.live_good
    live_max := hL.live_max
    owns_sound := hL.owns_sound
    owns_complete := hL.owns_complete
    construct_spec := hL.construct_spec
    destroy_spec := hL.destroy_spec
    fini_spec := hL.fini_spec }

/-! ### With the checks nothing else changes -/

theorem Below.trans {α β γ : Type} {f : α → β} {g : β → γ} {c : M α} {d : M β} {e : M γ} (h1 : Below f c d) (h2 : Below g d e) :
    Below (fun a => g (f a)) c e := by
  intro w
  rcases h1 w with h | h
  · exact .inl h
  cases hc : c w with
  | ub => exact .inl rfl
  | ok a w1 =>
    right
    rw [M.bind_apply, hc] at h ⊢
    have hd : d w = .ok (f a) w1 := h.symm
    rcases h2 w with h' | h'
    · rw [hd] at h'; cases h'
    · rw [M.bind_apply, hd] at h'; exact h'
  | oom w1 =>
    right
    rw [M.bind_apply, hc] at h ⊢
    have hd : d w = .oom w1 := h.symm
    rcases h2 w with h' | h'
    · rw [hd] at h'; cases h'
    · rw [M.bind_apply, hd] at h'; exact h'

theorem BelowOpt.trans {S T U : Type} {f : S → T} {g : T → U} {c d e} (h1 : BelowOpt f c d) (h2 : BelowOpt g d e) :
    BelowOpt (fun a => g (f a)) c e := by
  cases c <;> cases d <;> cases e <;> first | exact h1.elim | exact h2.elim | trivial | exact fun s p => (h1 s p).trans (h2 _ p)

theorem Refines.trans {A B C : Allocator} {f : A.St → B.St} {g : B.St → C.St} (h1 : Refines A B f) (h2 : Refines B C g) :
    Refines A C (fun s => g (f s)) where
  size := h1.size.trans h2.size
  init b := (h1.init b).trans (h2.init b)
  alloc s n := (h1.alloc s n).trans (h2.alloc (f s) n)
  dealloc s p n := (h1.dealloc s p n).trans (h2.dealloc (f s) p n)
  owns := by rw [h1.owns, h2.owns, Option.map_map]; rfl
  maxSize := by rw [h1.maxSize, h2.maxSize, Option.map_map]; rfl
  construct := h1.construct.trans h2.construct
  destroy := h1.destroy.trans h2.destroy
  fini s := (h1.fini s).trans (h2.fini (f s))

theorem releaseG_below (A : Allocator) (Max : Nat) (s : A.St) (next : Nat) (stk : List Nat) :
    Below id (releaseG A Max s next stk) (Freelist.release A Max s next) := by
  induction stk generalizing s next with
  | nil =>
    refine Below.check fun h => ?_
    rw [Freelist.release]
    have : next = 0 := by simpa using h
    rw [if_neg (by simpa using this)]
    exact Below.refl _
  | cons p stk ih =>
    refine Below.check fun h => ?_
    rw [Freelist.release]
    have : next ≠ 0 := by
      simp only [Bool.and_eq_true, beq_iff_eq, bne_iff_ne] at h
      rw [h.1]; exact h.2
    rw [if_pos this]
    exact Below.bind (f := id) (Below.refl _) fun nx => Below.bind (f := id) (Below.refl _) fun s' => ih _ _

theorem freelistG_refines (Min Max : Nat) (A : Allocator) : Refines (freelistG Min Max A) (freelist Min Max A) Prod.fst :=
  { lifo_refines Min Max A with
    alloc := fun s n => Below.check fun _ => (lifo_refines Min Max A).alloc s n
    fini := fun s => Below.bind (releaseG_below A Max s.1.a s.1.free s.2) fun a => Below.refl _ }

theorem overflowG_refines (A : Allocator) : Refines (overflowG A) (overflow A) id :=
  { Refines.refl (overflow A) with
    dealloc := fun s p n => by
      simp only [overflowG, overflow]
      split
      · refine Below.bind (f := id) (Below.refl _) fun x => Below.bind (f := id) (Below.refl _) fun y => Below.check fun h => ?_
        simp only [Bool.and_eq_true, beq_iff_eq] at h
        simp only [h.1, h.2, M.ifThen, id]
        exact Below.refl _
      · exact Below.pure _ _ _ rfl }

/-! ### With the checks the contents of memory do not matter -/

section One
variable {τ : Prop} {A B : Allocator} {R : A.St → B.St → Prop}

theorem releaseG_twins (h : Twin τ A B R) (Max : Nat) (stk : List Nat) (s : A.St) (t : B.St) (hr : R s t) (x y : Nat) :
    Twins τ R (releaseG A Max s x stk) (releaseG B Max t y stk) := by
  induction stk generalizing s t x y with
  | nil => exact Twins.assert fun _ _ => Twins.pure hr
  | cons p stk ih =>
    refine Twins.assert fun h1 h2 => ?_
    simp only [Bool.and_eq_true, beq_iff_eq] at h1 h2
    rw [h1.1, h2.1]
    exact Twins.bind (Twins.readPtr p) fun _ _ _ => Twins.bind (h.dealloc _ _ hr p Max) fun s' t' hr' => ih s' t' hr' _ _

theorem freelistG_twin (Min Max : Nat) (h : Twin τ A B R) :
    Twin τ (freelistG Min Max A) (freelistG Min Max B) (fun s t => s.2 = t.2 ∧ R s.1.a t.1.a) where
  size := by show A.objSize + 16 = B.objSize + 16; rw [h.size]
  init b := by
    show Twins τ _ (_ >>= fun s => pure (s, [])) (_ >>= fun s => pure (s, []))
    refine Twins.bind (R := fun s t => R s.a t.a) ?_ fun s t hr => Twins.pure ⟨rfl, hr⟩
    exact Twins.bind (h.init b) fun _ _ hr => Twins.pure hr
  alloc s t hr n := by
    obtain ⟨⟨a, x⟩, stk⟩ := s
    obtain ⟨⟨a', x'⟩, stk'⟩ := t
    obtain ⟨rfl, hr⟩ := hr
    refine Twins.assert fun h1 h2 => ?_
    simp only [beq_iff_eq] at h1 h2
    subst h1
    subst h2
    refine Twins.bind (R := fun r q => r.1 = q.1 ∧ R r.2.a q.2.a) ?_ fun r q hq => ?_
    · refine Twins.ite (fun _ => Twins.ite (fun _ => ?_) fun _ => ?_) fun _ => Twins.pure ⟨rfl, hr⟩
      · exact Twins.bind (Twins.readPtr _) fun _ _ _ => Twins.pure ⟨rfl, hr⟩
      · exact Twins.bind (h.alloc _ _ hr Max) fun r q hq => Twins.pure hq
    · rw [hq.1]
      refine Twins.ite (fun _ => ?_) fun _ => Twins.ite (fun _ => Twins.pure ⟨rfl, rfl, hq.2⟩) fun _ => Twins.left
      cases stk with
      | nil => exact Twins.pure ⟨rfl, rfl, hq.2⟩
      | cons p stk => exact Twins.ite (fun _ => Twins.pure ⟨rfl, rfl, hq.2⟩) fun _ => Twins.left
  dealloc s t hr p n := by
    show Twins τ _ (_ >>= fun s' => pure (s', p :: s.2)) (_ >>= fun s' => pure (s', p :: t.2))
    refine Twins.bind (R := fun s t => R s.a t.a) ?_ fun r q hq => Twins.pure ⟨by simp only [hr.1], hq⟩
    exact Twins.ite (fun _ => Twins.bind (Twins.writePtr _ _ _) fun _ _ _ => Twins.pure hr.2) fun _ => Twins.pure hr.2
  owns := by
    have h1 : TwinFun (fun (s : Freelist.St A.St) (t : Freelist.St B.St) => R s.a t.a) _ _ := h.owns.map (k := Freelist.St.a) (l := Freelist.St.a) fun _ _ hr => hr
    exact h1.map (k := Prod.fst) (l := Prod.fst) fun _ _ hr => hr.2
  maxSize := by
    have h1 : TwinFun (fun (s : Freelist.St A.St) (t : Freelist.St B.St) => R s.a t.a) _ _ := h.maxSize.map (k := Freelist.St.a) (l := Freelist.St.a) fun _ _ hr => hr
    exact h1.map (k := Prod.fst) (l := Prod.fst) fun _ _ hr => hr.2
  construct := by
    have h1 : TwinOpt τ (fun (s : Freelist.St A.St) (t : Freelist.St B.St) => R s.a t.a) (freelist Min Max A).construct (freelist Min Max B).construct :=
      h.construct.map fun _ _ hc _ _ hr p => Twins.bind (hc _ _ hr p) fun _ _ hr => Twins.pure hr
    exact h1.map fun _ _ hc _ _ hr p => Twins.bind (hc _ _ hr.2 p) fun _ _ hr' => Twins.pure ⟨hr.1, hr'⟩
  destroy := by
    have h1 : TwinOpt τ (fun (s : Freelist.St A.St) (t : Freelist.St B.St) => R s.a t.a) (freelist Min Max A).destroy (freelist Min Max B).destroy :=
      h.destroy.map fun _ _ hc _ _ hr p => Twins.bind (hc _ _ hr p) fun _ _ hr => Twins.pure hr
    exact h1.map fun _ _ hc _ _ hr p => Twins.bind (hc _ _ hr.2 p) fun _ _ hr' => Twins.pure ⟨hr.1, hr'⟩
  fini s t hr := by
    show Twins τ _ (releaseG A Max s.1.a s.1.free s.2 >>= fun a => A.fini a) (releaseG B Max t.1.a t.1.free t.2 >>= fun a => B.fini a)
    rw [hr.1]
    exact Twins.bind (releaseG_twins h Max t.2 _ _ hr.2 _ _) fun _ _ hr => h.fini _ _ hr

theorem scanBefore_twins (p k r x y : Nat) : Twins τ (fun _ _ => True) (scanBefore p k r x) (scanBefore p k r y) := by
  induction r generalizing k x y with
  | zero => exact Twins.pure trivial
  | succ r ih => exact Twins.bind (Twins.load _) fun _ _ _ => ih _ _ _

theorem scanAfter_twins (p k r x y : Nat) : Twins τ (fun _ _ => True) (scanAfter p k r x) (scanAfter p k r y) := by
  induction r generalizing k x y with
  | zero => exact Twins.pure trivial
  | succ r ih => exact Twins.bind (Twins.load _) fun _ _ _ => ih _ _ _

theorem overflowG_twin (h : Twin τ A B R) :
    Twin τ (overflowG A) (overflowG B) (fun s t => R s.a t.a ∧ s.allocs = t.allocs ∧ s.constructs = t.constructs) where
  size := by show A.objSize + 32 = B.objSize + 32; rw [h.size]
  init b := Twins.bind (h.init b) fun _ _ hr => Twins.pure ⟨hr, rfl, rfl⟩
  alloc s t hr n := by
    refine Twins.bind (h.alloc _ _ hr.1 _) fun r q hq => ?_
    simp only [hr.2.1, hr.2.2, hq.1]
    refine Twins.ite (fun _ => Twins.pure ⟨rfl, hq.2, rfl, rfl⟩) fun _ => ?_
    exact Twins.bind (Twins.writeBytes _ _ _ rfl) fun _ _ _ => Twins.bind (Twins.writeBytes _ _ _ rfl) fun _ _ _ =>
      Twins.pure ⟨rfl, hq.2, rfl, rfl⟩
  dealloc s t hr p n := by
    refine Twins.ite (fun _ => ?_) fun _ => Twins.pure ⟨hr.1, by simp only [hr.2.1], hr.2.2⟩
    refine Twins.bind (scanBefore_twins _ _ _ _ _) fun _ _ _ => Twins.bind (scanAfter_twins _ _ _ _ _) fun _ _ _ => Twins.assert fun _ _ => ?_
    exact Twins.bind (h.dealloc _ _ hr.1 _ _) fun _ _ hq => Twins.pure ⟨hq, by simp only [hr.2.1], hr.2.2⟩
  owns := h.owns.map (k := Overflow.St.a) (l := Overflow.St.a) fun _ _ hr => hr.1
  maxSize := h.maxSize.map (k := Overflow.St.a) (l := Overflow.St.a) fun _ _ hr => hr.1
  construct := by
    intro s t hr p
    have := h.construct
    simp only
    revert this
    cases A.construct <;> cases B.construct <;> intro hc <;> first | exact hc.elim | skip
    · exact Twins.bind (Twins.event _) fun _ _ _ => Twins.pure ⟨hr.1, hr.2.1, by simp only [hr.2.2]⟩
    · exact Twins.bind (hc _ _ hr.1 p) fun _ _ hq => Twins.pure ⟨hq, hr.2.1, by simp only [hr.2.2]⟩
  destroy := by
    intro s t hr p
    have := h.destroy
    simp only
    revert this
    cases A.destroy <;> cases B.destroy <;> intro hc <;> first | exact hc.elim | skip
    · exact Twins.bind (Twins.event _) fun _ _ _ => Twins.pure ⟨hr.1, hr.2.1, by simp only [hr.2.2]⟩
    · exact Twins.bind (hc _ _ hr.1 p) fun _ _ hq => Twins.pure ⟨hq, hr.2.1, by simp only [hr.2.2]⟩
  fini s t hr := by
    obtain ⟨a, x, y⟩ := s
    obtain ⟨a', x', y'⟩ := t
    obtain ⟨hr, rfl, rfl⟩ := hr
    exact Twins.bind (Twins.ifThen (Twins.print _)) fun _ _ _ => Twins.bind (Twins.ifThen (Twins.print _)) fun _ _ _ => h.fini _ _ hr

end One

namespace AllocTy

/-- The class a type expression denotes, with checks in the classes that read memory. -/
def ghost (sys : Sys) : AllocTy → Allocator
  | null => nullAlloc
  | mallocator => mallocatorG sys
  | linear S => KTL.linear S
  | stack S => stackAlloc S
  | freelist m M A => freelistG m M (A.ghost sys)
  | fallback P F => KTL.fallback (P.ghost sys) (F.ghost sys)
  | segragator T P F => KTL.segragator T (P.ghost sys) (F.ghost sys)
  | cascading A => cascadingG sys (A.ghost sys)
  | overflow A => overflowG (A.ghost sys)
  | threaded A => KTL.threaded (A.ghost sys)
  | shared A => sharedG sys (A.ghost sys)
  | reference A => KTL.reference (A.ghost sys)

/-- the allocator gets memory from `malloc` -/
def usesMalloc : AllocTy → Bool
  | null => false
  | mallocator => true
  | linear _ => false
  | stack _ => false
  | freelist _ _ A => A.usesMalloc
  | fallback P F => P.usesMalloc || F.usesMalloc
  | segragator _ P F => P.usesMalloc || F.usesMalloc
  | cascading _ => true
  | overflow A => A.usesMalloc
  | threaded A => A.usesMalloc
  | shared _ => true
  | reference A => A.usesMalloc

theorem ghost_twin {τ : Prop} {sys sys' : Sys} (hs : sys.Alike sys') : ∀ t : AllocTy, (t.usesMalloc = true → sys.plat = .manual → τ) →
    ∃ R, Twin τ (t.ghost sys) (t.ghost sys') R
  | null, _ => ⟨_, null_twin⟩
  | mallocator, hp => ⟨_, mallocatorG_twin hs (hp rfl)⟩
  | linear S, _ => ⟨_, linear_twin S⟩
  | stack S, _ => ⟨_, stack_twin S⟩
  | freelist m M A, hp => by
    obtain ⟨R, h⟩ := ghost_twin hs A hp
    exact ⟨_, freelistG_twin m M h⟩
  | fallback P F, hp => by
    obtain ⟨R, h⟩ := ghost_twin hs P fun e => hp (by simp [usesMalloc, e])
    obtain ⟨S, h'⟩ := ghost_twin hs F fun e => hp (by simp [usesMalloc, e])
    exact ⟨_, fallback_twin h h'⟩
  | segragator T P F, hp => by
    obtain ⟨R, h⟩ := ghost_twin hs P fun e => hp (by simp [usesMalloc, e])
    obtain ⟨S, h'⟩ := ghost_twin hs F fun e => hp (by simp [usesMalloc, e])
    exact ⟨_, segragator_twin T h h'⟩
  | cascading A, hp => by
    obtain ⟨R, h⟩ := ghost_twin hs A fun _ => hp rfl
    exact ⟨_, cascadingG_twin hs (hp rfl) h⟩
  | overflow A, hp => by
    obtain ⟨R, h⟩ := ghost_twin hs A hp
    exact ⟨_, overflowG_twin h⟩
  | threaded A, hp => by
    obtain ⟨R, h⟩ := ghost_twin hs A hp
    exact ⟨_, threaded_twin h⟩
  | shared A, hp => by
    obtain ⟨R, h⟩ := ghost_twin hs A fun _ => hp rfl
    exact ⟨_, sharedG_twin hs (hp rfl) h⟩
  | reference A, hp => by
    obtain ⟨R, h⟩ := ghost_twin hs A hp
    exact ⟨_, reference_twin h⟩

theorem ghost_refines (sys : Sys) : ∀ t : AllocTy, ∃ f, Refines (t.ghost sys) (t.denote sys) f
  | null => ⟨_, Refines.refl _⟩
  | mallocator => ⟨_, mallocatorG_refines sys⟩
  | linear S => ⟨_, Refines.refl _⟩
  | stack S => ⟨_, Refines.refl _⟩
  | freelist m M A => by
    obtain ⟨f, h⟩ := ghost_refines sys A
    exact ⟨_, (freelistG_refines m M _).trans (freelist_refines m M h)⟩
  | fallback P F => by
    obtain ⟨f, h⟩ := ghost_refines sys P
    obtain ⟨g, h'⟩ := ghost_refines sys F
    exact ⟨_, fallback_refines h h'⟩
  | segragator T P F => by
    obtain ⟨f, h⟩ := ghost_refines sys P
    obtain ⟨g, h'⟩ := ghost_refines sys F
    exact ⟨_, segragator_refines T h h'⟩
  | cascading A => by
    obtain ⟨f, h⟩ := ghost_refines sys A
    exact ⟨_, (cascadingG_refines sys _).trans (cascading_refines sys h)⟩
  | overflow A => by
    obtain ⟨f, h⟩ := ghost_refines sys A
    have h1 : ∃ g, Refines (overflowP 1 (A.ghost sys)) (KTL.overflow (A.denote sys)) g := ⟨_, overflow_refines h⟩
    rw [overflowP_eq (by omega)] at h1
    obtain ⟨g, h1⟩ := h1
    exact ⟨_, (overflowG_refines _).trans h1⟩
  | threaded A => by
    obtain ⟨f, h⟩ := ghost_refines sys A
    exact ⟨_, threaded_refines h⟩
  | shared A => by
    obtain ⟨f, h⟩ := ghost_refines sys A
    exact ⟨_, (sharedG_refines sys _).trans (shared_refines sys h)⟩
  | reference A => by
    obtain ⟨f, h⟩ := ghost_refines sys A
    exact ⟨_, reference_refines h⟩

theorem ghost_owns (sys : Sys) (t : AllocTy) : (t.ghost sys).owns.isSome = t.hasOwns := by
  obtain ⟨f, h⟩ := ghost_refines sys t
  rw [h.owns, Option.isSome_map, owns_isSome]

theorem ghost_size (sys : Sys) (t : AllocTy) : (t.ghost sys).objSize = t.size := by
  obtain ⟨f, h⟩ := ghost_refines sys t
  rw [h.size, objSize_eq]

theorem ghost_max (sys : Sys) (t : AllocTy) (h : t.safeMax = true) : MaxTotal (t.ghost sys) := by
  obtain ⟨f, hr⟩ := ghost_refines sys t
  intro g hg
  rw [hr.maxSize] at hg
  exact maxTotal_map f (maxTotal sys t h) g hg

def gsound (sys : Sys) : (t : AllocTy) → t.WF → Sound (t.ghost sys) (t.fits sys.plat)
  | null, _ => null_sound
  | mallocator, _ => mallocatorG_sound sys
  | linear S, _ => linear_sound S
  | stack S, _ => stack_sound S
  | freelist m M A, h => freelistG_sound m M (A.gsound sys h.1) h.2.1 h.2.2
  | fallback P F, h => fallback_sound (P.gsound sys h.1) (F.gsound sys h.2.1) (by rw [ghost_owns]; exact h.2.2)
  | segragator T P F, h => segragator_sound T (P.gsound sys h.1) (F.gsound sys h.2)
  | cascading A, h => cascadingG_sound sys (A.gsound sys h.1) (by rw [ghost_owns]; exact h.2.1)
      (ghost_max sys A h.2.2.1) (fun _ => by
        have := h.2.2.2; simp only [Cascading.nodeSize, ghost_size]; omega)
  | overflow A, h => overflowG_sound (A.gsound sys h)
  | threaded A, h => threaded_sound (A.gsound sys h)
  | shared A, h => sharedG_sound sys (A.gsound sys h.1) (fun _ => by
        have := h.2; simp only [Cascading.nodeSize, ghost_size]; omega)
  | reference A, h => reference_sound (A.gsound sys h)

end AllocTy

end KTL
