import Verif.Alloc.Linear
import Verif.Alloc.Malloc
import Verif.Alloc.Fallback
import Verif.Alloc.Overflow
import Verif.Alloc.Freelist
import Verif.Alloc.Cascading

/- `stack_allocator<Size>`, `reference<Alloc>`, and the syntax of all composed allocator types with
its meaning. -/
namespace KTL

/-- `stack<Size>` (`allocators/stack_allocator.h:16-26`): address of `Data`, `Free`, `ObjectCount`. -/
structure Stack where
  data : Nat
  free : Nat
  count : Nat
  deriving DecidableEq, Repr

namespace Stack

/-- `allocators/stack_allocator.h:22-25` -/
def init (a : Nat) : Stack := ⟨a, a, 0⟩

/-- `allocators/stack_allocator.h:63-76` `allocate` -/
def alloc (Size : Nat) (s : Stack) (n : Nat) : Nat × Stack :=
  let totalSize := addW n (alignPad n)
  if addW (subW s.free s.data) totalSize > Size then (0, s)
  else (s.free, ⟨s.data, addW s.free totalSize, addW s.count totalSize⟩)

/-- `allocators/stack_allocator.h:78-90` `deallocate` -/
def dealloc (s : Stack) (p n : Nat) : Stack :=
  let totalSize := addW n (alignPad n)
  let s1 : Stack := if subW s.free totalSize = p then ⟨s.data, subW s.free totalSize, s.count⟩ else s
  let s2 : Stack := ⟨s1.data, s1.free, subW s1.count totalSize⟩
  if s2.count = 0 then ⟨s2.data, s2.data, s2.count⟩ else s2

/-- `allocators/stack_allocator.h:99-108` `owns` -/
def owns (Size : Nat) (s : Stack) (p : Nat) : Bool :=
  decide (p ≥ s.data) && decide (p < addW s.data Size)

end Stack

/-- `stack_allocator<Size>` together with the `stack<Size>` it refers to: the storage counted is that
of the stack object. One handle; copies of the handle are treated in `Verif/Handles`.
`allocators/stack_allocator.h:34-112`. -/
def stackAlloc (Size : Nat) : Allocator where
  St := Stack
  objSize := Linear.objSize Size
  init a := pure (Stack.init a)
  alloc s n := pure (Stack.alloc Size s n)
  dealloc s p n := pure (Stack.dealloc s p n)
  owns := some (Stack.owns Size)
  -- `allocators/stack_allocator.h:94-97`
  maxSize := some (fun _ => some Size)
  construct := none
  destroy := none
  fini _ := pure ()

namespace Stack

/-- the corresponding `linear_allocator`. Proof helper, not code. -/
def lin (s : Stack) : Linear.St := ⟨s.data, s.free, s.count⟩

theorem lin_init (a : Nat) : (init a).lin = Linear.init a := rfl

theorem lin_alloc (Size : Nat) (s : Stack) (n : Nat) :
    Linear.alloc Size s.lin n = ((alloc Size s n).1, (alloc Size s n).2.lin) := by
  unfold Linear.alloc alloc lin
  by_cases h : addW (subW s.free s.data) (addW n (alignPad n)) > Size <;> simp [h]

theorem lin_dealloc (s : Stack) (p n : Nat) : Linear.dealloc s.lin p n = (dealloc s p n).lin := by
  unfold Linear.dealloc dealloc lin
  by_cases h1 : subW s.free (addW n (alignPad n)) = p <;>
    by_cases h2 : subW s.count (addW n (alignPad n)) = 0 <;> simp [h1, h2]

theorem lin_owns (Size : Nat) (s : Stack) (p : Nat) : Linear.owns Size s.lin p = owns Size s p := rfl

end Stack

/-- `stack_allocator` satisfies the contract. Proof helper, not code. -/
def stack_sound (Size : Nat) : Sound (stackAlloc Size) (fun n => Linear.Fits Size n) where
  Inv b s L := (linear_sound Size).Inv b s.lin L
  objAlign := (linear_sound Size).objAlign
  perm := (linear_sound Size).perm
  init_spec b h1 h2 h3 := by
    refine Triple.pure _ (fun h hh => ?_)
    have := (linear_sound Size).init_spec b h1 h2 h3 { heap := h } h .empty (Heap.disj_empty _) (by simp) hh
    obtain ⟨⟨h', _, he, hi⟩, _⟩ := this
    simp only [Heap.add_empty] at he
    rw [Stack.lin_init]
    rw [he]; exact hi
  alloc_spec b s L n hf hn := by
    refine Triple.pure _ (fun h hh => ?_)
    have := (linear_sound Size).alloc_spec b s.lin L n hf hn { heap := h } h .empty (Heap.disj_empty _) (by simp) hh
    obtain ⟨⟨h', _, he, hi⟩, _⟩ := this
    simp only [Heap.add_empty] at he
    subst he
    have e := Stack.lin_alloc Size s n
    rw [show (Linear.alloc Size (Stack.lin s) n) = _ from e] at hi
    exact hi
  dealloc_local b s p bs R k hk := by
    refine Triple.pure _ (fun h hh => ?_)
    have := (linear_sound Size).dealloc_local b s.lin p bs R k hk { heap := h } h .empty (Heap.disj_empty _) (by simp) hh
    obtain ⟨⟨h', _, he, hi⟩, _⟩ := this
    simp only [Heap.add_empty] at he
    subst he
    have e := Stack.lin_dealloc s p bs.length
    rw [show (Linear.dealloc (Stack.lin s) p bs.length) = _ from e] at hi
    exact hi
  live_good := (linear_sound Size).live_good
  live_max := by
    intro f hf b s L h p n hi hm m hfm
    cases hf
    exact (linear_sound Size).live_max _ rfl hi hm m hfm
  owns_sound := by
    intro f hf b s L h x hi hx ho
    cases hf
    exact (linear_sound Size).owns_sound _ rfl hi hx ho
  owns_complete := by
    intro f hf b s L h x hi hx
    cases hf
    exact (linear_sound Size).owns_complete _ rfl hi hx
  construct_spec := by intro c hc; cases hc
  destroy_spec := by intro c hc; cases hc
  fini_spec b s := (linear_sound Size).fini_spec b s.lin

/-- `reference<Alloc>` (`allocators/reference.h:61-109`) together with the allocator it refers to (the
storage counted is the handle plus the referred-to object). Copies: see `Verif/Handles`. -/
def reference (A : Allocator) : Allocator where
  St := A.St
  objSize := A.objSize + 16
  init := A.init
  alloc s n := A.alloc s n
  dealloc s p n := A.dealloc s p n
  owns := A.owns
  maxSize := A.maxSize
  construct := A.construct
  destroy := A.destroy
  fini := A.fini

/-- `reference` satisfies the contract if the allocator it refers to does. Proof helper, not code. -/
def reference_sound {A : Allocator} {fA : Nat → Prop} (hA : Sound A fA) : Sound (reference A) fA where
  Inv b s L := hA.Inv b s L ∗ bytes (b + A.objSize) 16
  objAlign := by have := hA.objAlign; simp only [reference]; omega
  perm := fun hp h => star_mono_left (fun _ h => hA.perm hp h) _ h
  init_spec := by
    intro b h1 h2 h3
    simp only [reference] at h3 ⊢
    rw [bytes_split]
    exact (hA.init_spec b h1 h2 (by omega)).frame _
  alloc_spec := by
    intro b s L n hf hn
    refine ((hA.alloc_spec b s L n hf hn).frame _).post ?_
    rintro r h ⟨h1, h2, hd, rfl, h3 | h3, h4⟩
    · exact .inl ⟨h3.1, h1, h2, hd, rfl, h3.2, h4⟩
    · refine .inr ⟨h3.1, ?_⟩
      rw [star_assoc, star_comm (bytes _ _), ← star_assoc]
      exact ⟨h1, h2, hd, rfl, h3.2, h4⟩
  dealloc_local := by
    intro b s p bs R k hk
    have e : ((hA.Inv b s ((p, bs.length) :: R.map blk) ∗ bytes (b + A.objSize) 16) ∗ bytesV p bs) =
      ((hA.Inv b s ((p, bs.length) :: R.map blk) ∗ bytesV p bs) ∗ bytes (b + A.objSize) 16) := by ac_rfl
    exact apart_eq e (apart_frame (hA.dealloc_local b s p bs R k hk))
  live_good := by
    rintro b s L h p n ⟨h1, h2, hd, rfl, h3, h4⟩ hm
    exact hA.live_good h3 hm
  live_max := by
    rintro f hf b s L h p n ⟨h1, h2, hd, rfl, h3, h4⟩ hm
    exact hA.live_max f hf h3 hm
  owns_sound := by
    rintro f hf b s L h x ⟨h1, h2, hd, rfl, h3, h4⟩ hx ho
    rcases hA.owns_sound f hf h3 hx ho with h | h
    · left; simp [h]
    · exact .inr h
  owns_complete := by
    rintro f hf b s L h x ⟨h1, h2, hd, rfl, h3, h4⟩ hx
    exact hA.owns_complete f hf h3 hx
  construct_spec := fun c hc b s L p => (hA.construct_spec c hc b s L p).frame _
  destroy_spec := fun c hc b s L p => (hA.destroy_spec c hc b s L p).frame _
  fini_spec := by
    intro b s
    simp only [reference]
    rw [bytes_split]
    exact (hA.fini_spec b s).frame _

/-! ### All composed allocator types -/

/-- Type expressions over the library's allocator templates. `shared` and `atomic_shared` have the same
sequential behaviour. The class templates of `allocators/*.h`. -/
inductive AllocTy where
  | null
  | mallocator
  | linear (Size : Nat)
  | stack (Size : Nat)
  | freelist (Min Max : Nat) (A : AllocTy)
  | fallback (P F : AllocTy)
  | segragator (Threshold : Nat) (P F : AllocTy)
  | cascading (A : AllocTy)
  | overflow (A : AllocTy)
  | threaded (A : AllocTy)
  | shared (A : AllocTy)
  | reference (A : AllocTy)
  deriving DecidableEq, Repr

namespace AllocTy

/-- The class a type expression denotes.
The class templates of `allocators/*.h`, each by the definition that cites it. -/
def denote (sys : Sys) : AllocTy → Allocator
  | null => nullAlloc
  | mallocator => KTL.mallocator sys
  | linear S => KTL.linear S
  | stack S => stackAlloc S
  | freelist m M A => KTL.freelist m M (A.denote sys)
  | fallback P F => KTL.fallback (P.denote sys) (F.denote sys)
  | segragator T P F => KTL.segragator T (P.denote sys) (F.denote sys)
  | cascading A => KTL.cascading sys (A.denote sys)
  | overflow A => KTL.overflow (A.denote sys)
  | threaded A => KTL.threaded (A.denote sys)
  | shared A => KTL.sharedAlloc sys (A.denote sys)
  | reference A => KTL.reference (A.denote sys)

/-- `detail::has_owns_v`. `utility/meta.h:64-71`. -/
def hasOwns : AllocTy → Bool
  | null => true
  | mallocator => false
  | linear _ => true
  | stack _ => true
  | freelist _ _ A => A.hasOwns
  | fallback P F => P.hasOwns && F.hasOwns
  | segragator _ P F => P.hasOwns && F.hasOwns
  | cascading _ => true
  | overflow A => A.hasOwns
  | threaded A => A.hasOwns
  | shared A => A.hasOwns
  | reference A => A.hasOwns

/-- `detail::has_max_size_v`. `utility/meta.h:54-61`. -/
def hasMax : AllocTy → Bool
  | null => false
  | mallocator => false
  | linear _ => true
  | stack _ => true
  | freelist _ _ A => A.hasMax
  | fallback P F => P.hasMax && F.hasMax
  | segragator _ P F => P.hasMax && F.hasMax
  | cascading A => A.hasMax
  | overflow A => A.hasMax
  | threaded A => A.hasMax
  | shared A => A.hasMax
  | reference A => A.hasMax

/-- `max_size` is absent, or does not reach the `max_size` of a cascading allocator (which
dereferences a null pointer while that allocator has no instance). Specification, not code. -/
def safeMax : AllocTy → Bool
  | null => true
  | mallocator => true
  | linear _ => true
  | stack _ => true
  | freelist _ _ A => A.safeMax
  | fallback P F => !(P.hasMax && F.hasMax) || (P.safeMax && F.safeMax)
  | segragator _ P F => !(P.hasMax && F.hasMax) || (P.safeMax && F.safeMax)
  | cascading A => !A.hasMax
  | overflow A => A.safeMax
  | threaded A => A.safeMax
  | shared A => A.safeMax
  | reference A => A.safeMax

/-- `sizeof`, rounded to 16 (see `Allocator.objSize`). Specification, not code. -/
def size : AllocTy → Nat
  | null => 0
  | mallocator => 0
  | linear S => S + (16 - S % 16) % 16 + 16
  | stack S => S + (16 - S % 16) % 16 + 16
  | freelist _ _ A => A.size + 16
  | fallback P F => P.size + F.size
  | segragator _ P F => P.size + F.size
  | cascading _ => 16
  | overflow A => A.size + 32
  | threaded A => A.size + 48
  | shared _ => 16
  | reference A => A.size + 16

/-- Well-formed types: the library's `static_assert`s (`fallback`, `cascading` need `owns`, a
`freelist` block holds a pointer), sizes representable in 64 bits, and — not checked by the library —
`cascading` only over allocators whose `max_size` works on a new instance.
`allocators/freelist.h:28`, `allocators/cascading.h:31`, `allocators/fallback.h:27`. -/
def WF : AllocTy → Prop
  | null => True
  | mallocator => True
  | linear _ => True
  | stack _ => True
  | freelist _ M A => A.WF ∧ 8 ≤ M ∧ M < W64
  | fallback P F => P.WF ∧ F.WF ∧ P.hasOwns = true
  | segragator _ P F => P.WF ∧ F.WF
  | cascading A => A.WF ∧ A.hasOwns = true ∧ A.safeMax = true ∧ A.size + 32 < W64
  | overflow A => A.WF
  | threaded A => A.WF
  | shared A => A.WF ∧ A.size + 32 < W64
  | reference A => A.WF

/-- Proof helper, not code. -/
instance decWF : (t : AllocTy) → Decidable t.WF
  | null => isTrue trivial
  | mallocator => isTrue trivial
  | linear _ => isTrue trivial
  | stack _ => isTrue trivial
  | freelist _ _ A => have := decWF A; by unfold WF; infer_instance
  | fallback P F => have := decWF P; have := decWF F; by unfold WF; infer_instance
  | segragator _ P F => have := decWF P; have := decWF F; by unfold WF; infer_instance
  | cascading A => have := decWF A; by unfold WF; infer_instance
  | overflow A => have := decWF A; by unfold WF; infer_instance
  | threaded A => have := decWF A; by unfold WF; infer_instance
  | shared A => have := decWF A; by unfold WF; infer_instance
  | reference A => have := decWF A; by unfold WF; infer_instance

/-- How far below 2^64 a request must stay so that no size computation inside the allocator wraps.
Specification, not code. -/
def margin : AllocTy → Nat
  | null => 0
  | mallocator => 16
  | linear S => S + 15
  | stack S => S + 15
  | freelist _ M A => M + A.margin
  | fallback P F => P.margin + F.margin
  | segragator _ P F => P.margin + F.margin
  | cascading A => A.margin
  | overflow A => A.margin + 128
  | threaded A => A.margin
  | shared A => A.margin
  | reference A => A.margin

/-- Request sizes for which the contract is proved. Specification, not code. -/
def fits (plat : Plat) : AllocTy → Nat → Prop
  | null => fun _ => True
  | mallocator => MallocFits plat
  | linear S => Linear.Fits S
  | stack S => Linear.Fits S
  | freelist m M A => Freelist.Fits m M (A.fits plat)
  | fallback P F => FallbackFits (P.fits plat) (F.fits plat)
  | segragator T P F => SegFits T (P.fits plat) (F.fits plat)
  | cascading A => Cascading.Fits (A.fits plat)
  | overflow A => Overflow.Fits (A.fits plat)
  | threaded A => A.fits plat
  | shared A => A.fits plat
  | reference A => A.fits plat

theorem objSize_eq (sys : Sys) : ∀ t : AllocTy, (t.denote sys).objSize = t.size
  | null => rfl
  | mallocator => rfl
  | linear _ => rfl
  | stack _ => rfl
  | freelist _ _ A => by simp only [denote, KTL.freelist, size, objSize_eq sys A]
  | fallback P F => by simp only [denote, KTL.fallback, size, objSize_eq sys P, objSize_eq sys F]
  | segragator _ P F => by simp only [denote, KTL.segragator, size, objSize_eq sys P, objSize_eq sys F]
  | cascading _ => rfl
  | overflow A => by simp only [denote, KTL.overflow, size, objSize_eq sys A]
  | threaded A => by simp only [denote, KTL.threaded, size, objSize_eq sys A]
  | shared _ => rfl
  | reference A => by simp only [denote, KTL.reference, size, objSize_eq sys A]

theorem owns_isSome (sys : Sys) : ∀ t : AllocTy, (t.denote sys).owns.isSome = t.hasOwns
  | null => rfl
  | mallocator => rfl
  | linear _ => rfl
  | stack _ => rfl
  | freelist _ _ A => by simp only [denote, KTL.freelist, hasOwns, Option.isSome_map, owns_isSome sys A]
  | fallback P F => by
    have h1 := owns_isSome sys P; have h2 := owns_isSome sys F
    simp only [denote, KTL.fallback, hasOwns, owns2, ← h1, ← h2]
    cases (P.denote sys).owns <;> cases (F.denote sys).owns <;> rfl
  | segragator _ P F => by
    have h1 := owns_isSome sys P; have h2 := owns_isSome sys F
    simp only [denote, KTL.segragator, hasOwns, owns2, ← h1, ← h2]
    cases (P.denote sys).owns <;> cases (F.denote sys).owns <;> rfl
  | cascading _ => rfl
  | overflow A => by simp only [denote, KTL.overflow, hasOwns, Option.isSome_map, owns_isSome sys A]
  | threaded A => by simp only [denote, KTL.threaded, hasOwns, owns_isSome sys A]
  | shared A => by simp only [denote, KTL.sharedAlloc, hasOwns, Option.isSome_map, owns_isSome sys A]
  | reference A => by simp only [denote, KTL.reference, hasOwns, owns_isSome sys A]

theorem max_isSome (sys : Sys) : ∀ t : AllocTy, (t.denote sys).maxSize.isSome = t.hasMax
  | null => rfl
  | mallocator => rfl
  | linear _ => rfl
  | stack _ => rfl
  | freelist _ _ A => by simp only [denote, KTL.freelist, hasMax, Option.isSome_map, max_isSome sys A]
  | fallback P F => by
    have h1 := max_isSome sys P; have h2 := max_isSome sys F
    simp only [denote, KTL.fallback, hasMax, maxSize2, ← h1, ← h2]
    cases (P.denote sys).maxSize <;> cases (F.denote sys).maxSize <;> rfl
  | segragator _ P F => by
    have h1 := max_isSome sys P; have h2 := max_isSome sys F
    simp only [denote, KTL.segragator, hasMax, maxSize2, ← h1, ← h2]
    cases (P.denote sys).maxSize <;> cases (F.denote sys).maxSize <;> rfl
  | cascading A => by simp only [denote, KTL.cascading, hasMax, Option.isSome_map, max_isSome sys A]
  | overflow A => by simp only [denote, KTL.overflow, hasMax, Option.isSome_map, max_isSome sys A]
  | threaded A => by simp only [denote, KTL.threaded, hasMax, max_isSome sys A]
  | shared A => by simp only [denote, KTL.sharedAlloc, hasMax, Option.isSome_map, max_isSome sys A]
  | reference A => by simp only [denote, KTL.reference, hasMax, max_isSome sys A]

theorem maxTotal2 {P F : Allocator} (h : P.maxSize.isSome = true → F.maxSize.isSome = true → MaxTotal P ∧ MaxTotal F)
    (f) (hf : maxSize2 P F = some f) : ∃ m, ∀ s, f s = some m := by
  unfold maxSize2 at hf
  cases hp : P.maxSize with
  | none => simp [hp] at hf
  | some a =>
    cases hq : F.maxSize with
    | none => simp [hp, hq] at hf
    | some c =>
      simp only [hp, hq, Option.some.injEq] at hf
      subst hf
      obtain ⟨h1, h2⟩ := h (by simp [hp]) (by simp [hq])
      obtain ⟨x, hx⟩ := h1 a hp
      obtain ⟨y, hy⟩ := h2 c hq
      exact ⟨max x y, fun s => by simp [hx, hy]⟩

theorem maxTotal_map {A : Allocator} {β : Type} (g : β → A.St) (h : MaxTotal A) (f : β → Option Nat)
    (hf : A.maxSize.map (fun f s => f (g s)) = some f) : ∃ m, ∀ s, f s = some m := by
  obtain ⟨f', hf', rfl⟩ := Option.map_eq_some_iff.1 hf
  obtain ⟨m, hm⟩ := h f' hf'
  exact ⟨m, fun s => hm (g s)⟩

theorem maxTotal (sys : Sys) : ∀ t : AllocTy, t.safeMax = true → MaxTotal (t.denote sys)
  | null, _ => by intro f hf; cases hf
  | mallocator, _ => by intro f hf; cases hf
  | linear _, _ => by intro f hf; cases hf; exact ⟨_, fun _ => rfl⟩
  | stack _, _ => by intro f hf; cases hf; exact ⟨_, fun _ => rfl⟩
  | freelist _ _ A, h => by
    intro f hf
    exact maxTotal_map (fun s : Freelist.St _ => s.a) (maxTotal sys A h) f hf
  | fallback P F, h => by
    intro f hf
    refine maxTotal2 (fun h1 h2 => ?_) f hf
    rw [max_isSome] at h1 h2
    simp only [safeMax, h1, h2, Bool.and_self, Bool.not_true, Bool.false_or, Bool.and_eq_true] at h
    exact ⟨maxTotal sys P h.1, maxTotal sys F h.2⟩
  | segragator _ P F, h => by
    intro f hf
    refine maxTotal2 (fun h1 h2 => ?_) f hf
    rw [max_isSome] at h1 h2
    simp only [safeMax, h1, h2, Bool.and_self, Bool.not_true, Bool.false_or, Bool.and_eq_true] at h
    exact ⟨maxTotal sys P h.1, maxTotal sys F h.2⟩
  | cascading A, h => by
    intro f hf
    have h1 := max_isSome sys A
    simp only [safeMax, Bool.not_eq_true'] at h
    rw [h] at h1
    obtain ⟨f', hf', rfl⟩ := Option.map_eq_some_iff.1 hf
    simp [hf'] at h1
  | overflow A, h => by
    intro f hf
    exact maxTotal_map (fun s : Overflow.St _ => s.a) (maxTotal sys A h) f hf
  | threaded A, h => maxTotal sys A h
  | shared A, h => by
    intro f hf
    exact maxTotal_map (fun s : Nat × _ => s.2) (maxTotal sys A h) f hf
  | reference A, h => maxTotal sys A h

/-- Every well-formed composed allocator satisfies the contract. Proof helper, not code. -/
def sound (sys : Sys) : (t : AllocTy) → t.WF → Sound (t.denote sys) (t.fits sys.plat)
  | null, _ => null_sound
  | mallocator, _ => mallocator_sound sys
  | linear S, _ => linear_sound S
  | stack S, _ => stack_sound S
  | freelist m M A, h => freelist_sound m M (A.sound sys h.1) h.2.1 h.2.2
  | fallback P F, h => fallback_sound (P.sound sys h.1) (F.sound sys h.2.1) (by rw [owns_isSome]; exact h.2.2)
  | segragator T P F, h => segragator_sound T (P.sound sys h.1) (F.sound sys h.2)
  | cascading A, h => cascading_sound sys (A.sound sys h.1) (by rw [owns_isSome]; exact h.2.1)
      (maxTotal sys A h.2.2.1) (fun _ => by
        have := h.2.2.2; simp only [Cascading.nodeSize, objSize_eq]; omega)
  | overflow A, h => overflow_sound (A.sound sys h)
  | threaded A, h => threaded_sound (A.sound sys h)
  | shared A, h => shared_sound sys (A.sound sys h.1) (fun _ => by
        have := h.2; simp only [Cascading.nodeSize, objSize_eq]; omega)
  | reference A, h => reference_sound (A.sound sys h)

/-- Non-empty requests that stay below the margin are covered. -/
theorem fits_of_margin (plat : Plat) : ∀ (t : AllocTy) (_ : t.WF) (n : Nat), 0 < n → n + t.margin < W64 → t.fits plat n
  | null, _, _, _, _ => trivial
  | mallocator, _, n, _, h => fun _ => h
  | linear S, _, n, _, h => by simp only [margin] at h; show n + 15 + S < W64; omega
  | stack S, _, n, _, h => by simp only [margin] at h; show n + 15 + S < W64; omega
  | freelist m M A, hw, n, hn, h => by
    intro _
    simp only [margin] at h
    exact fits_of_margin plat A hw.1 M (by have := hw.2.1; omega) (by omega)
  | fallback P F, hw, n, hn, h => by
    simp only [margin] at h
    exact ⟨by omega, fits_of_margin plat P hw.1 n hn (by omega), fits_of_margin plat F hw.2.1 n hn (by omega)⟩
  | segragator T P F, hw, n, hn, h => by
    simp only [margin] at h
    exact ⟨fun _ => fits_of_margin plat P hw.1 n hn (by omega), fun _ => fits_of_margin plat F hw.2 n hn (by omega)⟩
  | cascading A, hw, n, hn, h => ⟨by omega, fits_of_margin plat A hw.1 n hn h⟩
  | overflow A, hw, n, hn, h => by
    simp only [margin] at h
    exact ⟨by omega, fits_of_margin plat A hw (n + 128) (by omega) (by omega)⟩
  | threaded A, hw, n, hn, h => fits_of_margin plat A hw n hn h
  | shared A, hw, n, hn, h => fits_of_margin plat A hw.1 n hn h
  | reference A, hw, n, hn, h => fits_of_margin plat A hw n hn h

end AllocTy
end KTL
