import Verif.Alloc.Ty
import Verif.Base.Post

/- Allocators of a user whose `size_type` is smaller than `size_t`, and the library's allocators built on top of them. The library takes
its own `size_type` from the allocator below (`detail::get_size_type_t`); some functions take their sizes in it, others in `size_t`. -/
namespace KTL

/-- A class whose `allocate(size_type n)` and `deallocate(void*, size_type n)` take their sizes in an unsigned type with `W` values: a
`size_t` given to them is converted. `allocators/freelist.h:113`, `allocators/freelist.h:137`, `allocators/overflow.h:104`,
`allocators/overflow.h:126`, `allocators/cascading.h:93`, `allocators/cascading.h:133`; also the allocator of the user. -/
def narrow (W : Nat) (A : Allocator) : Allocator :=
  { A with
    alloc := fun s n => A.alloc s (n % W)
    dealloc := fun s p n => A.dealloc s p (n % W) }

namespace Cascading

/-- `--next->Allocations` on a `size_type` `allocators/cascading.h:150` -/
def decrW (W c : Nat) : Nat := if c = 0 then W - 1 else c - 1

/-- `m_Node->Allocations++` on a `size_type` `allocators/cascading.h:121-122` -/
def incrW (W c : Nat) : Nat := (c + 1) % W

/-- `allocators/cascading.h:108-124`, as `allocFront` with a counter of `W` values -/
def allocFrontW (W : Nat) (sys : Sys) (A : Allocator) (nd : Node A.St) (rest : List (Node A.St)) (n : Nat) :
    M (Nat × List (Node A.St)) := do
  let r ← A.alloc nd.st n
  if r.1 = 0 then do
    let nd2 ← newNode sys A
    let q ← A.alloc nd2.st n
    pure (q.1, ⟨nd2.addr, q.2, if q.1 ≠ 0 then incrW W nd2.cnt else nd2.cnt⟩ :: ⟨nd.addr, r.2, nd.cnt⟩ :: rest)
  else pure (r.1, ⟨nd.addr, r.2, incrW W nd.cnt⟩ :: rest)

/-- `allocators/cascading.h:93-125` `allocate` -/
def allocW (W : Nat) (sys : Sys) (A : Allocator) (s : List (Node A.St)) (n : Nat) : M (Nat × List (Node A.St)) := do
  let s' ← ensure sys A s
  match s' with
  | [] => M.ub
  | nd :: rest =>
    match A.maxSize with
    | none => allocFrontW W sys A nd rest n
    | some f =>
      match f nd.st with
      | none => M.ub
      | some m => if n > m then pure (0, s') else allocFrontW W sys A nd rest n

/-- `allocators/cascading.h:133-163` `deallocate` -/
def deallocW (W : Nat) (sys : Sys) (A : Allocator) (p n : Nat) (prev : Bool) : List (Node A.St) → M (List (Node A.St))
  | [] => pure []
  | nd :: rest =>
    if A.ownsD nd.st p then do
      let st ← A.dealloc nd.st p n
      let cnt := decrW W nd.cnt
      if cnt = 0 ∧ prev = true then do
        alignedDelete sys nd.addr (A.fini st)
        pure rest
      else pure (⟨nd.addr, st, cnt⟩ :: rest)
    else do
      let rest' ← deallocW W sys A p n true rest
      pure (nd :: rest')

end Cascading

/-- `cascading<Alloc>` (`allocators/cascading.h:37-42`: `size_type Allocations`) with a counter of `W` values; everything else as in
`cascading`. The counter is padded to the size of a pointer, so that a node has the same size. -/
def cascadingW (W : Nat) (sys : Sys) (A : Allocator) : Allocator :=
  { cascading sys A with
    alloc := fun s n => Cascading.allocW W sys A s n
    dealloc := fun s p n => Cascading.deallocW W sys A p n false s }

/-- An allocator written by a user: any class that satisfies the contract of C01–C06 (`Sound`) for the sizes its `size_type` can express.
`cap`: the most blocks it can have in use, if there is a limit; as for an arena with a fixed size. `max_size`, if present, does not depend
on the state. Specification, not code. -/
structure User where
  W : Nat
  two : 2 ≤ W
  dvd : W ∣ W64
  A : Allocator
  sound : Sound A (fun n => 0 < n ∧ n < W)
  cap : Option Nat
  capped : ∀ k, cap = some k → ∀ b s L h, sound.Inv b s L h → L.length ≤ k
  max : MaxTotal A

/-- Type expressions over the library's allocators and allocators of users. The class templates of `allocators/*.h`. -/
inductive NTy : Type 1 where
  | null
  | mallocator
  | linear (Size : Nat)
  | stack (Size : Nat)
  | user (U : User)
  | freelist (Min Max : Nat) (A : NTy)
  | fallback (P F : NTy)
  | segragator (Threshold : Nat) (P F : NTy)
  | cascading (A : NTy)
  | overflow (A : NTy)
  | threaded (A : NTy)
  | shared (A : NTy)
  | reference (A : NTy)

namespace NTy

/-- The number of values of `detail::get_size_type_t<Alloc>`: the `size_type` of the class if it has one, else `size_t`.
`utility/meta.h:17-31`; `allocators/fallback.h:30`, `allocators/segragator.h:27`, `allocators/freelist.h:31`, `allocators/cascading.h:34`,
`allocators/overflow.h:23`, `allocators/threaded.h:23`, `allocators/shared.h:61`, `allocators/reference.h:21`. -/
def width : NTy → Nat
  | null | mallocator | linear _ | stack _ => W64
  | user U => U.W
  | freelist _ _ A | cascading A | overflow A | threaded A | shared A | reference A => A.width
  | fallback P _ | segragator _ P _ => P.width

/-- The class a type expression denotes, as `AllocTy.denote`, with the conversions to `size_type`. In `overflow` the sum
`size_type size = n + OVERFLOW_SIZE * 2` is converted before it is passed on (`allocators/overflow.h:109`, `allocators/overflow.h:164`). -/
def denote (sys : Sys) : NTy → Allocator
  | null => nullAlloc
  | mallocator => KTL.mallocator sys
  | linear S => KTL.linear S
  | stack S => stackAlloc S
  | user U => narrow U.W U.A
  | freelist m M A => narrow A.width (KTL.freelist m M (A.denote sys))
  | fallback P F => KTL.fallback (P.denote sys) (F.denote sys)
  | segragator T P F => KTL.segragator T (P.denote sys) (F.denote sys)
  | cascading A => narrow A.width (cascadingW A.width sys (A.denote sys))
  | overflow A => narrow A.width (KTL.overflow (narrow A.width (A.denote sys)))
  | threaded A => KTL.threaded (A.denote sys)
  | shared A => KTL.sharedAlloc sys (A.denote sys)
  | reference A => KTL.reference (A.denote sys)

/-- `detail::has_owns_v`. `utility/meta.h:64-71`. -/
def hasOwns : NTy → Bool
  | null => true
  | mallocator => false
  | linear _ => true
  | stack _ => true
  | user U => U.A.owns.isSome
  | freelist _ _ A => A.hasOwns
  | fallback P F => P.hasOwns && F.hasOwns
  | segragator _ P F => P.hasOwns && F.hasOwns
  | cascading _ => true
  | overflow A => A.hasOwns
  | threaded A => A.hasOwns
  | shared A => A.hasOwns
  | reference A => A.hasOwns

/-- `detail::has_max_size_v`. `utility/meta.h:54-61`. -/
def hasMax : NTy → Bool
  | null => false
  | mallocator => false
  | linear _ => true
  | stack _ => true
  | user U => U.A.maxSize.isSome
  | freelist _ _ A => A.hasMax
  | fallback P F => P.hasMax && F.hasMax
  | segragator _ P F => P.hasMax && F.hasMax
  | cascading A => A.hasMax
  | overflow A => A.hasMax
  | threaded A => A.hasMax
  | shared A => A.hasMax
  | reference A => A.hasMax

/-- see `AllocTy.safeMax`. Specification, not code. -/
def safeMax : NTy → Bool
  | null => true
  | mallocator => true
  | linear _ => true
  | stack _ => true
  | user _ => true
  | freelist _ _ A => A.safeMax
  | fallback P F => !(P.hasMax && F.hasMax) || (P.safeMax && F.safeMax)
  | segragator _ P F => !(P.hasMax && F.hasMax) || (P.safeMax && F.safeMax)
  | cascading A => !A.hasMax
  | overflow A => A.safeMax
  | threaded A => A.safeMax
  | shared A => A.safeMax
  | reference A => A.safeMax

/-- `sizeof`, see `AllocTy.size`. Specification, not code. -/
def size : NTy → Nat
  | null => 0
  | mallocator => 0
  | linear S => S + (16 - S % 16) % 16 + 16
  | stack S => S + (16 - S % 16) % 16 + 16
  | user U => U.A.objSize
  | freelist _ _ A => A.size + 16
  | fallback P F => P.size + F.size
  | segragator _ P F => P.size + F.size
  | cascading _ => 16
  | overflow A => A.size + 32
  | threaded A => A.size + 48
  | shared _ => 16
  | reference A => A.size + 16

/-- The most non-empty blocks an allocator can have in use at a time, if there is a limit. Specification, not code. -/
def cap : NTy → Option Nat
  | null => some 0
  | mallocator => none
  | linear S | stack S => some S
  | user U => U.cap
  | freelist _ _ A | overflow A | threaded A | shared A | reference A => A.cap
  | fallback P F | segragator _ P F => P.cap.bind fun x => F.cap.map fun y => x + y
  | cascading _ => none

/-- How far below the limits a request must stay so that no size computation wraps. Specification, not code. -/
def margin : NTy → Nat
  | null => 0
  | mallocator => 16
  | linear S => S + 15
  | stack S => S + 15
  | user _ => 0
  | freelist _ M A => M + A.margin
  | fallback P F => P.margin + F.margin
  | segragator _ P F => P.margin + F.margin
  | cascading A => A.margin
  | overflow A => A.margin + 128
  | threaded A => A.margin
  | shared A => A.margin
  | reference A => A.margin

/-- The smallest of the `size_type`s in the type. Specification, not code. -/
def least : NTy → Nat
  | null | mallocator | linear _ | stack _ => W64
  | user U => U.W
  | freelist _ _ A | cascading A | overflow A | threaded A | shared A | reference A => A.least
  | fallback P F | segragator _ P F => Min.min P.least F.least

/-- Well-formed types, see `AllocTy.WF`; also, not checked by the library: a block of a `freelist` can be asked for, and the counter of
`cascading` can count the blocks of one instance. `allocators/freelist.h:28`, `allocators/cascading.h:31`, `allocators/fallback.h:27`. -/
def WF : NTy → Prop
  | null => True
  | mallocator => True
  | linear _ => True
  | stack _ => True
  | user _ => True
  | freelist _ M A => A.WF ∧ 8 ≤ M ∧ M + A.margin < A.least
  | fallback P F => P.WF ∧ F.WF ∧ P.hasOwns = true
  | segragator _ P F => P.WF ∧ F.WF
  | cascading A => A.WF ∧ A.hasOwns = true ∧ A.safeMax = true ∧ A.size + 32 < W64 ∧ ∃ k, A.cap = some k ∧ k < A.width
  | overflow A => A.WF
  | threaded A => A.WF
  | shared A => A.WF ∧ A.size + 32 < W64
  | reference A => A.WF

/-- Request sizes for which the contract is proved. Specification, not code. -/
def fits (plat : Plat) : NTy → Nat → Prop
  | null => fun _ => True
  | mallocator => MallocFits plat
  | linear S => Linear.Fits S
  | stack S => Linear.Fits S
  | user U => fun n => n < U.W ∧ 0 < n ∧ n < U.W
  | freelist m M A => fun n => n < A.width ∧ Freelist.Fits m M (A.fits plat) n
  | fallback P F => FallbackFits (P.fits plat) (F.fits plat)
  | segragator T P F => SegFits T (P.fits plat) (F.fits plat)
  | cascading A => fun n => n < A.width ∧ Cascading.Fits (A.fits plat) n
  | overflow A => fun n => n < A.width ∧ Overflow.Fits (fun n => n < A.width ∧ A.fits plat n) n
  | threaded A => A.fits plat
  | shared A => A.fits plat
  | reference A => A.fits plat

end NTy

/-! ### The contract -/

/-- Converting the sizes does no harm below `W`. Proof helper, not code. -/
def narrow_sound (W : Nat) {A : Allocator} {fA : Nat → Prop} (hA : Sound A fA) : Sound (narrow W A) (fun n => n < W ∧ fA n) where
  Inv b s L := fun h => (∀ c ∈ L, c.2 < W) ∧ hA.Inv b s L h
  objAlign := hA.objAlign
  perm := fun hp h => ⟨fun c hc => h.1 c (hp.mem_iff.2 hc), hA.perm hp h.2⟩
  init_spec b h1 h2 h3 := (hA.init_spec b h1 h2 h3).post fun s h hh => ⟨by simp, hh⟩
  alloc_spec b s L n hf hn := by
    refine Triple.and (fun hL => ?_)
    show Triple _ (A.alloc s (n % W)) _
    rw [Nat.mod_eq_of_lt hf.1]
    refine (hA.alloc_spec b s L n hf.2 hn).post ?_
    rintro r h (⟨h1, h2⟩ | ⟨h1, h2⟩)
    · exact .inl ⟨h1, hL, h2⟩
    · refine .inr ⟨h1, star_mono_left (fun _ k => ⟨?_, k⟩) _ h2⟩
      intro c hc
      rcases List.mem_cons.1 hc with rfl | hc
      · exact hf.1
      · exact hL c hc
  dealloc_local b s p bs R k hk := by
    show Triple _ (A.dealloc s p (bs.length % W)) _
    refine apart_eq (star_and _ _) (apart_and fun hL => ?_)
    rw [Nat.mod_eq_of_lt (hL (p, bs.length) (List.mem_cons_self ..))]
    exact (hA.dealloc_local b s p bs R k hk).post fun s' h hh => ⟨fun c hc => hL c (List.mem_cons_of_mem _ hc), hh⟩
  live_good := by
    intro b s L h p n hi hm
    have := hA.live_good hi.2 hm
    exact ⟨this.1, hi.1 _ hm, this.2⟩
  live_max f hf := by
    intro b s L h p n hi hm
    exact hA.live_max f hf hi.2 hm
  owns_sound f hf := by
    intro b s L h x hi
    exact hA.owns_sound f hf hi.2
  owns_complete f hf := by
    intro b s L h x hi
    exact hA.owns_complete f hf hi.2
  construct_spec c hc b s L p := Triple.and fun hL => (hA.construct_spec c hc b s L p).post fun s' h hh => ⟨hL, hh⟩
  destroy_spec c hc b s L p := Triple.and fun hL => (hA.destroy_spec c hc b s L p).post fun s' h hh => ⟨hL, hh⟩
  fini_spec b s := Triple.and fun _ => hA.fini_spec b s

namespace Cascading

variable {A : Allocator} {fA : Nat → Prop} {W : Nat}

/-- a node with its counter reduced to `W` values. Proof helper, not code. -/
def wrap (W : Nat) (nd : Node A.St) : Node A.St := ⟨nd.addr, nd.st, nd.cnt % W⟩

/-- all counters are below `W`. Proof helper, not code. -/
def Small (W : Nat) (s : List (Node A.St)) : Prop := ∀ nd ∈ s, nd.cnt < W

theorem wrap_small {s : List (Node A.St)} (h : Small W s) : s.map (wrap W) = s := by
  induction s with
  | nil => rfl
  | cons nd s ih =>
    rw [List.map_cons, ih fun x hx => h x (List.mem_cons_of_mem _ hx), wrap, Nat.mod_eq_of_lt (h nd (List.mem_cons_self ..))]

theorem allocFrontW_eq (sys : Sys) (nd : Node A.St) (rest : List (Node A.St)) (n : Nat) (h : Small W (nd :: rest)) :
    allocFrontW W sys A nd rest n = (do let r ← allocFront sys A nd rest n; pure (r.1, r.2.map (wrap W))) := by
  unfold allocFrontW allocFront
  rw [bind_assoc]
  congr 1; funext r
  have h1 : rest.map (wrap W) = rest := wrap_small fun x hx => h x (List.mem_cons_of_mem _ hx)
  have h2 : nd.cnt % W = nd.cnt := Nat.mod_eq_of_lt (h nd (List.mem_cons_self ..))
  split
  · unfold newNode
    simp only [bind_assoc, pure_bind, List.map_cons, h1, wrap, h2, incrW]
    congr 1; funext nd2
    congr 1; funext q
    split <;> simp
  · simp only [pure_bind, List.map_cons, h1, wrap, incrW]

theorem ensure_small (hW : 2 ≤ W) (sys : Sys) {s : List (Node A.St)} (h : Small W s) (w : World) (s' : List (Node A.St)) (w' : World)
    (he : ensure sys A s w = .ok s' w') : Small W s' := by
  cases s with
  | nil =>
    unfold ensure newNode at he
    obtain ⟨nd, w1, h1, h2⟩ := bind_ok he
    obtain ⟨r, w2, _, h3⟩ := bind_ok h1
    cases h2; cases h3
    intro x hx
    simp only [List.mem_cons, List.not_mem_nil, or_false] at hx
    subst hx
    show 0 < W
    omega
  | cons nd s => cases he; exact h

theorem bind_congr_of_ok {α β : Type} {c : M α} {f g : α → M β} (h : ∀ w a w', c w = .ok a w' → f a = g a) : (c >>= f) = (c >>= g) := by
  funext w
  rw [M.bind_apply, M.bind_apply]
  cases hc : c w with
  | ok a w' => simp only [h w a w' hc]
  | oom w' => rfl
  | ub => rfl

theorem allocW_eq (hW : 2 ≤ W) (sys : Sys) (s : List (Node A.St)) (n : Nat) (h : Small W s) :
    allocW W sys A s n = (do let r ← alloc sys A s n; pure (r.1, r.2.map (wrap W))) := by
  unfold allocW alloc
  rw [bind_assoc]
  refine bind_congr_of_ok fun w s' w' hs => ?_
  have hs' := ensure_small hW sys h w s' w' hs
  cases s' with
  | nil => rfl
  | cons nd rest =>
    simp only
    cases A.maxSize with
    | none => exact allocFrontW_eq sys nd rest n hs'
    | some f =>
      simp only
      cases f nd.st with
      | none => rfl
      | some m =>
        simp only
        split
        · rw [pure_bind, wrap_small hs']
        · exact allocFrontW_eq sys nd rest n hs'

theorem decrW_eq (hd : W ∣ W64) {c : Nat} (hc : c < W) : decrW W c = decr c % W := by
  unfold decrW decr
  split
  · obtain ⟨k, hk⟩ := hd
    rw [hk]
    cases k with
    | zero => omega
    | succ k => rw [Nat.mul_succ, Nat.add_sub_assoc (by omega), Nat.mul_add_mod, Nat.mod_eq_of_lt (by omega)]
  · rw [Nat.mod_eq_of_lt (by omega)]

theorem decrW_zero (hW : 2 ≤ W) {c : Nat} : decrW W c = 0 ↔ decr c = 0 := by
  unfold decrW decr
  split
  · have : W64 - 1 ≠ 0 := by decide
    constructor <;> intro h <;> omega
  · rfl

theorem deallocW_eq (hW : 2 ≤ W) (hd : W ∣ W64) (sys : Sys) (p n : Nat) (prev : Bool) (s : List (Node A.St)) (h : Small W s) :
    deallocW W sys A p n prev s = (do let r ← dealloc sys A p n prev s; pure (r.map (wrap W))) := by
  induction s generalizing prev with
  | nil => rfl
  | cons nd rest ih =>
    have h1 : Small W rest := fun x hx => h x (List.mem_cons_of_mem _ hx)
    have h2 := h nd (List.mem_cons_self ..)
    unfold deallocW dealloc
    split
    · rw [bind_assoc]
      congr 1; funext st
      simp only [decrW_zero hW]
      split
      · rw [bind_assoc]; simp only [pure_bind, wrap_small h1]
      · simp only [pure_bind, List.map_cons, wrap_small h1, wrap, decrW_eq hd h2]
    · rw [ih true h1]
      simp only [bind_assoc, pure_bind, List.map_cons, wrap, Nat.mod_eq_of_lt h2]

theorem nodes_inv {plat : Plat} {hA : Sound A fA} {NL : List (Node A.St × List (Nat × Nat))} {h : Heap} (hh : nodesInv plat hA NL h) :
    ∀ x ∈ NL, ∃ h', hA.Inv x.1.addr x.1.st x.2 h' := by
  induction NL generalizing h with
  | nil => intro x hx; simp at hx
  | cons y NL ih =>
    obtain ⟨h1, h2, _, _, ⟨h3, h4, _, _, h5, _⟩, h6⟩ := hh
    intro x hx
    rcases List.mem_cons.1 hx with rfl | hx
    · exact ⟨h3, h5⟩
    · exact ih h6 x hx

end Cascading

open Cascading in
/-- `cascading` whose counter can count the blocks of one instance. Proof helper, not code. -/
def cascadingW_sound (W : Nat) (hW : 2 ≤ W) (hd : W ∣ W64) (sys : Sys) {A : Allocator} {fA : Nat → Prop} (hA : Sound A fA)
    (ho : A.owns.isSome = true) (hmax : MaxTotal A) (hsz : MallocFits sys.plat (nodeSize A))
    (hcap : ∀ b s L h, hA.Inv b s L h → (∀ c ∈ L, c.2 ≠ 0) → L.length < W) :
    Sound (cascadingW W sys A) (Cascading.Fits fA) :=
  have hsmall : ∀ b s L h, (cascading_sound sys hA ho hmax hsz).Inv b s L h → Small W s := by
    rintro b s L h ⟨h1, NL, ⟨rfl, h3, h4⟩, h5⟩ nd hnd
    obtain ⟨x, hx, rfl⟩ := List.mem_map.1 hnd
    obtain ⟨g1, g2, _, _, h6, _⟩ := h5
    obtain ⟨h', hi⟩ := nodes_inv h6 x hx
    rw [(h3 x hx).1]
    refine hcap _ _ _ _ hi fun c hc => ?_
    exact (h1 c (h4.mem_iff.2 (List.mem_flatMap.2 ⟨x, hx, hc⟩))).1
  { Inv := (cascading_sound sys hA ho hmax hsz).Inv
    objAlign := (cascading_sound sys hA ho hmax hsz).objAlign
    perm := (cascading_sound sys hA ho hmax hsz).perm
    init_spec := (cascading_sound sys hA ho hmax hsz).init_spec
    alloc_spec := by
      intro b s L n hf hn
      have h0 := (cascading_sound sys hA ho hmax hsz).alloc_spec b s L n hf hn
      refine (show Triple (fun h => Small W s ∧ (cascading_sound sys hA ho hmax hsz).Inv b s L h) _ _ from
        Triple.and fun hs => ?_).pre fun h hh => ⟨hsmall b s L h hh, hh⟩
      show Triple _ (allocW W sys A s n) _
      rw [allocW_eq hW sys s n hs]
      refine Triple.bind h0 fun r => Triple.pure _ fun h hh => ?_
      have hr : Small W r.2 := by
        rcases hh with hh | ⟨_, h1, _, _, _, hh, _⟩
        · exact hsmall _ _ _ _ hh.2
        · exact hsmall _ _ _ _ hh
      rw [wrap_small hr]
      exact hh
    dealloc_local := by
      intro b s p bs R k hk
      have h0 := (cascading_sound sys hA ho hmax hsz).dealloc_local b s p bs R k hk
      refine (show Triple (fun h => Small W s ∧ apart k ((cascading_sound sys hA ho hmax hsz).Inv b s ((p, bs.length) :: R.map blk) ∗ bytesV p bs) h) _ _ from
        Triple.and fun hs => ?_).pre fun h hh => ⟨?_, hh⟩
      · show Triple _ (deallocW W sys A p bs.length false s) _
        rw [deallocW_eq hW hd sys p bs.length false s hs]
        refine Triple.bind h0 fun r => Triple.pure _ fun h hh => ?_
        rw [wrap_small (hsmall _ _ _ _ hh)]
        exact hh
      · obtain ⟨_, h1, _, _, _, hi, _⟩ := hh
        exact hsmall _ _ _ _ hi
    live_good := (cascading_sound sys hA ho hmax hsz).live_good
    live_max := (cascading_sound sys hA ho hmax hsz).live_max
    owns_sound := (cascading_sound sys hA ho hmax hsz).owns_sound
    owns_complete := (cascading_sound sys hA ho hmax hsz).owns_complete
    construct_spec := (cascading_sound sys hA ho hmax hsz).construct_spec
    destroy_spec := (cascading_sound sys hA ho hmax hsz).destroy_spec
    fini_spec := (cascading_sound sys hA ho hmax hsz).fini_spec }

namespace NTy

theorem width_ok : ∀ t : NTy, 2 ≤ t.width ∧ t.width ∣ W64
  | null | mallocator | linear _ | stack _ => ⟨by simp [width], Nat.dvd_refl _⟩
  | user U => ⟨U.two, U.dvd⟩
  | freelist _ _ A | cascading A | overflow A | threaded A | shared A | reference A => width_ok A
  | fallback P _ | segragator _ P _ => width_ok P

theorem width_le (t : NTy) : t.width ≤ W64 := Nat.le_of_dvd (by decide) t.width_ok.2

theorem least_le : ∀ t : NTy, t.least ≤ t.width
  | null | mallocator | linear _ | stack _ | user _ => Nat.le_refl _
  | freelist _ _ A | cascading A | overflow A | threaded A | shared A | reference A => least_le A
  | fallback P F | segragator _ P F => Nat.le_trans (Nat.min_le_left _ _) (least_le P)

theorem objSize_eq (sys : Sys) : ∀ t : NTy, (t.denote sys).objSize = t.size
  | null => rfl
  | mallocator => rfl
  | linear _ => rfl
  | stack _ => rfl
  | user _ => rfl
  | freelist _ _ A => by simp only [denote, narrow, KTL.freelist, size, objSize_eq sys A]
  | fallback P F => by simp only [denote, KTL.fallback, size, objSize_eq sys P, objSize_eq sys F]
  | segragator _ P F => by simp only [denote, KTL.segragator, size, objSize_eq sys P, objSize_eq sys F]
  | cascading _ => rfl
  | overflow A => by simp only [denote, narrow, KTL.overflow, size, objSize_eq sys A]
  | threaded A => by simp only [denote, KTL.threaded, size, objSize_eq sys A]
  | shared _ => rfl
  | reference A => by simp only [denote, KTL.reference, size, objSize_eq sys A]

theorem owns_isSome (sys : Sys) : ∀ t : NTy, (t.denote sys).owns.isSome = t.hasOwns
  | null => rfl
  | mallocator => rfl
  | linear _ => rfl
  | stack _ => rfl
  | user _ => rfl
  | freelist _ _ A => by simp only [denote, narrow, KTL.freelist, hasOwns, Option.isSome_map, owns_isSome sys A]
  | fallback P F => by
    have h1 := owns_isSome sys P; have h2 := owns_isSome sys F
    simp only [denote, KTL.fallback, hasOwns, owns2, ← h1, ← h2]
    cases (P.denote sys).owns <;> cases (F.denote sys).owns <;> rfl
  | segragator _ P F => by
    have h1 := owns_isSome sys P; have h2 := owns_isSome sys F
    simp only [denote, KTL.segragator, hasOwns, owns2, ← h1, ← h2]
    cases (P.denote sys).owns <;> cases (F.denote sys).owns <;> rfl
  | cascading _ => rfl
  | overflow A => by simp only [denote, narrow, KTL.overflow, hasOwns, Option.isSome_map, owns_isSome sys A]
  | threaded A => by simp only [denote, KTL.threaded, hasOwns, owns_isSome sys A]
  | shared A => by simp only [denote, KTL.sharedAlloc, hasOwns, Option.isSome_map, owns_isSome sys A]
  | reference A => by simp only [denote, KTL.reference, hasOwns, owns_isSome sys A]

theorem max_isSome (sys : Sys) : ∀ t : NTy, (t.denote sys).maxSize.isSome = t.hasMax
  | null => rfl
  | mallocator => rfl
  | linear _ => rfl
  | stack _ => rfl
  | user _ => rfl
  | freelist _ _ A => by simp only [denote, narrow, KTL.freelist, hasMax, Option.isSome_map, max_isSome sys A]
  | fallback P F => by
    have h1 := max_isSome sys P; have h2 := max_isSome sys F
    simp only [denote, KTL.fallback, hasMax, maxSize2, ← h1, ← h2]
    cases (P.denote sys).maxSize <;> cases (F.denote sys).maxSize <;> rfl
  | segragator _ P F => by
    have h1 := max_isSome sys P; have h2 := max_isSome sys F
    simp only [denote, KTL.segragator, hasMax, maxSize2, ← h1, ← h2]
    cases (P.denote sys).maxSize <;> cases (F.denote sys).maxSize <;> rfl
  | cascading A => by simp only [denote, narrow, cascadingW, KTL.cascading, hasMax, Option.isSome_map, max_isSome sys A]
  | overflow A => by simp only [denote, narrow, KTL.overflow, hasMax, Option.isSome_map, max_isSome sys A]
  | threaded A => by simp only [denote, KTL.threaded, hasMax, max_isSome sys A]
  | shared A => by simp only [denote, KTL.sharedAlloc, hasMax, Option.isSome_map, max_isSome sys A]
  | reference A => by simp only [denote, KTL.reference, hasMax, max_isSome sys A]

theorem maxTotal (sys : Sys) : ∀ t : NTy, t.safeMax = true → MaxTotal (t.denote sys)
  | null, _ => by intro f hf; cases hf
  | mallocator, _ => by intro f hf; cases hf
  | linear _, _ => by intro f hf; cases hf; exact ⟨_, fun _ => rfl⟩
  | stack _, _ => by intro f hf; cases hf; exact ⟨_, fun _ => rfl⟩
  | user U, _ => U.max
  | freelist _ _ A, h => by
    intro f hf
    exact AllocTy.maxTotal_map (fun s : Freelist.St _ => s.a) (maxTotal sys A h) f hf
  | fallback P F, h => by
    intro f hf
    refine AllocTy.maxTotal2 (fun h1 h2 => ?_) f hf
    rw [max_isSome] at h1 h2
    simp only [safeMax, h1, h2, Bool.and_self, Bool.not_true, Bool.false_or, Bool.and_eq_true] at h
    exact ⟨maxTotal sys P h.1, maxTotal sys F h.2⟩
  | segragator _ P F, h => by
    intro f hf
    refine AllocTy.maxTotal2 (fun h1 h2 => ?_) f hf
    rw [max_isSome] at h1 h2
    simp only [safeMax, h1, h2, Bool.and_self, Bool.not_true, Bool.false_or, Bool.and_eq_true] at h
    exact ⟨maxTotal sys P h.1, maxTotal sys F h.2⟩
  | cascading A, h => by
    intro f hf
    have h1 := max_isSome sys A
    simp only [safeMax, Bool.not_eq_true'] at h
    rw [h] at h1
    obtain ⟨f', hf', rfl⟩ := Option.map_eq_some_iff.1 hf
    simp [hf'] at h1
  | overflow A, h => by
    intro f hf
    exact AllocTy.maxTotal_map (fun s : Overflow.St _ => s.a) (maxTotal sys A h) f hf
  | threaded A, h => maxTotal sys A h
  | shared A, h => by
    intro f hf
    exact AllocTy.maxTotal_map (fun s : Nat × _ => s.2) (maxTotal sys A h) f hf
  | reference A, h => maxTotal sys A h

/-- The limit on the number of blocks holds. Proof helper, not code. -/
def Capped {A : Allocator} {fA : Nat → Prop} (hA : Sound A fA) (cap : Option Nat) : Prop :=
  ∀ k, cap = some k → ∀ b s L h, hA.Inv b s L h → (∀ c ∈ L, c.2 ≠ 0) → L.length ≤ k

theorem linear_capped {L : List (Nat × Nat)} (h : ∀ c ∈ L, c.2 ≠ 0) : L.length ≤ Linear.total L := by
  induction L with
  | nil => exact Nat.le_refl _
  | cons c L ih =>
    have h1 := ih fun x hx => h x (List.mem_cons_of_mem _ hx)
    have h2 := h c (List.mem_cons_self ..)
    simp only [List.length_cons, Linear.total]
    omega

theorem linked_len {Max : Nat} {R : List (Nat × List UInt8)} {a : Nat} (h : Freelist.linked Max a R) : ∀ d ∈ R, d.2.length = Max := by
  induction R generalizing a with
  | nil => intro d hd; simp at hd
  | cons c R ih =>
    obtain ⟨_, _, h1, nx, _, _, _, h2⟩ := h
    intro d hd
    rcases List.mem_cons.1 hd with rfl | hd
    · exact h1
    · exact ih h2 d hd

theorem capped_add {cP cF : Option Nat} {k : Nat} (h : (cP.bind fun x => cF.map fun y => x + y) = some k) :
    ∃ x y, cP = some x ∧ cF = some y ∧ k = x + y := by
  cases cP with
  | none => cases h
  | some x =>
    cases cF with
    | none => cases h
    | some y => cases h; exact ⟨x, y, rfl, rfl, rfl⟩

/-- Every well-formed composition satisfies the contract, and has no more blocks than it can. Proof helper, not code. -/
def both (sys : Sys) : (t : NTy) → t.WF → { hA : Sound (t.denote sys) (t.fits sys.plat) // Capped hA t.cap }
  | null, _ => ⟨null_sound, by
      rintro k ⟨⟩ b s L h ⟨rfl, _⟩ hL
      exact Nat.le_refl _⟩
  | mallocator, _ => ⟨mallocator_sound sys, by rintro k ⟨⟩⟩
  | linear S, _ => ⟨linear_sound S, by
      rintro k ⟨⟩ b s L h hi hL
      have h1 := linear_capped hL
      have h2 := hi.2.1.count_le
      have h3 := hi.2.1.free_hi
      omega⟩
  | stack S, _ => ⟨stack_sound S, by
      rintro k ⟨⟩ b s L h hi hL
      have h1 := linear_capped hL
      have h2 := hi.2.1.count_le
      have h3 := hi.2.1.free_hi
      omega⟩
  | user U, _ => ⟨narrow_sound U.W U.sound, fun k hk b s L h hi _ => U.capped k hk b s L h hi.2⟩
  | freelist m M A, hw => ⟨narrow_sound A.width (freelist_sound m M (both sys A hw.1).1 hw.2.1
        (by have := hw.2.2; have := A.least_le; have := A.width_le; omega)), by
      rintro k hk b s L h ⟨_, _, R, ⟨hlk, _⟩, hi⟩ hL
      obtain ⟨h1, _, _, _, hi, _⟩ := hi
      have := (both sys A hw.1).2 k hk _ _ _ _ hi (by
        intro c hc
        have h8 := hw.2.1
        rcases List.mem_append.1 hc with hc | hc
        · obtain ⟨d, _, rfl⟩ := List.mem_map.1 hc
          show M ≠ 0
          omega
        · obtain ⟨d, hd, rfl⟩ := List.mem_map.1 hc
          show d.2.length ≠ 0
          rw [linked_len hlk d hd]
          omega)
      simp only [List.length_append, List.length_map] at this
      omega⟩
  | fallback P F, hw => ⟨fallback_sound (both sys P hw.1).1 (both sys F hw.2.1).1 (by rw [owns_isSome]; exact hw.2.2), by
      rintro k hk b s L h ⟨_, L1, L2, hp, hi⟩ hL
      obtain ⟨x, y, hx, hy, rfl⟩ := capped_add hk
      obtain ⟨h1, h2, _, _, hi1, hi2⟩ := hi
      have a1 := (both sys P hw.1).2 x hx _ _ _ _ hi1 fun c hc => hL c (hp.mem_iff.2 (List.mem_append_left _ hc))
      have a2 := (both sys F hw.2.1).2 y hy _ _ _ _ hi2 fun c hc => hL c (hp.mem_iff.2 (List.mem_append_right _ hc))
      rw [hp.length_eq, List.length_append]
      omega⟩
  | segragator T P F, hw => ⟨segragator_sound T (both sys P hw.1).1 (both sys F hw.2).1, by
      rintro k hk b s L h ⟨_, hi⟩ hL
      obtain ⟨x, y, hx, hy, rfl⟩ := capped_add hk
      obtain ⟨h1, h2, _, _, hi1, hi2⟩ := hi
      have hp := lo_hi_perm T L
      have a1 := (both sys P hw.1).2 x hx _ _ _ _ hi1 fun c hc => hL c (hp.mem_iff.2 (List.mem_append_left _ hc))
      have a2 := (both sys F hw.2).2 y hy _ _ _ _ hi2 fun c hc => hL c (hp.mem_iff.2 (List.mem_append_right _ hc))
      rw [hp.length_eq, List.length_append]
      omega⟩
  | cascading A, hw => ⟨narrow_sound A.width (cascadingW_sound A.width A.width_ok.1 A.width_ok.2 sys (both sys A hw.1).1
        (by rw [owns_isSome]; exact hw.2.1) (maxTotal sys A hw.2.2.1)
        (fun _ => by have := hw.2.2.2.1; simp only [Cascading.nodeSize, objSize_eq]; omega)
        (by
          obtain ⟨k, hk, hlt⟩ := hw.2.2.2.2
          intro b s L h hi hL
          exact Nat.lt_of_le_of_lt ((both sys A hw.1).2 k hk b s L h hi hL) hlt)), by rintro k ⟨⟩⟩
  | overflow A, hw => ⟨narrow_sound A.width (overflow_sound (narrow_sound A.width (both sys A hw).1)), by
      rintro k hk b s L h ⟨_, _, hi⟩ hL
      obtain ⟨h1, _, _, _, hi, _⟩ := hi
      have := (both sys A hw).2 k hk _ _ _ _ hi.2 (by
        intro c hc
        obtain ⟨d, hd, rfl⟩ := List.mem_map.1 hc
        simp [Overflow.wide])
      simpa using this⟩
  | threaded A, hw => ⟨threaded_sound (both sys A hw).1, by
      rintro k hk b s L h ⟨h1, _, _, _, hi, _⟩ hL
      exact (both sys A hw).2 k hk _ _ _ _ hi hL⟩
  | shared A, hw => ⟨shared_sound sys (both sys A hw.1).1 (fun _ => by
        have := hw.2; simp only [Cascading.nodeSize, objSize_eq]; omega), by
      rintro k hk b s L h ⟨_, h1, _, _, _, hi, _⟩ hL
      exact (both sys A hw.1).2 k hk _ _ _ _ hi hL⟩
  | reference A, hw => ⟨reference_sound (both sys A hw).1, by
      rintro k hk b s L h ⟨h1, _, _, _, hi, _⟩ hL
      exact (both sys A hw).2 k hk _ _ _ _ hi hL⟩

/-- Every well-formed composition satisfies the contract. Proof helper, not code. -/
def sound (sys : Sys) (t : NTy) (hw : t.WF) : Sound (t.denote sys) (t.fits sys.plat) := (both sys t hw).1

/-- Non-empty requests that stay below the margin are covered. -/
theorem fits_of_margin (plat : Plat) : ∀ (t : NTy) (_ : t.WF) (n : Nat), 0 < n → n + t.margin < t.least → t.fits plat n
  | null, _, _, _, _ => trivial
  | mallocator, _, n, _, h => fun _ => h
  | linear S, _, n, _, h => by simp only [margin, least] at h; show n + 15 + S < W64; omega
  | stack S, _, n, _, h => by simp only [margin, least] at h; show n + 15 + S < W64; omega
  | user U, _, n, hn, h => by simp only [margin, least] at h; exact ⟨by omega, hn, by omega⟩
  | freelist m M A, hw, n, hn, h => by
    simp only [margin, least] at h
    have := A.least_le
    exact ⟨by omega, fun _ => fits_of_margin plat A hw.1 M (by have := hw.2.1; omega) hw.2.2⟩
  | fallback P F, hw, n, hn, h => by
    simp only [margin, least] at h
    exact ⟨by omega, fits_of_margin plat P hw.1 n hn (by omega), fits_of_margin plat F hw.2.1 n hn (by omega)⟩
  | segragator T P F, hw, n, hn, h => by
    simp only [margin, least] at h
    exact ⟨fun _ => fits_of_margin plat P hw.1 n hn (by omega), fun _ => fits_of_margin plat F hw.2 n hn (by omega)⟩
  | cascading A, hw, n, hn, h => by
    simp only [margin, least] at h
    have := A.least_le
    exact ⟨by omega, by omega, fits_of_margin plat A hw.1 n hn h⟩
  | overflow A, hw, n, hn, h => by
    simp only [margin, least] at h
    have := A.least_le
    have := A.width_le
    exact ⟨by omega, by omega, by omega, fits_of_margin plat A hw (n + 128) (by omega) (by omega)⟩
  | threaded A, hw, n, hn, h => fits_of_margin plat A hw n hn h
  | shared A, hw, n, hn, h => fits_of_margin plat A hw.1 n hn h
  | reference A, hw, n, hn, h => fits_of_margin plat A hw n hn h

end NTy

end KTL
