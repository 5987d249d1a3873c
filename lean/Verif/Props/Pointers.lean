import Verif.Alloc.Pointers
import Verif.Props.Asserts

/- C85: pointers are only moved inside the array they point into; `overflow` is the exception. -/
namespace KTL
open Overflow

theorem Below.pointer {α β : Type} {f : α → β} (lo hi p : Int) {k : M α} {d : M β} (h : Below f k d) :
    Below f (M.pointer lo hi p >>= fun _ => k) d := by
  unfold M.pointer
  split
  · exact h
  · exact fun _ => .inl rfl

theorem pointer_in {α} {lo hi p : Int} (h : lo ≤ p ∧ p ≤ hi) (k : M α) : (M.pointer lo hi p >>= fun _ => k) = k := by
  unfold M.pointer; rw [if_pos h]; rfl

theorem pointer_out {α} {lo hi p : Int} (h : ¬ (lo ≤ p ∧ p ≤ hi)) (k : M α) : (M.pointer lo hi p >>= fun _ => k) = M.ub := by
  unfold M.pointer; rw [if_neg h]; rfl

/-! ### `linear_allocator` and `stack_allocator` -/

/-- The contract survives other `allocate` and `deallocate` that do the same wherever the contract allows the call. -/
def Sound.rebuilt {A : Allocator} {fA : Nat → Prop} (hA : Sound A fA) (al : A.St → Nat → M (Nat × A.St)) (de : A.St → Nat → Nat → M A.St)
    (ha : ∀ b s L h n, hA.Inv b s L h → fA n → al s n = A.alloc s n)
    (hd : ∀ b s L h p n, hA.Inv b s ((p, n) :: L) h → de s p n = A.dealloc s p n) :
    Sound { A with alloc := al, dealloc := de } fA where
  Inv := hA.Inv
  objAlign := hA.objAlign
  perm := hA.perm
  init_spec := hA.init_spec
  alloc_spec := by
    intro b s L n hf hn
    refine Triple.have (p := ∃ h, hA.Inv b s L h) (fun h hI => ⟨h, hI⟩) (fun ⟨h, hI⟩ => ?_)
    show Triple _ (al s n) _
    rw [ha b s L h n hI hf]
    exact hA.alloc_spec b s L n hf hn
  dealloc_local := by
    intro b s p bs R k hk
    refine Triple.have (p := ∃ h, hA.Inv b s ((p, bs.length) :: R.map blk) h) (fun h ⟨_, h1, _, _, _, hI, _⟩ => ⟨h1, hI⟩) (fun ⟨h, hI⟩ => ?_)
    show Triple _ (de s p bs.length) _
    rw [hd b s _ h p bs.length hI]
    exact hA.dealloc_local b s p bs R k hk
  live_good := hA.live_good
  live_max := hA.live_max
  owns_sound := hA.owns_sound
  owns_complete := hA.owns_complete
  construct_spec := hA.construct_spec
  destroy_spec := hA.destroy_spec
  fini_spec := hA.fini_spec

theorem linear_alloc_pointers {Size base s L n} (hs : Linear.Ok Size base s L) (hf : Linear.Fits Size n) :
    (s.base : Int) ≤ s.free ∧ (s.free : Int) ≤ s.base + Size ∧
    (¬ addW (subW s.free s.base) (addW n (alignPad n)) > Size →
      (s.base : Int) ≤ s.free + (addW n (alignPad n) : Nat) ∧ (s.free : Int) + (addW n (alignPad n) : Nat) ≤ s.base + Size) := by
  obtain ⟨h1, h2, h3, h4, h5, h6, -, -, -, -, -⟩ := hs
  unfold Linear.Fits at hf
  unfold Linear.objSize at h4
  have e1 : subW s.free s.base = s.free - base := by unfold subW; omega
  have e2 : addW n (alignPad n) = n + (16 - n % 16) % 16 := by
    rw [alignPad_eq]; unfold addW; omega
  have e3 : addW (s.free - base) (n + (16 - n % 16) % 16) = (s.free - base) + (n + (16 - n % 16) % 16) := by
    unfold addW; omega
  rw [e1, e2, e3]
  omega

theorem linear_dealloc_pointers {Size base s L p n} (hs : Linear.Ok Size base s ((p, n) :: L)) :
    (s.base : Int) ≤ (s.free : Int) - (addW n (alignPad n) : Nat) ∧ (s.free : Int) - (addW n (alignPad n) : Nat) ≤ s.base + Size := by
  obtain ⟨h1, h2, h3, h4, h5, h6, -, -, h9, -, -⟩ := hs
  simp only [Linear.total] at h9
  unfold Linear.objSize at h4
  have e2 : addW n (alignPad n) = n + (16 - n % 16) % 16 := by
    rw [alignPad_eq]; unfold addW; omega
  rw [e2]
  omega

theorem linearP_alloc_eq {Size base : Nat} {s : Linear.St} {L n} (hs : Linear.Ok Size base s L) (hf : Linear.Fits Size n) :
    (linearP Size).alloc s n = pure (Linear.alloc Size s n) := by
  obtain ⟨h1, h2, h3⟩ := linear_alloc_pointers hs hf
  refine (pointer_in ⟨h1, h2⟩ _).trans ?_
  by_cases hc : addW (subW s.free s.base) (addW n (alignPad n)) > Size
  · simp only [Linear.alloc, if_pos hc]; rfl
  · exact (if_neg hc).trans (pointer_in (h3 hc) _)

theorem stackP_alloc_eq {Size base : Nat} {s : Stack} {L n} (hs : Linear.Ok Size base s.lin L) (hf : Linear.Fits Size n) :
    (stackP Size).alloc s n = pure (Stack.alloc Size s n) := by
  obtain ⟨h1, h2, h3⟩ := linear_alloc_pointers hs hf
  refine (pointer_in ⟨h1, h2⟩ _).trans ?_
  by_cases hc : addW (subW s.free s.data) (addW n (alignPad n)) > Size
  · simp only [Stack.alloc, if_pos hc]; rfl
  · exact (if_neg hc).trans (pointer_in (h3 hc) _)

def linearP_sound (Size : Nat) : Sound (linearP Size) (fun n => Linear.Fits Size n) :=
  (linear_sound Size).rebuilt (linearP Size).alloc (linearP Size).dealloc
    (fun _ _ _ _ _ hI hf => linearP_alloc_eq hI.2.1 hf)
    (fun _ _ _ _ _ _ hI => pointer_in (linear_dealloc_pointers hI.2.1) _)

def stackP_sound (Size : Nat) : Sound (stackP Size) (fun n => Linear.Fits Size n) :=
  (stack_sound Size).rebuilt (stackP Size).alloc (stackP Size).dealloc
    (fun _ _ _ _ _ hI hf => stackP_alloc_eq hI.2.1 hf)
    (fun _ _ _ _ _ _ hI => pointer_in (linear_dealloc_pointers hI.2.1) _)

theorem linearP_refines (Size : Nat) : Refines (linearP Size) (linear Size) id :=
  { Refines.refl (linear Size) with
    alloc := fun s n => by
      refine Below.pointer _ _ _ ?_
      show Below _ _ (pure (Linear.alloc Size s n))
      split
      · next hc => refine Below.pure _ _ _ ?_; simp only [Linear.alloc, if_pos hc, id]; rfl
      · exact Below.pointer _ _ _ (Below.pure _ _ _ rfl)
    dealloc := fun s p n => Below.pointer _ _ _ (Below.pure _ _ _ rfl) }

theorem stackP_refines (Size : Nat) : Refines (stackP Size) (stackAlloc Size) id :=
  { Refines.refl (stackAlloc Size) with
    alloc := fun s n => by
      refine Below.pointer _ _ _ ?_
      show Below _ _ (pure (Stack.alloc Size s n))
      split
      · next hc => refine Below.pure _ _ _ ?_; simp only [Stack.alloc, if_pos hc, id]; rfl
      · exact Below.pointer _ _ _ (Below.pure _ _ _ rfl)
    dealloc := fun s p n => Below.pointer _ _ _ (Below.pure _ _ _ rfl) }

/-! ### `overflow` -/

theorem scanBeforeP_below (lo hi : Int) (ptr k r cur : Nat) : Below id (scanBeforeP lo hi ptr k r cur) (scanBefore ptr k r cur) := by
  induction r generalizing k cur with
  | zero => exact Below.refl _
  | succ r ih => exact Below.bind (f := id) (Below.refl _) fun v => Below.pointer _ _ _ (ih _ _)

theorem scanAfterP_below (lo hi : Int) (e k r cur : Nat) : Below id (scanAfterP lo hi e k r cur) (scanAfter e k r cur) := by
  induction r generalizing k cur with
  | zero => exact Below.refl _
  | succ r ih => exact Below.bind (f := id) (Below.refl _) fun v => Below.pointer _ _ _ (ih _ _)

theorem scanBeforeP_eq {lo hi : Int} {ptr k r : Nat} (h1 : lo ≤ (ptr : Int) - (k + r)) (h2 : (ptr : Int) ≤ hi) (cur : Nat) :
    scanBeforeP lo hi ptr k r cur = scanBefore ptr k r cur := by
  induction r generalizing k cur with
  | zero => rfl
  | succ r ih =>
    simp only [scanBeforeP, scanBefore]
    congr 1; funext v
    rw [pointer_in ⟨by omega, by omega⟩]
    exact ih (by push_cast at h1 ⊢; omega) _

theorem scanAfterP_eq {lo hi : Int} {e k r : Nat} (h1 : lo ≤ (e : Int)) (h2 : (e : Int) + (k + r) ≤ hi) (cur : Nat) :
    scanAfterP lo hi e k r cur = scanAfter e k r cur := by
  induction r generalizing k cur with
  | zero => rfl
  | succ r ih =>
    simp only [scanAfterP, scanAfter]
    congr 1; funext v
    rw [pointer_in ⟨by omega, by omega⟩]
    exact ih (by push_cast at h2 ⊢; omega) _

theorem overflowP_eq {slack : Nat} (h : 0 < slack) (A : Allocator) : overflowP slack A = overflow A := by
  have e1 : (overflowP slack A).alloc = (overflow A).alloc := by
    funext s n
    simp only [overflowP, overflow]
    congr 1; funext r
    split
    · rfl
    · congr 1; funext _
      rw [pointer_in ⟨by omega, by omega⟩, pointer_in ⟨by omega, by omega⟩]
  have e2 : (overflowP slack A).dealloc = (overflow A).dealloc := by
    funext s p n
    simp only [overflowP, overflow]
    split
    · rw [pointer_in ⟨by omega, by omega⟩, pointer_in ⟨by omega, by omega⟩,
        scanBeforeP_eq (by omega) (by omega)]
      congr 1; funext v
      rw [pointer_in ⟨by omega, by omega⟩, pointer_in ⟨by omega, by omega⟩,
        scanAfterP_eq (by omega) (by omega)]
    · rfl
  have : overflowP slack A = { overflow A with alloc := (overflowP slack A).alloc, dealloc := (overflowP slack A).dealloc } := rfl
  rw [this, e1, e2]

theorem load_no_oom (a : Nat) (w w' : World) : M.load a w ≠ .oom w' := by
  unfold M.load; split <;> simp

/-- The loop always gets to a pointer in front of the array if the array begins 64 bytes before `ptr`. -/
theorem scanBeforeP_ub {lo hi : Int} {ptr k r : Nat} (hlo : (ptr : Int) - (k + r + 1) < lo) (cur : Nat) (w : World) :
    scanBeforeP lo hi ptr k (r + 1) cur w = .ub := by
  induction r generalizing k cur w with
  | zero =>
    rw [scanBeforeP, M.bind_apply]
    cases hl : M.load (ptr - k) w with
    | ok v w1 =>
      show (M.pointer _ _ _ >>= fun _ => _) w1 = _
      rw [pointer_out (by omega)]; rfl
    | oom w1 => exact absurd hl (load_no_oom _ _ _)
    | ub => rfl
  | succ r ih =>
    rw [scanBeforeP, M.bind_apply]
    cases hl : M.load (ptr - k) w with
    | ok v w1 =>
      show (M.pointer _ _ _ >>= fun _ => _) w1 = _
      by_cases hp : lo ≤ (ptr : Int) - (k + 1) ∧ (ptr : Int) - (k + 1) ≤ hi
      · rw [pointer_in hp]; exact ih (by push_cast at hlo ⊢; omega) _ _
      · rw [pointer_out hp]; rfl
    | oom w1 => exact absurd hl (load_no_oom _ _ _)
    | ub => rfl

theorem overflow_refines {slack : Nat} {A B : Allocator} {f : A.St → B.St} (h : Refines A B f) :
    Refines (overflowP slack A) (overflow B) (fun s => ⟨f s.a, s.allocs, s.constructs⟩) where
  size := by show A.objSize + 32 = B.objSize + 32; rw [h.size]
  init b := Below.bind (h.init b) fun s => Below.pure _ _ _ rfl
  alloc s n := by
    refine Below.bind (h.alloc s.a _) fun r => ?_
    simp only
    split
    · exact Below.pure _ _ _ rfl
    · exact Below.bind (f := id) (Below.refl _) fun _ => Below.pointer _ _ _ (Below.pointer _ _ _
        (Below.bind (f := id) (Below.refl _) fun _ => Below.pure _ _ _ rfl))
  dealloc s p n := by
    simp only [overflowP, overflow]
    split
    · refine Below.pointer _ _ _ (Below.pointer _ _ _ (Below.bind (scanBeforeP_below _ _ _ _ _ _) fun x => Below.pointer _ _ _ (Below.pointer _ _ _
        (Below.bind (scanAfterP_below _ _ _ _ _ _) fun y => Below.bind (f := id) (Below.refl _) fun _ => Below.bind (h.dealloc _ _ _) fun _ => Below.pure _ _ _ rfl))))
    · exact Below.pure _ _ _ rfl
  owns := by
    show A.owns.map _ = (B.owns.map _).map _
    rw [h.owns]
    cases B.owns <;> rfl
  maxSize := by
    show A.maxSize.map _ = (B.maxSize.map _).map _
    rw [h.maxSize]
    cases B.maxSize <;> rfl
  construct := by
    intro s p
    have := h.construct
    dsimp only
    revert this
    cases A.construct <;> cases B.construct <;> intro h1
    · exact Below.bind (f := id) (Below.refl _) fun _ => Below.pure _ _ _ rfl
    · exact h1.elim
    · exact h1.elim
    · exact Below.bind (h1 _ _) fun _ => Below.pure _ _ _ rfl
  destroy := by
    intro s p
    have := h.destroy
    dsimp only
    revert this
    cases A.destroy <;> cases B.destroy <;> intro h1
    · exact Below.bind (f := id) (Below.refl _) fun _ => Below.pure _ _ _ rfl
    · exact h1.elim
    · exact h1.elim
    · exact Below.bind (h1 _ _) fun _ => Below.pure _ _ _ rfl
  fini s := Below.bind (f := id) (Below.refl _) fun _ => Below.bind (f := id) (Below.refl _) fun _ => h.fini _

theorem BelowOpt.map' {σ τ σ' τ' : Type} {f : σ → τ} {g : σ' → τ'} {c : Option (σ → Nat → M σ)} {d : Option (τ → Nat → M τ)}
    {k : (σ → Nat → M σ) → σ' → Nat → M σ'} {l : (τ → Nat → M τ) → τ' → Nat → M τ'} (h : BelowOpt f c d)
    (hk : ∀ c d, (∀ s p, Below f (c s p) (d (f s) p)) → ∀ s p, Below g (k c s p) (l d (g s) p)) : BelowOpt g (c.map k) (d.map l) := by
  cases c with
  | none =>
    cases d with
    | none => exact trivial
    | some d => exact h.elim
  | some c =>
    cases d with
    | none => exact h.elim
    | some d => exact hk c d h

open Cascading in
theorem shared_refines (sys : Sys) {A B : Allocator} {f : A.St → B.St} (h : Refines A B f) :
    Refines (sharedAlloc sys A) (sharedAlloc sys B) (fun s => (s.1, f s.2)) where
  size := rfl
  init b := by
    show Below _ (alignedNew sys (nodeSize A) A.init) (alignedNew sys (nodeSize B) B.init)
    unfold alignedNew nodeSize
    rw [h.size]
    refine Below.bind (f := id) (Below.refl _) (fun p => ?_)
    simp only [id]
    split
    · intro w; simp only [M.nullDeref, M.bind_apply]; by_cases hf : w.failed <;> simp [hf]
    · exact Below.bind (h.init p) (fun s => Below.pure _ _ _ rfl)
  alloc s n := Below.bind (h.alloc s.2 n) fun r => Below.pure _ _ _ rfl
  dealloc s p n := Below.bind (h.dealloc s.2 p n) fun r => Below.pure _ _ _ rfl
  owns := by
    show A.owns.map _ = (B.owns.map _).map _
    rw [h.owns]
    cases B.owns <;> rfl
  maxSize := by
    show A.maxSize.map _ = (B.maxSize.map _).map _
    rw [h.maxSize]
    cases B.maxSize <;> rfl
  construct := h.construct.map' fun c d hc s p => Below.bind (hc _ _) fun _ => Below.pure _ _ _ rfl
  destroy := h.destroy.map' fun c d hc s p => Below.bind (hc _ _) fun _ => Below.pure _ _ _ rfl
  fini s := Below.bind (h.fini s.2) fun _ => Below.refl _

theorem threaded_refines {A B : Allocator} {f : A.St → B.St} (h : Refines A B f) : Refines (threaded A) (threaded B) f :=
  ⟨by show A.objSize + 48 = B.objSize + 48; rw [h.size], h.init, h.alloc, h.dealloc, h.owns, h.maxSize, h.construct, h.destroy, h.fini⟩

theorem reference_refines {A B : Allocator} {f : A.St → B.St} (h : Refines A B f) : Refines (reference A) (reference B) f :=
  ⟨by show A.objSize + 16 = B.objSize + 16; rw [h.size], h.init, h.alloc, h.dealloc, h.owns, h.maxSize, h.construct, h.destroy, h.fini⟩

namespace AllocTy

theorem checked_refines (sys : Sys) (slack : Nat) : ∀ t : AllocTy, ∃ f, Refines (t.checked sys slack) (t.denote sys) f
  | null => ⟨_, Refines.refl _⟩
  | mallocator => ⟨_, Refines.refl _⟩
  | linear S => ⟨_, linearP_refines S⟩
  | stack S => ⟨_, stackP_refines S⟩
  | freelist m M A => by
    obtain ⟨f, h⟩ := checked_refines sys slack A
    exact ⟨_, freelist_refines m M h⟩
  | fallback P F => by
    obtain ⟨f, h⟩ := checked_refines sys slack P
    obtain ⟨g, h'⟩ := checked_refines sys slack F
    exact ⟨_, fallback_refines h h'⟩
  | segragator T P F => by
    obtain ⟨f, h⟩ := checked_refines sys slack P
    obtain ⟨g, h'⟩ := checked_refines sys slack F
    exact ⟨_, segragator_refines T h h'⟩
  | cascading A => by
    obtain ⟨f, h⟩ := checked_refines sys slack A
    exact ⟨_, cascading_refines sys h⟩
  | overflow A => by
    obtain ⟨f, h⟩ := checked_refines sys slack A
    exact ⟨_, overflow_refines h⟩
  | threaded A => by
    obtain ⟨f, h⟩ := checked_refines sys slack A
    exact ⟨_, threaded_refines h⟩
  | shared A => by
    obtain ⟨f, h⟩ := checked_refines sys slack A
    exact ⟨_, shared_refines sys h⟩
  | reference A => by
    obtain ⟨f, h⟩ := checked_refines sys slack A
    exact ⟨_, reference_refines h⟩

theorem checked_owns (sys : Sys) (slack : Nat) (t : AllocTy) : (t.checked sys slack).owns.isSome = t.hasOwns := by
  obtain ⟨f, h⟩ := checked_refines sys slack t
  rw [h.owns, Option.isSome_map, owns_isSome]

theorem checked_size (sys : Sys) (slack : Nat) (t : AllocTy) : (t.checked sys slack).objSize = t.size := by
  obtain ⟨f, h⟩ := checked_refines sys slack t
  rw [h.size, objSize_eq]

theorem checked_max (sys : Sys) (slack : Nat) (t : AllocTy) (h : t.safeMax = true) : MaxTotal (t.checked sys slack) := by
  obtain ⟨f, hr⟩ := checked_refines sys slack t
  intro g hg
  rw [hr.maxSize] at hg
  exact maxTotal_map f (maxTotal sys t h) g hg

/-- With the rule for pointers every composed allocator without `overflow` satisfies the contract. -/
def csound (sys : Sys) (slack : Nat) : (t : AllocTy) → t.WF → (t.hasOverflow = false ∨ 0 < slack) →
    Sound (t.checked sys slack) (t.fits sys.plat)
  | null, _, _ => null_sound
  | mallocator, _, _ => mallocator_sound sys
  | linear S, _, _ => linearP_sound S
  | stack S, _, _ => stackP_sound S
  | freelist m M A, h, ho => freelist_sound m M (A.csound sys slack h.1 ho) h.2.1 h.2.2
  | fallback P F, h, ho => fallback_sound (P.csound sys slack h.1 (ho.imp_left fun h => (Bool.or_eq_false_iff.1 h).1))
      (F.csound sys slack h.2.1 (ho.imp_left fun h => (Bool.or_eq_false_iff.1 h).2)) (by rw [checked_owns]; exact h.2.2)
  | segragator T P F, h, ho => segragator_sound T (P.csound sys slack h.1 (ho.imp_left fun h => (Bool.or_eq_false_iff.1 h).1))
      (F.csound sys slack h.2 (ho.imp_left fun h => (Bool.or_eq_false_iff.1 h).2))
  | cascading A, h, ho => cascading_sound sys (A.csound sys slack h.1 ho) (by rw [checked_owns]; exact h.2.1)
      (checked_max sys slack A h.2.2.1) (fun _ => by
        have := h.2.2.2; simp only [Cascading.nodeSize, checked_size]; omega)
  | overflow A, h, ho =>
    have hs : 0 < slack := ho.resolve_left (by simp [hasOverflow])
    have e : (overflow A).checked sys slack = KTL.overflow (A.checked sys slack) := overflowP_eq hs _
    e ▸ overflow_sound (A.csound sys slack h (.inr hs))
  | threaded A, h, ho => threaded_sound (A.csound sys slack h ho)
  | shared A, h, ho => shared_sound sys (A.csound sys slack h.1 ho) (fun _ => by
        have := h.2; simp only [Cascading.nodeSize, checked_size]; omega)
  | reference A, h, ho => reference_sound (A.csound sys slack h ho)

end AllocTy

/-! ### C85 -/

/-- C85 (part): every composed allocator without `overflow`, and with `overflow` if one byte in front of its block is
allowed, moves pointers only inside the arrays they point into: the rule never stops a program. Nothing else changes
with the rule. Missing: `overflow` under the rule of the language, see `C85_overflow_out_of_range`. -/
theorem C85_pointers_in_range_partial (sys : Sys) (t : AllocTy) (hwf : t.WF) (slack : Nat) (ho : t.hasOverflow = false ∨ 0 < slack)
    (b : Nat) (w : World) (hs : Storage w b t.size) (ops : List Op) (hops : Sane t ops) :
    match play sys (t.checked sys slack) b ops w with
    | .ok c w' => ∃ c', play sys (t.denote sys) b ops w = .ok c' w' ∧ c'.live = c.live ∧ c'.foreign = c.foreign ∧
        c'.refused = c.refused ∧ c'.built = c.built ∧
        (c.live = [] → (t.checked sys slack).fini c.st w' ≠ .ub ∧ (t.checked sys slack).fini c.st w' = (t.denote sys).fini c'.st w')
    | .oom w' => play sys (t.denote sys) b ops w = .oom w'
    | .ub => False := by
  obtain ⟨f, hr⟩ := t.checked_refines sys slack
  have hh := sound_history sys (t.csound sys slack hwf ho) b w (by rw [t.checked_size]; exact hs) ops (hops.fits sys hwf)
  have hb := play_below sys hr b ops w
  cases hp : play sys (t.checked sys slack) b ops w with
  | ub => rw [hp] at hh; exact hh
  | oom w' =>
    rw [hp, M.bind_apply, hp] at hb
    exact (hb.resolve_left (by simp)).symm
  | ok c w' =>
    rw [hp, M.bind_apply, hp] at hb
    refine ⟨c.map f, (hb.resolve_left (by simp)).symm, rfl, rfl, rfl, rfl, fun hl => ?_⟩
    rw [hp] at hh
    obtain ⟨h, hf, hd, he, hI⟩ := hh
    have hfin := ((t.csound sys slack hwf ho).fini_spec b c.st).frame (blocksV c.live ∗ foreignV c.foreign)
    have hI' : ((t.csound sys slack hwf ho).Inv b c.st [] ∗ (blocksV c.live ∗ foreignV c.foreign)) h := by
      have : ((t.csound sys slack hwf ho).Inv b c.st (c.live.map blk) ∗ (blocksV c.live ∗ foreignV c.foreign)) h := hI
      rw [hl, List.map_nil] at this
      rw [hl]; exact this
    have h3 := hfin w' h hf hd he hI'
    have hnub : (t.checked sys slack).fini c.st w' ≠ .ub := by
      intro hub
      rw [hub] at h3
      exact h3
    refine ⟨hnub, ?_⟩
    rcases hr.fini c.st w' with h4 | h4
    · exact absurd h4 hnub
    · exact (congrFun (bind_pure ((t.checked sys slack).fini c.st)).symm w').trans h4

/-- C85 fails for `overflow`: under the rule of the language every `deallocate` of a block is undefined behaviour,
whatever the allocator below, its state, the block and the memory: the first loop ends by moving its pointer in front
of the block. -/
theorem C85_overflow_out_of_range (A : Allocator) (s : Overflow.St A.St) (p n : Nat) (hp : p ≠ 0) (w : World) :
    (overflowP 0 A).dealloc s p n w = .ub := by
  show (if p ≠ 0 then _ else _ : M _) w = _
  rw [if_pos hp, pointer_in ⟨by omega, by omega⟩, pointer_in ⟨by omega, by omega⟩, M.bind_apply,
    scanBeforeP_ub (by omega)]
  rfl

/-! Non-trivial cases. -/

/-- small blocks from a stack, others from a cascade of linear allocators -/
def pointerTy : AllocTy := .segragator 64 (.stack 512) (.fallback (.cascading (.linear 256)) .mallocator)

example : pointerTy.WF ∧ pointerTy.hasOverflow = false := by decide

/-- a history with blocks given back in both orders, and the destructor -/
def pointerOps : List Op :=
  [.allocate 100, .allocate 40, .allocate 200, .write 0 3 7, .deallocate 1, .allocate 30, .deallocate 0, .deallocate 1, .deallocate 0]

example : Sane pointerTy pointerOps := by
  intro n hn
  simp only [pointerOps, List.mem_cons, Op.allocate.injEq, reduceCtorEq, List.not_mem_nil, or_false, false_or] at hn
  rcases hn with rfl | rfl | rfl | rfl <;> decide

example : Storage (demoWorld pointerTy.size) 4096 pointerTy.size := demoStorage _ (by decide)

/-- the rule does not stop the program, and all blocks are given back -/
example : (play (demoSys .direct) (pointerTy.checked (demoSys .direct) 0) 4096 pointerOps (demoWorld pointerTy.size)).test (fun c w' =>
    c.live.isEmpty && ((pointerTy.checked (demoSys .direct) 0).fini c.st w').test (fun _ _ => true)) = true := by decide +kernel

/-- The rule does stop wrong programs: giving back more than was allocated moves `m_Free` in front of `m_Data`. -/
example : (linearP 64).dealloc ⟨4096, 4112, 16⟩ 4096 64 (demoWorld 80) = .ub := rfl

/-- `overflow`: a block of 8 bytes is allocated and given back. With the rule of the language this is undefined
behaviour, with one byte in front of the block allowed it is not. -/
example : (play (demoSys .direct) ((AllocTy.overflow .mallocator).checked (demoSys .direct) 0) 4096
    [.allocate 8, .deallocate 0] (demoWorld 64)).isUB = true := by decide +kernel

example : (play (demoSys .direct) ((AllocTy.overflow .mallocator).checked (demoSys .direct) 1) 4096
    [.allocate 8, .deallocate 0] (demoWorld 64)).test (fun c w => c.live.isEmpty && w.out.isEmpty) = true := by decide +kernel

end KTL
