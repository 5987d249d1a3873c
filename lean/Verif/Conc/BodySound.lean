import Verif.Conc.Body

/- The contract of the calls given access by access: one invariant for every behaviour of `malloc`. -/
namespace KTL

/-- the type of the invariants. Proof helper, not code. -/
abbrev BAlloc.IType (X : BAlloc) : Type := Nat → X.S → List (Nat × Nat) → HProp

/-- `I` is an invariant whatever `malloc` does. Proof helper, not code. -/
def SoundAll (plat : Plat) (X : BAlloc) (f : Nat → Prop) (I : X.IType) : Prop :=
  ∀ sys, sys.plat = plat → ∃ hA : Sound (X.toA sys) f, hA.Inv = I

theorem sound_of_eq {A B : Allocator} (e : A = B) {f : Nat → Prop} (hA : Sound A f) : ∃ hB : Sound B f, HEq hB.Inv hA.Inv := by
  subst e
  exact ⟨hA, HEq.rfl⟩

theorem soundAll_null (plat : Plat) : ∃ I, SoundAll plat nullB (fun _ => True) I :=
  ⟨null_sound.Inv, fun _ _ => ⟨null_sound, rfl⟩⟩

theorem soundAll_malloc (plat : Plat) : ∃ I, SoundAll plat (mallocB plat) (MallocFits plat) I := by
  refine ⟨fun _ _ L h => (∀ b ∈ L, Good b.1 b.2 ∧ MallocFits plat b.2) ∧ mToks plat L h, fun sys hp => ?_⟩
  subst hp
  obtain ⟨hB, he⟩ := sound_of_eq (mallocB_toA sys).symm (mallocator_sound sys)
  exact ⟨hB, eq_of_heq he⟩

theorem soundAll_linear (plat : Plat) (Size : Nat) : ∃ I, SoundAll plat (linearB Size) (Linear.Fits Size) I :=
  ⟨(linear_sound Size).Inv, fun _ _ => ⟨linear_sound Size, rfl⟩⟩

theorem soundAll_stack (plat : Plat) (Size : Nat) : ∃ I, SoundAll plat (stackB Size) (Linear.Fits Size) I :=
  ⟨(stack_sound Size).Inv, fun _ _ => ⟨stack_sound Size, rfl⟩⟩

theorem soundAll_freelist {plat : Plat} {X : BAlloc} {f : Nat → Prop} (Min Max : Nat) (hM8 : 8 ≤ Max) (hMW : Max < W64)
    (h : ∃ I, SoundAll plat X f I) : ∃ I, SoundAll plat (freelistB plat Min Max X) (Freelist.Fits Min Max f) I := by
  obtain ⟨I, h⟩ := h
  refine ⟨fun b s L h => (∀ c ∈ L, Min < c.2 ∧ c.2 ≤ Max ∧ Freelist.Fits Min Max f c.2) ∧
    ∃ R, (Freelist.linked Max s.free R ∧ s.free < W64) ∧
    (I b s.a (L.map (Freelist.full Max) ++ R.map blk) ∗ Freelist.slack Max L ∗ blocksV R ∗ bytes (b + X.objSize) 16) h, fun sys hp => ?_⟩
  obtain ⟨hA, rfl⟩ := h sys hp
  obtain ⟨hB, he⟩ := sound_of_eq (freelistB_toA plat Min Max X sys).symm (freelist_sound Min Max hA hM8 hMW)
  exact ⟨hB, eq_of_heq he⟩

theorem soundAll_fallback {plat : Plat} {P F : BAlloc} {f g : Nat → Prop} (ho : P.owns.isSome = true)
    (hP : ∃ I, SoundAll plat P f I) (hF : ∃ I, SoundAll plat F g I) : ∃ I, SoundAll plat (fallbackB plat P F) (FallbackFits f g) I := by
  obtain ⟨I, hP⟩ := hP
  obtain ⟨J, hF⟩ := hF
  refine ⟨fun b s L h => (∀ c ∈ L, FallbackFits f g c.2) ∧ ∃ L1 L2, L.Perm (L1 ++ L2) ∧ (I b s.1 L1 ∗ J (b + P.objSize) s.2 L2) h, fun sys hp => ?_⟩
  obtain ⟨hA, rfl⟩ := hP sys hp
  obtain ⟨hB, rfl⟩ := hF sys hp
  obtain ⟨hC, he⟩ := sound_of_eq (fallbackB_toA plat P F sys).symm (fallback_sound hA hB ho)
  exact ⟨hC, eq_of_heq he⟩

theorem soundAll_segragator {plat : Plat} {P F : BAlloc} {f g : Nat → Prop} (T : Nat)
    (hP : ∃ I, SoundAll plat P f I) (hF : ∃ I, SoundAll plat F g I) : ∃ I, SoundAll plat (segragatorB plat T P F) (SegFits T f g) I := by
  obtain ⟨I, hP⟩ := hP
  obtain ⟨J, hF⟩ := hF
  refine ⟨fun b s L h => (∀ c ∈ L, SegFits T f g c.2) ∧ (I b s.1 (lo T L) ∗ J (b + P.objSize) s.2 (hi T L)) h, fun sys hp => ?_⟩
  obtain ⟨hA, rfl⟩ := hP sys hp
  obtain ⟨hB, rfl⟩ := hF sys hp
  obtain ⟨hC, he⟩ := sound_of_eq (segragatorB_toA plat T P F sys).symm (segragator_sound T hA hB)
  exact ⟨hC, eq_of_heq he⟩

namespace Cascading

/-- `nodesInv` from the invariant alone. Proof helper, not code. -/
def nodesInvB {S : Type} (plat : Plat) (o : Nat) (I : Nat → S → List (Nat × Nat) → HProp) : List (Node S × List (Nat × Nat)) → HProp
  | [] => emp
  | x :: NL => (I x.1.addr x.1.st x.2 ∗ bytes (x.1.addr + o) 16 ∗ mTok plat x.1.addr (o + 16)) ∗ nodesInvB plat o I NL

theorem nodesInvB_eq {A : Allocator} {f : Nat → Prop} (plat : Plat) (hA : Sound A f) (NL : List (Node A.St × List (Nat × Nat))) :
    nodesInvB plat A.objSize hA.Inv NL = nodesInv plat hA NL := by
  induction NL with
  | nil => rfl
  | cons x NL ih => simp only [nodesInvB, nodesInv, ih]; rfl

end Cascading

theorem soundAll_cascading {plat : Plat} {X : BAlloc} {f : Nat → Prop} (hX : X.Finite plat) (ho : X.owns.isSome = true)
    (hm : ∀ sys, MaxTotal (X.toA sys)) (hsz : MallocFits plat (X.objSize + 16)) (h : ∃ I, SoundAll plat X f I) :
    ∃ I, SoundAll plat (cascadingB plat X) (Cascading.Fits f) I := by
  obtain ⟨I, h⟩ := h
  refine ⟨fun b s L h => (∀ c ∈ L, Cascading.Fits f c.2) ∧ ∃ NL, (NL.map Prod.fst = s ∧
    (∀ x ∈ NL, x.1.cnt = x.2.length ∧ x.1.addr ≠ 0) ∧
    L.Perm (NL.flatMap Prod.snd)) ∧ (Cascading.nodesInvB plat X.objSize I NL ∗ bytes b 16) h, fun sys hp => ?_⟩
  subst hp
  obtain ⟨hA, rfl⟩ := h sys rfl
  obtain ⟨hB, he⟩ := sound_of_eq (cascadingB_toA hX).symm (cascading_sound sys hA ho (hm sys) hsz)
  refine ⟨hB, (eq_of_heq he).trans ?_⟩
  funext b s L h
  have e := fun NL => Cascading.nodesInvB_eq sys.plat hA NL
  refine propext ⟨?_, ?_⟩
  · rintro ⟨h1, NL, h2, h3⟩
    exact ⟨h1, NL, h2, by rw [← e NL] at h3; exact h3⟩
  · rintro ⟨h1, NL, h2, h3⟩
    exact ⟨h1, NL, h2, by rw [← e NL]; exact h3⟩

theorem soundAll_overflow {plat : Plat} {X : BAlloc} {f : Nat → Prop} (h : ∃ I, SoundAll plat X f I) :
    ∃ I, SoundAll plat (overflowB plat X) (Overflow.Fits f) I := by
  obtain ⟨I, h⟩ := h
  refine ⟨fun b s L h => (∀ c ∈ L, 64 ≤ c.1 ∧ Good c.1 c.2 ∧ Overflow.Fits f c.2) ∧
    (I b s.a (L.map Overflow.wide) ∗ Overflow.guards L ∗ bytes (b + X.objSize) 32) h, fun sys hp => ?_⟩
  obtain ⟨hA, rfl⟩ := h sys hp
  obtain ⟨hB, he⟩ := sound_of_eq (overflowB_toA plat X sys).symm (overflow_sound hA)
  exact ⟨hB, eq_of_heq he⟩

theorem soundAll_threaded {plat : Plat} {X : BAlloc} {f : Nat → Prop} (h : ∃ I, SoundAll plat X f I) :
    ∃ I, SoundAll plat (threadedB X) f I := by
  obtain ⟨I, h⟩ := h
  refine ⟨fun b s L => I b s L ∗ bytes (b + X.objSize) 48, fun sys hp => ?_⟩
  obtain ⟨hA, rfl⟩ := h sys hp
  exact ⟨threaded_sound hA, rfl⟩

theorem soundAll_reference {plat : Plat} {X : BAlloc} {f : Nat → Prop} (h : ∃ I, SoundAll plat X f I) :
    ∃ I, SoundAll plat (referenceB X) f I := by
  obtain ⟨I, h⟩ := h
  refine ⟨fun b s L => I b s L ∗ bytes (b + X.objSize) 16, fun sys hp => ?_⟩
  obtain ⟨hA, rfl⟩ := h sys hp
  exact ⟨reference_sound hA, rfl⟩

theorem soundAll_shared {plat : Plat} {X : BAlloc} {f : Nat → Prop} (hsz : MallocFits plat (X.objSize + 16)) (h : ∃ I, SoundAll plat X f I) :
    ∃ I, SoundAll plat (sharedB plat X) f I := by
  obtain ⟨I, h⟩ := h
  refine ⟨fun b s L h => s.1 ≠ 0 ∧ (I s.1 s.2 L ∗ bytes (s.1 + X.objSize) 16 ∗ mTok plat s.1 (X.objSize + 16) ∗ bytes b 16) h, fun sys hp => ?_⟩
  subst hp
  obtain ⟨hA, rfl⟩ := h sys rfl
  obtain ⟨hB, he⟩ := sound_of_eq (sharedB_toA X sys).symm (shared_sound sys hA hsz)
  exact ⟨hB, eq_of_heq he⟩

namespace AllocTy

theorem objSizeB (t : AllocTy) (plat : Plat) : (t.denoteB plat).objSize = t.size := by
  induction t with
  | null => rfl
  | mallocator => rfl
  | linear _ => rfl
  | stack _ => rfl
  | freelist _ _ A ih => exact congrArg (· + 16) ih
  | fallback P F ihP ihF => show _ + _ = _ + _; rw [ihP, ihF]
  | segragator _ P F ihP ihF => show _ + _ = _ + _; rw [ihP, ihF]
  | cascading A _ => rfl
  | overflow A ih => exact congrArg (· + 32) ih
  | threaded A ih => exact congrArg (· + 48) ih
  | shared A _ => rfl
  | reference A ih => exact congrArg (· + 16) ih

theorem toA_dep {plat : Plat} {t : AllocTy} (h : t.stepwise = true) :
    (t.denoteB plat).owns.isSome = t.hasOwns ∧ (t.safeMax = true → ∀ sys, MaxTotal ((t.denoteB plat).toA sys)) := by
  have e := denoteB_toA (noSys plat) t h
  constructor
  · show ((t.denoteB plat).toA (noSys plat)).owns.isSome = _
    rw [show (t.denoteB plat).toA (noSys plat) = _ from e, owns_isSome]
  · intro hs sys
    have := maxTotal (noSys plat) t hs
    rw [← e] at this
    exact this

/-- Every well-formed type has one invariant for every behaviour of `malloc`. -/
theorem soundAll (plat : Plat) (t : AllocTy) (hwf : t.WF) (h : t.stepwise = true) : ∃ I, SoundAll plat (t.denoteB plat) (t.fits plat) I := by
  induction t with
  | null => exact soundAll_null plat
  | mallocator => exact soundAll_malloc plat
  | linear _ => exact soundAll_linear plat _
  | stack _ => exact soundAll_stack plat _
  | freelist m M A ih => exact soundAll_freelist m M hwf.2.1 hwf.2.2 (ih hwf.1 h)
  | fallback P F ihP ihF =>
    simp only [stepwise, Bool.and_eq_true] at h
    exact soundAll_fallback ((toA_dep h.1).1.trans hwf.2.2) (ihP hwf.1 h.1) (ihF hwf.2.1 h.2)
  | segragator T P F ihP ihF =>
    simp only [stepwise, Bool.and_eq_true] at h
    exact soundAll_segragator T (ihP hwf.1 h.1) (ihF hwf.2 h.2)
  | cascading A ih =>
    simp only [stepwise, Bool.and_eq_true] at h
    exact soundAll_cascading (finite plat A h.2) ((toA_dep h.1).1.trans hwf.2.1) ((toA_dep h.1).2 hwf.2.2.1)
      (fun _ => by have := hwf.2.2.2; rw [objSizeB]; omega) (ih hwf.1 h.1)
  | overflow A ih => exact soundAll_overflow (ih hwf h)
  | threaded A ih => exact soundAll_threaded (ih hwf h)
  | shared A ih => exact soundAll_shared (fun _ => by have := hwf.2; rw [objSizeB]; omega) (ih hwf.1 h)
  | reference A ih => exact soundAll_reference (ih hwf h)

end AllocTy
end KTL
