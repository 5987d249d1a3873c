import Verif.Spec.HeapCalls
import Verif.Spec.Firm

/- Which calls of `construct` and `destroy` an allocator has seen does not change how it allocates. Proof machinery for C83. -/
namespace KTL

/-- `A` allocates the same in states related by `R`, and `construct` and `destroy` do not leave it. Proof helper, not code. -/
structure Deaf (A : Allocator) where
  R : A.St → A.St → Prop
  refl : ∀ s, R s s
  alloc : ∀ {s t}, R s t → ∀ n, InStep (A.alloc s n) (A.alloc t n) (fun r r' => r'.1 = r.1 ∧ R r.2 r'.2)
  dealloc : ∀ {s t}, R s t → ∀ p n, InStep (A.dealloc s p n) (A.dealloc t p n) R
  owns : ∀ {s t}, R s t → ∀ f, A.owns = some f → ∀ p, f t p = f s p
  construct : ∀ c, A.construct = some c → ∀ {s t}, R s t → ∀ p, ∃ t', (∀ w, c t p w = .ok t' { w with log := w.log ++ [.ctor p] }) ∧ R s t'
  destroy : ∀ c, A.destroy = some c → ∀ {s t}, R s t → ∀ p, ∃ t', (∀ w, c t p w = .ok t' { w with log := w.log ++ [.dtor p] }) ∧ R s t'

namespace Deaf

/-- an allocator that does not have `construct` and `destroy`. Proof helper, not code. -/
def plain {A : Allocator} (h1 : A.construct = none) (h2 : A.destroy = none) : Deaf A where
  R := Eq
  refl _ := rfl
  alloc e n := by subst e; exact (InStep.refl _).mono fun a b e => e ▸ ⟨rfl, rfl⟩
  dealloc e p n := by subst e; exact InStep.refl _
  owns e f _ p := by subst e; rfl
  construct c hc := by rw [h1] at hc; cases hc
  destroy c hc := by rw [h2] at hc; cases hc

theorem ownsD {A : Allocator} (h : Deaf A) {s t : A.St} (hR : h.R s t) (p : Nat) : A.ownsD t p = A.ownsD s p := by
  unfold Allocator.ownsD
  cases ho : A.owns with
  | none => rfl
  | some f => exact h.owns hR f ho p

/-- Proof helper, not code. -/
def overflow {A : Allocator} (h : Deaf A) : Deaf (KTL.overflow A) where
  R s t := h.R s.a t.a ∧ t.allocs = s.allocs
  refl s := ⟨h.refl _, rfl⟩
  alloc := by
    rintro s t ⟨h1, h2⟩ n
    simp only [KTL.overflow, h2]
    refine InStep.bind (h.alloc h1 _) fun r r' ⟨e, hr⟩ => ?_
    rw [e]
    refine InStep.ite (fun _ => InStep.pure ⟨rfl, hr, rfl⟩) fun _ => ?_
    exact InStep.bind' fun _ => InStep.bind' fun _ => InStep.pure ⟨rfl, hr, rfl⟩
  dealloc := by
    rintro s t ⟨h1, h2⟩ p n
    simp only [KTL.overflow, h2]
    refine InStep.ite (fun _ => ?_) fun _ => InStep.pure ⟨h1, rfl⟩
    refine InStep.bind' fun _ => InStep.bind' fun _ => InStep.bind' fun _ => ?_
    exact InStep.bind (h.dealloc h1 _ _) fun a b hr => InStep.pure ⟨hr, rfl⟩
  owns := by
    rintro s t ⟨h1, h2⟩ f hf p
    obtain ⟨g, hg, rfl⟩ := Option.map_eq_some_iff.1 (show Option.map _ A.owns = some f from hf)
    exact h.owns h1 g hg p
  construct := by
    rintro c hc s t ⟨h1, h2⟩ p
    obtain rfl := Option.some.inj hc
    cases hA : A.construct with
    | none => exact ⟨⟨t.a, t.allocs, t.constructs + 1⟩, fun w => rfl, h1, h2⟩
    | some c =>
      obtain ⟨a', e, hr⟩ := h.construct c hA h1 p
      refine ⟨⟨a', t.allocs, t.constructs + 1⟩, fun w => ?_, hr, h2⟩
      exact bind_of_ok (e w)
  destroy := by
    rintro c hc s t ⟨h1, h2⟩ p
    obtain rfl := Option.some.inj hc
    cases hA : A.destroy with
    | none => exact ⟨⟨t.a, t.allocs, t.constructs - 1⟩, fun w => rfl, h1, h2⟩
    | some c =>
      obtain ⟨a', e, hr⟩ := h.destroy c hA h1 p
      refine ⟨⟨a', t.allocs, t.constructs - 1⟩, fun w => ?_, hr, h2⟩
      exact bind_of_ok (e w)

/-- Proof helper, not code. -/
def freelist {A : Allocator} (h : Deaf A) (Min Max : Nat) : Deaf (KTL.freelist Min Max A) where
  R s t := h.R s.a t.a ∧ t.free = s.free
  refl s := ⟨h.refl _, rfl⟩
  alloc := by
    rintro s t ⟨h1, h2⟩ n
    simp only [KTL.freelist, h2]
    refine InStep.ite (fun _ => ?_) fun _ => InStep.pure ⟨rfl, h1, h2⟩
    refine InStep.ite (fun _ => InStep.bind' fun nx => InStep.pure ⟨rfl, h1, rfl⟩) fun _ => ?_
    exact InStep.bind (h.alloc h1 _) fun r r' ⟨e, hr⟩ => InStep.pure ⟨e, hr, rfl⟩
  dealloc := by
    rintro s t ⟨h1, h2⟩ p n
    simp only [KTL.freelist, h2]
    exact InStep.ite (fun _ => InStep.bind' fun _ => InStep.pure ⟨h1, rfl⟩) fun _ => InStep.pure ⟨h1, h2⟩
  owns := by
    rintro s t ⟨h1, h2⟩ f hf p
    obtain ⟨g, hg, rfl⟩ := Option.map_eq_some_iff.1 (show Option.map _ A.owns = some f from hf)
    exact h.owns h1 g hg p
  construct := by
    rintro c hc s t ⟨h1, h2⟩ p
    obtain ⟨c', hc', rfl⟩ := Option.map_eq_some_iff.1 (show Option.map _ A.construct = some c from hc)
    obtain ⟨a', e, hr⟩ := h.construct c' hc' h1 p
    exact ⟨⟨a', t.free⟩, fun w => bind_of_ok (e w), hr, h2⟩
  destroy := by
    rintro c hc s t ⟨h1, h2⟩ p
    obtain ⟨c', hc', rfl⟩ := Option.map_eq_some_iff.1 (show Option.map _ A.destroy = some c from hc)
    obtain ⟨a', e, hr⟩ := h.destroy c' hc' h1 p
    exact ⟨⟨a', t.free⟩, fun w => bind_of_ok (e w), hr, h2⟩

/-- Proof helper, not code. -/
def shared (sys : Sys) {A : Allocator} (h : Deaf A) : Deaf (sharedAlloc sys A) where
  R s t := t.1 = s.1 ∧ h.R s.2 t.2
  refl s := ⟨rfl, h.refl _⟩
  alloc := by
    rintro s t ⟨h1, h2⟩ n
    simp only [sharedAlloc, h1]
    exact InStep.bind (h.alloc h2 _) fun r r' ⟨e, hr⟩ => InStep.pure ⟨e, rfl, hr⟩
  dealloc := by
    rintro s t ⟨h1, h2⟩ p n
    simp only [sharedAlloc, h1]
    exact InStep.bind (h.dealloc h2 _ _) fun r r' hr => InStep.pure ⟨rfl, hr⟩
  owns := by
    rintro s t ⟨h1, h2⟩ f hf p
    obtain ⟨g, hg, rfl⟩ := Option.map_eq_some_iff.1 (show Option.map _ A.owns = some f from hf)
    exact h.owns h2 g hg p
  construct := by
    rintro c hc s t ⟨h1, h2⟩ p
    obtain ⟨c', hc', rfl⟩ := Option.map_eq_some_iff.1 (show Option.map _ A.construct = some c from hc)
    obtain ⟨a', e, hr⟩ := h.construct c' hc' h2 p
    exact ⟨(t.1, a'), fun w => bind_of_ok (e w), h1, hr⟩
  destroy := by
    rintro c hc s t ⟨h1, h2⟩ p
    obtain ⟨c', hc', rfl⟩ := Option.map_eq_some_iff.1 (show Option.map _ A.destroy = some c from hc)
    obtain ⟨a', e, hr⟩ := h.destroy c' hc' h2 p
    exact ⟨(t.1, a'), fun w => bind_of_ok (e w), h1, hr⟩

/-- Proof helper, not code. -/
def threaded {A : Allocator} (h : Deaf A) : Deaf (KTL.threaded A) := ⟨h.R, h.refl, h.alloc, h.dealloc, h.owns, h.construct, h.destroy⟩

/-- Proof helper, not code. -/
def reference {A : Allocator} (h : Deaf A) : Deaf (KTL.reference A) := ⟨h.R, h.refl, h.alloc, h.dealloc, h.owns, h.construct, h.destroy⟩

section
variable {P F : Allocator} (hP : Deaf P) (hF : Deaf F)

theorem owns2 {s t : P.St × F.St} (h : hP.R s.1 t.1 ∧ hF.R s.2 t.2) (f) (hf : KTL.owns2 P F = some f) (p : Nat) : f t p = f s p := by
  unfold KTL.owns2 at hf
  split at hf
  · rename_i f' g' e1 e2
    cases hf
    dsimp only
    rw [hP.owns h.1 f' e1, hF.owns h.2 g' e2]
  · cases hf

theorem route2 {cP : Option (P.St → Nat → M P.St)} {cF : Option (F.St → Nat → M F.St)} {ev : Nat → Ev}
    (h1 : ∀ c, cP = some c → ∀ {s t}, hP.R s t → ∀ p, ∃ t', (∀ w, c t p w = .ok t' { w with log := w.log ++ [ev p] }) ∧ hP.R s t')
    (h2 : ∀ c, cF = some c → ∀ {s t}, hF.R s t → ∀ p, ∃ t', (∀ w, c t p w = .ok t' { w with log := w.log ++ [ev p] }) ∧ hF.R s t')
    (c : P.St × F.St → Nat → M (P.St × F.St)) (hc : KTL.route2 P F cP cF ev = some c) {s t : P.St × F.St} (h : hP.R s.1 t.1 ∧ hF.R s.2 t.2) (p : Nat) :
    ∃ t', (∀ w, c t p w = .ok t' { w with log := w.log ++ [ev p] }) ∧ hP.R s.1 t'.1 ∧ hF.R s.2 t'.2 := by
  unfold KTL.route2 at hc
  split at hc
  · cases hc
    cases ho : P.ownsD t.1 p with
    | true =>
      cases cP with
      | none => exact ⟨t, fun w => by simp only [ho]; rfl, h⟩
      | some c =>
        obtain ⟨a', e, hr⟩ := h1 _ rfl h.1 p
        refine ⟨(a', t.2), fun w => ?_, hr, h.2⟩
        simp only [ho]
        exact bind_of_ok (e w)
    | false =>
      cases cF with
      | none => exact ⟨t, fun w => by simp only [ho]; rfl, h⟩
      | some c =>
        obtain ⟨a', e, hr⟩ := h2 _ rfl h.2 p
        refine ⟨(t.1, a'), fun w => ?_, h.1, hr⟩
        simp only [ho]
        exact bind_of_ok (e w)
  · cases hc

/-- Proof helper, not code. -/
def fallback : Deaf (KTL.fallback P F) where
  R s t := hP.R s.1 t.1 ∧ hF.R s.2 t.2
  refl s := ⟨hP.refl _, hF.refl _⟩
  alloc := by
    rintro s t ⟨h1, h2⟩ n
    simp only [KTL.fallback]
    refine InStep.bind (hP.alloc h1 _) fun r r' ⟨e, hr⟩ => ?_
    rw [e]
    refine InStep.ite (fun _ => ?_) fun _ => InStep.pure ⟨rfl, hr, h2⟩
    exact InStep.bind (hF.alloc h2 _) fun q q' ⟨e, hq⟩ => InStep.pure ⟨e, hr, hq⟩
  dealloc := by
    rintro s t ⟨h1, h2⟩ p n
    simp only [KTL.fallback, hP.ownsD h1]
    refine InStep.ite (fun _ => ?_) fun _ => ?_
    · exact InStep.bind (hP.dealloc h1 _ _) fun a b hr => InStep.pure ⟨hr, h2⟩
    · exact InStep.bind (hF.dealloc h2 _ _) fun a b hr => InStep.pure ⟨h1, hr⟩
  owns h f hf p := owns2 hP hF h f hf p
  construct c hc _ _ h p := route2 hP hF hP.construct hF.construct c hc h p
  destroy c hc _ _ h p := route2 hP hF hP.destroy hF.destroy c hc h p

/-- Proof helper, not code. -/
def segragator (T : Nat) : Deaf (KTL.segragator T P F) where
  R s t := hP.R s.1 t.1 ∧ hF.R s.2 t.2
  refl s := ⟨hP.refl _, hF.refl _⟩
  alloc := by
    rintro s t ⟨h1, h2⟩ n
    simp only [KTL.segragator]
    refine InStep.ite (fun _ => ?_) fun _ => ?_
    · exact InStep.bind (hP.alloc h1 _) fun q q' ⟨e, hq⟩ => InStep.pure ⟨e, hq, h2⟩
    · exact InStep.bind (hF.alloc h2 _) fun q q' ⟨e, hq⟩ => InStep.pure ⟨e, h1, hq⟩
  dealloc := by
    rintro s t ⟨h1, h2⟩ p n
    simp only [KTL.segragator]
    refine InStep.ite (fun _ => ?_) fun _ => ?_
    · exact InStep.bind (hP.dealloc h1 _ _) fun a b hr => InStep.pure ⟨hr, h2⟩
    · exact InStep.bind (hF.dealloc h2 _ _) fun a b hr => InStep.pure ⟨h1, hr⟩
  owns h f hf p := owns2 hP hF h f hf p
  construct c hc _ _ h p := route2 hP hF hP.construct hF.construct c hc h p
  destroy c hc _ _ h p := route2 hP hF hP.destroy hF.destroy c hc h p

end

end Deaf

/-- A composition without `overflow` has neither `construct` nor `destroy`. -/
theorem AllocTy.noStream_plain (sys : Sys) : ∀ t : AllocTy, t.noStream = true → (t.denote sys).construct = none ∧ (t.denote sys).destroy = none
  | null, _ => ⟨rfl, rfl⟩
  | mallocator, _ => ⟨rfl, rfl⟩
  | linear _, _ => ⟨rfl, rfl⟩
  | stack _, _ => ⟨rfl, rfl⟩
  | freelist _ _ A, h => by
    obtain ⟨h1, h2⟩ := noStream_plain sys A h
    exact ⟨by simp only [denote, KTL.freelist, h1, Option.map_none], by simp only [denote, KTL.freelist, h2, Option.map_none]⟩
  | cascading A, h => by
    obtain ⟨h1, h2⟩ := noStream_plain sys A h
    exact ⟨by simp only [denote, KTL.cascading, h1, Option.map_none], by simp only [denote, KTL.cascading, h2, Option.map_none]⟩
  | shared A, h => by
    obtain ⟨h1, h2⟩ := noStream_plain sys A h
    exact ⟨by simp only [denote, sharedAlloc, h1, Option.map_none], by simp only [denote, sharedAlloc, h2, Option.map_none]⟩
  | threaded A, h => noStream_plain sys A h
  | reference A, h => noStream_plain sys A h
  | fallback P F, h => by
    have h' : P.noStream = true ∧ F.noStream = true := by simpa [noStream] using h
    obtain ⟨h1, h2⟩ := noStream_plain sys P h'.1
    obtain ⟨h3, h4⟩ := noStream_plain sys F h'.2
    exact ⟨by simp only [denote, KTL.fallback, h1, h3]; rfl, by simp only [denote, KTL.fallback, h2, h4]; rfl⟩
  | segragator _ P F, h => by
    have h' : P.noStream = true ∧ F.noStream = true := by simpa [noStream] using h
    obtain ⟨h1, h2⟩ := noStream_plain sys P h'.1
    obtain ⟨h3, h4⟩ := noStream_plain sys F h'.2
    exact ⟨by simp only [denote, KTL.segragator, h1, h3]; rfl, by simp only [denote, KTL.segragator, h2, h4]; rfl⟩

/-- No `overflow` below a `cascading`, which may destroy it (and make it report) while it is being used. Specification, not code. -/
def AllocTy.tame : AllocTy → Bool
  | null | mallocator | linear _ | stack _ => true
  | freelist _ _ A | overflow A | threaded A | shared A | reference A => A.tame
  | fallback P F | segragator _ P F => P.tame && F.tame
  | cascading A => A.noStream

/-- Proof helper, not code. -/
def AllocTy.deaf (sys : Sys) : ∀ t : AllocTy, t.tame = true → Deaf (t.denote sys)
  | null, _ => Deaf.plain rfl rfl
  | mallocator, _ => Deaf.plain rfl rfl
  | linear _, _ => Deaf.plain rfl rfl
  | stack _, _ => Deaf.plain rfl rfl
  | freelist m n A, h => (deaf sys A h).freelist m n
  | cascading A, h => Deaf.plain (noStream_plain sys (.cascading A) h).1 (noStream_plain sys (.cascading A) h).2
  | shared A, h => (deaf sys A h).shared sys
  | threaded A, h => (deaf sys A h).threaded
  | reference A, h => (deaf sys A h).reference
  | overflow A, h => (deaf sys A h).overflow
  | fallback P F, h =>
    have h' : P.tame = true ∧ F.tame = true := by simpa [tame] using h
    Deaf.fallback (deaf sys P h'.1) (deaf sys F h'.2)
  | segragator T P F, h =>
    have h' : P.tame = true ∧ F.tame = true := by simpa [tame] using h
    Deaf.segragator (deaf sys P h'.1) (deaf sys F h'.2) T

theorem unlogged_ok {β : Type} {m : M β} {a : β} {e : Ev} (h : ∀ w, m w = .ok a { w with log := w.log ++ [e] }) (w : World) : unlogged m w = .ok a w := by
  unfold unlogged
  rw [h w]

/-- Proof helper, not code. -/
def Deaf.counts {A : Allocator} (h : Deaf A) : Counts A A where
  R _ := h.R
  init b := (InStep.refl _).mono fun _ _ e => e ▸ h.refl _
  request hR sz n := by
    refine InStep.bind (h.alloc hR _) fun r r' ⟨e, hr⟩ => ?_
    rw [e]
    exact InStep.ite (fun _ => InStep.oom) fun _ => InStep.pure ⟨e, hr⟩
  dealloc hR p n := h.dealloc hR p n
  ctor {_ _ t} hR p := by
    unfold Allocator.ctor
    cases hc : A.construct with
    | none => exact ⟨t, fun w => rfl, hR⟩
    | some c =>
      obtain ⟨t', e, hr⟩ := h.construct c hc hR p
      exact ⟨t', unlogged_ok e, hr⟩
  dtor {_ _ t} hR p := by
    unfold Allocator.dtor
    cases hc : A.destroy with
    | none => exact ⟨t, fun w => rfl, hR⟩
    | some c =>
      obtain ⟨t', e, hr⟩ := h.destroy c hc hR p
      exact ⟨t', unlogged_ok e, hr⟩

/-- `overflow` with a different number of outstanding objects. Proof helper, not code. -/
def Overflow.St.bump {β : Type} (k : Int) (s : Overflow.St β) : Overflow.St β := ⟨s.a, s.allocs, s.constructs + k⟩

theorem overflow_alloc_bump (U : Allocator) (k : Int) (s : Overflow.St U.St) (n : Nat) :
    InStep ((overflow U).alloc s n) ((overflow U).alloc (s.bump k) n) (fun r r' => r'.1 = r.1 ∧ r'.2 = r.2.bump k) := by
  simp only [overflow, Overflow.St.bump]
  refine InStep.bind' fun r => InStep.ite (fun _ => InStep.pure ⟨rfl, rfl⟩) fun _ => ?_
  exact InStep.bind' fun _ => InStep.bind' fun _ => InStep.pure ⟨rfl, rfl⟩

theorem overflow_dealloc_bump (U : Allocator) (k : Int) (s : Overflow.St U.St) (p n : Nat) :
    InStep ((overflow U).dealloc s p n) ((overflow U).dealloc (s.bump k) p n) (fun t t' => t' = t.bump k) := by
  simp only [overflow, Overflow.St.bump]
  refine InStep.ite (fun _ => ?_) fun _ => InStep.pure rfl
  exact InStep.bind' fun _ => InStep.bind' fun _ => InStep.bind' fun _ => InStep.bind' fun _ => InStep.pure rfl

/-- `overflow<u>` counts the objects. Proof helper, not code. -/
def overflow_counts {U : Allocator} (h1 : U.construct = none) (h2 : U.destroy = none) : Counts (firm (overflow U)) (overflow U) where
  R k s t := t = Overflow.St.bump k s
  init b := by
    refine (InStep.refl ((overflow U).init b)).mono fun s t e => ?_
    subst e
    simp [Overflow.St.bump]; rfl
  request {k s t} hR sz n := by
    subst hR
    have e : grab sz (firm (overflow U)) s n = grab sz (overflow U) s n := firm_grab sz (overflow U) s n
    rw [e]
    refine InStep.bind (overflow_alloc_bump U k s _) fun r r' ⟨e, hr⟩ => ?_
    rw [e]
    exact InStep.ite (fun _ => InStep.oom) fun _ => InStep.pure ⟨e, hr⟩
  dealloc {k s t} hR p n := by
    subst hR
    exact overflow_dealloc_bump U k s p n
  ctor {k s t} hR p := by
    subst hR
    refine ⟨Overflow.St.bump (k + 1) s, fun w => unlogged_ok (e := .ctor p) (fun w => ?_) w, rfl⟩
    simp only [h1, Overflow.St.bump, ← Int.add_assoc]
    rfl
  dtor {k s t} hR p := by
    subst hR
    refine ⟨Overflow.St.bump (k - 1) s, fun w => unlogged_ok (e := .dtor p) (fun w => ?_) w, rfl⟩
    simp only [h2, Overflow.St.bump, ← Int.add_sub_assoc]
    rfl

end KTL
