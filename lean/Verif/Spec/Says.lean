import Verif.Base.Says
import Verif.Alloc.Ty

/- Which members of the allocators print what. Only `overflow` has a stream. -/
namespace KTL

/-- All members print only messages with `Q`. Proof helper, not code. -/
structure Hush (Q : Msg → Prop) (A : Allocator) : Prop where
  init : ∀ b, Says Q (A.init b)
  alloc : ∀ s n, Says Q (A.alloc s n)
  dealloc : ∀ s p n, Says Q (A.dealloc s p n)
  construct : ∀ c, A.construct = some c → ∀ s p, Says Q (c s p)
  destroy : ∀ c, A.destroy = some c → ∀ s p, Says Q (c s p)
  fini : ∀ s, Says Q (A.fini s)

namespace Hush

variable {Q : Msg → Prop}

theorem alignedMalloc (sys : Sys) (n : Nat) : Says Q (alignedMalloc sys n) := by
  unfold KTL.alignedMalloc
  split
  · exact Says.cMalloc _ _
  · refine Says.bind (Says.cMalloc _ _) fun p => Says.ite (Says.bind (Says.writePtr _ _) fun _ => Says.pure _) (Says.pure _)

theorem alignedFree (sys : Sys) (p : Nat) : Says Q (alignedFree sys p) := by
  unfold KTL.alignedFree
  split
  · exact Says.cFree _
  · exact Says.ite (Says.bind (Says.readPtr _) fun _ => Says.cFree _) (Says.pure _)

theorem alignedNew {α : Type} (sys : Sys) (n : Nat) {f : Nat → M α} (h : ∀ p, Says Q (f p)) : Says Q (alignedNew sys n f) :=
  Says.bind (alignedMalloc _ _) fun p => Says.ite Says.nullDeref (Says.bind (h p) fun _ => Says.pure _)

theorem alignedDelete (sys : Sys) (p : Nat) {d : M Unit} (h : Says Q d) : Says Q (alignedDelete sys p d) :=
  Says.bind h fun _ => alignedFree _ _

theorem null : Hush Q nullAlloc where
  init _ := Says.pure _
  alloc _ _ := Says.pure _
  dealloc _ _ _ := Says.pure _
  construct := nofun
  destroy := nofun
  fini _ := Says.pure _

theorem mallocator (sys : Sys) : Hush Q (mallocator sys) where
  init _ := Says.pure _
  alloc _ _ := Says.bind (alignedMalloc _ _) fun _ => Says.pure _
  dealloc _ _ _ := alignedFree _ _
  construct := nofun
  destroy := nofun
  fini _ := Says.pure _

theorem linear (Size : Nat) : Hush Q (linear Size) where
  init _ := Says.pure _
  alloc _ _ := Says.pure _
  dealloc _ _ _ := Says.pure _
  construct := nofun
  destroy := nofun
  fini _ := Says.pure _

theorem stack (Size : Nat) : Hush Q (stackAlloc Size) where
  init _ := Says.pure _
  alloc _ _ := Says.pure _
  dealloc _ _ _ := Says.pure _
  construct := nofun
  destroy := nofun
  fini _ := Says.pure _

variable {A P F : Allocator}

open Lean.Order in
theorem release (h : Hush Q A) (Max : Nat) (s : A.St) (next : Nat) : Says Q (Freelist.release A Max s next) := by
  suffices ∀ s next w, ∀ a w', Freelist.release A Max s next w = .ok a w' → ∃ l, w'.out = w.out ++ l ∧ ∀ m ∈ l, Q m from
    fun w a w' => this s next w a w'
  refine Freelist.release.fixpoint_induct A Max
    (fun r => ∀ s next w, ∀ a w', r s next w = .ok a w' → ∃ l, w'.out = w.out ++ l ∧ ∀ m ∈ l, Q m) ?_ ?_
  · refine admissible_pi_apply (fun s (r : Nat → M A.St) => ∀ next w, ∀ a w', r next w = .ok a w' →
      ∃ l, w'.out = w.out ++ l ∧ ∀ m ∈ l, Q m) (fun s => ?_)
    refine admissible_pi_apply (fun next (r : M A.St) => ∀ w, ∀ a w', r w = .ok a w' →
      ∃ l, w'.out = w.out ++ l ∧ ∀ m ∈ l, Q m) (fun next => ?_)
    have key := admissible_pi_apply (fun (w : World) (r : Res A.St) => ∀ a w', r = .ok a w' →
      ∃ l, w'.out = w.out ++ l ∧ ∀ m ∈ l, Q m)
      (fun w => admissible_flatOrder (b := Res.ub) _ (fun a w' e => by cases e))
    exact key
  · intro r ih s next
    show Says Q (if next ≠ 0 then do
      let nx ← M.readPtr next
      let s' ← A.dealloc s next Max
      r s' nx
    else pure s)
    exact Says.ite (Says.bind (Says.readPtr _) fun nx => Says.bind (h.dealloc _ _ _) fun s' => ih s' nx) (Says.pure _)

theorem freelist (h : Hush Q A) (Min Max : Nat) : Hush Q (freelist Min Max A) where
  init _ := Says.bind (h.init _) fun _ => Says.pure _
  alloc s n := Says.ite (Says.ite (Says.bind (Says.readPtr _) fun _ => Says.pure _) (Says.bind (h.alloc _ _) fun _ => Says.pure _)) (Says.pure _)
  dealloc s p n := Says.ite (Says.bind (Says.writePtr _ _) fun _ => Says.pure _) (Says.pure _)
  construct c hc s p := by
    obtain ⟨c', hc', rfl⟩ := Option.map_eq_some_iff.1 hc
    exact Says.bind (h.construct c' hc' _ _) fun _ => Says.pure _
  destroy c hc s p := by
    obtain ⟨c', hc', rfl⟩ := Option.map_eq_some_iff.1 hc
    exact Says.bind (h.destroy c' hc' _ _) fun _ => Says.pure _
  fini s := Says.bind (h.release _ _ _) fun _ => h.fini _

theorem route2 {cP : Option (P.St → Nat → M P.St)} {cF : Option (F.St → Nat → M F.St)} (hP : ∀ c, cP = some c → ∀ s p, Says Q (c s p))
    (hF : ∀ c, cF = some c → ∀ s p, Says Q (c s p)) (ev : Nat → Ev) (c) (hc : route2 P F cP cF ev = some c) (s : P.St × F.St) (p : Nat) :
    Says Q (c s p) := by
  unfold KTL.route2 at hc
  split at hc
  · cases hc
    dsimp only
    split
    · exact Says.bind (hP _ rfl _ _) fun _ => Says.pure _
    · exact Says.bind (hF _ rfl _ _) fun _ => Says.pure _
    · exact Says.bind (Says.event _) fun _ => Says.pure _
  · cases hc

theorem fallback (hP : Hush Q P) (hF : Hush Q F) : Hush Q (fallback P F) where
  init _ := Says.bind (hP.init _) fun _ => Says.bind (hF.init _) fun _ => Says.pure _
  alloc _ _ := Says.bind (hP.alloc _ _) fun _ => Says.ite (Says.bind (hF.alloc _ _) fun _ => Says.pure _) (Says.pure _)
  dealloc _ _ _ := Says.ite (Says.bind (hP.dealloc _ _ _) fun _ => Says.pure _) (Says.bind (hF.dealloc _ _ _) fun _ => Says.pure _)
  construct := route2 hP.construct hF.construct _
  destroy := route2 hP.destroy hF.destroy _
  fini _ := Says.bind (hF.fini _) fun _ => hP.fini _

theorem segragator (T : Nat) (hP : Hush Q P) (hF : Hush Q F) : Hush Q (segragator T P F) where
  init _ := Says.bind (hP.init _) fun _ => Says.bind (hF.init _) fun _ => Says.pure _
  alloc _ _ := Says.ite (Says.bind (hP.alloc _ _) fun _ => Says.pure _) (Says.bind (hF.alloc _ _) fun _ => Says.pure _)
  dealloc _ _ _ := Says.ite (Says.bind (hP.dealloc _ _ _) fun _ => Says.pure _) (Says.bind (hF.dealloc _ _ _) fun _ => Says.pure _)
  construct := route2 hP.construct hF.construct _
  destroy := route2 hP.destroy hF.destroy _
  fini _ := Says.bind (hF.fini _) fun _ => hP.fini _

theorem newNode (sys : Sys) (h : Hush Q A) : Says Q (Cascading.newNode sys A) :=
  Says.bind (alignedNew _ _ h.init) fun _ => Says.pure _

theorem allocFront (sys : Sys) (h : Hush Q A) (nd : Cascading.Node A.St) (rest : List (Cascading.Node A.St)) (n : Nat) :
    Says Q (Cascading.allocFront sys A nd rest n) :=
  Says.bind (h.alloc _ _) fun _ => Says.ite (Says.bind (newNode sys h) fun _ => Says.bind (h.alloc _ _) fun _ => Says.pure _) (Says.pure _)

theorem routeGo {c : A.St → Nat → M A.St} (h : ∀ s p, Says Q (c s p)) (ev : Nat → Ev) (p : Nat) (s : List (Cascading.Node A.St)) :
    Says Q (Cascading.routeGo A c ev p s) := by
  induction s with
  | nil => exact Says.bind (Says.event _) fun _ => Says.pure _
  | cons nd s ih => exact Says.ite (Says.bind (h _ _) fun _ => Says.pure _) (Says.bind ih fun _ => Says.pure _)

theorem cascading (sys : Sys) (h : Hush Q A) : Hush Q (cascading sys A) where
  init _ := Says.pure _
  alloc s n := by
    refine Says.bind ?_ fun s' => ?_
    · cases s with
      | nil => exact Says.bind (newNode sys h) fun _ => Says.pure _
      | cons nd s => exact Says.pure _
    · split
      · exact Says.ub
      · split
        · exact allocFront sys h _ _ _
        · split
          · exact Says.ub
          · exact Says.ite (Says.pure _) (allocFront sys h _ _ _)
  dealloc s p n := by
    show Says Q (Cascading.dealloc sys A p n false s)
    generalize false = prev
    induction s generalizing prev with
    | nil => exact Says.pure _
    | cons nd s ih =>
      exact Says.ite (Says.bind (h.dealloc _ _ _) fun _ => Says.ite (Says.bind (alignedDelete _ _ (h.fini _)) fun _ => Says.pure _) (Says.pure _))
        (Says.bind (ih true) fun _ => Says.pure _)
  construct c hc s p := by
    obtain ⟨c', hc', rfl⟩ := Option.map_eq_some_iff.1 hc
    exact routeGo (h.construct c' hc') _ _ _
  destroy c hc s p := by
    obtain ⟨c', hc', rfl⟩ := Option.map_eq_some_iff.1 hc
    exact routeGo (h.destroy c' hc') _ _ _
  fini s := by
    show Says Q (Cascading.release sys A s)
    induction s with
    | nil => exact Says.pure _
    | cons nd s ih => exact Says.bind (alignedDelete _ _ (h.fini _)) fun _ => ih

theorem threaded (h : Hush Q A) : Hush Q (threaded A) := ⟨h.init, h.alloc, h.dealloc, h.construct, h.destroy, h.fini⟩

theorem reference (h : Hush Q A) : Hush Q (reference A) := ⟨h.init, h.alloc, h.dealloc, h.construct, h.destroy, h.fini⟩

theorem shared (sys : Sys) (h : Hush Q A) : Hush Q (sharedAlloc sys A) where
  init _ := alignedNew _ _ h.init
  alloc _ _ := Says.bind (h.alloc _ _) fun _ => Says.pure _
  dealloc _ _ _ := Says.bind (h.dealloc _ _ _) fun _ => Says.pure _
  construct c hc s p := by
    obtain ⟨c', hc', rfl⟩ := Option.map_eq_some_iff.1 hc
    exact Says.bind (h.construct c' hc' _ _) fun _ => Says.pure _
  destroy c hc s p := by
    obtain ⟨c', hc', rfl⟩ := Option.map_eq_some_iff.1 hc
    exact Says.bind (h.destroy c' hc' _ _) fun _ => Says.pure _
  fini _ := alignedDelete _ _ (h.fini _)

end Hush

/-- A corruption report. Specification, not code. -/
def Msg.isCorruption : Msg → Prop
  | .corruption _ _ _ _ => True
  | _ => False

theorem Overflow.says_scanBefore {Q : Msg → Prop} (p k n cur : Nat) : Says Q (Overflow.scanBefore p k n cur) := by
  induction n generalizing k cur with
  | zero => exact Says.pure _
  | succ n ih => exact Says.bind (Says.load _) fun _ => ih _ _

theorem Overflow.says_scanAfter {Q : Msg → Prop} (p k n cur : Nat) : Says Q (Overflow.scanAfter p k n cur) := by
  induction n generalizing k cur with
  | zero => exact Says.pure _
  | succ n ih => exact Says.bind (Says.load _) fun _ => ih _ _

theorem overflow_says_init {A : Allocator} (h : Hush Msg.isCorruption A) (b : Nat) : Says Msg.isCorruption ((overflow A).init b) :=
  Says.bind (h.init _) fun _ => Says.pure _

theorem overflow_says_alloc {A : Allocator} (h : Hush Msg.isCorruption A) (s : Overflow.St A.St) (n : Nat) :
    Says Msg.isCorruption ((overflow A).alloc s n) :=
  Says.bind (h.alloc _ _) fun _ => Says.ite (Says.pure _) (Says.bind (Says.writeBytes _ _) fun _ => Says.bind (Says.writeBytes _ _) fun _ => Says.pure _)

theorem overflow_says_dealloc {A : Allocator} (h : Hush Msg.isCorruption A) (s : Overflow.St A.St) (p n : Nat) :
    Says Msg.isCorruption ((overflow A).dealloc s p n) :=
  Says.ite (Says.bind (Overflow.says_scanBefore _ _ _ _) fun _ => Says.bind (Overflow.says_scanAfter _ _ _ _) fun _ =>
    Says.bind (Says.ifThen fun _ => Says.print trivial) fun _ => Says.bind (h.dealloc _ _ _) fun _ => Says.pure _) (Says.pure _)

/-- The composition has no `overflow` part. Specification, not code. -/
def AllocTy.noStream : AllocTy → Bool
  | null | mallocator | linear _ | stack _ => true
  | freelist _ _ A | cascading A | threaded A | shared A | reference A => A.noStream
  | fallback P F | segragator _ P F => P.noStream && F.noStream
  | overflow _ => false

/-- A composition without `overflow` prints nothing. -/
theorem AllocTy.hush (sys : Sys) {Q : Msg → Prop} : ∀ t : AllocTy, t.noStream = true → Hush Q (t.denote sys)
  | null, _ => .null
  | mallocator, _ => .mallocator sys
  | linear S, _ => .linear S
  | stack S, _ => .stack S
  | freelist m M A, h => (A.hush sys h).freelist m M
  | fallback P F, h => by
    have h' : P.noStream = true ∧ F.noStream = true := by simpa [noStream] using h
    exact .fallback (P.hush sys h'.1) (F.hush sys h'.2)
  | segragator T P F, h => by
    have h' : P.noStream = true ∧ F.noStream = true := by simpa [noStream] using h
    exact .segragator T (P.hush sys h'.1) (F.hush sys h'.2)
  | cascading A, h => (A.hush sys h).cascading sys
  | threaded A, h => (A.hush sys h).threaded
  | shared A, h => (A.hush sys h).shared sys
  | reference A, h => (A.hush sys h).reference
  | overflow _, h => by cases h

end KTL
